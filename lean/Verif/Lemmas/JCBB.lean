import Verif.Model.JCBB
import Mathlib.Data.Rat.Defs
import Mathlib.Algebra.Field.Rat
import Mathlib.Algebra.Order.Ring.Rat
import Mathlib.Tactic.NormNum
import Mathlib.Tactic.Ring

/-!
Lemmas about the JCBB search.
-/

set_option linter.unusedSectionVars false

namespace RFS
namespace JCBBProps
open JCBB

variable {K : Type*} [Field K] [LinearOrder K]

/-- Hypotheses the search considers: every association passes the gate and its landmark is not among the ones regarded as used. -/
inductive Compat (gate : Path → Nat → Option K) (nL : Nat) : Path → Prop
  | nil : Compat gate nL []
  | out (p : Path) (h : Compat gate nL p) : Compat gate nL (none :: p)
  | assoc (p : Path) (m : Nat) (h : Compat gate nL p) (hm : m < nL) (hu : m ∉ used p) (hg : (gate p m).isSome) : Compat gate nL (some m :: p)

/-- Nodes in the queue and the best node are considered hypotheses of the right depth. -/
structure Inv (gate : Path → Nat → Option K) (nZ nL : Nat) (s : St K) : Prop where
  opn : ∀ p ∈ s.opn, Compat gate nL p ∧ p.length < nZ
  best : ∀ p, s.best = some p → Compat gate nL p ∧ p.length ≤ nZ

theorem tryLmk_inv (gate : Path → Nat → Option K) (nZ nL : Nat) (p : Path) (hp : Compat gate nL p) (hl : p.length < nZ) (s : St K)
    (h : Inv gate nZ nL s) (m : Nat) (hm : m < nL) : Inv gate nZ nL (tryLmk gate nZ p s m) := by
  unfold tryLmk
  split
  · exact h
  · rename_i hu
    split
    · exact h
    · rename_i dist hd
      have hq : Compat gate nL (some m :: p) := Compat.assoc p m hp hm hu (by rw [hd]; rfl)
      have hopn : ∀ q ∈ (if p.length + 1 < nZ then (some m :: p) :: s.opn else s.opn), Compat gate nL q ∧ q.length < nZ := by
        intro q hq'
        split at hq'
        · rename_i hlt
          rcases List.mem_cons.1 hq' with rfl | hq'
          · exact ⟨hq, by simpa using hlt⟩
          · exact h.opn q hq'
        · exact h.opn q hq'
      simp only
      split
      · exact ⟨hopn, fun q hqq => by cases hqq; exact ⟨hq, by simp; omega⟩⟩
      · exact ⟨hopn, h.best⟩

theorem foldl_inv (gate : Path → Nat → Option K) (nZ nL : Nat) (p : Path) (hp : Compat gate nL p) (hl : p.length < nZ) (ms : List Nat) :
    ∀ s : St K, Inv gate nZ nL s → (∀ m ∈ ms, m < nL) → Inv gate nZ nL (ms.foldl (tryLmk gate nZ p) s) := by
  induction ms with
  | nil => intro s h _; exact h
  | cons m ms ih =>
    intro s h hms
    exact ih _ (tryLmk_inv gate nZ nL p hp hl s h m (hms m (by simp))) (fun m' hm' => hms m' (by simp [hm']))

theorem tryOutlier_inv (gate : Path → Nat → Option K) (nZ nL : Nat) (p : Path) (hp : Compat gate nL p) (hl : p.length < nZ) (s : St K)
    (h : Inv gate nZ nL s) : Inv gate nZ nL (tryOutlier gate nZ p s) := by
  have hq : Compat gate nL (none :: p) := Compat.out p hp
  have hopn : ∀ q ∈ (if p.length + 1 < nZ then (none :: p) :: s.opn else s.opn), Compat gate nL q ∧ q.length < nZ := by
    intro q hq'
    split at hq'
    · rename_i hlt
      rcases List.mem_cons.1 hq' with rfl | hq'
      · exact ⟨hq, by simpa using hlt⟩
      · exact h.opn q hq'
    · exact h.opn q hq'
  unfold tryOutlier
  simp only
  split
  · exact ⟨hopn, fun q hqq => by cases hqq; exact ⟨hq, by simp; omega⟩⟩
  · exact ⟨hopn, h.best⟩

theorem run_inv (gate : Path → Nat → Option K) (nZ nL : Nat) (big : K) (hz : 0 < nZ) (s : St K) (h : Run gate nZ nL big s) : Inv gate nZ nL s := by
  induction h with
  | start => exact ⟨fun p hp => by rw [List.mem_singleton.1 hp]; exact ⟨Compat.nil, hz⟩, fun p hp => by simp [start] at hp⟩
  | step s s' _ hs ih =>
    cases hs with
    | mk pre post p ho =>
      have hp := ih.opn p (by rw [ho]; simp)
      refine tryOutlier_inv gate nZ nL p hp.1 hp.2 _ (foldl_inv gate nZ nL p hp.1 hp.2 _ _ ⟨?_, ih.best⟩ (fun m hm => List.mem_range.1 hm))
      intro q hq
      apply ih.opn q
      rw [ho]
      rcases List.mem_append.1 hq with hq | hq
      · exact List.mem_append_left _ hq
      · exact List.mem_append_right _ (List.mem_cons_of_mem _ hq)

/-- In a considered hypothesis the landmarks of all measurements but the first are different. -/
theorem compat_nodup (gate : Path → Nat → Option K) (nL : Nat) (p : Path) (h : Compat gate nL p) : (used p).Nodup := by
  induction h with
  | nil => simp [used]
  | out p h ih =>
    cases p with
    | nil => simp [used]
    | cons a p => simpa [used] using ih
  | assoc p m h hm hu hg ih =>
    cases p with
    | nil => simp [used]
    | cons a p =>
      have : used (some m :: a :: p) = m :: used (a :: p) := by simp [used]
      rw [this, List.nodup_cons]
      exact ⟨hu, ih⟩

theorem hypothesis_eq (p : Path) (z m : Nat) : hypothesis p z = some m ↔ ∃ q r, p = q ++ some m :: r ∧ r.length = z := by
  unfold hypothesis
  rw [Option.join_eq_some_iff]
  constructor
  · intro h
    obtain ⟨hz, hv⟩ := List.getElem?_eq_some_iff.1 h
    refine ⟨(p.reverse.drop (z + 1)).reverse, (p.reverse.take z).reverse, ?_, ?_⟩
    · have h2 : p.reverse = p.reverse.take z ++ some m :: p.reverse.drop (z + 1) := by
        conv_lhs => rw [← List.take_append_drop z p.reverse]
        rw [List.drop_eq_getElem_cons hz, hv]
      have := congrArg List.reverse h2
      rw [List.reverse_reverse] at this
      refine this.trans ?_
      simp
    · rw [List.length_reverse, List.length_take]; omega
  · rintro ⟨q, r, rfl, rfl⟩
    rw [List.reverse_append, List.reverse_cons, List.append_assoc, List.getElem?_append_right (by simp)]
    simp

/-- Weight of a node: more than that of all its children together. -/
def wt (nZ nL : Nat) (p : Path) : Nat := (nL + 2) ^ (nZ - p.length)

theorem tryLmk_wt (gate : Path → Nat → Option K) (nZ nL : Nat) (p : Path) (s : St K) (m : Nat) :
    ((tryLmk gate nZ p s m).opn.map (wt nZ nL)).sum ≤ (s.opn.map (wt nZ nL)).sum + (nL + 2) ^ (nZ - p.length - 1) := by
  unfold tryLmk
  split
  · omega
  · split
    · omega
    · simp only
      have : ((if p.length + 1 < nZ then (some m :: p) :: s.opn else s.opn).map (wt nZ nL)).sum
          ≤ (s.opn.map (wt nZ nL)).sum + (nL + 2) ^ (nZ - p.length - 1) := by
        split
        · simp only [List.map_cons, List.sum_cons, wt, List.length_cons]
          rw [show nZ - (p.length + 1) = nZ - p.length - 1 by omega]
          omega
        · omega
      split <;> exact this

theorem foldl_wt (gate : Path → Nat → Option K) (nZ nL : Nat) (p : Path) (ms : List Nat) : ∀ s : St K,
    ((ms.foldl (tryLmk gate nZ p) s).opn.map (wt nZ nL)).sum ≤ (s.opn.map (wt nZ nL)).sum + ms.length * (nL + 2) ^ (nZ - p.length - 1) := by
  induction ms with
  | nil => intro s; simp
  | cons m ms ih =>
    intro s
    have h1 := ih (tryLmk gate nZ p s m)
    have h2 := tryLmk_wt gate nZ nL p s m
    rw [List.foldl_cons, List.length_cons, Nat.add_mul]
    omega

/-- While nodes are left, the loop can make a pass. -/
theorem progress (gate : Path → Nat → Option K) (nZ nL : Nat) (s : St K) (h : s.opn ≠ []) : ∃ s', Step gate nZ nL s s' := by
  obtain ⟨p, l, hp⟩ := List.exists_cons_of_ne_nil h
  exact ⟨_, Step.mk s [] l p (by rw [hp]; rfl)⟩


/-- Every considered hypothesis ending in an association is accounted for in the best count, or one of its ancestors is still in the queue. -/
def Cover (gate : Path → Nat → Option K) (nZ nL : Nat) (s : St K) : Prop :=
  ∀ p m, Compat gate nL (some m :: p) → p.length < nZ → (used p).length + 1 ≤ s.nBest ∨ ∃ q ∈ s.opn, q <:+ p

theorem tryLmk_opn (gate : Path → Nat → Option K) (nZ : Nat) (p : Path) (s : St K) (m : Nat) :
    (∀ q ∈ s.opn, q ∈ (tryLmk gate nZ p s m).opn) ∧ s.nBest ≤ (tryLmk gate nZ p s m).nBest := by
  unfold tryLmk
  split
  · exact ⟨fun q h => h, Nat.le_refl _⟩
  · split
    · exact ⟨fun q h => h, Nat.le_refl _⟩
    · simp only
      have : ∀ q ∈ s.opn, q ∈ (if p.length + 1 < nZ then (some m :: p) :: s.opn else s.opn) := by
        intro q hq
        split
        · exact List.mem_cons_of_mem _ hq
        · exact hq
      split
      · rename_i hc
        exact ⟨this, by simp only; omega⟩
      · exact ⟨this, Nat.le_refl _⟩

theorem foldl_opn (gate : Path → Nat → Option K) (nZ : Nat) (p : Path) (ms : List Nat) : ∀ s : St K,
    (∀ q ∈ s.opn, q ∈ (ms.foldl (tryLmk gate nZ p) s).opn) ∧ s.nBest ≤ (ms.foldl (tryLmk gate nZ p) s).nBest := by
  induction ms with
  | nil => intro s; exact ⟨fun q h => h, Nat.le_refl _⟩
  | cons m ms ih =>
    intro s
    have h1 := tryLmk_opn gate nZ p s m
    have h2 := ih (tryLmk gate nZ p s m)
    exact ⟨fun q h => h2.1 q (h1.1 q h), Nat.le_trans h1.2 h2.2⟩

/-- After the landmark has been tried, the hypothesis extended by it is in the queue (unless it is complete) and is counted. -/
theorem tryLmk_adds (gate : Path → Nat → Option K) (nZ : Nat) (p : Path) (s : St K) (m : Nat) (hu : m ∉ used p) (hg : (gate p m).isSome) :
    (p.length + 1 < nZ → (some m :: p) ∈ (tryLmk gate nZ p s m).opn) ∧ (used p).length + 1 ≤ (tryLmk gate nZ p s m).nBest := by
  unfold tryLmk
  rw [if_neg hu]
  cases h : gate p m with
  | none => rw [h] at hg; simp at hg
  | some d =>
    simp only
    split
    · exact ⟨fun hl => by simp [hl], Nat.le_refl _⟩
    · rename_i hc
      refine ⟨fun hl => by simp [hl], ?_⟩
      simp only
      by_contra hlt
      exact hc (Or.inl (by omega))

theorem foldl_adds (gate : Path → Nat → Option K) (nZ : Nat) (p : Path) (m : Nat) (hu : m ∉ used p) (hg : (gate p m).isSome) (ms : List Nat) :
    ∀ s : St K, m ∈ ms → (p.length + 1 < nZ → (some m :: p) ∈ (ms.foldl (tryLmk gate nZ p) s).opn) ∧
      (used p).length + 1 ≤ (ms.foldl (tryLmk gate nZ p) s).nBest := by
  induction ms with
  | nil => intro s h; simp at h
  | cons a ms ih =>
    intro s h
    by_cases hm : m ∈ ms
    · exact ih _ hm
    · rcases List.mem_cons.1 h with rfl | h
      · have h1 := tryLmk_adds gate nZ p s m hu hg
        have h2 := foldl_opn gate nZ p ms (tryLmk gate nZ p s m)
        exact ⟨fun hl => h2.1 _ (h1.1 hl), Nat.le_trans h1.2 h2.2⟩
      · exact absurd h hm

theorem tryOutlier_opn (gate : Path → Nat → Option K) (nZ : Nat) (p : Path) (s : St K) :
    (∀ q ∈ s.opn, q ∈ (tryOutlier gate nZ p s).opn) ∧ s.nBest = (tryOutlier gate nZ p s).nBest ∧
      (p.length + 1 < nZ → (none :: p) ∈ (tryOutlier gate nZ p s).opn) := by
  have h1 : ∀ q ∈ s.opn, q ∈ (if p.length + 1 < nZ then (none :: p) :: s.opn else s.opn) := by
    intro q hq
    split
    · exact List.mem_cons_of_mem _ hq
    · exact hq
  unfold tryOutlier
  simp only
  split
  · exact ⟨h1, rfl, fun hl => by simp [hl]⟩
  · exact ⟨h1, rfl, fun hl => by simp [hl]⟩

theorem compat_suffix (gate : Path → Nat → Option K) (nL : Nat) (p q : Path) (h : Compat gate nL p) (hs : q <:+ p) : Compat gate nL q := by
  obtain ⟨t, rfl⟩ := hs
  induction t with
  | nil => exact h
  | cons a t ih =>
    cases h with
    | out _ h => exact ih h
    | assoc _ _ h _ _ _ => exact ih h

theorem step_cover (gate : Path → Nat → Option K) (nZ nL : Nat) (s s' : St K) (h : Cover gate nZ nL s) (hs : Step gate nZ nL s s') :
    Cover gate nZ nL s' := by
  cases hs with
  | mk pre post p ho =>
    have hf := foldl_opn gate nZ p (List.range nL) { s with opn := pre ++ post }
    have hadd := fun m hu hg hm => foldl_adds gate nZ p m hu hg (List.range nL) { s with opn := pre ++ post } (List.mem_range.2 hm)
    have ho2 := tryOutlier_opn gate nZ p ((List.range nL).foldl (tryLmk gate nZ p) { s with opn := pre ++ post })
    intro r m hr hl
    rcases h r m hr hl with hb | ⟨q, hq, hqr⟩
    · left
      have h1 := hf.2
      have h2 := ho2.2.1
      unfold branch
      simp only at h1
      omega
    · rw [ho] at hq
      have keep : ∀ q ∈ pre ++ post, q ∈ (branch gate nZ nL p { s with opn := pre ++ post }).opn := fun q hq => ho2.1 q (hf.1 q hq)
      rcases List.mem_append.1 hq with hq | hq
      · exact Or.inr ⟨q, keep q (List.mem_append_left _ hq), hqr⟩
      · rcases List.mem_cons.1 hq with rfl | hq
        · obtain ⟨t, ht⟩ := hqr
          rcases List.eq_nil_or_concat t with rfl | ⟨t', x, rfl⟩
          · -- the popped node is the parent
            simp only [List.nil_append] at ht
            subst ht
            left
            cases hr with
            | assoc _ _ _ hm hu hg =>
              have h1 := (hadd m hu hg hm).2
              have h2 := ho2.2.1
              unfold branch
              omega
          · right
            have hsuf : (x :: q) <:+ r := ⟨t', by rw [← ht]; simp⟩
            have hc : Compat gate nL (x :: q) := compat_suffix gate nL _ _ hr (hsuf.trans ⟨[some m], rfl⟩)
            have hlen : q.length + 1 < nZ := by
              have := hsuf.length_le
              simp only [List.length_cons] at this
              omega
            refine ⟨x :: q, ?_, hsuf⟩
            cases hc with
            | out _ _ => exact ho2.2.2 hlen
            | assoc _ m' _ hm hu hg => exact ho2.1 _ ((hadd m' hu hg hm).1 hlen)
        · exact Or.inr ⟨q, keep q (List.mem_append_right _ hq), hqr⟩

theorem run_cover (gate : Path → Nat → Option K) (nZ nL : Nat) (big : K) (s : St K) (h : Run gate nZ nL big s) : Cover gate nZ nL s := by
  induction h with
  | start => exact fun p m _ _ => Or.inr ⟨[], by simp [start], List.nil_suffix⟩
  | step s s' _ hs ih => exact step_cover gate nZ nL s s' ih hs

/-- `n` associations at distance `x` are no better than the best so far, in the order the code uses. -/
def Below (n : Nat) (x : K) (s : St K) : Prop := n < s.nBest ∨ n = s.nBest ∧ x ≤ s.dBest

theorem tryLmk_below (gate : Path → Nat → Option K) (nZ : Nat) (p : Path) (s : St K) (m : Nat) (n : Nat) (x : K) (h : Below n x s) :
    Below n x (tryLmk gate nZ p s m) := by
  unfold tryLmk
  split
  · exact h
  · split
    · exact h
    · simp only
      split
      · rename_i hc
        unfold Below at h ⊢
        rcases hc with hc | ⟨hc, hd⟩
        · exact Or.inl (by simp only; omega)
        · rcases h with h | ⟨h, hx⟩
          · exact Or.inl (by simp only; omega)
          · exact Or.inr ⟨by simp only; omega, le_trans hx hd⟩
      · exact h

theorem foldl_below (gate : Path → Nat → Option K) (nZ : Nat) (p : Path) (n : Nat) (x : K) (ms : List Nat) : ∀ s : St K, Below n x s →
    Below n x (ms.foldl (tryLmk gate nZ p) s) := by
  induction ms with
  | nil => intro s h; exact h
  | cons m ms ih => intro s h; exact ih _ (tryLmk_below gate nZ p s m n x h)

theorem tryOutlier_below (gate : Path → Nat → Option K) (nZ : Nat) (p : Path) (s : St K) (n : Nat) (x : K) (h : Below n x s) :
    Below n x (tryOutlier gate nZ p s) := by
  unfold tryOutlier
  simp only
  split
  · rename_i hc
    rcases h with h | ⟨h, hx⟩
    · exact Or.inl h
    · exact Or.inr ⟨h, le_trans hx hc.2⟩
  · exact h

theorem tryLmk_gets (gate : Path → Nat → Option K) (nZ : Nat) (p : Path) (s : St K) (m : Nat) (hu : m ∉ used p) (d : K) (hg : gate p m = some d) :
    Below ((used p).length + 1) d (tryLmk gate nZ p s m) := by
  unfold tryLmk
  rw [if_neg hu, hg]
  simp only
  split
  · exact Or.inr ⟨rfl, le_refl _⟩
  · rename_i hc
    unfold Below
    simp only
    rcases Nat.lt_trichotomy ((used p).length + 1) s.nBest with h | h | h
    · exact Or.inl h
    · refine Or.inr ⟨h, ?_⟩
      by_contra hd
      exact hc (Or.inr ⟨h.symm, le_of_lt (not_le.1 hd)⟩)
    · exact absurd (Or.inl h) hc

theorem foldl_gets (gate : Path → Nat → Option K) (nZ : Nat) (p : Path) (m : Nat) (hu : m ∉ used p) (d : K) (hg : gate p m = some d) (ms : List Nat) :
    ∀ s : St K, m ∈ ms → Below ((used p).length + 1) d (ms.foldl (tryLmk gate nZ p) s) := by
  induction ms with
  | nil => intro s h; simp at h
  | cons a ms ih =>
    intro s h
    by_cases hm : m ∈ ms
    · exact ih _ hm
    · rcases List.mem_cons.1 h with rfl | h
      · exact foldl_below gate nZ p _ _ ms _ (tryLmk_gets gate nZ p s m hu d hg)
      · exact absurd h hm

/-- Every considered hypothesis ending in an association is no better than the best, or one of its ancestors is still in the queue. -/
theorem run_below (gate : Path → Nat → Option K) (nZ nL : Nat) (big : K) (s : St K) (h : Run gate nZ nL big s) (r : Path) (m : Nat) (d : K)
    (hr : Compat gate nL (some m :: r)) (hl : r.length < nZ) (hd : gate r m = some d) :
    Below ((used r).length + 1) d s ∨ ∃ q ∈ s.opn, q <:+ r := by
  induction h with
  | start => exact Or.inr ⟨[], by simp [start], List.nil_suffix⟩
  | step s s' _ hs ih =>
    cases hs with
    | mk pre post p ho =>
      have hf := foldl_opn gate nZ p (List.range nL) { s with opn := pre ++ post }
      have hadd := fun m hu hg hm => foldl_adds gate nZ p m hu hg (List.range nL) { s with opn := pre ++ post } (List.mem_range.2 hm)
      have ho2 := tryOutlier_opn gate nZ p ((List.range nL).foldl (tryLmk gate nZ p) { s with opn := pre ++ post })
      rcases ih with hb | ⟨q, hq, hqr⟩
      · exact Or.inl (tryOutlier_below gate nZ p _ _ _ (foldl_below gate nZ p _ _ _ _ hb))
      · rw [ho] at hq
        have keep : ∀ q ∈ pre ++ post, q ∈ (branch gate nZ nL p { s with opn := pre ++ post }).opn := fun q hq => ho2.1 q (hf.1 q hq)
        rcases List.mem_append.1 hq with hq | hq
        · exact Or.inr ⟨q, keep q (List.mem_append_left _ hq), hqr⟩
        · rcases List.mem_cons.1 hq with rfl | hq
          · obtain ⟨t, ht⟩ := hqr
            rcases List.eq_nil_or_concat t with rfl | ⟨t', x, rfl⟩
            · simp only [List.nil_append] at ht
              subst ht
              left
              cases hr with
              | assoc _ _ _ hm hu hg =>
                exact tryOutlier_below gate nZ q _ _ _ (foldl_gets gate nZ q m hu d hd _ _ (List.mem_range.2 hm))
            · right
              have hsuf : (x :: q) <:+ r := ⟨t', by rw [← ht]; simp⟩
              have hc : Compat gate nL (x :: q) := compat_suffix gate nL _ _ hr (hsuf.trans ⟨[some m], rfl⟩)
              have hlen : q.length + 1 < nZ := by
                have := hsuf.length_le
                simp only [List.length_cons] at this
                omega
              refine ⟨x :: q, ?_, hsuf⟩
              cases hc with
              | out _ _ => exact ho2.2.2 hlen
              | assoc _ m' _ hm hu hg => exact ho2.1 _ ((hadd m' hu hg hm).1 hlen)
          · exact Or.inr ⟨q, keep q (List.mem_append_right _ hq), hqr⟩

/-- The distance kept with the best node. -/
theorem foldl_dist (gate : Path → Nat → Option K) (nZ : Nat) (p : Path) (ms : List Nat) : ∀ s : St K, (∀ q, s.best = some q → s.dBest = nodeDist gate q) →
    ∀ q, (ms.foldl (tryLmk gate nZ p) s).best = some q → (ms.foldl (tryLmk gate nZ p) s).dBest = nodeDist gate q := by
  induction ms with
  | nil => intro s h; exact h
  | cons m ms ih =>
    intro s h
    refine ih _ ?_
    unfold tryLmk
    split
    · exact h
    · split
      · exact h
      · rename_i d hd
        simp only
        split
        · intro q hq
          cases hq
          simp [nodeDist, hd]
        · exact h

theorem run_dist (gate : Path → Nat → Option K) (nZ nL : Nat) (big : K) (s : St K) (h : Run gate nZ nL big s) : ∀ q, s.best = some q → s.dBest = nodeDist gate q := by
  induction h with
  | start => intro q hq; simp [start] at hq
  | step s s' _ hs ih =>
    cases hs with
    | mk pre post p ho =>
      have hf := foldl_dist gate nZ p (List.range nL) { s with opn := pre ++ post } ih
      unfold branch tryOutlier
      simp only
      split
      · intro q hq
        cases hq
        simp [nodeDist]
      · exact hf

end JCBBProps
end RFS
