import Verif.Lemmas.GaussianMixture
import Mathlib.Algebra.Order.Field.Rat
import Mathlib.Tactic.NormNum
import Mathlib.Tactic.LinearCombination

/-!
Properties C22, C23, C24, C25, C67 and C68: `GaussianMixture`.

Specification: the Gaussians of a mixture are its entries with a landmark. A mixture is reachable when it results from any sequence
of calls of the class (also of the protected `addGaussian(idx, …)`), where `addGM` takes any reachable mixture.
-/

set_option linter.unusedSectionVars false

namespace RFS
namespace GMProps
open GM

variable {K : Type*} [Field K] [LinearOrder K] [IsStrictOrderedRing K] {d : Nat}

/-- Specification: the Gaussians with their weights. -/
def gaussians (m : GMix K d) : List (Lm K d × K) := m.g.filterMap fun e => e.lm.map fun l => (l, e.w)

/-- Specification: all histories of calls. `ok` restricts the weights and factors the caller passes, `strict` forbids setting the
weight of a removed Gaussian and normalising by a zero sum (not a number in C++). -/
inductive Reach (ok : K → Prop) (strict : Bool) : GMix K d → Prop
  | empty : Reach ok strict empty
  | add {m} (l : Lm K d) (w : K) : Reach ok strict m → ok w → Reach ok strict (addGaussian m l w)
  | addGM {m o} (w : K) : Reach ok strict m → Reach ok strict o → ok w → Reach ok strict (addGM m o w).1
  | givenGM {m o} (w : K) : Reach ok strict m → Reach ok strict o → ok w → Reach ok strict (GM.addGM m o w).2
  | multiply {m} (w : K) : Reach ok strict m → ok w → Reach ok strict (multiplyWeights m w)
  | remove {m m'} (i : Nat) : Reach ok strict m → removeGaussian m i = some m' → Reach ok strict m'
  | addAt {m m'} (i : Nat) (l : Lm K d) (w : K) : Reach ok strict m → ok w → addGaussianAt m i l w = some m' →
      Reach ok strict m'
  | setWeight {m m'} (i : Nat) (w : K) : Reach ok strict m → ok w →
      (strict = true → ∃ e, m.g[i]? = some e ∧ e.lm.isSome) → setWeight m i w = some m' → Reach ok strict m'
  | update {m m'} (b : Bool) (i : Nat) (l : Lm K d) (w : K) : Reach ok strict m → updateGaussian m i l w = some (b, m') →
      Reach ok strict m'
  | merge {m m'} (maha : Lm K d → Lm K d → K) (t f : K) (k : Nat) : Reach ok strict m → merge maha t f m = some (k, m') →
      Reach ok strict m'
  | prune {m m'} (srt : List (Gauss K d) → List (Gauss K d)) (h : IsSort srt) (t : K) (k : Nat) : Reach ok strict m →
      prune srt t m = some (k, m') → Reach ok strict m'
  | sort {m} (srt : List (Gauss K d) → List (Gauss K d)) (h : IsSort srt) : Reach ok strict m →
      Reach ok strict (sortByWeight srt m)
  | normalize {m m'} : Reach ok strict m → (strict = true → getWeightSum m ≠ some 0) → normalizeWeights m = some m' → Reach ok strict m'

theorem length_gaussians (m : GMix K d) : (gaussians m).length = cnt m.g := by
  unfold gaussians cnt
  induction m.g with
  | nil => rfl
  | cons a g ih =>
    rw [List.filterMap_cons, List.countP_cons]
    cases a.lm with
    | none => simpa using ih
    | some l => simpa using ih

theorem sum_gaussians {V : Type*} [AddCommMonoid V] (φ : Lm K d × K → V) (m : GMix K d) :
    ((gaussians m).map φ).sum = (m.g.map fun e => match e.lm with
      | none => 0
      | some l => φ (l, e.w)).sum := by
  unfold gaussians
  induction m.g with
  | nil => rfl
  | cons a g ih =>
    rw [List.filterMap_cons, List.map_cons, List.sum_cons, ← ih]
    cases a.lm with
    | none => simp
    | some l => simp

theorem cnt_perm {a b : List (Gauss K d)} (h : a.Perm b) : cnt a = cnt b := h.countP_eq _

theorem mapIdx_cnt (g : List (Gauss K d)) (f : Nat → Gauss K d → Gauss K d) (h : ∀ i e, (f i e).lm = e.lm) :
    cnt (g.mapIdx f) = cnt g := by
  induction g generalizing f with
  | nil => rfl
  | cons a g ih =>
    rw [List.mapIdx_cons]
    have := ih (fun i => f (i + 1)) (fun i e => h _ e)
    unfold cnt at this ⊢
    rw [List.countP_cons, List.countP_cons, this, h]

theorem reach_count {ok : K → Prop} {strict : Bool} {m : GMix K d} (h : Reach ok strict m) : CountOK m := by
  induction h with
  | empty => rfl
  | add l w _ _ ih =>
    unfold CountOK addGaussian at *
    simp only
    rw [cnt_append, ih]
    simp [cnt]
  | addGM w _ _ _ ih1 ih2 =>
    unfold CountOK GM.addGM at *
    simp only
    rw [cnt_append, cnt_map (f := fun e : Gauss K d => { e with w := e.w * w }) (fun e => rfl), ih1, ih2]
    simp
  | givenGM w _ _ _ ih1 ih2 => rfl
  | multiply w _ _ ih =>
    unfold CountOK multiplyWeights at *
    simp only
    rw [cnt_map (f := fun e : Gauss K d => { e with w := e.w * w }) (fun e => rfl), ih]
  | remove i _ e ih => exact ih.remove e
  | addAt i l w _ _ e ih => exact ih.addAt e
  | @setWeight m m' i w _ _ _ e ih =>
    unfold GM.setWeight at e
    cases h : m.g[i]? with
    | none => rw [h] at e; cases e
    | some e0 =>
      rw [h] at e
      cases e
      unfold CountOK at *
      simp only
      rw [cnt_set _ _ _ _ h, ih]
      simp
  | @update m m' b i l w _ e ih =>
    unfold updateGaussian at e
    split at e
    · cases e; exact ih
    · cases h : m.g[i]? with
      | none => rw [h] at e; cases e
      | some e0 =>
        rw [h] at e
        simp only at e
        cases h2 : e0.lm with
        | none => rw [h2] at e; cases e; exact ih
        | some l0 =>
          rw [h2] at e
          cases e
          unfold CountOK at *
          simp only
          rw [cnt_set _ _ _ _ h, ih, h2]
          simp
  | @merge m m' maha t f k _ e ih =>
    obtain ⟨s', e', h1, -⟩ := merge_inv (maha := maha) (t := t) (f := f) (fun s => CountOK s.2) m ih (by
      intro k m1 i j b m' h hl hij hj he
      have := merge2_count (by omega) (by omega) (by omega) he
      unfold CountOK at *
      simp only at *
      omega)
    rw [e'] at e
    cases e
    exact h1
  | @prune m m' srt hs t k _ e ih =>
    obtain ⟨k', m2, e', -, -, -, h⟩ := prune_spec hs t m
    rw [e'] at e
    cases e
    unfold CountOK at *
    omega
  | @sort m srt hs _ ih =>
    unfold sortByWeight
    split
    · exact ih
    · unfold CountOK at *
      simp only
      rw [ih, cnt_perm (hs m.g).1]
  | @normalize m m' _ _ e ih =>
    unfold normalizeWeights at e
    cases h : getWeightSum m with
    | none => rw [h] at e; cases e
    | some s =>
      rw [h] at e
      cases e
      unfold CountOK at *
      simp only
      rw [mapIdx_cnt, ih]
      intro i e; split <;> rfl

/-- C22. After any history of calls the reported count is the number of Gaussians in the mixture; the loops over indices below the
count stay inside the container. -/
theorem C22_count {m : GMix K d} (h : Reach (fun _ => True) false m) :
    getGaussianCount m = (gaussians m).length ∧ (getWeightSum m).isSome := by
  have hc := reach_count h
  refine ⟨by rw [length_gaussians]; exact hc, ?_⟩
  have hle : m.n.toNat ≤ m.g.length := by
    have := cnt_le m.g
    unfold CountOK at hc; omega
  unfold getWeightSum
  have key : ∀ (is : List Nat) (s : K), (∀ i ∈ is, i < m.g.length) →
      (is.foldlM (fun s i => (m.g[i]?).map fun e => s + e.w) s).isSome := by
    intro is
    induction is with
    | nil => intro s _; rfl
    | cons i is ih =>
      intro s hi
      rw [List.foldlM_cons, List.getElem?_eq_getElem (hi i (by simp))]
      exact ih _ (fun j hj => hi j (by simp [hj]))
  exact key _ _ (fun i hi => by rw [List.mem_range] at hi; omega)

def lmA : Lm ℚ 1 := ⟨fun _ => 0, fun _ _ => 1⟩
def lmB : Lm ℚ 1 := ⟨fun _ => 1, fun _ _ => 2⟩

/-- Mahalanobis distance in one dimension. -/
def maha1 (a b : Lm ℚ 1) : ℚ := (b.x 0 - a.x 0) * (b.x 0 - a.x 0) / a.S 0 0

def exM : GMix ℚ 1 := addGaussian (addGaussian (addGaussian empty lmA 1) lmB 3) lmA (1 / 2)

example : Reach (fun _ => True) false exM := .add _ _ (.add _ _ (.add _ _ .empty trivial) trivial) trivial
example : ((merge maha1 2 1 exM).map fun r => (r.1, r.2.n, (gaussians r.2).length)) = some (2, 1, 1) := by decide +kernel

/-- C23. Merging conserves the total weight and the weighted mean of the mixture, with inflation factor 1 also the second moment
about the origin; every counted merge removes exactly one Gaussian; and it does nothing exactly when no two Gaussians are within
the distance (or have weights summing to zero). For every distance function and every mixture. -/
theorem C23_merge_moments (maha : Lm K d → Lm K d → K) (t f : K) (m : GMix K d) :
    ∃ k m', merge maha t f m = some (k, m') ∧
      ((gaussians m').map fun p => p.2).sum = ((gaussians m).map fun p => p.2).sum ∧
      (∀ a, ((gaussians m').map fun p => p.2 * p.1.x a).sum = ((gaussians m).map fun p => p.2 * p.1.x a).sum) ∧
      (f = 1 → ∀ a b, ((gaussians m').map fun p => p.2 * (p.1.S a b + p.1.x a * p.1.x b)).sum =
        ((gaussians m).map fun p => p.2 * (p.1.S a b + p.1.x a * p.1.x b)).sum) ∧
      (gaussians m').length + k = (gaussians m).length ∧
      (k = 0 ↔ ∀ (i j : Nat) (e1 e2 : Gauss K d) l1 l2, i < j → m.g[i]? = some e1 → m.g[j]? = some e2 → e1.lm = some l1 → e2.lm = some l2 →
        (t * t < maha l1 l2 ∧ t * t < maha l2 l1) ∨ e1.w + e2.w = 0) ∧
      (k = 0 → m'.g = m.g) := by
  have A1 : Additive (K := K) (d := d) f (fun e => match e.lm with | none => 0 | some l => e.w) := by
    refine ⟨rfl, ?_⟩
    intro e1 e2 l1 l2 h1 h2 h3
    simp [h1, h2]
  have A2 : ∀ a, Additive (K := K) (d := d) f (fun e => match e.lm with | none => 0 | some l => e.w * l.x a) := by
    intro a
    refine ⟨rfl, ?_⟩
    intro e1 e2 l1 l2 h1 h2 h3
    simp only [h1, h2, mergeLm]
    field_simp
  have A3 : f = 1 → ∀ a b, Additive (K := K) (d := d) f
      (fun e => match e.lm with | none => 0 | some l => e.w * (l.S a b + l.x a * l.x b)) := by
    intro hf a b
    refine ⟨rfl, ?_⟩
    intro e1 e2 l1 l2 h1 h2 h3
    subst hf
    simp only [h1, h2, mergeLm]
    field_simp
    ring
  obtain ⟨⟨k, m'⟩, e', ⟨p1, p2, p3, p4, p5, p6⟩, -⟩ := merge_inv (maha := maha) (t := t) (f := f) (fun s =>
    (s.2.g.map (fun e => match e.lm with | none => 0 | some l => e.w)).sum =
      (m.g.map (fun e => match e.lm with | none => 0 | some l => e.w)).sum ∧
    (∀ a, (s.2.g.map (fun e => match e.lm with | none => 0 | some l => e.w * l.x a)).sum =
      (m.g.map (fun e => match e.lm with | none => 0 | some l => e.w * l.x a)).sum) ∧
    (f = 1 → ∀ a b, (s.2.g.map (fun e => match e.lm with | none => 0 | some l => e.w * (l.S a b + l.x a * l.x b))).sum =
      (m.g.map (fun e => match e.lm with | none => 0 | some l => e.w * (l.S a b + l.x a * l.x b))).sum) ∧
    (cnt s.2.g : Int) + s.1 = cnt m.g ∧
    (s.1 = 0 → s.2.g = m.g) ∧
    ((∀ (i j : Nat) (e1 e2 : Gauss K d) l1 l2, i < j → m.g[i]? = some e1 → m.g[j]? = some e2 → e1.lm = some l1 → e2.lm = some l2 →
        (t * t < maha l1 l2 ∧ t * t < maha l2 l1) ∨ e1.w + e2.w = 0) → s.1 = 0)) m
    ⟨rfl, fun _ => rfl, fun _ _ _ => rfl, by simp, fun _ => rfl, fun _ => rfl⟩ (by
      rintro k m1 i j b m2 ⟨q1, q2, q3, q4, q5, q6⟩ hl hij hj he
      have hcnt := merge2_count (by omega) (by omega) (by omega) he
      refine ⟨?_, ?_, ?_, ?_, ?_, ?_⟩
      · exact (merge2_sum A1 (by omega) (by omega) (by omega) he).trans q1
      · intro a; exact (merge2_sum (A2 a) (by omega) (by omega) (by omega) he).trans (q2 a)
      · intro hf a b; exact (merge2_sum (A3 hf a b) (by omega) (by omega) (by omega) he).trans (q3 hf a b)
      · simp only at *
        cases b <;> simp at * <;> omega
      · intro h0
        rcases merge2_cases maha t f m1 i j (by omega) (by omega) (by omega) with ⟨g1, -⟩ | ⟨_, _, _, _, -, -, -, -, -, -, g1⟩
        · rw [g1] at he; cases he; exact q5 (by simpa using h0)
        · rw [g1] at he; cases he; simp at h0
      · intro hall
        have hk : k = 0 := q6 hall
        have hg : m1.g = m.g := q5 hk
        rcases merge2_cases maha t f m1 i j (by omega) (by omega) (by omega) with ⟨g1, -⟩ | ⟨e1, e2, l1, l2, a1, a2, a3, a4, a5, a6, g1⟩
        · rw [g1] at he; cases he; simpa using hk
        · rw [hg] at a1 a2
          rcases hall i j e1 e2 l1 l2 hij a1 a2 a3 a4 with h | h
          · exact absurd h a5
          · exact absurd h a6)
  refine ⟨k, m', e', ?_, ?_, ?_, ?_, ⟨?_, p6⟩, p5⟩
  · rw [sum_gaussians, sum_gaussians]; exact p1
  · intro a; rw [sum_gaussians, sum_gaussians]; exact p2 a
  · intro hf a b; rw [sum_gaussians, sum_gaussians]; exact p3 hf a b
  · rw [length_gaussians, length_gaussians]; simp only at p4; omega
  · -- nothing merged: every pair was looked at
    intro hk0 i j e1 e2 l1 l2 hij g1 g2 g3 g4
    by_contra hcon
    have hlj := (List.getElem?_eq_some_iff.1 g2).1
    -- the count never decreases and is positive once the pair has been visited
    have inner : ∀ (js : List Nat) (s s' : Nat × GMix K d), (∀ x ∈ js, i < x ∧ x < m.g.length) → s.2.g.length = m.g.length →
        (s.1 = 0 → s.2.g = m.g) → mergeInner maha t f i js s = some s' → s'.1 = 0 → s.1 = 0 ∧ j ∉ js := by
      intro js
      induction js with
      | nil => intro s s' _ _ _ h h0; cases h; exact ⟨h0, by simp⟩
      | cons x js ih =>
        intro s s' hx hl hs h h0
        obtain ⟨hx1, hx2⟩ := hx x (by simp)
        unfold mergeInner at h
        rcases merge2_cases maha t f s.2 i x (by omega) (by omega) (by omega) with ⟨c1, c2⟩ | ⟨e1', e2', l1', l2', a1, a2, a3, a4, a5, a6, c1⟩
        · rw [c1] at h
          simp only at h
          obtain ⟨r1, r2⟩ := ih _ _ (fun y hy => hx y (by simp [hy])) (by simpa using hl) (by simpa using hs) h h0
          refine ⟨by simpa using r1, ?_⟩
          intro hjm
          rcases List.mem_cons.1 hjm with rfl | hjm
          · have hg := hs (by simpa using r1)
            exact hcon (c2 e1 e2 l1 l2 (by rw [hg]; exact g1) (by rw [hg]; exact g2) g3 g4)
          · exact r2 hjm
        · rw [c1] at h
          simp only at h
          obtain ⟨r1, -⟩ := ih _ _ (fun y hy => hx y (by simp [hy])) (by simpa using hl) (by intro hz; simp at hz) h h0
          simp at r1
    have mono_inner : ∀ (a : Nat) (js : List Nat) (s s' : Nat × GMix K d), (∀ x ∈ js, a < x ∧ x < m.g.length) → s.2.g.length = m.g.length →
        mergeInner maha t f a js s = some s' → s'.1 = 0 → s.1 = 0 ∧ s'.2.g = s.2.g := by
      intro a js
      induction js with
      | nil => intro s s' _ _ h h0; cases h; exact ⟨h0, rfl⟩
      | cons x js ih =>
        intro s s' hx hl h h0
        obtain ⟨hx1, hx2⟩ := hx x (by simp)
        unfold mergeInner at h
        rcases merge2_cases maha t f s.2 a x (by omega) (by omega) (by omega) with ⟨c1, c2⟩ | ⟨e1', e2', l1', l2', a1, a2, a3, a4, a5, a6, c1⟩
        · rw [c1] at h
          simp only at h
          obtain ⟨r1, r2⟩ := ih _ _ (fun y hy => hx y (by simp [hy])) (by simpa using hl) h h0
          exact ⟨by simpa using r1, r2⟩
        · rw [c1] at h
          simp only at h
          obtain ⟨r1, -⟩ := ih _ _ (fun y hy => hx y (by simp [hy])) (by simpa using hl) h h0
          simp at r1
    have hdrop : ∀ a, ∀ x ∈ (List.range m.g.length).drop (a + 1), a < x ∧ x < m.g.length := by
      intro a x hx
      rw [List.range_eq_range', List.drop_range', List.mem_range'_1] at hx
      omega
    have outer : ∀ (is : List Nat) (s s' : Nat × GMix K d), (∀ a ∈ is, a < m.g.length) → s.2.g = m.g →
        mergeOuter maha t f m.g.length is s = some s' → s'.1 = 0 → s.1 = 0 ∧ i ∉ is := by
      intro is
      induction is with
      | nil => intro s s' _ _ h h0; cases h; exact ⟨h0, by simp⟩
      | cons a is ih =>
        intro s s' ha hg h h0
        have hia := ha a (by simp)
        unfold mergeOuter at h
        rw [hg, List.getElem?_eq_getElem hia] at h
        simp only at h
        cases hlm : (m.g[a]).lm with
        | none =>
          rw [hlm] at h
          obtain ⟨r1, r2⟩ := ih s s' (fun y hy => ha y (by simp [hy])) hg h h0
          refine ⟨r1, ?_⟩
          intro hm
          rcases List.mem_cons.1 hm with rfl | hm
          · rw [List.getElem?_eq_getElem hia] at g1
            cases g1
            rw [hlm] at g3; cases g3
          · exact r2 hm
        | some l =>
          rw [hlm] at h
          simp only at h
          obtain ⟨s1, hs1, -⟩ := mergeInner_inv (maha := maha) (t := t) (f := f) (fun _ => True) m.g.length a hia
            (fun _ _ _ _ _ _ _ _ _ _ => trivial) ((List.range m.g.length).drop (a + 1)) s (hdrop a) trivial (by rw [hg])
          rw [hs1] at h
          simp only at h
          -- the rest starts from s1
          have hs10 : s1.1 = 0 := by
            have : ∀ (is : List Nat) (s s' : Nat × GMix K d), (∀ a ∈ is, a < m.g.length) → s.2.g.length = m.g.length →
                mergeOuter maha t f m.g.length is s = some s' → s'.1 = 0 → s.1 = 0 := by
              intro is
              induction is with
              | nil => intro s s' _ _ h h0; cases h; exact h0
              | cons a is ih =>
                intro s s' ha hg h h0
                have hia := ha a (by simp)
                unfold mergeOuter at h
                rw [List.getElem?_eq_getElem (by omega : a < s.2.g.length)] at h
                simp only at h
                split at h
                · exact ih _ _ (fun y hy => ha y (by simp [hy])) hg h h0
                · obtain ⟨s1, hs1, -, hl1⟩ := mergeInner_inv (maha := maha) (t := t) (f := f) (fun _ => True) m.g.length a hia
                    (fun _ _ _ _ _ _ _ _ _ _ => trivial) ((List.range m.g.length).drop (a + 1)) s (hdrop a) trivial hg
                  rw [hs1] at h
                  exact (mono_inner a _ _ _ (hdrop a) hg hs1 (ih _ _ (fun y hy => ha y (by simp [hy])) hl1 h h0)).1
            obtain ⟨_, hs1', -, hl1⟩ := mergeInner_inv (maha := maha) (t := t) (f := f) (fun _ => True) m.g.length a hia
              (fun _ _ _ _ _ _ _ _ _ _ => trivial) ((List.range m.g.length).drop (a + 1)) s (hdrop a) trivial (by rw [hg])
            rw [hs1] at hs1'
            cases hs1'
            exact this is s1 s' (fun y hy => ha y (by simp [hy])) hl1 h h0
          obtain ⟨q1, q2⟩ := mono_inner a _ _ _ (hdrop a) (by rw [hg]) hs1 hs10
          obtain ⟨r1, r2⟩ := ih s1 s' (fun y hy => ha y (by simp [hy])) (by rw [q2, hg]) h h0
          refine ⟨q1, ?_⟩
          intro hm
          rcases List.mem_cons.1 hm with rfl | hm
          · obtain ⟨-, hnj⟩ := inner _ _ _ (hdrop i) (by rw [hg]) (fun _ => hg) hs1 hs10
            apply hnj
            rw [List.range_eq_range', List.drop_range', List.mem_range'_1]
            omega
          · exact r2 hm
    have := (outer (List.range m.g.length) _ _ (by simp) rfl e' hk0).2
    apply this
    rw [List.mem_range]
    omega

example : ((merge maha1 (1 / 2) 1 exM).map fun r => (r.1, ((gaussians r.2).map fun p => (p.2, p.1.x 0, p.1.S 0 0)))) =
    some (1, [(3 / 2, 0, 1), (3, 1, 2)]) := by decide +kernel

/-- C24. Pruning keeps exactly the Gaussians whose weight is at least the threshold, in non-increasing order of weight, and leaves
no removed entry behind. The removed entries (weight 0 unless the caller sets it) must be below the threshold; when there are none
every threshold is allowed. For every sorting function. -/
theorem C24_prune {srt : List (Gauss K d) → List (Gauss K d)} (hs : IsSort srt) (t : K) (m : GMix K d)
    (hh : ∀ e ∈ m.g, e.lm = none → e.w < t) :
    ∃ k m', prune srt t m = some (k, m') ∧ (∀ e ∈ m'.g, e.lm.isSome) ∧
      (gaussians m').Perm ((gaussians m).filter fun p => decide (t ≤ p.2)) ∧
      (gaussians m').Pairwise fun a b => b.2 ≤ a.2 := by
  obtain ⟨k, m', e, h1, h2, -, -⟩ := prune_spec hs t m
  refine ⟨k, m', e, ?_, ?_, ?_⟩
  · intro x hx
    have := h1.mem_iff.1 hx
    rw [List.mem_filter] at this
    by_contra hcon
    rw [Option.not_isSome_iff_eq_none] at hcon
    have h3 := hh x this.1 hcon
    have h4 := this.2
    rw [decide_eq_true_eq] at h4
    exact absurd h3 (not_lt.2 h4)
  · have h3 := h1.filterMap fun e : Gauss K d => e.lm.map fun l => (l, e.w)
    refine h3.trans (List.Perm.of_eq ?_)
    unfold gaussians
    rw [List.filter_filterMap, List.filterMap_filter]
    congr 1
    funext x
    cases x.lm with
    | none => simp
    | some l => by_cases hx : t ≤ x.w <;> simp [hx, Option.filter]
  · unfold gaussians
    rw [List.pairwise_filterMap]
    refine h2.imp ?_
    intro a b hab p hp q hq
    cases ha : a.lm with
    | none => rw [ha] at hp; cases hp
    | some la =>
      cases hb : b.lm with
      | none => rw [hb] at hq; cases hq
      | some lb =>
        rw [ha] at hp; rw [hb] at hq
        cases hp; cases hq
        exact hab

/-- Insertion sort meets the contract. -/
theorem isSort_insertion : IsSort (fun l : List (Gauss K d) => l.insertionSort fun a b => b.w ≤ a.w) := by
  intro l
  have ht : Std.Total (α := Gauss K d) fun a b => b.w ≤ a.w := ⟨fun a b => le_total _ _⟩
  have htr : IsTrans (Gauss K d) fun a b => b.w ≤ a.w := ⟨fun a b c h1 h2 => le_trans h2 h1⟩
  exact ⟨List.perm_insertionSort _ l, List.pairwise_insertionSort _ l⟩

def srtQ (l : List (Gauss ℚ 1)) : List (Gauss ℚ 1) := l.insertionSort fun a b => b.w ≤ a.w

example : ((prune srtQ 1 exM).map fun r => (r.1, (gaussians r.2).map (·.2))) = some (1, [3, 1]) := by decide +kernel
example : IsSort srtQ := isSort_insertion

/-- C68 (the value returned by `prune` is the number of Gaussians removed) does not hold: entries already removed by `merge` are
counted again. Two coinciding Gaussians are merged into one of weight 4, then nothing is below the threshold and yet one
removal is reported. -/
theorem C68_violated : ∃ (m : GMix ℚ 1), Reach (fun _ => True) false m ∧ ∃ k m', prune srtQ 1 m = some (k, m') ∧
    k + (gaussians m').length ≠ (gaussians m).length := by
  have h : (match merge maha1 2 1 (addGaussian (addGaussian empty lmA 1) lmB 3) with
    | some (_, m) => (match prune srtQ 1 m with
      | some (k, m') => decide (k + (gaussians m').length ≠ (gaussians m).length)
      | none => false)
    | none => false) = true := by decide +kernel
  split at h
  · rename_i k0 m hm
    split at h
    · rename_i k m' hp
      exact ⟨m, .merge maha1 2 1 k0 (.add _ _ (.add _ _ .empty trivial) trivial) hm, k, m', hp, of_decide_eq_true h⟩
    · cases h
  · cases h

/-- C68, what holds: the returned value is the number of entries dropped, which is the number of Gaussians removed when there were
no removed entries before. -/
theorem C68_returned_count_partial {srt : List (Gauss K d) → List (Gauss K d)} (hs : IsSort srt) (t : K) (m : GMix K d)
    (hh : ∀ e ∈ m.g, e.lm.isSome) :
    ∃ k m', prune srt t m = some (k, m') ∧ k + (gaussians m').length = (gaussians m).length := by
  obtain ⟨k, m', e, h1, -, h3, -⟩ := prune_spec hs t m
  refine ⟨k, m', e, ?_⟩
  have e1 : cnt m.g = m.g.length := by
    unfold cnt; rw [List.countP_eq_length]; simpa using hh
  have e2 : cnt m'.g = m'.g.length := by
    unfold cnt; rw [List.countP_eq_length]
    intro x hx
    have := h1.mem_iff.1 hx
    rw [List.mem_filter] at this
    exact hh x this.1
  rw [length_gaussians, length_gaussians, e1, e2, h3]

/-- C25 (`getWeightSum` is the sum over all Gaussians and `normalizeWeights` makes it 1) does not hold once a Gaussian has been
removed or merged away: the loops stop at the count although the entries are spread over a longer container. -/
theorem C25_violated : ∃ (m : GMix ℚ 1), Reach (fun w => 0 ≤ w) true m ∧
    (∃ s, getWeightSum m = some s ∧ s ≠ ((gaussians m).map (·.2)).sum) ∧
    ∃ m', normalizeWeights m = some m' ∧ ((gaussians m').map (·.2)).sum ≠ 1 := by
  have h : (match removeGaussian exM 0 with
    | some m => (match getWeightSum m, normalizeWeights m with
      | some s, some m' => decide (s ≠ ((gaussians m).map (·.2)).sum ∧ ((gaussians m').map (·.2)).sum ≠ 1)
      | _, _ => false)
    | none => false) = true := by decide +kernel
  split at h
  · rename_i m hm
    split at h
    · rename_i s m' hs hn
      obtain ⟨h1, h2⟩ := of_decide_eq_true h
      exact ⟨m, .remove 0 (.add _ _ (.add _ _ (.add _ _ .empty (by norm_num)) (by norm_num)) (by norm_num)) hm,
        ⟨s, hs, h1⟩, m', hn, h2⟩
    · cases h
  · cases h

theorem foldlM_sum (g : List (Gauss K d)) : ∀ (k : Nat) (s : K), k ≤ g.length →
    (List.range' (g.length - k) k).foldlM (fun s i => (g[i]?).map fun e => s + e.w) s =
      some (s + ((g.drop (g.length - k)).map Gauss.w).sum) := by
  intro k
  induction k with
  | zero => intro s _; simp
  | succ k ih =>
    intro s hk
    rw [List.range'_succ, List.foldlM_cons, List.getElem?_eq_getElem (by omega)]
    have e1 : g.length - (k + 1) + 1 = g.length - k := by omega
    rw [e1]
    simp only [Option.map_some, Option.bind_eq_bind, Option.bind_some]
    rw [ih _ (by omega), List.drop_eq_getElem_cons (by omega : g.length - (k + 1) < g.length), e1]
    simp [add_assoc]

/-- C25, what holds: with no removed entries the sum is over all Gaussians and normalising makes it 1 (unless it is 0) keeping the
ratios. -/
theorem C25_no_holes_partial (m : GMix K d) (hn : m.n = m.g.length) (hh : ∀ e ∈ m.g, e.lm.isSome) :
    getWeightSum m = some ((gaussians m).map (·.2)).sum ∧
    (((gaussians m).map (·.2)).sum ≠ 0 → ∃ m', normalizeWeights m = some m' ∧
      gaussians m' = (gaussians m).map (fun p => (p.1, p.2 / ((gaussians m).map (·.2)).sum)) ∧
      ((gaussians m').map (·.2)).sum = 1) := by
  have hsum : ((gaussians m).map (·.2)).sum = (m.g.map Gauss.w).sum := by
    rw [sum_gaussians]
    congr 1
    apply List.map_congr_left
    intro e he
    have := hh e he
    cases h : e.lm with
    | none => rw [h] at this; cases this
    | some l => rfl
  have h1 : getWeightSum m = some ((gaussians m).map (·.2)).sum := by
    unfold getWeightSum
    have := foldlM_sum m.g m.g.length 0 le_rfl
    rw [Nat.sub_self] at this
    rw [hn, Int.toNat_natCast, List.range_eq_range', this, hsum]
    simp
  refine ⟨h1, fun h0 => ?_⟩
  have hmap : (m.g.mapIdx fun i e => if (i : Int) < m.n then { e with w := e.w / ((gaussians m).map (·.2)).sum } else e) =
      m.g.map fun e => { e with w := e.w / ((gaussians m).map (·.2)).sum } := by
    apply List.ext_getElem
    · simp
    · intro i h1 h2
      simp only [List.getElem_mapIdx, List.getElem_map]
      rw [if_pos]
      rw [hn]
      rw [List.length_mapIdx] at h1
      exact_mod_cast h1
  have hg : gaussians ({ m with g := m.g.map fun e => { e with w := e.w / ((gaussians m).map (·.2)).sum } } : GMix K d) =
      (gaussians m).map (fun p => (p.1, p.2 / ((gaussians m).map (·.2)).sum)) := by
    generalize ((gaussians m).map (·.2)).sum = s
    unfold gaussians
    rw [List.map_filterMap, List.filterMap_map]
    congr 1
    funext e
    cases h : e.lm <;> simp [h]
  refine ⟨_, by unfold normalizeWeights; rw [h1]; simp only [hmap], hg, ?_⟩
  rw [hg]
  rw [List.map_map]
  have : ((fun x : Lm K d × K => x.2) ∘ fun p : Lm K d × K => (p.1, p.2 / ((gaussians m).map (·.2)).sum)) =
      fun p => p.2 * (((gaussians m).map (·.2)).sum)⁻¹ := by
    funext p; simp [div_eq_mul_inv]
  rw [this, List.sum_map_mul_right, mul_inv_cancel₀ h0]

example : ((normalizeWeights exM).map fun m => (gaussians m).map (·.2)) = some [2 / 9, 6 / 9, 1 / 9] := by decide +kernel
example : exM.n = exM.g.length ∧ ∀ e ∈ exM.g, e.lm.isSome := by decide +kernel

/-! ### C67: the sorted flag -/

/-- Invariant of histories with non-negative weights. -/
def NN (m : GMix K d) : Prop :=
  (∀ e ∈ m.g, 0 ≤ e.w) ∧ (∀ e ∈ m.g, e.lm = none → e.w = 0) ∧ (m.sorted = true → m.g.Pairwise fun a b => b.w ≤ a.w)

theorem removeGaussian_NN {m m' : GMix K d} {i : Nat} (h : NN m) (e : removeGaussian m i = some m') : NN m' := by
  rcases removeGaussian_cases m i with ⟨-, h1⟩ | ⟨e', h1, h2, h3⟩ | ⟨e', l, h1, h2, h3⟩
  · rw [h1] at e; cases e
  · rw [h3] at e; cases e; exact ⟨h.1, h.2.1, by simp⟩
  · rw [h3] at e; cases e
    refine ⟨?_, ?_, by simp⟩
    · intro x hx
      rcases List.mem_or_eq_of_mem_set hx with hx | rfl
      · exact h.1 x hx
      · exact le_rfl
    · intro x hx hn
      rcases List.mem_or_eq_of_mem_set hx with hx | rfl
      · exact h.2.1 x hx hn
      · rfl

theorem merge2_NN {maha : Lm K d → Lm K d → K} {t f : K} {m m' : GMix K d} {i j : Nat} {b : Bool} (hij : i ≠ j)
    (hi : i < m.g.length) (hj : j < m.g.length) (h : NN m) (e : merge2 maha t f m i j = some (b, m')) : NN m' := by
  rcases merge2_cases maha t f m i j hij hi hj with ⟨h1, -⟩ | ⟨e1, e2, l1, l2, g1, g2, g3, g4, -, g6, h1⟩
  · rw [h1] at e; cases e; exact ⟨h.1, h.2.1, by simp⟩
  · rw [h1] at e; cases e
    have w1 := h.1 e1 (List.mem_of_getElem? g1)
    have w2 := h.1 e2 (List.mem_of_getElem? g2)
    refine ⟨?_, ?_, by simp⟩
    · intro x hx
      rcases List.mem_or_eq_of_mem_set hx with hx | rfl
      · rcases List.mem_or_eq_of_mem_set hx with hx | rfl
        · exact h.1 x hx
        · exact add_nonneg w1 w2
      · exact le_rfl
    · intro x hx hn
      rcases List.mem_or_eq_of_mem_set hx with hx | rfl
      · rcases List.mem_or_eq_of_mem_set hx with hx | rfl
        · exact h.2.1 x hx hn
        · cases hn
      · rfl

theorem foldlM_nonneg (g : List (Gauss K d)) (hg : ∀ e ∈ g, 0 ≤ e.w) : ∀ (is : List Nat) (s r : K), 0 ≤ s →
    is.foldlM (fun s i => (g[i]?).map fun e => s + e.w) s = some r → 0 ≤ r
  | [], s, r, hs, h => by cases h; exact hs
  | i :: is, s, r, hs, h => by
    rw [List.foldlM_cons] at h
    cases hi : g[i]? with
    | none => rw [hi] at h; cases h
    | some e =>
      rw [hi] at h
      exact foldlM_nonneg g hg is (s + e.w) r (add_nonneg hs (hg e (List.mem_of_getElem? hi))) h

/-- In a non-increasing list of non-negative weights whose nulls have weight 0, the entries from the count on have weight 0. -/
theorem tail_zero (g : List (Gauss K d)) (h0 : ∀ e ∈ g, 0 ≤ e.w) (h1 : ∀ e ∈ g, e.lm = none → e.w = 0)
    (h2 : g.Pairwise fun a b => b.w ≤ a.w) (i : Nat) (hi : i < g.length) (hc : cnt g ≤ i) : g[i].w = 0 := by
  by_contra hne
  have hpos : 0 < g[i].w := lt_of_le_of_ne (h0 _ (List.getElem_mem _)) (Ne.symm hne)
  have hall : ∀ e ∈ g.take (i + 1), e.lm.isSome = true := by
    intro e he
    obtain ⟨j, hj, rfl⟩ := List.getElem_of_mem he
    rw [List.length_take] at hj
    rw [List.getElem_take]
    by_contra hcon
    rw [Option.not_isSome_iff_eq_none] at hcon
    have hz := h1 _ (List.getElem_mem _) hcon
    rcases Nat.lt_or_ge j i with hji | hji
    · have := List.pairwise_iff_getElem.1 h2 j i (by omega) hi hji
      linarith
    · have : j = i := by omega
      subst this
      linarith
  have : cnt (g.take (i + 1)) = i + 1 := by
    unfold cnt
    rw [List.countP_eq_length.2 (by simpa using hall), List.length_take]
    omega
  have h3 : cnt (g.take (i + 1)) ≤ cnt g := by
    conv_rhs => rw [← List.take_append_drop (i + 1) g]
    rw [cnt_append]; omega
  omega

theorem reach_NN {m : GMix K d} (h : Reach (fun w => 0 ≤ w) true m) : NN m := by
  induction h with
  | empty => exact ⟨by simp [empty], by simp [empty], by simp [empty]⟩
  | add l w _ hw ih =>
    refine ⟨?_, ?_, by simp [addGaussian]⟩
    · intro x hx
      rcases List.mem_append.1 hx with hx | hx
      · exact ih.1 x hx
      · rw [List.mem_singleton] at hx; subst hx; exact hw
    · intro x hx hn
      rcases List.mem_append.1 hx with hx | hx
      · exact ih.2.1 x hx hn
      · rw [List.mem_singleton] at hx; subst hx; cases hn
  | addGM w _ _ hw ih1 ih2 =>
    refine ⟨?_, ?_, by simp [GM.addGM]⟩
    · intro x hx
      rcases List.mem_append.1 hx with hx | hx
      · exact ih1.1 x hx
      · rw [List.mem_map] at hx
        obtain ⟨y, hy, rfl⟩ := hx
        exact mul_nonneg (ih2.1 y hy) hw
    · intro x hx hn
      rcases List.mem_append.1 hx with hx | hx
      · exact ih1.2.1 x hx hn
      · rw [List.mem_map] at hx
        obtain ⟨y, hy, rfl⟩ := hx
        simp only at hn ⊢
        rw [ih2.2.1 y hy hn, zero_mul]
  | givenGM w _ _ hw ih1 ih2 => exact ⟨by simp [GM.addGM], by simp [GM.addGM], by simp [GM.addGM]⟩
  | multiply w _ hw ih =>
    refine ⟨?_, ?_, ?_⟩
    · intro x hx
      simp only [multiplyWeights, List.mem_map] at hx
      obtain ⟨y, hy, rfl⟩ := hx
      exact mul_nonneg (ih.1 y hy) hw
    · intro x hx hn
      simp only [multiplyWeights, List.mem_map] at hx
      obtain ⟨y, hy, rfl⟩ := hx
      simp only at hn ⊢
      rw [ih.2.1 y hy hn, zero_mul]
    · intro hs
      simp only [multiplyWeights] at hs ⊢
      rw [List.pairwise_map]
      exact (ih.2.2 hs).imp fun hab => mul_le_mul_of_nonneg_right hab hw
  | remove i _ e ih => exact removeGaussian_NN ih e
  | @addAt m m' i l w _ hw e ih =>
    unfold addGaussianAt at e
    cases hr : removeGaussian m i with
    | none => rw [hr] at e; cases e
    | some m1 =>
      rw [hr] at e
      cases e
      have h1 := removeGaussian_NN ih hr
      refine ⟨?_, ?_, by simp⟩
      · intro x hx
        rcases List.mem_or_eq_of_mem_set hx with hx | rfl
        · exact h1.1 x hx
        · exact hw
      · intro x hx hn
        rcases List.mem_or_eq_of_mem_set hx with hx | rfl
        · exact h1.2.1 x hx hn
        · cases hn
  | @setWeight m m' i w _ hw hst e ih =>
    unfold GM.setWeight at e
    obtain ⟨e0, he0, hs0⟩ := hst rfl
    rw [he0] at e
    cases e
    refine ⟨?_, ?_, by simp⟩
    · intro x hx
      rcases List.mem_or_eq_of_mem_set hx with hx | rfl
      · exact ih.1 x hx
      · exact hw
    · intro x hx hn
      rcases List.mem_or_eq_of_mem_set hx with hx | rfl
      · exact ih.2.1 x hx hn
      · simp only at hn; rw [hn] at hs0; cases hs0
  | @update m m' b i l w _ e ih =>
    unfold updateGaussian at e
    split at e
    · cases e; exact ⟨ih.1, ih.2.1, by simp⟩
    · cases h : m.g[i]? with
      | none => rw [h] at e; cases e
      | some e0 =>
        rw [h] at e
        simp only at e
        cases h2 : e0.lm with
        | none => rw [h2] at e; cases e; exact ⟨ih.1, ih.2.1, by simp⟩
        | some l0 =>
          rw [h2] at e
          cases e
          refine ⟨?_, ?_, by simp⟩
          · intro x hx
            rcases List.mem_or_eq_of_mem_set hx with hx | rfl
            · exact ih.1 x hx
            · simp only
              split
              · exact ih.1 e0 (List.mem_of_getElem? h)
              · rename_i hw; exact not_lt.1 hw
          · intro x hx hn
            rcases List.mem_or_eq_of_mem_set hx with hx | rfl
            · exact ih.2.1 x hx hn
            · cases hn
  | @merge m m' maha t f k _ e ih =>
    obtain ⟨s', e', h1, -⟩ := merge_inv (maha := maha) (t := t) (f := f) (fun s => NN s.2) m ⟨ih.1, ih.2.1, by simp⟩ (by
      intro k m1 i j b m' h hl hij hj he
      have h' : NN m1 := h
      exact merge2_NN (by omega) (by omega) (by omega) h' he)
    rw [e'] at e
    cases e
    exact h1
  | @prune m m' srt hs t k _ e ih =>
    obtain ⟨k', m2, e', h1, h2, -, -⟩ := prune_spec hs t m
    rw [e'] at e
    cases e
    have hmem : ∀ x ∈ m'.g, x ∈ m.g := fun x hx => (List.mem_filter.1 (h1.mem_iff.1 hx)).1
    exact ⟨fun x hx => ih.1 x (hmem x hx), fun x hx => ih.2.1 x (hmem x hx), fun _ => h2⟩
  | @sort m srt hs _ ih =>
    unfold sortByWeight
    split
    · exact ih
    · exact ⟨fun x hx => ih.1 x ((hs m.g).1.mem_iff.1 hx), fun x hx => ih.2.1 x ((hs m.g).1.mem_iff.1 hx), fun _ => (hs m.g).2⟩
  | @normalize m m' hm h0 e ih =>
    have hc := reach_count hm
    unfold normalizeWeights at e
    cases h : getWeightSum m with
    | none => rw [h] at e; cases e
    | some s =>
      rw [h] at e
      cases e
      have hs0 : 0 ≤ s := foldlM_nonneg m.g ih.1 _ 0 s le_rfl h
      have hget : ∀ (i : Nat) (hi : i < (m.g.mapIdx fun i e => if (i : Int) < m.n then { e with w := e.w / s } else e).length),
          ((m.g.mapIdx fun i e => if (i : Int) < m.n then { e with w := e.w / s } else e)[i]) =
            if (i : Int) < m.n then { m.g[i]'(by simpa using hi) with w := (m.g[i]'(by simpa using hi)).w / s } else m.g[i]'(by simpa using hi) := by
        intro i hi; simp
      refine ⟨?_, ?_, ?_⟩
      · intro x hx
        obtain ⟨i, hi, rfl⟩ := List.getElem_of_mem hx
        simp only at hi ⊢
        rw [hget i hi]
        have := ih.1 (m.g[i]'(by simpa using hi)) (List.getElem_mem _)
        split
        · exact div_nonneg this hs0
        · exact this
      · intro x hx
        obtain ⟨i, hi, rfl⟩ := List.getElem_of_mem hx
        simp only at hi ⊢
        rw [hget i hi]
        have := ih.2.1 (m.g[i]'(by simpa using hi)) (List.getElem_mem _)
        split
        · intro hn; simp only at hn ⊢; rw [this hn, zero_div]
        · exact this
      · intro hsrt
        simp only at hsrt ⊢
        have hp := ih.2.2 hsrt
        rw [List.pairwise_iff_getElem]
        intro i j hi hj hij
        rw [hget i hi, hget j hj]
        have hi' : i < m.g.length := by simpa using hi
        have hj' : j < m.g.length := by simpa using hj
        have hle := List.pairwise_iff_getElem.1 hp i j hi' hj' hij
        unfold CountOK at hc
        by_cases hjn : (j : Int) < m.n
        · rw [if_pos hjn, if_pos (by omega)]
          exact div_le_div_of_nonneg_right hle hs0
        · rw [if_neg hjn, tail_zero m.g ih.1 ih.2.1 hp j hj' (by omega)]
          split
          · exact div_nonneg (ih.1 _ (List.getElem_mem _)) hs0
          · exact ih.1 _ (List.getElem_mem _)

/-- C67 (`sortByWeight` always leaves the Gaussians in non-increasing order of weight) does not hold: `multiplyWeights` keeps the
flag that suppresses sorting, and a negative factor reverses the order. -/
theorem C67_violated : ∃ (m : GMix ℚ 1), Reach (fun _ => True) false m ∧
    ¬ (sortByWeight srtQ m).g.Pairwise fun a b => b.w ≤ a.w := by
  refine ⟨multiplyWeights (sortByWeight srtQ exM) (-1), .multiply _ (.sort srtQ isSort_insertion
    (.add _ _ (.add _ _ (.add _ _ .empty trivial) trivial) trivial)) trivial, ?_⟩
  have h : ((sortByWeight srtQ (multiplyWeights (sortByWeight srtQ exM) (-1))).g.map Gauss.w) = [-3, -1, -1 / 2] := by
    decide +kernel
  intro hp
  rw [← List.pairwise_map (R := fun a b => b ≤ a), h] at hp
  revert hp
  decide +kernel

/-- C67, what holds: in every history with non-negative weights and factors (and where the weight of a removed Gaussian is not set)
sorting, or a sort skipped because of the flag, leaves the entries in non-increasing order and loses none. -/
theorem C67_sorted_partial {m : GMix K d} (h : Reach (fun w => 0 ≤ w) true m) {srt : List (Gauss K d) → List (Gauss K d)}
    (hs : IsSort srt) : (sortByWeight srt m).g.Pairwise (fun a b => b.w ≤ a.w) ∧ (sortByWeight srt m).g.Perm m.g := by
  unfold sortByWeight
  split
  · rename_i hf
    exact ⟨(reach_NN h).2.2 hf, List.Perm.refl _⟩
  · exact ⟨(hs m.g).2, (hs m.g).1⟩

example : Reach (fun w : ℚ => 0 ≤ w) true (multiplyWeights (sortByWeight srtQ exM) 2) :=
  .multiply _ (.sort srtQ isSort_insertion (.add _ _ (.add _ _ (.add _ _ .empty (by norm_num)) (by norm_num)) (by norm_num))) (by norm_num)

/-- **C22**: `setWeight` changes the weight of the Gaussian it is called for and keeps the weight before as the previous one; its landmark, the other entries and the count stay. -/
theorem C22_setWeight (m m' : GMix K d) (i : Nat) (w : K) (e : setWeight m i w = some m') :
    getGaussianCount m' = getGaussianCount m ∧ m'.g.length = m.g.length ∧ (∀ j, j ≠ i → m'.g[j]? = m.g[j]?) ∧
      ∃ a b, m.g[i]? = some a ∧ m'.g[i]? = some b ∧ b.lm = a.lm ∧ b.w = w ∧ b.wp = a.w := by
  unfold setWeight at e
  cases h : m.g[i]? with
  | none => rw [h] at e; cases e
  | some a =>
    rw [h] at e
    cases e
    refine ⟨rfl, by simp, fun j hj => by simp [List.getElem?_set_ne (Ne.symm hj)], a, ⟨a.lm, w, a.w⟩, rfl, ?_, rfl, rfl, rfl⟩
    have := (List.getElem?_eq_some_iff.1 h).1
    simp [this]

/-- The weights 1 and 2, the second set to 5. -/
example : (setWeight (⟨2, [⟨none, 1, 0⟩, ⟨none, 2, 0⟩], false⟩ : GMix ℚ 1) 1 5).map (fun m => m.g.map fun e => (e.w, e.wp)) = some [(1, 0), (5, 2)] := by decide +kernel

end GMProps
end RFS
