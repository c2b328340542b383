import Verif.Model.BatchLik
import Verif.Lemmas.RFSBlock
import Mathlib.Tactic.Positivity

/-!
Lemmas about the measurement likelihoods of the batch optimisers.
-/

set_option linter.unusedSectionVars false

namespace RFS
namespace BatchLik
open Partition PartitionProps Assoc Murty MurtyLik MurtyBlockProps

variable {nM nZ : Nat}

section
variable {K : Type*} [LinearOrder K]

theorem not_empty_of_linked (L : Fin nM → Fin nZ → K) (thr : K) (i : Fin nM) (j : Fin nZ) (h : Linked L thr (.inl i) (.inr j)) : ¬ EmptyRow L thr i := by
  intro he
  cases h with
  | col _ j' _ h _ => exact absurd h (not_lt.2 (he j'))

/-- The partitions: a sum over associations factors, and every partition either holds exactly the rows and columns without entry or is linked. -/
theorem decomp (L : Fin nM → Fin nZ → K) (thr : K) (ncc : Nat) (lab : Fin nM ⊕ Fin nZ → Nat) (hcomp : IsComponents L thr ncc lab) (F : Fin nM → Fin nZ → ℝ)
    (hF : ∀ m z, ¬ Linked L thr (.inl m) (.inr z) → F m z = 0) (miss : Fin nM → ℝ) (clut : Fin nZ → ℝ) :
    ∃ o, partition ncc lab none = some o ∧
      total F miss clut = ∏ p ∈ Finset.range o.nP, S F miss clut (o.I p).toFinset (o.J p).toFinset ∧
      (∀ f : Fin nM → ℝ, ∑ m, f m = ∑ p ∈ Finset.range o.nP, ((o.I p).map f).sum) ∧ (∀ f : Fin nZ → ℝ, ∑ z, f z = ∑ p ∈ Finset.range o.nP, ((o.J p).map f).sum) ∧
      ∀ p < o.nP, (o.I p).Nodup ∧ (o.J p).Nodup ∧
        ((o.zero = some p ∧ (∀ i, i ∈ o.I p ↔ EmptyRow L thr i) ∧ (∀ j, j ∈ o.J p ↔ EmptyCol L thr j)) ∨
          (o.zero ≠ some p ∧ o.I p ≠ [] ∧ o.J p ≠ [] ∧ ∀ i ∈ o.I p, ∀ j ∈ o.J p, Linked L thr (.inl i) (.inr j))) := by
  classical
  obtain ⟨o, ho, hI, hJ, hnd, hcross⟩ := C11_block_decomposition hcomp
  obtain ⟨o', ho', hz, -, -, hlink, hget⟩ := C12_zero_partition hcomp
  rw [ho] at ho'
  cases ho'
  have hsame : ∀ u v, Linked L thr u v → ∀ p < o.nP, (match u with | .inl i => i ∈ o.I p | .inr j => j ∈ o.J p) →
      (match v with | .inl i => i ∈ o.I p | .inr j => j ∈ o.J p) := by
    intro u v h
    induction h with
    | refl v => exact fun p _ h => h
    | col i j v hij _ ih =>
      intro p hp hi
      obtain ⟨q, ⟨hq, hjq⟩, -⟩ := hJ j
      by_cases hpq : p = q
      · subst hpq; exact ih p hp hjq
      · exact absurd hij (not_lt.2 (hcross p hp q hq hpq i hi j hjq))
    | row i j v hij _ ih =>
      intro p hp hj
      obtain ⟨q, ⟨hq, hiq⟩, -⟩ := hI i
      by_cases hpq : q = p
      · subst hpq; exact ih q hp hiq
      · exact absurd hij (not_lt.2 (hcross q hq p hp hpq i hiq j hj))
  have e1 : (Finset.range o.nP).biUnion (fun p => (o.I p).toFinset) = Finset.univ := by
    ext i
    simp only [Finset.mem_biUnion, Finset.mem_range, List.mem_toFinset, Finset.mem_univ, iff_true]
    obtain ⟨p, h, -⟩ := hI i
    exact ⟨p, h⟩
  have e2 : (Finset.range o.nP).biUnion (fun p => (o.J p).toFinset) = Finset.univ := by
    ext j
    simp only [Finset.mem_biUnion, Finset.mem_range, List.mem_toFinset, Finset.mem_univ, iff_true]
    obtain ⟨p, h, -⟩ := hJ j
    exact ⟨p, h⟩
  have d1 : ∀ p < o.nP, ∀ q < o.nP, p ≠ q → Disjoint (o.I p).toFinset (o.I q).toFinset := by
    intro p hp q hq hpq
    rw [Finset.disjoint_left]
    intro i h1 h2
    obtain ⟨r, -, hu⟩ := hI i
    exact hpq ((hu p ⟨hp, List.mem_toFinset.1 h1⟩).trans (hu q ⟨hq, List.mem_toFinset.1 h2⟩).symm)
  have d2 : ∀ p < o.nP, ∀ q < o.nP, p ≠ q → Disjoint (o.J p).toFinset (o.J q).toFinset := by
    intro p hp q hq hpq
    rw [Finset.disjoint_left]
    intro i h1 h2
    obtain ⟨r, -, hu⟩ := hJ i
    exact hpq ((hu p ⟨hp, List.mem_toFinset.1 h1⟩).trans (hu q ⟨hq, List.mem_toFinset.1 h2⟩).symm)
  refine ⟨o, ho, ?_, ?_, ?_, fun p hp => ⟨(hnd p hp).1, (hnd p hp).2, ?_⟩⟩
  · rw [← S_blocks F miss clut (fun p => (o.I p).toFinset) (fun p => (o.J p).toFinset) o.nP d1 d2, ← S_univ, e1, e2]
    intro p hp q hq hpq m hm z hz
    refine hF m z fun h => ?_
    have h1 := hsame _ _ h p hp (List.mem_toFinset.1 hm)
    obtain ⟨r, -, hu⟩ := hJ z
    exact hpq ((hu p ⟨hp, h1⟩).trans (hu q ⟨hq, List.mem_toFinset.1 hz⟩).symm)
  · intro f
    rw [← e1, Finset.sum_biUnion (fun p hp q hq h => d1 p (Finset.mem_range.1 hp) q (Finset.mem_range.1 hq) h)]
    refine Finset.sum_congr rfl fun p hp => ?_
    exact List.sum_toFinset _ (hnd p (Finset.mem_range.1 hp)).1
  · intro f
    rw [← e2, Finset.sum_biUnion (fun p hp q hq h => d2 p (Finset.mem_range.1 hp) q (Finset.mem_range.1 hq) h)]
    refine Finset.sum_congr rfl fun p hp => ?_
    exact List.sum_toFinset _ (hnd p (Finset.mem_range.1 hp)).2
  · by_cases hzero : o.zero = some p
    · left
      have hzp := hz p hp (by simp [getPartition, hzero])
      exact ⟨hzero, hzp.1, hzp.2⟩
    · right
      obtain ⟨hr0, hc0, -, hrc, -⟩ := hlink p hp (by simp [getPartition, hzero])
      exact ⟨hzero, hr0, hc0, hrc⟩

end

/-! ### Results of Murty's algorithm -/

section
variable {K : Type*} [Field K] [LinearOrder K] [IsStrictOrderedRing K]

/-- The loop over the calls, with what they return given: `rd` reads something off an assignment. -/
theorem more_val {n : Nat} {β : Type*} (rd : (Fin n → Fin n) → β) (Q : PQ K n) (prm : Prm K n) (bot H' : K) : ∀ (k : Nat) (st : St K n Q) (L : List (β × K)),
    (∀ x ∈ L, bot ≤ x.2) →
    (∀ i, match L[i]? with
      | some x => ∃ r a, call Q prm st i = .found r a x.2 ∧ rd a = x.1
      | none => call Q prm st i = .noMore ∨ ∃ r a s, call Q prm st i = .found r a s ∧ s ≤ H') →
    ∃ res ext, more Q prm bot k st = some (res ++ ext) ∧ res.map (fun x => (rd x.1, x.2)) = L.take k ∧ (∀ x ∈ ext, bot ≤ x.2 ∧ x.2 ≤ H') ∧ (res ++ ext).length ≤ k
  | 0, st, L, _, _ => ⟨[], [], by simp [more], by simp, by simp, by simp⟩
  | k + 1, st, [], hb, hcall => by
    have h0 := hcall 0
    simp only [List.getElem?_nil] at h0
    unfold call at h0
    unfold more
    cases hf : findNextBest Q prm st with
    | mk r st' =>
      rw [hf] at h0
      rcases h0 with h0 | ⟨r', a, s, h0, hs⟩
      · simp only at h0
        subst h0
        exact ⟨[], [], by simp⟩
      · simp only at h0
        subst h0
        simp only
        split
        · exact ⟨[], [], by simp⟩
        · rename_i hsb
          obtain ⟨res, ext, h1, h2, h3, h4⟩ := more_val rd Q prm bot H' k st' [] (by simp) (fun i => by
            have h1 := hcall (i + 1)
            simp only [List.getElem?_nil] at h1 ⊢
            rw [call, hf] at h1
            exact h1)
          have hres : res = [] := by simpa using h2
          subst hres
          refine ⟨[], (a, s) :: ext, by rw [h1]; simp, by simp, ?_, by simpa using h4⟩
          intro x hx
          rcases List.mem_cons.1 hx with rfl | hx
          · exact ⟨not_lt.1 hsb, hs⟩
          · exact h3 x hx
  | k + 1, st, x :: L, hb, hcall => by
    have h0 := hcall 0
    simp only [List.getElem?_cons_zero] at h0
    unfold call at h0
    unfold more
    cases hf : findNextBest Q prm st with
    | mk r st' =>
      rw [hf] at h0
      obtain ⟨r', a, h0, ha⟩ := h0
      simp only at h0
      subst h0
      simp only
      rw [if_neg (not_lt.2 (hb x (by simp)))]
      obtain ⟨res, ext, h1, h2, h3, h4⟩ := more_val rd Q prm bot H' k st' L (fun σ hσ => hb σ (List.mem_cons_of_mem _ hσ)) (fun i => by
        have h1 := hcall (i + 1)
        simp only [List.getElem?_cons_succ] at h1 ⊢
        rw [call, hf] at h1
        exact h1)
      refine ⟨(a, x.2) :: res, ext, by rw [h1]; rfl, ?_, h3, by simpa using h4⟩
      rw [List.map_cons, h2, List.take_succ_cons, ha]

variable {nR nC : Nat} {Lg : Fin nR → Fin nC → K} {bot big lo hi : K}

theorem oneToOne_none : OneToOne (fun _ : Fin nR => (none : Option (Fin nC))) := fun _ _ _ h _ => by cases h

theorem value_none (Lg : Fin nR → Fin nC → K) : value Lg (fun _ => 0) (fun _ => 0) (fun _ => none) = 0 := by
  unfold value
  simp

/-- What `results` is: the best associations in order, and possibly some more of negligible weight. -/
theorem results_spec (Q : PQ K (nR + nC)) (h : Ranges Lg (fun _ => 0) (fun _ => 0) bot big lo hi) (fuel : Nat) (hf : (nR + nC) * (nR + nC + 1) < fuel)
    (hgap : bot + (nR + nC : ℕ) * hi + 2 * (nR + nC : ℕ) * (1 / 10 ^ 12) < 0) :
    ∃ (L : List (Fin nR → Option (Fin nC))) (a0 : Fin (nR + nC) → Fin (nR + nC)) (s0 : K) (res ext : List ((Fin (nR + nC) → Fin (nR + nC)) × K)),
      L.Nodup ∧ (∀ A ∈ L, OneToOne A) ∧
      (∀ A, OneToOne A → bot + (nR + nC : ℕ) * hi + 2 * (nR + nC : ℕ) * (1 / 10 ^ 12) < value Lg (fun _ => 0) (fun _ => 0) A → A ∈ L) ∧
      results Q Lg bot big fuel = some ((a0, s0), res ++ ext) ∧
      (((a0, s0) :: res).map fun x => (read x.1, x.2)) = (L.map fun A => (A, value Lg (fun _ => 0) (fun _ => 0) A)).take 201 ∧
      (∀ x ∈ ext, bot ≤ x.2 ∧ x.2 ≤ bot + (nR + nC : ℕ) * hi + 2 * (nR + nC : ℕ) * (1 / 10 ^ 12)) ∧ (res ++ ext).length ≤ 200 ∧ bot < s0 := by
  set ε : K := (nR + nC : ℕ) * (1 / 10 ^ 12) with hε
  have hε0 : 0 ≤ ε := by positivity
  set H : K := bot + (nR + nC : ℕ) * hi + ε with hHdef
  have hδ : bot + (nR + nC : ℕ) * hi + 2 * (nR + nC : ℕ) * (1 / 10 ^ 12) = H + ε := by rw [hHdef, hε]; ring
  rw [hδ] at hgap ⊢
  obtain ⟨L, hnd, hL, -, hall, hcall⟩ := C113_each_association_once (H := H) Q h fuel hf le_rfl
  have hbH : bot ≤ H := by
    have : 0 ≤ ((nR + nC : ℕ) : K) * hi := mul_nonneg (Nat.cast_nonneg _) h.hi_ge
    rw [hHdef]; linarith
  have hne : (fun _ => none) ∈ L := hall _ oneToOne_none (by rw [value_none]; exact hgap)
  cases hLe : L with
  | nil => rw [hLe] at hne; cases hne
  | cons A0 L' =>
    have hc0 := hcall 0
    rw [hLe, List.getElem?_cons_zero] at hc0
    obtain ⟨a0, hc0, -, hr0⟩ := hc0
    unfold call at hc0
    cases hfn : findNextBest Q (Prm.make (extMatrix Lg (fun _ => 0) (fun _ => 0) bot) big (some (nR, nC)) fuel) (start Q) with
    | mk r st =>
      rw [hfn] at hc0
      simp only at hc0
      obtain ⟨res, ext, h1, h2, h3, h4⟩ := more_val read Q (Prm.make (extMatrix Lg (fun _ => 0) (fun _ => 0) bot) big (some (nR, nC)) fuel) bot (H + ε) 200 st
        (L'.map fun A => (A, value Lg (fun _ => 0) (fun _ => 0) A)) (by
          intro x hx
          obtain ⟨A, hA, rfl⟩ := List.mem_map.1 hx
          exact hbH.trans (hL A (by rw [hLe]; exact List.mem_cons_of_mem _ hA)).2.le) (by
          intro i
          have h1 := hcall (i + 1)
          rw [hLe, List.getElem?_cons_succ, call, hfn] at h1
          rw [List.getElem?_map]
          cases hi : L'[i]? with
          | some A =>
            rw [hi] at h1
            obtain ⟨a, h2, -, h3⟩ := h1
            exact ⟨_, a, h2, h3⟩
          | none =>
            rw [hi] at h1
            exact h1)
      refine ⟨A0 :: L', a0, value Lg (fun _ => 0) (fun _ => 0) A0, res, ext, hLe ▸ hnd, fun A hA => (hL A (by rw [hLe]; exact hA)).1, ?_, ?_, ?_, h3, h4, ?_⟩
      · intro A h5 h6
        rw [← hLe]
        exact hall A h5 h6
      · unfold results
        simp only [hfn, hc0, h1, Option.map_some]
      · rw [List.map_cons, h2, List.map_cons, List.take_succ_cons, hr0]
      · exact lt_of_le_of_lt hbH (hL A0 (by rw [hLe]; simp)).2

/-- The scores are totals. -/
theorem more_total {n : Nat} (Q : PQ K n) (prm : Prm K n) (bot : K) (T : (Fin n → Fin n) → K) : ∀ (k : Nat) (st : St K n Q) (l : List ((Fin n → Fin n) × K)),
    (∀ i r a s, call Q prm st i = .found r a s → s = T a) → more Q prm bot k st = some l → ∀ x ∈ l, x.2 = T x.1
  | 0, st, l, _, h => by
    simp only [more, Option.some.injEq] at h
    subst h
    simp
  | k + 1, st, l, hT, h => by
    unfold more at h
    cases hf : findNextBest Q prm st with
    | mk r st' =>
      rw [hf] at h
      cases r with
      | ub => cases h
      | noMore =>
        simp only [Option.some.injEq] at h
        subst h
        simp
      | found r a s =>
        simp only at h
        split at h
        · simp only [Option.some.injEq] at h
          subst h
          simp
        · cases hm : more Q prm bot k st' with
          | none => rw [hm] at h; cases h
          | some l' =>
            rw [hm] at h
            simp only [Option.map_some, Option.some.injEq] at h
            subst h
            intro x hx
            rcases List.mem_cons.1 hx with rfl | hx
            · exact hT 0 r a s (by rw [call, hf])
            · exact more_total Q prm bot T k st' l' (fun i r a s hc => hT (i + 1) r a s (by rw [call, hf]; exact hc)) hm x hx

theorem results_total (Q : PQ K (nR + nC)) (h : Ranges Lg (fun _ => 0) (fun _ => 0) bot big lo hi) (fuel : Nat) (hf : (nR + nC) * (nR + nC + 1) < fuel)
    {r0 : (Fin (nR + nC) → Fin (nR + nC)) × K} {l : List ((Fin (nR + nC) → Fin (nR + nC)) × K)} (hr : results Q Lg bot big fuel = some (r0, l)) :
    ∀ x ∈ r0 :: l, x.2 = ∑ i, extMatrix Lg (fun _ => 0) (fun _ => 0) bot i (x.1 i) := by
  have hE := ext_make Lg (fun _ => 0) (fun _ => 0) bot big lo hi fuel h.rows h.cols h.lik h.miss h.clut h.bot_le h.lo_le h.hi_ge h.big
  obtain ⟨L, -, -, -, -, h5⟩ := runs_all hE le_rfl hf Q
  unfold results at hr
  rw [make_block] at hr
  simp only at hr
  have hT : ∀ i r a s, call Q (⟨extMatrix Lg (fun _ => 0) (fun _ => 0) bot, big, nR, nC, fuel⟩ : Prm K (nR + nC)) (start Q) i = .found r a s →
      s = ∑ i, extMatrix Lg (fun _ => 0) (fun _ => 0) bot i (a i) := by
    intro i r a s hc
    have h6 := h5 i
    split at h6
    · rw [hc] at h6
      cases h6
      rfl
    · rcases h6 with h6 | ⟨r', a', s', h6, -, -, h7⟩
      · rw [hc] at h6; cases h6
      · rw [hc] at h6
        cases h6
        exact h7
  cases hfn : findNextBest Q (⟨extMatrix Lg (fun _ => 0) (fun _ => 0) bot, big, nR, nC, fuel⟩ : Prm K (nR + nC)) (start Q) with
  | mk r st =>
    rw [hfn] at hr
    cases r with
    | ub => cases hr
    | noMore => cases hr
    | found r a s =>
      simp only at hr
      cases hm : more Q (⟨extMatrix Lg (fun _ => 0) (fun _ => 0) bot, big, nR, nC, fuel⟩ : Prm K (nR + nC)) bot 200 st with
      | none => rw [hm] at hr; cases hr
      | some l' =>
        rw [hm] at hr
        simp only [Option.map_some, Option.some.injEq, Prod.mk.injEq] at hr
        obtain ⟨rfl, rfl⟩ := hr
        intro x hx
        rcases List.mem_cons.1 hx with rfl | hx
        · exact hT 0 r a s (by rw [call, hfn])
        · exact more_total Q _ bot _ 200 st l' (fun i r a s hc => hT (i + 1) r a s (by rw [call, hfn]; exact hc)) hm x hx

end

/-- The sum of the exponentials. -/
theorem sumLoop_more {n : Nat} (Q : PQ ℝ n) (prm : Prm ℝ n) (bot : ℝ) : ∀ (k : Nat) (st : St ℝ n Q) (acc : ℝ),
    sumLoop Q prm bot k st acc = (more Q prm bot k st).map fun l => acc + (l.map fun x => Real.exp x.2).sum
  | 0, st, acc => by simp [sumLoop, more]
  | k + 1, st, acc => by
    unfold sumLoop more
    cases hf : findNextBest Q prm st with
    | mk r st' =>
      cases r with
      | ub => rfl
      | noMore => simp
      | found r a s =>
        simp only
        split
        · simp
        · rw [sumLoop_more Q prm bot k st', Option.map_map]
          congr 1
          funext l
          simp [add_assoc]

theorem partition_results {nR nC : Nat} (Q : PQ ℝ (nR + nC)) (Lg : Fin nR → Fin nC → ℝ) (bot big : ℝ) (fuel : Nat) {a0 : Fin (nR + nC) → Fin (nR + nC)} {s0 : ℝ}
    {l : List ((Fin (nR + nC) → Fin (nR + nC)) × ℝ)} (h : results Q Lg bot big fuel = some ((a0, s0), l)) (hs : bot ≤ s0) :
    MurtyLik.partition Q Lg (fun _ => 0) (fun _ => 0) bot big fuel 201 = some (Real.exp s0 + (l.map fun x => Real.exp x.2).sum) := by
  unfold results at h
  simp only at h
  unfold MurtyLik.partition
  rw [sumLoop_more]
  unfold more
  cases hf : findNextBest Q (Prm.make (extMatrix Lg (fun _ => 0) (fun _ => 0) bot) big (some (nR, nC)) fuel) (start Q) with
  | mk r st =>
    rw [hf] at h
    cases r with
    | ub => cases h
    | noMore => cases h
    | found r a s =>
      simp only at h ⊢
      cases hm : more Q (Prm.make (extMatrix Lg (fun _ => 0) (fun _ => 0) bot) big (some (nR, nC)) fuel) bot 200 st with
      | none => rw [hm] at h; cases h
      | some l' =>
        rw [hm] at h
        simp only [Option.map_some, Option.some.injEq, Prod.mk.injEq] at h
        obtain ⟨⟨rfl, rfl⟩, rfl⟩ := h
        rw [if_neg (not_lt.2 hs)]
        simp

theorem partVal_eq (s0 : ℝ) (l : List ℝ) : partVal s0 l = Real.log (Real.exp s0 + (l.map Real.exp).sum) := by
  have h1 : Real.exp s0 + (l.map Real.exp).sum = Real.exp s0 * (1 + (l.map fun s => Real.exp (s - s0)).sum) := by
    rw [mul_add, mul_one, ← List.sum_map_mul_left]
    congr 2
    refine List.map_congr_left fun s _ => ?_
    rw [← Real.exp_add]
    congr 1
    ring
  have h2 : 0 ≤ (l.map fun s => Real.exp (s - s0)).sum := List.sum_nonneg fun x hx => by
    obtain ⟨s, -, rfl⟩ := List.mem_map.1 hx
    exact (Real.exp_pos _).le
  rw [h1, Real.log_mul (Real.exp_pos _).ne' (by linarith), Real.log_exp]
  rfl

/-! ### Stored gradients -/

section
variable {K : Type*} [Field K] [LinearOrder K] [IsStrictOrderedRing K] {nR nC : Nat}

theorem look_some (d : Fin nR → Fin nC → K) (a : Fin (nR + nC) → Fin (nR + nC)) (r : Fin nR) :
    look (fun i j => some (d i j)) a r = some (match read a r with | some c => d r c | none => 0) := by
  unfold look MurtyBlockProps.read
  split <;> rfl

theorem lookDiff_some (d : Fin nR → Fin nC → K) (a0 a : Fin (nR + nC) → Fin (nR + nC)) (r : Fin nR) :
    lookDiff (fun i j => some (d i j)) a0 a r = some ((match read a r with | some c => d r c | none => 0) - match read a0 r with | some c => d r c | none => 0) := by
  unfold lookDiff
  split
  · rename_i h
    have : read a r = read a0 r := by unfold MurtyBlockProps.read; simp only [h]
    rw [this, sub_self]
  · rw [look_some, look_some]
    rfl

theorem rowDiffs_some (d : Fin nR → Fin nC → K) (a0 a : Fin (nR + nC) → Fin (nR + nC)) : rowDiffs (fun i j => some (d i j)) a0 a =
    some fun r => (match read a r with | some c => d r c | none => 0) - match read a0 r with | some c => d r c | none => 0 := by
  unfold rowDiffs
  rw [if_pos fun r => by rw [lookDiff_some]; rfl]
  congr 1
  funext r
  rw [lookDiff_some]
  rfl

theorem allDiffs_some (d : Fin nR → Fin nC → K) (a0 : Fin (nR + nC) → Fin (nR + nC)) : ∀ l, allDiffs (fun i j => some (d i j)) a0 l =
    some (l.map fun x => ((fun r => (match read x.1 r with | some c => d r c | none => 0) - match read a0 r with | some c => d r c | none => 0), x.2))
  | [] => rfl
  | (a, s) :: l => by
    unfold allDiffs
    rw [rowDiffs_some, allDiffs_some d a0 l]
    rfl

theorem firsts_some (d : Fin nR → Fin nC → K) (a0 : Fin (nR + nC) → Fin (nR + nC)) (s0 bot : K) (h : bot < s0) : firsts (fun i j => some (d i j)) a0 s0 bot =
    some fun r => match read a0 r with | some c => d r c | none => 0 := by
  unfold firsts
  rw [if_neg (not_le.2 h), if_pos fun r => by rw [look_some]; rfl]
  congr 1
  funext r
  rw [look_some]
  rfl

end

theorem foldlM_some {α β : Type*} (f : β → α → Option β) (g : β → α → β) : ∀ (l : List α) (b : β), (∀ b, ∀ a ∈ l, f b a = some (g b a)) → l.foldlM f b = some (l.foldl g b)
  | [], b, _ => rfl
  | a :: l, b, h => by
    rw [List.foldlM_cons, h b a (by simp)]
    exact foldlM_some f g l (g b a) fun b a ha => h b a (List.mem_cons_of_mem _ ha)

end BatchLik
end RFS
