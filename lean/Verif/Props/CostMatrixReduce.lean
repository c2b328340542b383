import Verif.Lemmas.CostMatrixReduce
import Mathlib.Data.Rat.Floor
import Mathlib.Tactic.FinCases

/-!
Properties C08, C09 and C10: `CostMatrix::reduce`, `CostMatrix::getCostMatrixReduced` and
`HungarianMethod::run<CostMatrix>`.

The specification: `limited` is the caller's matrix with all entries moved to the limit that lie beyond it; an
assignment is a bijection of `Fin n` and its value the sum of the entries it selects; `Better` says which of two values
the caller prefers.
-/

set_option linter.unusedSectionVars false

namespace RFS
namespace CostMatrixReduceProps
open CostMat

variable {K : Type*} [Field K] [LinearOrder K] [IsStrictOrderedRing K] {n : Nat}

/-- Specification: the matrix with the limit applied (`minVal`: a lower limit, otherwise an upper limit). -/
def limited (C : Fin n → Fin n → K) (lim : K) (minVal : Bool) : Fin n → Fin n → K := fun i j =>
  if minVal then max (C i j) lim else min (C i j) lim

/-- Specification: the value of an assignment. -/
def total {m : Nat} (C : Fin m → Fin m → K) (σ : Fin m → Fin m) : K := ∑ x, C x (σ x)

/-- Specification: with a lower limit large values are preferred, with an upper limit small ones. -/
def Better (minVal : Bool) (a b : K) : Prop := if minVal then b ≤ a else a ≤ b

theorem limited_eq (C : Fin n → Fin n → K) (lim : K) (mv : Bool) : clamp lim mv C = limited C lim mv := by
  funext i j
  unfold clamp limited
  cases mv
  · by_cases h : lim ≤ C i j
    · simp [beyond, h]
    · simp [beyond, h, le_of_lt (not_le.1 h)]
  · by_cases h : C i j ≤ lim
    · simp [beyond, h]
    · simp [beyond, h, le_of_lt (not_le.1 h)]

/-- **C09**, index bookkeeping. For every matrix, limit and direction `reduce` on a fresh object passes its assertion, the
stored matrix becomes the limited one, and what `getCostMatrixReduced` hands out satisfies: each row is either fixed or
listed once, each column is either the target of exactly one fixed row or listed once, both lists have the reported
length, the reduced matrix holds the limited entries at the listed indices, and the score is that of the fixed pairs. -/
theorem C09_reduce_partitions (C : Fin n → Fin n → K) (lim : K) (mv : Bool) :
    ∃ cm r, reduce (mk C) lim mv = some cm ∧ getReduced cm = .ok r ∧ cm.C = limited C lim mv ∧
      (∀ i, i ∈ r.iMap ↔ r.fixed i = none) ∧ r.iMap.Nodup ∧ r.iMap.length = r.size ∧
      (∀ j, j ∈ r.jMap ↔ ∀ i, r.fixed i ≠ some j) ∧ r.jMap.Nodup ∧ r.jMap.length = r.size ∧
      (∀ i i' j, r.fixed i = some j → r.fixed i' = some j → i = i') ∧
      r.score = ∑ i, (match r.fixed i with | none => 0 | some j => limited C lim mv i j) ∧
      (0 < r.size → ∃ Cr : Fin r.size → Fin r.size → K, r.C = some ⟨r.size, Cr⟩ ∧
        ∀ a b i j, r.iMap[a.val]? = some i → r.jMap[b.val]? = some j → Cr a b = limited C lim mv i j) := by
  obtain ⟨cm, r, g, h1, h2, h3, h4, h5, h6, h7, h8, h9, h10, h11, Cr, h12, h13⟩ := reduce_core C lim mv
  rw [limited_eq] at h3 h9 h13
  refine ⟨cm, r, h1, h2, h3, ?_, ?_, ?_, ?_, ?_, ?_, ?_, ?_, ?_⟩
  · intro i; rw [h5, mem_unfixed]
  · rw [h5]; exact nodup_unfixed _
  · rw [h5]; exact h7
  · intro j
    rw [h6, mem_unfixed]
    constructor
    · intro h i hc
      rw [h4, h] at hc; cases hc
    · intro h
      by_contra hc
      obtain ⟨i, hi⟩ := Option.ne_none_iff_exists'.1 hc
      exact h i ((h4 _ _).2 hi)
  · rw [h6]; exact nodup_unfixed _
  · rw [h6]; exact h8
  · intro i i' j hi hi'
    rw [h4] at hi hi'
    rw [hi] at hi'; exact Option.some.inj hi'
  · exact h9
  · intro h; exact ⟨Cr, h12 h, h13⟩

/-- **C09**, optimality. Every assignment `τ` of the reduced matrix merges with the fixed pairs to a complete assignment
of the limited matrix whose value is the fixed score plus the value of `τ`; and for every assignment of the limited matrix
some `τ` does at least as well. Hence an optimal `τ` merges to an optimal assignment. -/
theorem C09_reduce_keeps_optimum (C : Fin n → Fin n → K) (lim : K) (mv : Bool) :
    ∃ cm r, reduce (mk C) lim mv = some cm ∧ getReduced cm = .ok r ∧
      ∃ Cr : Fin r.size → Fin r.size → K, (0 < r.size → r.C = some ⟨r.size, Cr⟩) ∧
      (∀ τ : Fin r.size → Fin r.size, Function.Bijective τ →
        ∃ s : Fin n → Fin n, Function.Bijective s ∧ (∀ i j, r.fixed i = some j → s i = j) ∧
          (∀ (a : Fin r.size) i j, r.iMap[a.val]? = some i → r.jMap[(τ a).val]? = some j → s i = j) ∧
          total (limited C lim mv) s = r.score + total Cr τ) ∧
      (∀ σ : Fin n → Fin n, Function.Bijective σ → ∃ τ : Fin r.size → Fin r.size, Function.Bijective τ ∧
        Better mv (r.score + total Cr τ) (total (limited C lim mv) σ)) := by
  obtain ⟨cm, r, g, h1, h2, h3, h4, h5, h6, h7, h8, h9, h10, h11, Cr, h12, h13⟩ := reduce_core C lim mv
  rw [limited_eq] at h3 h9 h11 h13
  have hCr : ∀ (a b : Fin r.size), Cr a b =
      limited C lim mv ((unfixed r.fixed).get (a.cast h7.symm)) ((unfixed g).get (b.cast h8.symm)) := by
    intro a b
    apply h13
    · rw [h5]; simp [h7]
    · rw [h6]; simp [h8]
  refine ⟨cm, r, h1, h2, Cr, h12, ?_, ?_⟩
  · intro τ hτ
    obtain ⟨s, g1, g2, g3, g4⟩ := merge_spec h4 h7 h8 τ hτ
    refine ⟨s, g1, g3, ?_, ?_⟩
    · intro a i j hi hj
      rw [h5, List.getElem?_eq_some_iff] at hi
      rw [h6, List.getElem?_eq_some_iff] at hj
      obtain ⟨_, hi⟩ := hi
      obtain ⟨_, hj⟩ := hj
      have := g4 a
      simp only [List.get_eq_getElem, Fin.val_cast] at this
      rw [hi, hj] at this
      exact this
    · unfold total
      rw [total_split _ s g3 h7, h9]
      congr 1
      apply Finset.sum_congr rfl
      intro a _
      rw [hCr, g4]
  · intro σ hσ
    obtain ⟨σ', g1, g2⟩ := h11 (Equiv.ofBijective σ hσ)
    obtain ⟨τ, t1, t2⟩ := restrict h4 σ' g2 h7 h8
    refine ⟨τ, t1, ?_⟩
    have e : r.score + total Cr τ = ∑ i, limited C lim mv i (σ' i) := by
      rw [total_split _ σ' g2 h7, h9]
      congr 1
      apply Finset.sum_congr rfl
      intro a _
      rw [hCr, t2]
    rw [e]
    simpa [Better, NoWorse, total] using g1

/-- **C09**, through the solver: on a reduced matrix `HungarianMethod::run` writes a complete assignment, reports its value
in the limited matrix, and no assignment is better by more than `n * 1e-12`. (What it returns is C08.) -/
theorem C09_run_reduced (C : Fin n → Fin n → K) (lim : K) (mv : Bool) (fuel : Nat) (hf : n * (n + 1) < fuel) :
    ∃ cm, reduce (mk C) lim mv = some cm ∧ ∃ flag, ∃ s : Fin n → Fin n, Function.Bijective s ∧
      runCM cm mv fuel = .ret flag (fun i => some (s i)) (total (limited C lim mv) s) ∧
      ∀ σ : Fin n → Fin n, Function.Bijective σ →
        if mv then total (limited C lim mv) σ ≤ total (limited C lim mv) s + n * (1 / 10 ^ 12)
        else total (limited C lim mv) s ≤ total (limited C lim mv) σ + n * (1 / 10 ^ 12) := by
  obtain ⟨cm, r, g, h1, h2, h3, h4, h5, h6, h7, h8, h9, h10, h11, Cr, h12, h13⟩ := reduce_core C lim mv
  rw [limited_eq] at h3 h9 h11 h13
  have hCr : ∀ (a b : Fin r.size), Cr a b =
      limited C lim mv ((unfixed r.fixed).get (a.cast h7.symm)) ((unfixed g).get (b.cast h8.symm)) := by
    intro a b
    apply h13
    · rw [h5]; simp [h7]
    · rw [h6]; simp [h8]
  have hsz : r.size ≤ n := by
    have := List.length_filter_le (fun i => (r.fixed i).isNone) (List.finRange n)
    rw [← h7]; simpa using this
  have hf' : r.size * (r.size + 1) < fuel := lt_of_le_of_lt (Nat.mul_le_mul hsz (by omega)) hf
  obtain ⟨τ, q1, q2, q3, -⟩ := Hungarian.run_spec Cr mv fuel hf'
  obtain ⟨s, g1, g2, g3, g4⟩ := merge_spec h4 h7 h8 τ q2
  have hval : total (limited C lim mv) s = r.score + ∑ a, Cr a (τ a) := by
    unfold total
    rw [total_split _ s g3 h7, h9]
    congr 1
    apply Finset.sum_congr rfl
    intro a _
    rw [hCr, g4]
  refine ⟨cm, h1, decide (r.size = 0), s, g1, ?_, ?_⟩
  · unfold runCM
    rw [h2]
    simp only
    by_cases hs : 1 < r.size
    · rw [if_pos hs, h12 (by omega)]
      simp only [q1]
      congr 1
      · symm; simp; omega
      · funext i; rw [h5, h6]; exact g2 i
      · exact hval.symm
    · have h0 : r.size = 0 := by omega
      rw [if_neg hs, if_pos h0]
      congr 1
      · simp [h0]
      · funext i
        cases hfi : r.fixed i with
        | some j => rw [g3 i j hfi]
        | none =>
          have : i ∈ unfixed r.fixed := mem_unfixed.2 hfi
          rw [List.eq_nil_of_length_eq_zero (h7.trans h0)] at this
          cases this
      · rw [hval]
        have : IsEmpty (Fin r.size) := by rw [h0]; exact Fin.isEmpty
        rw [Fintype.sum_empty, add_zero]
  · intro σ hσ
    obtain ⟨σ', e1, e2⟩ := h11 (Equiv.ofBijective σ hσ)
    obtain ⟨τ', t1, t2⟩ := restrict h4 σ' e2 h7 h8
    have e : r.score + ∑ a, Cr a (τ' a) = ∑ i, limited C lim mv i (σ' i) := by
      rw [total_split _ σ' e2 h7, h9]
      congr 1
      apply Finset.sum_congr rfl
      intro a _
      rw [hCr, t2]
    have q := q3 τ' t1
    have htol : (r.size : K) * Hungarian.tolE ≤ n * (1 / 10 ^ 12) := by
      have : (0 : K) ≤ 1 / 10 ^ 12 := by positivity
      exact mul_le_mul_of_nonneg_right (by exact_mod_cast hsz) this
    rw [hval]
    cases mv
    · simp only [NoWorse, Bool.false_eq_true, if_false] at e1 q ⊢
      simp only [Equiv.ofBijective_apply] at e1
      unfold total
      linarith
    · simp only [NoWorse, if_true] at e1 q ⊢
      simp only [Equiv.ofBijective_apply] at e1
      unfold total
      linarith

/-- **C08**, the part that holds: without a prior `reduce`, and after a `reduce` that fixed everything, the function returns
`true`. The missing case (something is left over after the reduction) is false in the code, see
`C08_reports_failure_on_success`. -/
theorem C08_flag_partial (C : Fin n → Fin n → K) (lim : K) (mv maximize : Bool) (fuel : Nat) (hf : n * (n + 1) < fuel) :
    (∃ soln : Fin n → Fin n, Function.Bijective soln ∧
      runCM (mk C) maximize fuel = .ret true (fun i => some (soln i)) (total C soln)) ∧
    (∃ cm r, reduce (mk C) lim mv = some cm ∧ getReduced cm = .ok r ∧
      (r.size = 0 → runCM cm maximize fuel = .ret true r.fixed r.score) ∧
      (r.size ≠ 0 → ∃ soln cost, runCM cm maximize fuel = .ret false soln cost)) := by
  constructor
  · obtain ⟨s, q1, q2, -⟩ := Hungarian.run_spec C maximize fuel hf
    refine ⟨s, q2, ?_⟩
    unfold runCM getReduced
    simp only [mk, Bool.false_eq_true, if_false, q1]
    rfl
  · obtain ⟨cm, r, g, h1, h2, h3, h4, h5, h6, h7, h8, h9, h10, h11, Cr, h12, h13⟩ := reduce_core C lim mv
    refine ⟨cm, r, h1, h2, ?_, ?_⟩
    · intro h0
      unfold runCM
      rw [h2]
      simp only
      rw [if_neg (by omega), if_pos h0]
    · intro h0
      have hsz : r.size ≤ n := by
        have := List.length_filter_le (fun i => (r.fixed i).isNone) (List.finRange n)
        rw [← h7]; simpa using this
      have hf' : r.size * (r.size + 1) < fuel := lt_of_le_of_lt (Nat.mul_le_mul hsz (by omega)) hf
      obtain ⟨τ, q1, -⟩ := Hungarian.run_spec Cr maximize fuel hf'
      unfold runCM
      rw [h2]
      simp only
      rw [if_pos (by omega), h12 (by omega)]
      simp only [q1]
      exact ⟨_, _, rfl⟩

/-- A matrix none of whose entries the reduction can fix. -/
def two : Fin 2 → Fin 2 → ℚ := fun i j => if i = j then 2 else 1

/-- **C08** is violated: on this matrix the function fills in the optimal assignment and its score and returns `false`. -/
theorem C08_reports_failure_on_success :
    ∃ cm, reduce (mk two) 0 true = some cm ∧
      ∃ s : Fin 2 → Fin 2, Function.Bijective s ∧ runCM cm true 7 = .ret false (fun i => some (s i)) (total two s) ∧
        total two s = 4 := by
  have h : (match reduce (mk two) 0 true with
    | some cm => (match runCM cm true 7 with
      | .ret false soln cost => decide ((∀ i, soln i = some i) ∧ cost = 4)
      | _ => false)
    | none => false) = true := by decide +kernel
  split at h
  · rename_i cm hcm
    refine ⟨cm, hcm, id, Function.bijective_id, ?_, by decide +kernel⟩
    split at h
    · rename_i soln cost hr
      simp only [decide_eq_true_eq] at h
      rw [hr, h.2]
      congr 1
      · funext i; rw [h.1]; rfl
      · decide +kernel
    · cases h
  · cases h

/-- **C10**, the part that holds: the first `reduce` on an object lists every remaining row and column once (C09). What is
missing, that later calls do too, is false in the code, see `C10_second_reduce_duplicates`. -/
theorem C10_first_reduce_partial (C : Fin n → Fin n → K) (lim : K) (mv : Bool) :
    ∃ cm r, reduce (mk C) lim mv = some cm ∧ getReduced cm = .ok r ∧ r.iMap.Nodup ∧ r.jMap.Nodup := by
  obtain ⟨cm, r, h1, h2, -, -, h3, -, -, h4, -⟩ := C09_reduce_partitions C lim mv
  exact ⟨cm, r, h1, h2, h3, h4⟩

/-- **C10** is violated: after the second call every remaining row is listed twice and fetching the reduced matrix writes
past the end of the index arrays. -/
theorem C10_second_reduce_duplicates :
    ∃ cm cm2, reduce (mk two) 0 true = some cm ∧ reduce cm 0 true = some cm2 ∧ cm.iRed = [0, 1] ∧
      cm2.iRed = [0, 1, 0, 1] ∧ cm2.nRed = 4 ∧ getReduced cm2 = .overrun ∧ runCM cm2 true 7 = .ub := by
  have h : (match reduce (mk two) 0 true with
    | some cm => (match reduce cm 0 true with
      | some cm2 => decide (cm.iRed = [0, 1] ∧ cm2.iRed = [0, 1, 0, 1] ∧ cm2.nRed = 4 ∧ cm2.avail = true)
      | none => false)
    | none => false) = true := by decide +kernel
  split at h
  · rename_i cm hcm
    split at h
    · rename_i cm2 hcm2
      simp only [decide_eq_true_eq] at h
      have ho : getReduced cm2 = .overrun := by
        unfold getReduced
        rw [if_pos h.2.2.2, if_pos (by rw [h.2.2.1]; norm_num)]
      exact ⟨cm, cm2, hcm, hcm2, h.1, h.2.1, h.2.2.1, ho, by unfold runCM; rw [ho]⟩
    · cases h
  · cases h

/-- A matrix on which the reduction fixes one pair and leaves two rows: the theorems above are not about trivial cases. -/
example : ∃ C : Fin 3 → Fin 3 → ℚ, (match reduce (mk C) 0 true with
    | some cm => (match getReduced cm with
      | .ok r => decide (r.fixed 1 = some 2 ∧ r.iMap = [0, 2] ∧ r.jMap = [0, 1] ∧ r.size = 2 ∧ r.score = 7)
      | _ => false)
    | none => false) = true :=
  ⟨fun i j => ((if i = 1 then (if j = 2 then 7 else 0) else if j = 2 then -1 else 3 : ℤ) : ℚ), by decide +kernel⟩

end CostMatrixReduceProps
end RFS
