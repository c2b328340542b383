import Verif.Lemmas.OSPA
import Mathlib.Tactic.FinCases
import Mathlib.Tactic.Ring
import Mathlib.Tactic.Positivity
import Mathlib.Tactic.NormNum

/-!
Properties C18, C19, C20 and C21: the OSPA and COLA errors.

Specification: a pairing of two finite sets (given by their sizes and the matrix `d` of distances) is a partial one-to-one map
from the first to the second. Its cost is the sum over the pairs of the cut-off distances plus the cutoff for every element of
the larger set left without partner, each passed through `φ` (the identity for order 1, the `p`-th power for order `p`).
-/

set_option linter.unusedSectionVars false

namespace RFS
namespace OSPAProps
open OSPA

variable {n1 n2 : Nat}

/-- Specification: partial one-to-one maps. -/
def OneToOne (f : Fin n1 → Option (Fin n2)) : Prop := ∀ i i' j, f i = some j → f i' = some j → i = i'

/-- Specification: number of pairs. -/
def pairs (f : Fin n1 → Option (Fin n2)) : Nat := (Finset.univ.filter fun i => (f i).isSome).card

/-- Specification: the cost of a pairing. -/
noncomputable def pairCost (φ : ℝ → ℝ) (d : Fin n1 → Fin n2 → ℝ) (c : ℝ) (f : Fin n1 → Option (Fin n2)) : ℝ :=
  (∑ i, match f i with
    | some j => φ (min (d i j) c)
    | none => 0) + φ c * ((max n1 n2 : ℕ) - (pairs f : ℝ))

/-- The terms of the cost spread over the rows of the cost matrix. -/
noncomputable def term (φ : ℝ → ℝ) (d : Fin n1 → Fin n2 → ℝ) (c : ℝ) (f : Fin n1 → Option (Fin n2)) (i : ℕ) : ℝ :=
  if h : i < n1 then
    match f ⟨i, h⟩ with
    | some j => φ (min (d ⟨i, h⟩ j) c)
    | none => φ c
  else φ c

theorem sum_term (φ : ℝ → ℝ) (d : Fin n1 → Fin n2 → ℝ) (c : ℝ) (f : Fin n1 → Option (Fin n2)) :
    ∑ i : Fin (max n1 n2), term φ d c f i.val = pairCost φ d c f := by
  rw [Fin.sum_univ_eq_sum_range (term φ d c f) (max n1 n2)]
  have h1 : ∑ i ∈ Finset.range (max n1 n2), term φ d c f i =
      ∑ i ∈ Finset.range n1, term φ d c f i + ∑ i ∈ Finset.Ico n1 (max n1 n2), term φ d c f i := by
    rw [Finset.range_eq_Ico, Finset.range_eq_Ico, Finset.sum_Ico_consecutive _ (Nat.zero_le _) (le_max_left _ _)]
  have h2 : ∑ i ∈ Finset.Ico n1 (max n1 n2), term φ d c f i = ((max n1 n2 : ℕ) - (n1 : ℝ)) * φ c := by
    rw [Finset.sum_congr rfl (g := fun _ => φ c)]
    · rw [Finset.sum_const, Nat.card_Ico, nsmul_eq_mul, Nat.cast_sub (le_max_left _ _)]
    · intro i hi
      rw [Finset.mem_Ico] at hi
      simp [term, Nat.not_lt.2 hi.1]
  have h3 : ∑ i ∈ Finset.range n1, term φ d c f i = (∑ i, match f i with
      | some j => φ (min (d i j) c)
      | none => 0) + ∑ i, if (f i).isSome then 0 else φ c := by
    rw [← Fin.sum_univ_eq_sum_range, ← Finset.sum_add_distrib]
    refine Finset.sum_congr rfl fun i _ => ?_
    simp only [term, i.2, dif_pos]
    cases f i <;> simp
  have h4 : (∑ i, if (f i).isSome then 0 else φ c) = ((n1 : ℝ) - pairs f) * φ c := by
    have e := Finset.card_filter_add_card_filter_not (s := (Finset.univ : Finset (Fin n1))) (fun i => (f i).isSome)
    rw [← Finset.sum_filter_add_sum_filter_not Finset.univ (fun i => (f i).isSome = true)]
    rw [Finset.sum_congr rfl (g := fun _ => (0 : ℝ)), Finset.sum_const_zero, zero_add,
      Finset.sum_congr rfl (g := fun _ => φ c), Finset.sum_const, nsmul_eq_mul]
    · congr 1
      simp only [Finset.card_univ, Fintype.card_fin] at e
      have e' : ((Finset.univ.filter fun i => (f i).isSome = true).card : ℝ) +
        ((Finset.univ.filter fun i => ¬ (f i).isSome = true).card : ℝ) = (n1 : ℝ) := by exact_mod_cast e
      unfold pairs
      linarith
    · intro i hi
      rw [Finset.mem_filter] at hi
      simp [hi.2]
    · intro i hi
      rw [Finset.mem_filter] at hi
      simp [hi.2]
  rw [h1, h2, h3, h4]
  unfold pairCost
  ring

/-- The pairing given by a solution of the assignment problem. -/
def pairing (σ : Fin (max n1 n2) → Fin (max n1 n2)) : Fin n1 → Option (Fin n2) := fun i =>
  if h : (σ ⟨i.val, lt_of_lt_of_le i.2 (le_max_left _ _)⟩).val < n2 then some ⟨_, h⟩ else none

theorem pairing_oneToOne {σ : Fin (max n1 n2) → Fin (max n1 n2)} (hσ : Function.Bijective σ) : OneToOne (pairing σ) := by
  intro i i' j h h'
  unfold pairing at h h'
  split at h
  · split at h'
    · have e1 := congrArg Fin.val (Option.some.inj h)
      have e2 := congrArg Fin.val (Option.some.inj h')
      have := hσ.1 (Fin.ext (e1.trans e2.symm))
      exact Fin.ext (Fin.mk.inj_iff.1 this)
    · cases h'
  · cases h

theorem sum_pairing (φ : ℝ → ℝ) (d : Fin n1 → Fin n2 → ℝ) (c : ℝ) (σ : Fin (max n1 n2) → Fin (max n1 n2)) :
    ∑ i, φ (costMat n1 n2 d c i (σ i)) = pairCost φ d c (pairing σ) := by
  rw [← sum_term]
  refine Finset.sum_congr rfl fun i _ => ?_
  unfold term
  by_cases hi : i.val < n1
  · simp only [hi, dif_pos]
    by_cases hj : (σ i).val < n2
    · rw [costMat_real d c i (σ i) hi hj]
      have : pairing σ ⟨i.val, hi⟩ = some ⟨(σ i).val, hj⟩ := by
        unfold pairing; rw [dif_pos hj]
      simp only [this]
    · rw [costMat_dummy d c i (σ i) (fun h => hj h.2)]
      have : pairing σ ⟨i.val, hi⟩ = none := by
        unfold pairing; rw [dif_neg hj]
      simp only [this]
  · rw [dif_neg hi, costMat_dummy d c i (σ i) (fun h => hi h.1)]

/-- Every pairing comes from a permutation that costs no more. -/
theorem exists_perm (φ : ℝ → ℝ) (d : Fin n1 → Fin n2 → ℝ) (c : ℝ)
    (hφ : ∀ i j, φ (costMat n1 n2 d c i j) ≤ φ c)
    (f : Fin n1 → Option (Fin n2)) (hf : OneToOne f) : ∃ σ : Fin (max n1 n2) → Fin (max n1 n2), Function.Bijective σ ∧
      ∑ i, φ (costMat n1 n2 d c i (σ i)) ≤ pairCost φ d c f := by
  classical
  let P : Fin (max n1 n2) → Prop := fun x => ∃ (j : Fin n2) (h : x.val < n1), f ⟨x.val, h⟩ = some j
  have hch : ∀ x : {x // P x}, ∃ (j : Fin n2) (h : x.1.val < n1), f ⟨x.1.val, h⟩ = some j := fun x => x.2
  choose g0 hg0 using hch
  let g : {x // P x} → Fin (max n1 n2) := fun x => ⟨(g0 x).val, lt_of_lt_of_le (Fin.is_lt _) (le_max_right _ _)⟩
  have hg : ∀ (x : {x // P x}) (h : x.1.val < n1) (j : Fin n2), f ⟨x.1.val, h⟩ = some j → (g x).val = j.val := by
    intro x h j e
    obtain ⟨h', e'⟩ := hg0 x
    rw [e] at e'
    have := Option.some.inj e'
    show (g0 x).val = j.val
    rw [← this]
  have hinj : Function.Injective g := by
    intro x y e
    obtain ⟨jx, hx, ex⟩ := x.2
    obtain ⟨jy, hy, ey⟩ := y.2
    have h1 := hg x hx jx ex
    have h2 := hg y hy jy ey
    rw [e] at h1
    have hj : jx = jy := Fin.ext (h1.symm.trans h2)
    subst hj
    have := hf _ _ _ ex ey
    exact Subtype.ext (Fin.ext (Fin.mk.inj_iff.1 this))
  let e : {x // P x} ≃ {y // y ∈ Set.range g} := Equiv.ofInjective g hinj
  refine ⟨e.extendSubtype, (Equiv.bijective _), ?_⟩
  rw [← sum_term]
  refine Finset.sum_le_sum fun i _ => ?_
  unfold term
  by_cases hi : i.val < n1
  · simp only [hi, dif_pos]
    cases hfi : f ⟨i.val, hi⟩ with
    | none => exact hφ _ _
    | some j =>
      simp only
      have hP : P i := ⟨j, hi, hfi⟩
      have h1 : e.extendSubtype i = g ⟨i, hP⟩ := by
        rw [Equiv.extendSubtype_apply_of_mem e i hP]; rfl
      have h2 := hg ⟨i, hP⟩ hi j hfi
      rw [h1, costMat_real d c i (g ⟨i, hP⟩) hi (by rw [h2]; exact j.2)]
      have : (⟨(g ⟨i, hP⟩).val, by rw [h2]; exact j.2⟩ : Fin n2) = j := Fin.ext h2
      rw [this]
  · rw [dif_neg hi]; exact hφ _ _

/-- **C18**: for order 1 and sets not both empty, `calcError` returns a value `v`, the localisation part `e1` and the
cardinality part `e2` with `n v = e1 + e2` (`n` the larger size) and `0 <= v <= c`. There is a pairing whose cost is exactly
`n v`, for which `e1` is the sum of the distances below the cutoff and `e2` the cutoff for each pair at the cutoff and each
element left over. No pairing is cheaper by more than `n * 1e-12` (the tolerance of the solver). -/
theorem C18_order1 (d : Fin n1 → Fin n2 → ℝ) (c : ℝ) (hd : ∀ i j, 0 ≤ d i j) (hc : 0 ≤ c) (hne : ¬ (n1 = 0 ∧ n2 = 0))
    (fuel : Nat) (hf : max n1 n2 * (max n1 n2 + 1) < fuel) :
    ∃ o v e1 e2, make n1 n2 d c 1 fuel = some o ∧ calcError o true true = ⟨some v, some e1, some e2⟩ ∧
      (max n1 n2 : ℕ) * v = e1 + e2 ∧ 0 ≤ v ∧ v ≤ c ∧
      (∃ f, OneToOne f ∧ (max n1 n2 : ℕ) * v = pairCost id d c f ∧
        e1 = (∑ i, match f i with
          | some j => if d i j < c then d i j else 0
          | none => 0) ∧
        e2 = (∑ i, match f i with
          | some j => if d i j < c then 0 else c
          | none => 0) + c * ((max n1 n2 : ℕ) - (pairs f : ℝ))) ∧
      ∀ f, OneToOne f → (max n1 n2 : ℕ) * v ≤ pairCost id d c f + (max n1 n2 : ℕ) * (1 / 10 ^ 12) := by
  classical
  obtain ⟨o, h1, h2, h3, h4, h5, h6, h7, h8⟩ := make_spec d c 1 fuel hf
  have hn : (0 : ℝ) < (max n1 n2 : ℕ) := by
    have : 0 < max n1 n2 := by omega
    exact_mod_cast this
  have hn0 : max n1 n2 ≠ 0 := by omega
  set S : ℝ := ∑ i, costMat n1 n2 d c i (o.soln i) with hS
  have hv : (∑ i, o.C i (o.soln i) ^ o.p) = S := by
    rw [h3, h4, hS]
    exact Finset.sum_congr rfl fun i _ => Real.rpow_one _
  have hSn : 0 ≤ S := Finset.sum_nonneg fun i _ => costMat_nonneg d c hd hc _ _
  have hSc : S ≤ (max n1 n2 : ℕ) * c := by
    have := Finset.sum_le_card_nsmul (Finset.univ : Finset (Fin (max n1 n2))) (fun i => costMat n1 n2 d c i (o.soln i)) c
      (fun i _ => costMat_le d c _ _)
    simpa using this
  refine ⟨o, S / (max n1 n2 : ℕ), ∑ i, (if o.C i (o.soln i) = o.c ∧ true then 0 else o.C i (o.soln i)),
    ∑ i, (if o.C i (o.soln i) = o.c ∧ true then o.C i (o.soln i) else 0), h1, ?_, ?_, div_nonneg hSn hn.le, (div_le_iff₀ hn).2 (by linarith), ?_, ?_⟩
  · unfold calcError
    rw [hv, h3]
    have : ¬ (max n1 n2 = 0 ∨ (1 : ℝ) = 0) := by
      rintro (h | h)
      · exact hn0 h
      · exact one_ne_zero h
    simp only [if_neg this, if_true]
    rw [Err.mk.injEq]
    refine ⟨?_, rfl, rfl⟩
    rw [div_one, Real.rpow_one]
  · rw [mul_div_cancel₀ _ hn.ne', ← Finset.sum_add_distrib, hS]
    refine Finset.sum_congr rfl fun i _ => ?_
    rw [h4]
    split <;> simp
  · refine ⟨pairing o.soln, pairing_oneToOne h7, ?_, ?_, ?_⟩
    · rw [mul_div_cancel₀ _ hn.ne', hS, ← sum_pairing]; rfl
    · have := sum_pairing (fun x => if x = c then 0 else x) d c o.soln
      simp only [h2, h4, and_true]
      rw [this]
      unfold pairCost
      simp only [if_true, zero_mul, add_zero]
      refine Finset.sum_congr rfl fun i _ => ?_
      cases pairing o.soln i with
      | none => rfl
      | some j =>
        simp only
        by_cases hlt : d i j < c
        · rw [min_eq_left hlt.le, if_neg hlt.ne, if_pos hlt]
        · rw [min_eq_right (not_lt.1 hlt), if_pos rfl, if_neg hlt]
    · have := sum_pairing (fun x => if x = c then x else 0) d c o.soln
      simp only [h2, h4, and_true]
      rw [this]
      unfold pairCost
      simp only [if_true]
      congr 1
      refine Finset.sum_congr rfl fun i _ => ?_
      cases pairing o.soln i with
      | none => rfl
      | some j =>
        simp only
        by_cases hlt : d i j < c
        · rw [min_eq_left hlt.le, if_neg hlt.ne, if_pos hlt]
        · rw [min_eq_right (not_lt.1 hlt), if_pos rfl, if_neg hlt]
  · intro f hf'
    obtain ⟨σ, hσ, hle⟩ := exists_perm id d c (fun i j => costMat_le d c i j) f hf'
    have := h8 σ hσ
    rw [mul_div_cancel₀ _ hn.ne', hS]
    simp only [id] at hle
    have ht : ((max n1 n2 : ℕ) : ℝ) * Hungarian.tolE = (max n1 n2 : ℕ) * (1 / 10 ^ 12) := rfl
    linarith

/-- Both sets empty: the value is not a number (0/0). -/
theorem C18_both_empty_nan (d : Fin 0 → Fin 0 → ℝ) (c p : ℝ) (fuel : Nat) (hf : 0 < fuel) :
    ∃ o, make 0 0 d c p fuel = some o ∧ (calcError o true true).value = none := by
  obtain ⟨o, h1, -⟩ := make_spec d c p fuel (by simpa using hf)
  exact ⟨o, h1, by simp [calcError]⟩

/-- **C19**, full statement: the value is the least order-`p` mean over all pairings. -/
def OrderP (d : Fin n1 → Fin n2 → ℝ) (c p : ℝ) (fuel : Nat) : Prop :=
  ∃ o v, make n1 n2 d c p fuel = some o ∧ (calcError o true true).value = some v ∧
    (∃ f, OneToOne f ∧ v = (pairCost (· ^ p) d c f / (max n1 n2 : ℕ)) ^ (1 / p)) ∧
    ∀ f, OneToOne f → v ≤ (pairCost (· ^ p) d c f / (max n1 n2 : ℕ)) ^ (1 / p)

/-- **C19**, the part that holds for every order `p > 0`: the value is the order-`p` mean of a pairing that is optimal for the
plain (order 1) sum, and lies in `[0, c]`. Missing: optimality for the order-`p` sum, which fails (`C19_violated`). -/
theorem C19_orderp_partial (d : Fin n1 → Fin n2 → ℝ) (c p : ℝ) (hp : 0 < p) (hd : ∀ i j, 0 ≤ d i j) (hc : 0 ≤ c)
    (hne : ¬ (n1 = 0 ∧ n2 = 0)) (fuel : Nat) (hf : max n1 n2 * (max n1 n2 + 1) < fuel) :
    ∃ o v, make n1 n2 d c p fuel = some o ∧ (calcError o true true).value = some v ∧ 0 ≤ v ∧ v ≤ c ∧
      ∃ f, OneToOne f ∧ v = (pairCost (· ^ p) d c f / (max n1 n2 : ℕ)) ^ (1 / p) ∧
        ∀ g, OneToOne g → pairCost id d c f ≤ pairCost id d c g + (max n1 n2 : ℕ) * (1 / 10 ^ 12) := by
  obtain ⟨o, h1, h2, h3, h4, h5, h6, h7, h8⟩ := make_spec d c p fuel hf
  have hn0 : max n1 n2 ≠ 0 := by omega
  have hn : (0 : ℝ) < (max n1 n2 : ℕ) := by exact_mod_cast Nat.pos_of_ne_zero hn0
  have hval : (calcError o true true).value = some ((pairCost (· ^ p) d c (pairing o.soln) / (max n1 n2 : ℕ)) ^ (1 / p)) := by
    unfold calcError
    rw [h3, h4]
    simp only
    rw [if_neg (by rintro (h | h); exacts [hn0 h, hp.ne' h]), ← sum_pairing]
  have hS0 : 0 ≤ pairCost (· ^ p) d c (pairing o.soln) := by
    rw [← sum_pairing]
    exact Finset.sum_nonneg fun i _ => Real.rpow_nonneg (costMat_nonneg d c hd hc _ _) _
  have hSc : pairCost (· ^ p) d c (pairing o.soln) / (max n1 n2 : ℕ) ≤ c ^ p := by
    rw [div_le_iff₀ hn, ← sum_pairing]
    have := Finset.sum_le_card_nsmul (Finset.univ : Finset (Fin (max n1 n2)))
      (fun i => costMat n1 n2 d c i (o.soln i) ^ p) (c ^ p)
      (fun i _ => Real.rpow_le_rpow (costMat_nonneg d c hd hc _ _) (costMat_le d c _ _) hp.le)
    simp only [Finset.card_univ, Fintype.card_fin, nsmul_eq_mul] at this
    linarith
  refine ⟨o, _, h1, hval, Real.rpow_nonneg (div_nonneg hS0 hn.le) _, ?_, pairing o.soln, pairing_oneToOne h7, rfl, ?_⟩
  · have := Real.rpow_le_rpow (div_nonneg hS0 hn.le) hSc (one_div_pos.2 hp).le
    rwa [← Real.rpow_mul hc, mul_one_div_cancel hp.ne', Real.rpow_one] at this
  · intro g hg
    obtain ⟨σ, hσ, hle⟩ := exists_perm id d c (fun i j => costMat_le d c i j) g hg
    have h9 := h8 σ hσ
    have h10 := sum_pairing id d c o.soln
    simp only [id] at hle h10
    have ht : ((max n1 n2 : ℕ) : ℝ) * Hungarian.tolE = (max n1 n2 : ℕ) * (1 / 10 ^ 12) := rfl
    linarith

/-- The distances of the witness: the plain sum prefers 0 + 5, the squares prefer 3, 3. -/
def dW : Fin 2 → Fin 2 → ℝ := ![![0, 3], ![3, 5]]

/-- **C19** is false of the code: order 2, two points each, cutoff 10. -/
theorem C19_violated : ¬ OrderP dW 10 2 7 := by
  rintro ⟨o, v, h1, h2, -, h4⟩
  obtain ⟨o', g1, -, g3, g4, -, -, g7, g8⟩ := make_spec dW 10 2 7 (by decide)
  rw [h1] at g1
  cases g1
  have hC : ∀ i j : Fin 2, costMat 2 2 dW 10 i j = dW i j := by
    intro i j
    rw [costMat_real dW 10 i j i.2 j.2]
    have : dW i j ≤ 10 := by fin_cases i <;> fin_cases j <;> simp [dW] <;> norm_num
    exact min_eq_left this
  -- the solver must pick the diagonal
  have h00 : dW 0 0 = 0 := rfl
  have h01 : dW 0 1 = 3 := rfl
  have h10 : dW 1 0 = 3 := rfl
  have h11 : dW 1 1 = 5 := rfl
  obtain ⟨s, hs⟩ : ∃ s : Fin 2 → Fin 2, s = o.soln := ⟨o.soln, rfl⟩
  have hbij : Function.Bijective s := by rw [hs]; exact g7
  have hopt : ∑ i : Fin 2, dW i (s i) ≤ ∑ i : Fin 2, dW i i + 2 * Hungarian.tolE := by
    have := g8 id Function.bijective_id
    rw [← hs] at this
    have e1 : ∑ i : Fin 2, costMat 2 2 dW 10 i (s i) = ∑ i : Fin 2, dW i (s i) := Finset.sum_congr rfl fun i _ => hC _ _
    have e2 : ∑ i : Fin 2, costMat 2 2 dW 10 i (id i) = ∑ i : Fin 2, dW i i := Finset.sum_congr rfl fun i _ => hC _ _
    have e3 : ((max 2 2 : ℕ) : ℝ) = 2 := by norm_num
    have this' : ∑ i : Fin 2, costMat 2 2 dW 10 i (s i) ≤ ∑ i : Fin 2, costMat 2 2 dW 10 i (id i) + ((max 2 2 : ℕ) : ℝ) * Hungarian.tolE := this
    rw [e1, e2, e3] at this'
    exact this'
  have hdiag : s 0 = 0 ∧ s 1 = 1 := by
    have hinj := hbij.1
    rw [Fin.sum_univ_two, Fin.sum_univ_two, h00, h11] at hopt
    have ht : (Hungarian.tolE : ℝ) < 1 / 10 := by unfold Hungarian.tolE; norm_num
    rcases Fin.exists_fin_two.1 ⟨s 0, rfl⟩ with e0 | e0
    · have : s 1 ≠ 0 := fun e => absurd (hinj (e.trans e0.symm)) (by decide)
      exact ⟨e0, by have := (s 1).2; exact Fin.ext (by have h5 : (s 1).val ≠ 0 := fun h => ‹s 1 ≠ 0› (Fin.ext h); simp; omega)⟩
    · exfalso
      have h1' : s 1 = 0 := by
        have : s 1 ≠ 1 := fun e => absurd (hinj (e.trans e0.symm)) (by decide)
        have := (s 1).2
        exact Fin.ext (by have h5 : (s 1).val ≠ 1 := fun h => ‹s 1 ≠ 1› (Fin.ext h); simp; omega)
      have e0' : s 0 = 1 := e0
      rw [e0', h1', h01, h10] at hopt
      linarith
  -- the value returned
  have hv : v = ((25 : ℝ) / 2) ^ (1 / (2 : ℝ)) := by
    unfold calcError at h2
    rw [g3, g4] at h2
    simp only at h2
    rw [if_neg (by rintro (h | h); exacts [absurd h (by decide), absurd h (by norm_num)])] at h2
    have h2' := Option.some.inj h2
    rw [← h2']
    have e1 : ∑ i : Fin (max 2 2), costMat 2 2 dW 10 i (o.soln i) ^ (2 : ℝ) = 25 := by
      have : ∑ i : Fin 2, costMat 2 2 dW 10 i (s i) ^ (2 : ℝ) = 25 := by
        rw [Fin.sum_univ_two, hC, hC, hdiag.1, hdiag.2, h00, h11, Real.zero_rpow (by norm_num)]
        norm_num
      rw [hs] at this
      exact this
    rw [e1]; norm_num
  -- a better pairing
  have hb := h4 (![some 1, some 0]) (by
    intro i i' j h h'
    fin_cases i <;> fin_cases i' <;> simp_all <;> (subst h; simp at h'))
  have hcost : pairCost (· ^ (2 : ℝ)) dW 10 (![some 1, some 0]) = 18 := by
    have hp : pairs (![some 1, some 0] : Fin 2 → Option (Fin 2)) = 2 := by decide
    unfold pairCost
    rw [hp, Fin.sum_univ_two]
    show (min (dW 0 1) 10) ^ (2 : ℝ) + (min (dW 1 0) 10) ^ (2 : ℝ) + _ = _
    rw [h01, h10, min_eq_left (by norm_num : (3 : ℝ) ≤ 10)]
    norm_num
  rw [hcost, hv] at hb
  have h2n : ((max 2 2 : ℕ) : ℝ) = 2 := by norm_num
  rw [h2n] at hb
  have := Real.rpow_lt_rpow (by norm_num : (0 : ℝ) ≤ 18 / 2) (by norm_num : (18 : ℝ) / 2 < 25 / 2) (by norm_num : (0 : ℝ) < 1 / 2)
  linarith

/-- **C20**: for any order, the assignments read one by one are a one-to-one partial map of the first set into the second: an
index outside the first set gives `-1`; two different elements never get the same partner; the cost reported is the cut-off
distance of the pair; and of the smaller set nothing is left out. -/
theorem C20_one_to_one (d : Fin n1 → Fin n2 → ℝ) (c p : ℝ) (fuel : Nat) (hf : max n1 n2 * (max n1 n2 + 1) < fuel) :
    ∃ (o : Obj (max n1 n2)) (h : o.n1 ≤ max n1 n2), make n1 n2 d c p fuel = some o ∧
      (∀ i, n1 ≤ i → getOptAssignment o i h = none) ∧
      (∀ i j x, getOptAssignment o i h = some (j, x) → ∃ (hi : i < n1) (hj : j < n2), x = min (d ⟨i, hi⟩ ⟨j, hj⟩) c) ∧
      (∀ i i' j x x', getOptAssignment o i h = some (j, x) → getOptAssignment o i' h = some (j, x') → i = i') ∧
      (n1 ≤ n2 → ∀ i < n1, getOptAssignment o i h ≠ none) ∧
      (n2 ≤ n1 → ∀ j < n2, ∃ i x, getOptAssignment o i h = some (j, x)) := by
  obtain ⟨o, h1, h2, h3, h4, h5, h6, h7, h8⟩ := make_spec d c p fuel hf
  have hle : o.n1 ≤ max n1 n2 := by rw [h5]; exact le_max_left _ _
  have hg : ∀ (i : Nat) (hi : i < n1), getOptAssignment o i hle =
      if n2 ≤ (o.soln ⟨i, by omega⟩).val then none else
        some ((o.soln ⟨i, by omega⟩).val, costMat n1 n2 d c ⟨i, by omega⟩ (o.soln ⟨i, by omega⟩)) := by
    intro i hi
    unfold getOptAssignment
    rw [dif_pos (by omega)]
    simp only [h6, h4]
  have hno : ∀ i, n1 ≤ i → getOptAssignment o i hle = none := by
    intro i hi
    unfold getOptAssignment
    rw [dif_neg (by omega)]
  have hsome : ∀ i j x, getOptAssignment o i hle = some (j, x) → ∃ (hi : i < n1) (_hj : j < n2),
      (o.soln ⟨i, by omega⟩).val = j ∧ x = costMat n1 n2 d c ⟨i, by omega⟩ (o.soln ⟨i, by omega⟩) := by
    intro i j x h
    by_cases hi : i < n1
    · rw [hg i hi] at h
      split at h
      · cases h
      · rename_i hj
        have h' := Option.some.inj h
        have ha := congrArg Prod.fst h'
        have hb := congrArg Prod.snd h'
        simp only at ha hb
        exact ⟨hi, by omega, ha, hb.symm⟩
    · rw [hno i (by omega)] at h; cases h
  refine ⟨o, hle, h1, hno, ?_, ?_, ?_, ?_⟩
  · intro i j x h
    obtain ⟨hi, hj, e1, e2⟩ := hsome i j x h
    refine ⟨hi, hj, ?_⟩
    rw [e2, costMat_real d c _ _ hi (by omega)]
    congr 2
    exact Fin.ext e1
  · intro i i' j x x' h h'
    obtain ⟨hi, hj, e1, -⟩ := hsome i j x h
    obtain ⟨hi', -, e1', -⟩ := hsome i' j x' h'
    have := h7.1 (Fin.ext (e1.trans e1'.symm))
    exact congrArg Fin.val this
  · intro hle' i hi h
    rw [hg i hi] at h
    split at h
    · rename_i hj
      have := (o.soln ⟨i, by omega⟩).2
      omega
    · cases h
  · intro hle' j hj
    obtain ⟨i, hi⟩ := h7.2 ⟨j, by omega⟩
    have hin : i.val < n1 := by have := i.2; omega
    refine ⟨i.val, costMat n1 n2 d c i (o.soln i), ?_⟩
    rw [hg i.val hin]
    have e : (⟨i.val, by omega⟩ : Fin (max n1 n2)) = i := rfl
    rw [if_neg]
    · rw [Option.some.injEq, Prod.mk.injEq]
      exact ⟨by rw [e, hi], rfl⟩
    · rw [e, hi]; simp only; omega

/-- **C21**: whenever the OSPA error is a number and the cutoff is positive, the COLA error is the order-`p` root of the total
cost of a pairing, divided by the cutoff. -/
theorem C21_cola (d : Fin n1 → Fin n2 → ℝ) (c p : ℝ) (hp : 0 < p) (hd : ∀ i j, 0 ≤ d i j) (hc : 0 < c)
    (hne : ¬ (n1 = 0 ∧ n2 = 0)) (fuel : Nat) (hf : max n1 n2 * (max n1 n2 + 1) < fuel) :
    ∃ o v e, make n1 n2 d c p fuel = some o ∧ (calcError o true true).value = some v ∧
      (colaError o true true).value = some e ∧ e = v * (max n1 n2 : ℕ) ^ (1 / p) / c ∧
      ∃ f, OneToOne f ∧ e = pairCost (· ^ p) d c f ^ (1 / p) / c ∧
        ∀ g, OneToOne g → pairCost id d c f ≤ pairCost id d c g + (max n1 n2 : ℕ) * (1 / 10 ^ 12) := by
  obtain ⟨o, v, h1, h2, h3, h4, f, hf1, hf2, hf3⟩ := C19_orderp_partial d c p hp hd hc.le hne fuel hf
  obtain ⟨o', g1, g2, g3, -⟩ := make_spec d c p fuel hf
  rw [h1] at g1; cases g1
  have hn0 : max n1 n2 ≠ 0 := by omega
  have hn : (0 : ℝ) < (max n1 n2 : ℕ) := by exact_mod_cast Nat.pos_of_ne_zero hn0
  have hcola : (colaError o true true).value = some (v * (max n1 n2 : ℕ) ^ (1 / p) / c) := by
    unfold colaError
    simp only [h2, Option.bind_some]
    rw [g2, g3, if_neg hc.ne']
  refine ⟨o, v, _, h1, h2, hcola, rfl, f, hf1, ?_, hf3⟩
  have hS : 0 ≤ pairCost (· ^ p) d c f / (max n1 n2 : ℕ) := by
    apply div_nonneg _ hn.le
    unfold pairCost
    have h6 : (pairs f : ℝ) ≤ (max n1 n2 : ℕ) := by
      have : pairs f ≤ n1 := by
        unfold pairs; exact le_trans (Finset.card_le_univ _) (by simp)
      exact_mod_cast this.trans (le_max_left _ _)
    refine add_nonneg (Finset.sum_nonneg fun i _ => ?_) (mul_nonneg (Real.rpow_nonneg hc.le _) (by linarith))
    cases f i with
    | none => exact le_rfl
    | some j => exact Real.rpow_nonneg (le_min (hd _ _) hc.le) _
  rw [hf2, ← Real.mul_rpow hS hn.le, div_mul_cancel₀ _ hn.ne']

/-- **C21**, order 1: (sum of the cut-off distances of the pairs) / cutoff plus the number of elements without partner. -/
theorem C21_order1 (d : Fin n1 → Fin n2 → ℝ) (c : ℝ) (hd : ∀ i j, 0 ≤ d i j) (hc : 0 < c)
    (hne : ¬ (n1 = 0 ∧ n2 = 0)) (fuel : Nat) (hf : max n1 n2 * (max n1 n2 + 1) < fuel) :
    ∃ o e, make n1 n2 d c 1 fuel = some o ∧ (colaError o true true).value = some e ∧
      ∃ f, OneToOne f ∧ e = (∑ i, match f i with
        | some j => min (d i j) c
        | none => 0) / c + ((max n1 n2 : ℕ) - (pairs f : ℝ)) ∧
        ∀ g, OneToOne g → pairCost id d c f ≤ pairCost id d c g + (max n1 n2 : ℕ) * (1 / 10 ^ 12) := by
  obtain ⟨o, v, e, h1, -, h3, -, f, hf1, hf2, hf3⟩ := C21_cola d c 1 one_pos hd hc hne fuel hf
  refine ⟨o, e, h1, h3, f, hf1, ?_, hf3⟩
  rw [hf2, div_one, Real.rpow_one]
  unfold pairCost
  simp only [Real.rpow_one]
  field_simp

/-- Non-vacuity: two points against one, distances 1 and 3, cutoff 2. -/
example : (∀ i j, 0 ≤ (![![1], ![3]] : Fin 2 → Fin 1 → ℝ) i j) ∧ (0 : ℝ) < 2 ∧ ¬ (2 = 0 ∧ 1 = 0) ∧ max 2 1 * (max 2 1 + 1) < 7 := by
  refine ⟨fun i j => ?_, by norm_num, by norm_num, by norm_num⟩
  fin_cases i <;> fin_cases j <;> simp

end OSPAProps
end RFS
