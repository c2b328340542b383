import Verif.Model.Descriptor
import Verif.Props.ORB
import Verif.Props.Gaussian
import Mathlib.Data.Fintype.BigOperators
import Mathlib.Data.Nat.Bitwise
import Mathlib.Algebra.BigOperators.Ring.Finset
import Mathlib.Tactic.FieldSimp
import Mathlib.Tactic.NormNum

/-! C153-C155: ORB likelihood ratio, random descriptors, landmarks and measurements with descriptors. -/

set_option linter.unusedSectionVars false

namespace RFS
namespace DescrProps
open ORB Descr

/-! ### C153 -/

/-- Probability that descriptor `a` comes out of `d` if each bit flips with probability `p`, independently of the others. -/
noncomputable def flipProb (p : ℝ) (d a : Desc) : ℝ := ∏ i, if d i = a i then 1 - p else p

theorem flipProb_eq (p : ℝ) (d a : Desc) : flipProb p d a = p ^ distance d a * (1 - p) ^ (256 - distance d a) := by
  unfold flipProb
  rw [Finset.prod_ite, Finset.prod_const, Finset.prod_const, mul_comm]
  have h1 : (Finset.univ.filter fun i => ¬ d i = a i).card = distance d a := by
    unfold distance count bxor
    congr 1
    ext i
    simp
  have h2 := Finset.card_filter_add_card_filter_not (s := (Finset.univ : Finset (Fin 256))) (fun i => d i = a i)
  rw [Finset.card_univ, Fintype.card_fin, h1] at h2
  rw [h1]
  congr 2
  omega

/-- These are probabilities. -/
theorem flipProb_sum (p : ℝ) (d : Desc) : ∑ a, flipProb p d a = 1 := by
  unfold flipProb
  have h := Finset.prod_univ_sum (fun _ : Fin 256 => (Finset.univ : Finset Bool)) (fun i b => if d i = b then 1 - p else p)
  rw [Fintype.piFinset_univ] at h
  rw [← h]
  refine Finset.prod_eq_one fun i _ => ?_
  rw [Fintype.sum_bool]
  cases d i <;> simp

/-- **C153**: the ratio of likelihood and false alarm likelihood is that of two probabilities: of the descriptor coming out of the other one when each bit flips with probability 1/2.1, and
of it being any of the 2^256 descriptors. -/
theorem C153_ratio_partial (d a : Desc) : likelihood d a / falseAlarmLikelihood ℝ = flipProb (1 / (21 / 10)) d a / (1 / 2 ^ 256) := by
  have hb := ORBProps.C41_bound d a
  rw [flipProb_eq, likelihood, falseAlarmLikelihood]
  set k := distance d a
  obtain ⟨m, hm⟩ : ∃ m, 256 = k + m := ⟨256 - k, by omega⟩
  have e : 256 - k = m := by omega
  rw [e]
  have h256 : ∀ t : ℝ, t ^ 256 = t ^ k * t ^ m := fun t => by rw [← pow_add, ← hm]
  rw [h256, h256]
  have h1 : (1 : ℝ) - 1 / (21 / 10) = 11 / 21 := by norm_num
  rw [h1]
  simp only [div_pow, one_pow]
  field_simp

/-- The likelihood itself is not a probability of descriptors: over all descriptors it adds up to more than one. -/
theorem C153_sum (d : Desc) : ∑ a, (likelihood d a : ℝ) = (21 / 11) ^ 256 * (10 / 11) ^ 32 := by
  have h : ∀ a, (likelihood d a : ℝ) = flipProb (1 / (21 / 10)) d a * ((21 / 11) ^ 256 * (10 / 11) ^ 32) := by
    intro a
    have hb := ORBProps.C41_bound d a
    rw [flipProb_eq, likelihood]
    set k := distance d a
    obtain ⟨m, hm⟩ : ∃ m, 256 = k + m := ⟨256 - k, by omega⟩
    have e : 256 - k = m := by omega
    rw [e]
    have h256 : ((21 : ℝ) / 11) ^ 256 = (21 / 11) ^ k * (21 / 11) ^ m := by rw [← pow_add, ← hm]
    rw [h256]
    have h1 : (1 : ℝ) - 1 / (21 / 10) = 11 / 21 := by norm_num
    have h2 : (1 : ℝ) / (11 / 10) = 10 / 11 := by norm_num
    have h3 : ((11 : ℝ) / 21) ^ m * (21 / 11) ^ m = 1 := by rw [← mul_pow]; norm_num
    have h4 : ((1 : ℝ) / (21 / 10) / (11 / 21)) ^ k = (1 / (21 / 10)) ^ k * (21 / 11) ^ k := by rw [← mul_pow]; norm_num
    rw [h1, h2, h4]
    calc (1 / (21 / 10)) ^ k * (21 / 11) ^ k * (10 / 11 : ℝ) ^ 32 = (1 / (21 / 10)) ^ k * (21 / 11) ^ k * (10 / 11) ^ 32 * (((11 : ℝ) / 21) ^ m * (21 / 11) ^ m) := by rw [h3, mul_one]
      _ = _ := by ring
  simp_rw [h]
  rw [← Finset.sum_mul, flipProb_sum, one_mul]

theorem C153_sum_gt (d : Desc) : 1 < ∑ a, (likelihood d a : ℝ) := by
  rw [C153_sum]
  norm_num

theorem card_bits (d a : Desc) : Fintype.card {r : Desc × Desc × Desc // ORB.sample d r.1 r.2.1 r.2.2 = a} = 7 ^ (256 - distance d a) := by
  classical
  let e : {r : Desc × Desc × Desc // ORB.sample d r.1 r.2.1 r.2.2 = a} ≃ ((i : Fin 256) → {b : Bool × Bool × Bool // xor (d i) ((b.1 && b.2.1) && b.2.2) = a i}) :=
    { toFun := fun r i => ⟨(r.1.1 i, r.1.2.1 i, r.1.2.2 i), congrFun r.2 i⟩
      invFun := fun f => ⟨(fun i => (f i).1.1, fun i => (f i).1.2.1, fun i => (f i).1.2.2), funext fun i => (f i).2⟩
      left_inv := fun r => rfl
      right_inv := fun f => rfl }
  rw [Fintype.card_congr e, Fintype.card_pi]
  have h : ∀ i, Fintype.card {b : Bool × Bool × Bool // xor (d i) ((b.1 && b.2.1) && b.2.2) = a i} = if d i = a i then 7 else 1 := by
    intro i
    cases d i <;> cases a i <;> rfl
  simp_rw [h]
  rw [Finset.prod_ite, Finset.prod_const, Finset.prod_const, one_pow, mul_one]
  congr 1
  have h1 : (Finset.univ.filter fun i => ¬ d i = a i).card = distance d a := by
    unfold distance count bxor
    congr 1
    ext i
    simp
  have h2 := Finset.card_filter_add_card_filter_not (s := (Finset.univ : Finset (Fin 256))) (fun i => d i = a i)
  rw [Finset.card_univ, Fintype.card_fin, h1] at h2
  omega

theorem card_all : Fintype.card (Desc × Desc × Desc) = 8 ^ 256 := by
  rw [Fintype.card_prod, Fintype.card_prod, Fintype.card_fun, Fintype.card_bool, Fintype.card_fin]
  norm_num

/-- `sample` flips each bit with probability 1/8: of all triples of random descriptors, this share leads to the descriptor `a`. -/
theorem C153_sample (d a : Desc) : (Fintype.card {r : Desc × Desc × Desc // ORB.sample d r.1 r.2.1 r.2.2 = a} : ℝ) / Fintype.card (Desc × Desc × Desc) = flipProb (1 / 8) d a := by
  rw [card_bits, card_all, flipProb_eq]
  have hb := ORBProps.C41_bound d a
  set k := distance d a
  obtain ⟨m, hm⟩ : ∃ m, 256 = k + m := ⟨256 - k, by omega⟩
  have e : 256 - k = m := by omega
  rw [e]
  rw [show ((8 ^ 256 : ℕ) : ℝ) = 8 ^ k * 8 ^ m by rw [← pow_add, ← hm, Nat.cast_pow]; rfl, Nat.cast_pow, Nat.cast_ofNat]
  have h1 : (1 : ℝ) - 1 / 8 = 7 / 8 := by norm_num
  rw [h1, div_pow, div_pow, one_pow]
  field_simp

/-- So the ratio is not the one of the samples that the simulator draws. -/
theorem C153_violated : ∃ d a : Desc, (likelihood d a / falseAlarmLikelihood ℝ : ℝ) ≠
    ((Fintype.card {r : Desc × Desc × Desc // ORB.sample d r.1 r.2.1 r.2.2 = a} : ℝ) / Fintype.card (Desc × Desc × Desc)) / (1 / 2 ^ 256) := by
  refine ⟨fun _ => false, fun _ => false, ?_⟩
  rw [C153_ratio_partial, C153_sample, flipProb_eq, flipProb_eq, (ORBProps.C41_zero _ _).2 rfl]
  norm_num

/-! ### C154: random descriptors -/

/-- Bit `i` of a random descriptor comes from the bit `i % 32` of one of the random numbers. -/
theorem random_bit (v : Nat → Nat) (hv : ∀ k, v k < 2 ^ 31) (i : Fin 256) : random v i = (v (7 - i.val / 32)).testBit (i.val % 32) := by
  have hz : ∀ k j, 32 ≤ j → (v k).testBit j = false := fun k j hj =>
    Nat.testBit_lt_two_pow (lt_of_lt_of_le (hv k) (Nat.pow_le_pow_right (by norm_num) (by omega)))
  have key : ∀ m, m ≤ 7 → ∀ i : Fin 256, (List.range m).foldl (fun d i => bor (shift32 d) (ofNat (v (i + 1)))) (ofNat (v 0)) i =
      if i.val / 32 ≤ m then (v (m - i.val / 32)).testBit (i.val % 32) else false := by
    intro m
    induction m with
    | zero =>
      intro _ i
      simp only [List.range_zero, List.foldl_nil, ofNat]
      split
      · rename_i h
        have : i.val < 32 := by omega
        rw [Nat.mod_eq_of_lt this, Nat.zero_sub]
      · exact hz _ _ (by omega)
    | succ m ih =>
      intro hm i
      rw [List.range_succ, List.foldl_append, List.foldl_cons, List.foldl_nil]
      simp only [bor, shift32, ofNat]
      by_cases h : 32 ≤ i.val
      · rw [dif_pos h, ih (by omega), hz _ _ h, Bool.or_false]
        have e1 : (i.val - 32) / 32 = i.val / 32 - 1 := by omega
        have e2 : (i.val - 32) % 32 = i.val % 32 := by omega
        have e3 : 1 ≤ i.val / 32 := by omega
        simp only [e1, e2]
        by_cases h2 : i.val / 32 ≤ m + 1
        · rw [if_pos (by omega), if_pos h2]
          congr 2
          omega
        · rw [if_neg (by omega), if_neg h2]
      · rw [dif_neg h, Bool.false_or, if_pos (by omega)]
        have e1 : i.val / 32 = 0 := by omega
        rw [e1, Nat.sub_zero, Nat.mod_eq_of_lt (by omega)]
  have := key 7 le_rfl i
  rw [if_pos (by omega)] at this
  exact this

theorem exists_bits (g : Nat → Bool) (k : Nat) : ∃ m, m < 2 ^ k ∧ ∀ j < k, m.testBit j = g j := by
  induction k with
  | zero => exact ⟨0, by simp, fun j hj => absurd hj (by omega)⟩
  | succ k ih =>
    obtain ⟨m, h1, h2⟩ := ih
    have h3 : 2 ^ (k + 1) = 2 ^ k + 2 ^ k := by rw [pow_succ]; ring
    cases hg : g k with
    | false =>
      refine ⟨m, by omega, fun j hj => ?_⟩
      rcases Nat.lt_succ_iff_lt_or_eq.1 hj with h | rfl
      · exact h2 j h
      · rw [hg]
        exact Nat.testBit_lt_two_pow h1
    | true =>
      refine ⟨2 ^ k + m, by omega, fun j hj => ?_⟩
      rcases Nat.lt_succ_iff_lt_or_eq.1 hj with h | rfl
      · rw [Nat.testBit_two_pow_add_gt h]
        exact h2 j h
      · rw [hg, Nat.testBit_two_pow_add_eq, Nat.testBit_lt_two_pow h1]
        rfl

/-- **C154**: the bits of a random descriptor other than the bits 31, 63, …, 255 can take all values, as the random numbers do. -/
theorem C154_random_partial (a : Desc) (ha : ∀ i : Fin 256, i.val % 32 = 31 → a i = false) : ∃ v : Nat → Nat, (∀ k, v k < 2 ^ 31) ∧ random v = a := by
  let f : Nat → Nat → Bool := fun k j => if h : 32 * (7 - k) + j < 256 ∧ k ≤ 7 ∧ j < 31 then a ⟨32 * (7 - k) + j, h.1⟩ else false
  have hex : ∀ g : Nat → Bool, ∃ m, m < 2 ^ 31 ∧ ∀ j < 31, m.testBit j = g j := by
    intro g
    exact exists_bits g 31
  choose m hm1 hm2 using fun k => hex (f k)
  refine ⟨m, hm1, ?_⟩
  funext i
  rw [random_bit m hm1]
  by_cases h31 : i.val % 32 = 31
  · rw [ha i h31, h31]
    exact Nat.testBit_lt_two_pow (hm1 _)
  · rw [hm2 _ _ (by omega)]
    have hi := i.isLt
    have e : 32 * (7 - (7 - i.val / 32)) + i.val % 32 = i.val := by omega
    have hc : 32 * (7 - (7 - i.val / 32)) + i.val % 32 < 256 ∧ 7 - i.val / 32 ≤ 7 ∧ i.val % 32 < 31 := by omega
    show (if h : _ then _ else _) = _
    rw [dif_pos hc]
    congr 1
    exact Fin.ext e

/-- The bits 31, 63, …, 255 of random descriptors are zero, and `sample` never flips them. -/
theorem C154_violated (v v0 v1 v2 : Nat → Nat) (hv : ∀ k, v k < 2 ^ 31) (h0 : ∀ k, v0 k < 2 ^ 31) (d : Desc) (i : Fin 256) (hi : i.val % 32 = 31) :
    random v i = false ∧ ORB.sample d (random v0) (random v1) (random v2) i = d i := by
  have h : ∀ u : Nat → Nat, (∀ k, u k < 2 ^ 31) → random u i = false := by
    intro u hu
    rw [random_bit u hu, hi]
    exact Nat.testBit_lt_two_pow (hu _)
  refine ⟨h v hv, ?_⟩
  simp [ORB.sample, bxor, band, h v0 h0]

/-- A descriptor with set bits that can be drawn, and one that cannot. -/
example : (∀ i : Fin 256, i.val % 32 = 31 → (fun j : Fin 256 => decide (j.val < 31)) i = false) ∧ ∃ v : Nat → Nat, (∀ k, v k < 2 ^ 31) ∧ random v = fun j : Fin 256 => decide (j.val < 31) := by
  have h : ∀ i : Fin 256, i.val % 32 = 31 → (fun j : Fin 256 => decide (j.val < 31)) i = false := by
    intro i hi
    simp only [decide_eq_false_iff_not]
    omega
  exact ⟨h, C154_random_partial _ h⟩

/-! ### C155: landmarks and measurements with descriptors -/

variable {n : Nat} {D : Type}

/-- **C155**: the likelihood is that of the position times that of the descriptor. -/
theorem C155_product (c : DescCls D) (a b : Obj n D) (oldE : Fin n → ℝ) (old : ℝ) :
    (measLik c a b).1 = Gauss.lik a.x a.S b.x * c.lik a.desc b.desc ∧ (lmkLik c a b old).1 = Gauss.lik a.x a.S b.x * c.lik a.desc b.desc ∧
      (measLikGrad c a b).1 = Gauss.lik a.x a.S b.x * c.lik a.desc b.desc ∧ (lmkLikGrad c a b oldE old).1 = Gauss.lik a.x a.S b.x * c.lik a.desc b.desc := by
  refine ⟨rfl, ?_, rfl, ?_⟩
  · unfold lmkLik
    split
    · rename_i h; rw [h, mul_zero]
    · rfl
  · unfold lmkLikGrad
    split
    · rename_i h; rw [h, mul_zero]
    · rfl

/-- With ORB descriptors distance and gradient are always reported. -/
theorem C155_outputs_partial (a b : Obj n Desc) (oldE : Fin n → ℝ) (old : ℝ) :
    (lmkLik orb a b old).2 = Gauss.mahal2 a.x a.S b.x ∧ (lmkLikGrad orb a b oldE old).2 = (Gauss.nError a.x a.S b.x, Gauss.mahal2 a.x a.S b.x) ∧
      (measLik orb a b).2 = Gauss.mahal2 a.x a.S b.x ∧ (measLikGrad orb a b).2 = (Gauss.nError a.x a.S b.x, Gauss.mahal2 a.x a.S b.x) := by
  have h : orb.lik a.desc b.desc ≠ 0 := (ORBProps.C72_pos a.desc b.desc).ne'
  unfold lmkLik lmkLikGrad
  rw [if_neg h, if_neg h]
  exact ⟨rfl, rfl, rfl, rfl⟩

/-- With descriptors whose likelihood can be zero they are not: the caller keeps what the variable held before. -/
theorem C155_outputs_violated (c : DescCls D) (a b : Obj n D) (oldE : Fin n → ℝ) (old : ℝ) (h : c.lik a.desc b.desc = 0) :
    (lmkLik c a b old).2 = old ∧ (lmkLikGrad c a b oldE old).2 = (oldE, old) := by
  unfold lmkLik lmkLikGrad
  rw [if_pos h, if_pos h]
  exact ⟨rfl, rfl⟩

variable {P : Type} {nl nz : Nat}

/-- Measurements carry the descriptor of the landmark, landmarks made from measurements that of the measurement; positions, covariances and validity are those of the model that is extended. -/
theorem C155_model (B : Base P nl nz) (p : P) (m : Obj nl D) (z : Obj nz D) :
    (Descr.measure B p m).1.desc = m.desc ∧ ((Descr.measure B p m).1.x, (Descr.measure B p m).1.S, (Descr.measure B p m).2) = B.measure p m.x m.S ∧
      (Descr.inverse B p z).desc = z.desc ∧ ((Descr.inverse B p z).x, (Descr.inverse B p z).S) = B.inverse p z.x z.S ∧ (Descr.inverse B p (Descr.measure B p m).1).desc = m.desc := ⟨rfl, rfl, rfl, rfl, rfl⟩

/-- A valid sample is the predicted measurement plus noise with covariance `R`, with a sampled descriptor; an invalid one has neither noise nor another descriptor. -/
theorem C155_sample (B : Base P nl nz) (chol : Matrix (Fin nz) (Fin nz) ℝ → Matrix (Fin nz) (Fin nz) ℝ) (R : Matrix (Fin nz) (Fin nz) ℝ) (w : Fin nz → ℝ) (ds : D → D) (p : P) (m : Obj nl D) :
    (sampleModel B chol R w ds p m).2 = (B.measure p m.x m.S).2.2 ∧
    ((B.measure p m.x m.S).2.2 = true → (sampleModel B chol R w ds p m).1 = ⟨(B.measure p m.x m.S).1 + (chol R).mulVec w, R, ds m.desc⟩) ∧
    ((B.measure p m.x m.S).2.2 = false → (sampleModel B chol R w ds p m).1 = ⟨(B.measure p m.x m.S).1, (B.measure p m.x m.S).2.1, m.desc⟩) := by
  unfold sampleModel Descr.measure
  cases h : (B.measure p m.x m.S).2.2 <;> simp [h, Descr.sample, Gauss.sample]

/-- The likelihood of a measurement relative to clutter is that of its position times the ratio of the descriptors. -/
theorem C155_ratio (B : Base P nl nz) (a z : Obj nz Desc) (nZ : Nat) (hc : B.clutter z.x nZ ≠ 0) :
    (measLik orb a z).1 / clutter B orb z nZ = Gauss.lik a.x a.S z.x / B.clutter z.x nZ * (flipProb (1 / (21 / 10)) a.desc z.desc / (1 / 2 ^ 256)) := by
  rw [← C153_ratio_partial]
  unfold measLik clutter orb
  have : (falseAlarmLikelihood ℝ) ≠ 0 := by unfold falseAlarmLikelihood; norm_num
  field_simp

/-- The hypotheses can be met. -/
example : ∃ v : Nat → Nat, (∀ k, v k < 2 ^ 31) ∧ random v ⟨30, by norm_num⟩ = true := by
  obtain ⟨v, hv, h⟩ := C154_random_partial (fun i => decide (i.val = 30)) (by intro i hi; simp; omega)
  exact ⟨v, hv, by rw [h]; rfl⟩

end DescrProps
end RFS
