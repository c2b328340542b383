import Verif.Model.MatPerm
import Mathlib.Algebra.BigOperators.Ring.Finset
import Mathlib.Algebra.CharZero.Defs
import Mathlib.Data.Fintype.Card
import Mathlib.Data.Fintype.BigOperators
import Mathlib.Data.Fintype.Pi
import Mathlib.Data.Nat.Bitwise
import Mathlib.Tactic.Ring
import Mathlib.Tactic.LinearCombination
import Mathlib.Tactic.FieldSimp
import Mathlib.LinearAlgebra.Matrix.Permanent

set_option linter.unusedSectionVars false

namespace RFS
namespace MatPerm

variable {K : Type*} [Field K] [CharZero K]

/-! ### Glynn's formula -/

/-- The sign of a bit. -/
def sg (b : Bool) : K := if b then 1 else -1

theorem sg_not (b : Bool) : (sg (!b) : K) = -sg b := by cases b <;> simp [sg]

theorem sg_sq (b : Bool) : (sg b : K) * sg b = 1 := by cases b <;> simp [sg]

/-- One term of Glynn's formula. -/
def term {n : Nat} (A : Fin n → Fin n → K) (h : Fin n → Bool) : K := (∏ k, sg (h k)) * ∏ i, ∑ j, sg (h j) * A i j

/-- Flip one bit. -/
def flip {n : Nat} (k : Fin n) : Equiv.Perm (Fin n → Bool) where
  toFun h := Function.update h k (!h k)
  invFun h := Function.update h k (!h k)
  left_inv h := by funext i; by_cases e : i = k <;> simp [Function.update_apply, e]
  right_inv h := by funext i; by_cases e : i = k <;> simp [Function.update_apply, e]

theorem prod_sg_flip {n : Nat} (h : Fin n → Bool) (k : Fin n) :
    (∏ i, (sg (Function.update h k (!h k) i) : K)) = -∏ i, sg (h i) := by
  rw [← Finset.mul_prod_erase Finset.univ _ (Finset.mem_univ k), ← Finset.mul_prod_erase Finset.univ (fun i => (sg (h i) : K)) (Finset.mem_univ k)]
  rw [Function.update_self, sg_not, neg_mul]
  congr 2
  apply Finset.prod_congr rfl
  intro i hi
  rw [Function.update_of_ne (Finset.ne_of_mem_erase hi)]

theorem sum_signs {n : Nat} (f : Fin n → Fin n) :
    ∑ h : Fin n → Bool, ((∏ k, (sg (h k) : K)) * ∏ i, sg (h (f i))) = if Function.Bijective f then 2 ^ n else 0 := by
  split
  · rename_i hf
    have : ∀ h : Fin n → Bool, ((∏ k, (sg (h k) : K)) * ∏ i, sg (h (f i))) = 1 := by
      intro h
      rw [Function.Bijective.prod_comp hf (fun k => (sg (h k) : K)), ← Finset.prod_mul_distrib]
      simp [sg_sq]
    rw [Finset.sum_congr rfl fun h _ => this h]
    simp
  · rename_i hf
    have hs : ¬Function.Surjective f := fun h => hf (Finite.surjective_iff_bijective.1 h)
    simp only [Function.Surjective, not_forall, not_exists] at hs
    obtain ⟨k, hk⟩ := hs
    set S := ∑ h : Fin n → Bool, ((∏ k, (sg (h k) : K)) * ∏ i, sg (h (f i))) with hS
    have e : S = -S := by
      conv_lhs => rw [hS, ← Equiv.sum_comp (flip k)]
      rw [hS, ← Finset.sum_neg_distrib]
      apply Finset.sum_congr rfl
      intro h _
      show (∏ i, (sg (Function.update h k (!h k) i) : K)) * ∏ i, sg (Function.update h k (!h k) (f i)) = _
      rw [prod_sg_flip, neg_mul]
      congr 2
      apply Finset.prod_congr rfl
      intro i _
      rw [Function.update_of_ne (hk i)]
    have e2 : (2 : K) * S = 0 := by linear_combination e
    rcases mul_eq_zero.1 e2 with h | h
    · exact absurd h two_ne_zero
    · exact h

theorem perm_eq {n : Nat} (A : Fin n → Fin n → K) :
    Matrix.permanent (Matrix.of A) = ∑ f : Fin n → Fin n, if Function.Bijective f then ∏ i, A i (f i) else 0 := by
  classical
  rw [← Matrix.permanent_transpose, Matrix.permanent, ← Finset.sum_filter]
  symm
  refine Finset.sum_bij (fun f hf => Equiv.ofBijective f (Finset.mem_filter.1 hf).2) ?_ ?_ ?_ ?_
  · intro f hf; exact Finset.mem_univ _
  · intro f hf g hg h
    have := congrArg (fun e : Equiv.Perm (Fin n) => (e : Fin n → Fin n)) h
    simpa using this
  · intro σ _
    exact ⟨σ, Finset.mem_filter.2 ⟨Finset.mem_univ _, σ.bijective⟩, by ext; simp⟩
  · intro f hf
    simp [Matrix.transpose]

/-- Glynn's formula over all sign vectors. -/
theorem sum_term {n : Nat} (A : Fin n → Fin n → K) :
    ∑ h : Fin n → Bool, term A h = 2 ^ n * Matrix.permanent (Matrix.of A) := by
  have e : ∀ h : Fin n → Bool, term A h =
      ∑ f : Fin n → Fin n, ((∏ k, (sg (h k) : K)) * ∏ i, sg (h (f i))) * ∏ i, A i (f i) := by
    intro h
    unfold term
    rw [Finset.prod_univ_sum, Fintype.piFinset_univ, Finset.mul_sum]
    apply Finset.sum_congr rfl
    intro f _
    rw [Finset.prod_mul_distrib, mul_assoc]
  rw [Finset.sum_congr rfl fun h _ => e h, Finset.sum_comm, perm_eq, Finset.mul_sum]
  apply Finset.sum_congr rfl
  intro f _
  rw [← Finset.sum_mul, sum_signs]
  split <;> simp

/-- Flip all bits. -/
def flipAll (n : Nat) : Equiv.Perm (Fin n → Bool) where
  toFun h := fun i => !h i
  invFun h := fun i => !h i
  left_inv h := by funext i; simp
  right_inv h := by funext i; simp

theorem term_flipAll {n : Nat} (A : Fin n → Fin n → K) (h : Fin n → Bool) : term A (fun i => !h i) = term A h := by
  unfold term
  have h1 : (∏ k, (sg (!h k) : K)) = (-1) ^ n * ∏ k, sg (h k) := by
    rw [Finset.prod_congr rfl fun k _ => sg_not (h k), Finset.prod_neg]
    simp
  have h2 : (∏ i, ∑ j, (sg (!h j) : K) * A i j) = (-1) ^ n * ∏ i, ∑ j, sg (h j) * A i j := by
    have : ∀ i, (∑ j, (sg (!h j) : K) * A i j) = -∑ j, sg (h j) * A i j := by
      intro i
      rw [← Finset.sum_neg_distrib]
      exact Finset.sum_congr rfl fun j _ => by rw [sg_not, neg_mul]
    rw [Finset.prod_congr rfl fun i _ => this i, Finset.prod_neg]
    simp
  rw [h1, h2]
  have h3 : ((-1 : K) ^ n) * (-1) ^ n = 1 := by rw [← mul_pow]; simp
  linear_combination ((∏ k, (sg (h k) : K)) * ∏ i, ∑ j, sg (h j) * A i j) * h3

/-- Half of the sign vectors suffices. -/
theorem sum_term_half {n : Nat} (A : Fin n → Fin n → K) (l : Fin n) :
    2 * ∑ h ∈ (Finset.univ.filter fun h : Fin n → Bool => h l = true), term A h =
      2 ^ n * Matrix.permanent (Matrix.of A) := by
  rw [← sum_term, ← Finset.sum_filter_add_sum_filter_not Finset.univ (fun h : Fin n → Bool => h l = true), two_mul]
  congr 1
  refine Finset.sum_bij (fun h _ i => !h i) ?_ ?_ ?_ ?_
  · intro h hh; simp at hh ⊢; exact hh
  · intro h _ g _ e
    funext i
    have := congrFun e i
    simpa using this
  · intro g hg
    refine ⟨fun i => !g i, by simp at hg ⊢; exact hg, by funext i; simp⟩
  · intro h _; exact (term_flipAll A h).symm

theorem card_half {n : Nat} (l : Fin n) : (Finset.univ.filter fun h : Fin n → Bool => h l = true).card = 2 ^ (n - 1) := by
  have h1 := Finset.card_filter_add_card_filter_not (s := (Finset.univ : Finset (Fin n → Bool))) (fun h => h l = true)
  have h2 : (Finset.univ.filter fun h : Fin n → Bool => h l = true).card = (Finset.univ.filter fun h : Fin n → Bool => ¬h l = true).card := by
    refine Finset.card_bij (fun h _ i => !h i) ?_ ?_ ?_
    · intro h hh; simp at hh ⊢; exact hh
    · intro h _ g _ e
      funext i
      have := congrFun e i
      simpa using this
    · intro g hg
      refine ⟨fun i => !g i, by simp at hg ⊢; exact hg, by funext i; simp⟩
  have h3 : (Finset.univ : Finset (Fin n → Bool)).card = 2 ^ n := by simp
  rw [h3, ← h2] at h1
  have hn : 0 < n := l.pos
  have h4 : 2 ^ n = 2 * 2 ^ (n - 1) := by
    conv_lhs => rw [show n = (n - 1) + 1 by omega, pow_succ]
    ring
  omega

/-! ### The Gray code -/

/-- Bit `i` of the Gray code of `t`. -/
def gray (t i : Nat) : Bool := xor (t.testBit i) (t.testBit (i + 1))

theorem exists_odd_part (t : Nat) (h : t ≠ 0) : ∃ c r, t = 2 ^ (c + 1) * r + 2 ^ c := by
  induction t using Nat.strong_induction_on with
  | _ t ih =>
    rcases Nat.even_or_odd' t with ⟨u, hu | hu⟩
    · obtain ⟨c, r, hc⟩ := ih u (by omega) (by omega)
      exact ⟨c + 1, r, by rw [hu, hc]; ring⟩
    · exact ⟨0, u, by rw [hu]; ring⟩

theorem gray_step (c r : Nat) : let t := 2 ^ (c + 1) * r + 2 ^ c
    (∀ i, gray t i = if i = c then !gray (t - 1) i else gray (t - 1) i) ∧
    (∀ i, i + 1 < c → gray (t - 1) i = false) ∧ (∀ i, i + 1 = c → gray (t - 1) i = true) := by
  intro t
  have hpos : 0 < 2 ^ c := Nat.two_pow_pos _
  have hlt : 2 ^ c < 2 ^ (c + 1) := by rw [pow_succ]; omega
  have ht1 : t - 1 = 2 ^ (c + 1) * r + (2 ^ c - 1) := by simp only [t]; omega
  have b : ∀ i, t.testBit i = if i < c + 1 then decide (c = i) else r.testBit (i - (c + 1)) := by
    intro i
    simp only [t]
    rw [Nat.testBit_two_pow_mul_add _ hlt, Nat.testBit_two_pow]
  have b1 : ∀ i, (t - 1).testBit i = if i < c + 1 then decide (i < c) else r.testBit (i - (c + 1)) := by
    intro i
    rw [ht1, Nat.testBit_two_pow_mul_add _ (by omega), Nat.testBit_two_pow_sub_one]
  refine ⟨?_, ?_, ?_⟩
  · intro i
    unfold gray
    rw [b, b, b1, b1]
    by_cases h1 : i = c
    · subst h1
      simp
    · rw [if_neg h1]
      by_cases h2 : i + 1 < c + 1
      · have h3 : i < c + 1 := by omega
        rw [if_pos h2, if_pos h3, if_pos h2, if_pos h3]
        by_cases h4 : i + 1 = c
        · have h5 : c ≠ i := by omega
          have h6 : ¬(c < c) := by omega
          have h7 : i < c := by omega
          simp [h4, h5, h7]
        · have h5 : c ≠ i := by omega
          have h6 : c ≠ i + 1 := by omega
          have h7 : i < c := by omega
          have h8 : i + 1 < c := by omega
          simp [h5, h6, h7, h8]
      · have h3 : ¬ (i < c + 1) := by omega
        rw [if_neg h2, if_neg h3, if_neg h2, if_neg h3]
  · intro i hi
    unfold gray
    rw [b1, b1, if_pos (by omega), if_pos (by omega)]
    simp [hi, show i < c by omega]
  · intro i hi
    unfold gray
    rw [b1, b1, if_pos (by omega), if_pos (by omega)]
    simp [show i < c by omega, hi]

theorem testBit_of_gray {t t' m : Nat} (ht : t < 2 ^ m) (ht' : t' < 2 ^ m) (h : ∀ i < m, gray t i = gray t' i) : t = t' := by
  apply Nat.eq_of_testBit_eq
  have hhigh : ∀ u, u < 2 ^ m → ∀ i, m ≤ i → u.testBit i = false := fun u hu i hi =>
    Nat.testBit_lt_two_pow (lt_of_lt_of_le hu (Nat.pow_le_pow_right (by norm_num) hi))
  have key : ∀ d i, m ≤ i + d → t.testBit i = t'.testBit i := by
    intro d
    induction d with
    | zero => intro i hi; rw [hhigh t ht i hi, hhigh t' ht' i hi]
    | succ d ih =>
      intro i hi
      by_cases hi' : m ≤ i
      · rw [hhigh t ht i hi', hhigh t' ht' i hi']
      · have h1 := h i (by omega)
        have h2 := ih (i + 1) (by omega)
        unfold gray at h1
        rw [h2] at h1
        cases h3 : t.testBit i <;> cases h4 : t'.testBit i <;> cases h5 : t'.testBit (i + 1) <;> simp_all
  intro i
  exact key m i (by omega)

/-! ### The loop -/

/-- The sign vector of round `t`: the Gray code with the last bit set. -/
def vec (n : Nat) (t : Nat) : Fin n → Bool := fun i => if i.val + 1 = n then true else gray t i.val

structure Inv {n : Nat} (A : Fin n → Fin n → K) (t : Nat) (st : St K n) : Prop where
  hg : ∀ i, st.g i = gray t i.val
  hx : ∀ i, st.x i = (1 / 2) * ∑ j, sg (vec n t j) * A i j
  hs : st.s = (-1) ^ n * ∏ k, sg (vec n t k)
  hp : st.p = ∑ u ∈ Finset.range (t + 1), (-1) ^ n * (1 / 2) ^ n * term A (vec n u)

theorem term_state {n : Nat} (A : Fin n → Fin n → K) (t : Nat) :
    ((-1) ^ n * ∏ k, (sg (vec n t k) : K)) * ∏ i, ((1 / 2) * ∑ j, sg (vec n t j) * A i j) =
      (-1) ^ n * (1 / 2) ^ n * term A (vec n t) := by
  rw [Finset.prod_mul_distrib]
  unfold term
  simp only [Finset.prod_const, Finset.card_univ, Fintype.card_fin]
  ring

theorem sg_vec_zero {n : Nat} (j : Fin n) : (sg (vec n 0 j) : K) = if j.val + 1 = n then 1 else -1 := by
  unfold vec gray
  by_cases h : j.val + 1 = n <;> simp [h, sg]

theorem init_inv {n : Nat} (hn : 0 < n) (A : Fin n → Fin n → K) : Inv A 0 (init A) := by
  obtain ⟨m, rfl⟩ : ∃ m, n = m + 1 := ⟨n - 1, by omega⟩
  have hx : ∀ i, (init A).x i = (1 / 2) * ∑ j, sg (vec (m + 1) 0 j) * A i j := by
    intro i
    simp only [init, sg_vec_zero]
    rw [Fin.sum_univ_castSucc, Fin.sum_univ_castSucc]
    have e1 : ∀ j : Fin m, (if (j.castSucc).val + 1 = m + 1 then (1 : K) else -1) * A i j.castSucc = -A i j.castSucc := by
      intro j
      rw [if_neg (by simp; omega)]; ring
    rw [Finset.sum_congr rfl fun j _ => e1 j, Finset.sum_neg_distrib]
    simp only [Fin.val_last, if_true]
    have e2 : (⟨m + 1 - 1, by omega⟩ : Fin (m + 1)) = Fin.last m := by ext; simp
    rw [e2]
    field_simp
    ring
  have hs : (init A).s = (-1) ^ (m + 1) * ∏ k, sg (vec (m + 1) 0 k) := by
    simp only [init, sg_vec_zero]
    rw [Fin.prod_univ_castSucc]
    have e1 : ∀ j : Fin m, (if (j.castSucc).val + 1 = m + 1 then (1 : K) else -1) = -1 := by
      intro j
      rw [if_neg (by simp; omega)]
    rw [Finset.prod_congr rfl fun j _ => e1 j]
    simp only [Fin.val_last, if_true, Finset.prod_const, Finset.card_univ, Fintype.card_fin, mul_one]
    rw [pow_succ, mul_assoc, mul_comm (-1 : K) ((-1) ^ m), ← mul_assoc, ← mul_pow]
    simp
  refine ⟨?_, hx, hs, ?_⟩
  · intro i; simp [init, gray]
  · rw [Finset.sum_range_one, ← term_state, ← hs, Finset.prod_congr rfl fun i _ => (hx i).symm]
    rfl

theorem flipIdx_spec {n t c r : Nat} (ht : t = 2 ^ (c + 1) * r + 2 ^ c) (g : Fin n → Bool) (hc : c + 1 < n)
    (hg : ∀ i : Fin n, g i = gray (t - 1) i.val) : flipIdx g (t + 1) = some ⟨c, by omega⟩ := by
  obtain ⟨-, h2, h3⟩ := gray_step c r
  rw [← ht] at h2 h3
  unfold flipIdx
  cases c with
  | zero =>
    have : (t + 1) % 2 = 0 := by rw [ht]; simp; omega
    rw [if_pos this, dif_pos (by omega)]
  | succ c =>
    have : ¬ (t + 1) % 2 = 0 := by
      have : t = 2 * (2 ^ (c + 1) * r + 2 ^ c) := by rw [ht]; ring
      omega
    rw [if_neg this]
    have hfind : (List.finRange n).find? (fun i => g i) = some ⟨c, by omega⟩ := by
      rw [List.find?_eq_some_iff_getElem]
      refine ⟨?_, c, by simp; omega, by simp, ?_⟩
      · rw [hg]; exact h3 c rfl
      · intro j hj
        simp only [List.getElem_finRange]
        rw [hg]
        simp only [Fin.val_cast]
        rw [h2 j (by omega)]
        rfl
    rw [hfind]
    simp only
    rw [dif_pos (by omega)]

theorem step_inv {n : Nat} (A : Fin n → Fin n → K) (t : Nat) (st : St K n) (h : Inv A t st) (ht : t + 1 < 2 ^ (n - 1)) :
    ∃ st', step A st (t + 2) = some st' ∧ Inv A (t + 1) st' := by
  obtain ⟨c, r, hc⟩ := exists_odd_part (t + 1) (by omega)
  have hcn : c + 1 < n := by
    have h1 : 2 ^ c ≤ t + 1 := by rw [hc]; exact Nat.le_add_left _ _
    have h2 : 2 ^ c < 2 ^ (n - 1) := by omega
    have h3 := (Nat.pow_lt_pow_iff_right (by norm_num : 1 < 2)).1 h2
    omega
  obtain ⟨g1, -, -⟩ := gray_step c r
  rw [← hc] at g1
  simp only [Nat.add_sub_cancel] at g1
  have hf := flipIdx_spec hc st.g hcn (by simpa using h.hg)
  set j : Fin n := ⟨c, by omega⟩ with hj
  have hvec : vec n (t + 1) = Function.update (vec n t) j (!vec n t j) := by
    funext i
    have hjv : vec n t j = gray t c := by unfold vec; rw [if_neg (by simp [hj]; omega)]
    rw [hjv]
    by_cases e : i = j
    · subst e
      rw [Function.update_self]
      unfold vec
      rw [if_neg (by simp [hj]; omega)]
      rw [g1]; simp [hj]
    · rw [Function.update_of_ne e]
      unfold vec
      have : i.val ≠ c := fun h => e (Fin.ext h)
      by_cases h2 : i.val + 1 = n
      · rw [if_pos h2, if_pos h2]
      · rw [if_neg h2, if_neg h2, g1, if_neg this]
  have hgj : vec n t j = st.g j := by
    rw [h.hg]; unfold vec; rw [if_neg (by simp [hj]; omega)]
  unfold step
  rw [show t + 2 = t + 1 + 1 from rfl, hf]
  simp only
  refine ⟨_, rfl, ?_⟩
  have hx : ∀ i, st.x i + (1 - 2 * (if st.g j then 1 else 0)) * A i j = (1 / 2) * ∑ k, sg (vec n (t + 1) k) * A i k := by
    intro i
    rw [h.hx i, hvec]
    rw [← Finset.add_sum_erase Finset.univ _ (Finset.mem_univ j), ← Finset.add_sum_erase Finset.univ (fun k => sg (Function.update (vec n t) j (!vec n t j) k) * A i k) (Finset.mem_univ j)]
    have e : ∑ k ∈ Finset.univ.erase j, (sg (Function.update (vec n t) j (!vec n t j) k) : K) * A i k = ∑ k ∈ Finset.univ.erase j, sg (vec n t k) * A i k := by
      apply Finset.sum_congr rfl
      intro k hk
      rw [Function.update_of_ne (Finset.ne_of_mem_erase hk)]
    rw [e, Function.update_self, sg_not, hgj]
    cases st.g j <;> simp [sg] <;> field_simp <;> ring
  have hs : st.s * -1 = (-1) ^ n * ∏ k, sg (vec n (t + 1) k) := by
    rw [h.hs, hvec, prod_sg_flip]; ring
  refine ⟨?_, hx, hs, ?_⟩
  · intro i
    simp only
    rw [g1]
    by_cases e : i = j
    · subst e
      rw [Function.update_self, h.hg]
      simp [hj]
    · have : i.val ≠ c := fun h => e (Fin.ext h)
      rw [Function.update_of_ne e, h.hg, if_neg this]
  · simp only
    rw [Finset.sum_range_succ, ← h.hp, ← term_state, ← hs, Finset.prod_congr rfl fun i _ => hx i]

theorem loop_inv {n : Nat} (hn : 0 < n) (A : Fin n → Fin n → K) : ∀ T, T + 1 ≤ 2 ^ (n - 1) →
    ∃ st, (List.range T).foldlM (fun st t => step A st (t + 2)) (init A) = some st ∧ Inv A T st
  | 0, _ => ⟨_, rfl, init_inv hn A⟩
  | T + 1, h => by
    obtain ⟨st, h1, h2⟩ := loop_inv hn A T (by omega)
    obtain ⟨st', h3, h4⟩ := step_inv A T st h2 (by omega)
    refine ⟨st', ?_, h4⟩
    rw [List.range_succ, List.foldlM_append, h1]
    simp [h3]

theorem sum_vec {n : Nat} (hn : 0 < n) (F : (Fin n → Bool) → K) :
    ∑ u ∈ Finset.range (2 ^ (n - 1)), F (vec n u) =
      ∑ h ∈ (Finset.univ.filter fun h : Fin n → Bool => h ⟨n - 1, by omega⟩ = true), F h := by
  classical
  have hinj : Set.InjOn (vec n) (Finset.range (2 ^ (n - 1)) : Set Nat) := by
    intro t ht t' ht' e
    simp only [Finset.coe_range, Set.mem_Iio] at ht ht'
    apply testBit_of_gray ht ht'
    intro i hi
    have := congrFun e ⟨i, by omega⟩
    unfold vec at this
    rw [if_neg (by simp; omega), if_neg (by simp; omega)] at this
    exact this
  rw [← Finset.sum_image (f := F) hinj]
  congr 1
  apply Finset.eq_of_subset_of_card_le
  · intro h hh
    rw [Finset.mem_image] at hh
    obtain ⟨t, -, rfl⟩ := hh
    rw [Finset.mem_filter]
    refine ⟨Finset.mem_univ _, ?_⟩
    unfold vec
    rw [if_pos (by simp; omega)]
  · rw [card_half, Finset.card_image_of_injOn hinj, Finset.card_range]

theorem core_spec {n : Nat} (hn : 0 < n) (A : Fin n → Fin n → K) : core A = some (Matrix.permanent (Matrix.of A)) := by
  have hpos : 0 < 2 ^ (n - 1) := Nat.two_pow_pos _
  obtain ⟨st, h1, h2⟩ := loop_inv hn A (2 ^ (n - 1) - 1) (by omega)
  unfold core
  rw [h1]
  simp only [Option.some.injEq]
  have hp := h2.hp
  rw [Nat.sub_add_cancel hpos, ← Finset.mul_sum, sum_vec hn] at hp
  have hh := sum_term_half A ⟨n - 1, by omega⟩
  have hk : 2 * st.p = (-1) ^ n * Matrix.permanent (Matrix.of A) := by
    have h2n : ((1 : K) / 2) ^ n * 2 ^ n = 1 := by rw [← mul_pow]; norm_num
    rw [hp]
    linear_combination ((-1) ^ n * (1 / 2) ^ n) * hh + (-1) ^ n * Matrix.permanent (Matrix.of A) * h2n
  rcases Nat.even_or_odd n with he | ho
  · rw [if_neg (by have := Nat.even_iff.1 he; omega), hk, he.neg_one_pow, one_mul]
  · rw [if_pos (by have := Nat.odd_iff.1 ho; omega), hk, ho.neg_one_pow]; ring

end MatPerm
end RFS
