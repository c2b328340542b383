import Verif.Lemmas.MurtyLik
import Verif.Lemmas.AssocSum
import Verif.Props.Murty
import Mathlib.Tactic.NormNum

/-!
Properties C15, C113, C114: Murty's algorithm on the extended matrices of the filters.

Specification: an association gives each real row at most one real column and vice versa (`OneToOne`); its value `value` is the sum of the entries of the pairs, of
`miss` over the rows without column and of `clut` over the columns without row.
-/

namespace RFS
namespace MurtyBlockProps
open Murty MurtyLik Assoc

section
variable {K : Type*} [Field K] [LinearOrder K] [IsStrictOrderedRing K] {nR nC : Nat}

open Classical in
/-- Value of an association. -/
noncomputable def value (Lg : Fin nR → Fin nC → K) (miss : Fin nR → K) (clut : Fin nC → K) (A : Fin nR → Option (Fin nC)) : K :=
  (∑ r, match A r with | some c => Lg r c | none => miss r) + ∑ c, if ∃ r, A r = some c then 0 else clut c

/-- The association an assignment of the extended matrix stands for. -/
def read (a : Fin (nR + nC) → Fin (nR + nC)) : Fin nR → Option (Fin nC) := fun r =>
  if h : (a (Fin.castAdd nC r)).val < nC then some ⟨_, h⟩ else none

/-- Ranges of the entries: everything at most `hi`, the likelihoods at least `bot`, missed detections and clutter at least `lo`; and `bigNumber_` large enough. -/
structure Ranges (Lg : Fin nR → Fin nC → K) (miss : Fin nR → K) (clut : Fin nC → K) (bot big lo hi : K) : Prop where
  rows : 0 < nR
  cols : 0 < nC
  lik : ∀ r c, bot ≤ Lg r c ∧ Lg r c ≤ hi
  miss : ∀ r, lo ≤ miss r ∧ miss r ≤ hi
  clut : ∀ c, lo ≤ clut c ∧ clut c ≤ hi
  bot_le : bot ≤ lo
  lo_le : lo ≤ 0
  hi_ge : 0 ≤ hi
  big : (nR + nC : ℕ) * (hi - lo) + (nR + nC : ℕ) * (1 / 10 ^ 12) < big + 2 * bot

variable {Lg : Fin nR → Fin nC → K} {miss : Fin nR → K} {clut : Fin nC → K} {bot big lo hi H : K}

/-- **C113**: `findNextBest` on the extended matrix returns every association that is better than `H + n 1e-12` (where `H` is at least `BIG_NEG_NUM + n hi + n 1e-12`)
exactly once, in the order of the values (up to `n 1e-12`), with its rank and its value; afterwards it returns nothing better than `H + n 1e-12`. -/
theorem C113_each_association_once (Q : PQ K (nR + nC)) (h : Ranges Lg miss clut bot big lo hi) (fuel : Nat) (hf : (nR + nC) * (nR + nC + 1) < fuel)
    (hH : bot + (nR + nC : ℕ) * hi + (nR + nC : ℕ) * (1 / 10 ^ 12) ≤ H) :
    ∃ L : List (Fin nR → Option (Fin nC)), L.Nodup ∧ (∀ A ∈ L, OneToOne A ∧ H < value Lg miss clut A) ∧
      (L.Pairwise fun A B => value Lg miss clut B ≤ value Lg miss clut A + (nR + nC : ℕ) * (1 / 10 ^ 12)) ∧
      (∀ A, OneToOne A → H + (nR + nC : ℕ) * (1 / 10 ^ 12) < value Lg miss clut A → A ∈ L) ∧
      ∀ i, match L[i]? with
        | some A => ∃ a, call Q (Prm.make (extMatrix Lg miss clut bot) big (some (nR, nC)) fuel) (start Q) i = .found (i + 1) a (value Lg miss clut A) ∧
            Function.Bijective a ∧ read a = A
        | none => call Q (Prm.make (extMatrix Lg miss clut bot) big (some (nR, nC)) fuel) (start Q) i = .noMore ∨
            ∃ r a s, call Q (Prm.make (extMatrix Lg miss clut bot) big (some (nR, nC)) fuel) (start Q) i = .found r a s ∧
              s ≤ H + (nR + nC : ℕ) * (1 / 10 ^ 12) := by
  have hE := ext_make Lg miss clut bot big lo hi fuel h.rows h.cols h.lik h.miss h.clut h.bot_le h.lo_le h.hi_ge h.big
  rw [make_block]
  obtain ⟨L, h1, h2, h3, h4, h5⟩ := runs_all hE hH hf Q
  have htv : ∀ σ ∈ L, Murty.total (extMatrix Lg miss clut bot) σ = value Lg miss clut (read σ) := fun σ hσ =>
    total_val Lg miss clut bot big fuel (h1 σ hσ).1 (h1 σ hσ).2.1
  refine ⟨L.map read, ?_, ?_, ?_, ?_, ?_⟩
  · refine List.pairwise_map.2 (List.Pairwise.imp_of_mem (fun {σ τ} hσ hτ hne e => hne ?_) h3)
    exact (assoc_agree (prm := ⟨extMatrix Lg miss clut bot, big, nR, nC, fuel⟩) rfl (h1 σ hσ).2.1 (h1 τ hτ).2.1).1 e
  · intro A hA
    obtain ⟨σ, hσ, rfl⟩ := List.mem_map.1 hA
    refine ⟨assoc_inj rfl (h1 σ hσ).1.1, ?_⟩
    rw [← htv σ hσ]
    exact (h1 σ hσ).2.2
  · refine List.pairwise_map.2 (List.Pairwise.imp_of_mem (fun {σ τ} hσ hτ hle => ?_) h2)
    rw [← htv σ hσ, ← htv τ hτ]
    exact hle
  · intro A hA hval
    have hb := ext_bij (n := nR + nC) rfl hA
    have hg := ext_good (prm := (⟨extMatrix Lg miss clut bot, big, nR, nC, fuel⟩ : Prm K (nR + nC))) rfl hA
    have hr : read (ext (n := nR + nC) rfl A) = A := assoc_ext rfl hA
    have ht := total_val Lg miss clut bot big fuel hb hg
    rw [assoc_ext rfl hA] at ht
    obtain ⟨τ, hτ, hag⟩ := h4 _ hb hg (by rw [show Murty.total (extMatrix Lg miss clut bot) _ = _ from ht]; exact hval)
    refine List.mem_map.2 ⟨τ, hτ, ?_⟩
    rw [← hr]
    exact (assoc_agree (prm := ⟨extMatrix Lg miss clut bot, big, nR, nC, fuel⟩) rfl (h1 τ hτ).2.1 hg).2 hag
  · intro i
    have h6 := h5 i
    rw [List.getElem?_map]
    cases hi : L[i]? with
    | some σ =>
      rw [hi] at h6
      have hσ := List.mem_of_getElem? hi
      exact ⟨σ, by rw [← htv σ hσ]; exact h6, (h1 σ hσ).1, rfl⟩
    | none =>
      rw [hi] at h6
      rcases h6 with h6 | ⟨r, a, s, h6, h7, -⟩
      · exact Or.inl h6
      · exact Or.inr ⟨r, a, s, h6, h7⟩

/-- **C15**, for the extended matrices: two results that are better than `H + n 1e-12` stand for different associations. -/
theorem C15_extended_partial (Q : PQ K (nR + nC)) (h : Ranges Lg miss clut bot big lo hi) (fuel : Nat) (hf : (nR + nC) * (nR + nC + 1) < fuel)
    (hH : bot + (nR + nC : ℕ) * hi + (nR + nC : ℕ) * (1 / 10 ^ 12) ≤ H) (i j r r' : Nat) (a b : Fin (nR + nC) → Fin (nR + nC)) (s t : K) (hij : i ≠ j)
    (hi : call Q (Prm.make (extMatrix Lg miss clut bot) big (some (nR, nC)) fuel) (start Q) i = .found r a s)
    (hj : call Q (Prm.make (extMatrix Lg miss clut bot) big (some (nR, nC)) fuel) (start Q) j = .found r' b t)
    (hs : H + (nR + nC : ℕ) * (1 / 10 ^ 12) < s) (ht : H + (nR + nC : ℕ) * (1 / 10 ^ 12) < t) :
    read a ≠ read b ∧ OneToOne (read a) ∧ s = value Lg miss clut (read a) := by
  obtain ⟨L, hnd, hL, -, -, hcall⟩ := C113_each_association_once Q h fuel hf hH
  have key : ∀ (i r : Nat) (a : Fin (nR + nC) → Fin (nR + nC)) (s : K), H + (nR + nC : ℕ) * (1 / 10 ^ 12) < s →
      call Q (Prm.make (extMatrix Lg miss clut bot) big (some (nR, nC)) fuel) (start Q) i = .found r a s →
      L[i]? = some (read a) ∧ s = value Lg miss clut (read a) := by
    intro i r a s hs hi
    have h1 := hcall i
    cases e : L[i]? with
    | some A =>
      rw [e] at h1
      obtain ⟨a', h2, -, h3⟩ := h1
      rw [hi] at h2
      cases h2
      exact ⟨by rw [h3], by rw [h3]⟩
    | none =>
      rw [e] at h1
      rcases h1 with h1 | ⟨r', a', s', h1, h2⟩
      · rw [hi] at h1; cases h1
      · rw [hi] at h1; cases h1
        exact absurd hs (not_lt.2 h2)
  obtain ⟨e1, e2⟩ := key i r a s hs hi
  obtain ⟨e3, -⟩ := key j r' b t ht hj
  refine ⟨fun e => hij ?_, (hL _ (List.mem_of_getElem? e1)).1, e2⟩
  rw [← e] at e3
  exact (List.getElem?_inj (List.getElem?_eq_some_iff.1 e1).1 hnd).1 (e1.trans e3.symm)

end

section
variable {nR nC : Nat} {Lg : Fin nR → Fin nC → ℝ} {miss : Fin nR → ℝ} {clut : Fin nC → ℝ} {bot big lo hi : ℝ}

theorem exp_value (A : Fin nR → Option (Fin nC)) : Real.exp (value Lg miss clut A) =
    (∏ m, rowW (fun m z => Real.exp (Lg m z)) (fun m => Real.exp (miss m)) A m) * ∏ z, colW (fun z => Real.exp (clut z)) A z := by
  classical
  unfold value
  rw [Real.exp_add, Real.exp_sum, Real.exp_sum]
  congr 1
  · refine Finset.prod_congr rfl fun m _ => ?_
    unfold rowW
    cases A m <;> rfl
  · refine Finset.prod_congr rfl fun z _ => ?_
    unfold colW
    split
    · exact Real.exp_zero
    · rfl

open Classical in
/-- Sum over at most `cnt` results. -/
theorem partition_sum (Q : PQ ℝ (nR + nC)) (h : Ranges Lg miss clut bot big lo hi) (fuel cnt : Nat) (hf : (nR + nC) * (nR + nC + 1) < fuel) :
    ∃ v, MurtyLik.partition Q Lg miss clut bot big fuel cnt = some v ∧
      v ≤ Assoc.total (fun m z => Real.exp (Lg m z)) (fun m => Real.exp (miss m)) (fun z => Real.exp (clut z)) +
        cnt * Real.exp (bot + (nR + nC : ℕ) * hi + 2 * (nR + nC : ℕ) * (1 / 10 ^ 12)) ∧
      ∀ T : Finset (Fin nR → Option (Fin nC)), (∀ A ∈ T, OneToOne A) → T.card ≤ cnt → ∑ A ∈ T, Real.exp (value Lg miss clut A) ≤
        Real.exp ((nR + nC : ℕ) * (1 / 10 ^ 12)) * v + cnt * Real.exp (bot + (nR + nC : ℕ) * hi + 2 * (nR + nC : ℕ) * (1 / 10 ^ 12)) := by
  set ε : ℝ := (nR + nC : ℕ) * (1 / 10 ^ 12) with hε
  have hε0 : 0 ≤ ε := by positivity
  set H : ℝ := bot + (nR + nC : ℕ) * hi + ε with hHdef
  have hδ : bot + (nR + nC : ℕ) * hi + 2 * (nR + nC : ℕ) * (1 / 10 ^ 12) = H + ε := by rw [hHdef, hε]; ring
  rw [hδ]
  obtain ⟨L, hnd, hL, hord, hall, hcall⟩ := C113_each_association_once (H := H) Q h fuel hf le_rfl
  -- the loop over the calls
  have hbH : bot ≤ H := by
    have : 0 ≤ ((nR + nC : ℕ) : ℝ) * hi := mul_nonneg (Nat.cast_nonneg _) h.hi_ge
    rw [hHdef]; linarith
  obtain ⟨e, he0, he, heq⟩ := sumLoop_val Q (Prm.make (extMatrix Lg miss clut bot) big (some (nR, nC)) fuel) bot (H + ε) cnt (start Q) 0
    (L.map (value Lg miss clut)) (by
      intro x hx
      obtain ⟨A, hA, rfl⟩ := List.mem_map.1 hx
      exact hbH.trans (hL A hA).2.le) (by
      intro i
      have h1 := hcall i
      rw [List.getElem?_map]
      cases hi : L[i]? with
      | some A =>
        rw [hi] at h1
        obtain ⟨a, h2, -⟩ := h1
        exact ⟨_, a, h2⟩
      | none =>
        rw [hi] at h1
        exact h1)
  have hδ0 := Real.exp_pos (H + ε)
  refine ⟨_, heq, ?_, ?_⟩
  · have h1 : ((L.take cnt).map fun A => Real.exp (value Lg miss clut A)).sum ≤ Assoc.total (fun m z => Real.exp (Lg m z)) (fun m => Real.exp (miss m)) (fun z => Real.exp (clut z)) := by
      unfold Assoc.total
      rw [← List.sum_toFinset _ (hnd.sublist (List.take_sublist _ _))]
      refine (Finset.sum_le_sum_of_subset_of_nonneg (t := Finset.univ.filter OneToOne) ?_ fun A _ _ => (Real.exp_pos _).le).trans (le_of_eq ?_)
      · intro A hA
        exact Finset.mem_filter.2 ⟨Finset.mem_univ _, (hL A (List.mem_of_mem_take (List.mem_toFinset.1 hA))).1⟩
      · exact Finset.sum_congr rfl fun A _ => exp_value A
    rw [← List.map_take, List.map_map, zero_add]
    have h2 : ((L.take cnt).map (Real.exp ∘ value Lg miss clut)).sum = ((L.take cnt).map fun A => Real.exp (value Lg miss clut A)).sum := rfl
    rw [h2]
    push_cast at he
    linarith
  · intro T hT hcard
    have h1 : ∑ A ∈ T.filter (fun A => A ∈ L), Real.exp (value Lg miss clut A) ≤ Real.exp ε * ((L.take cnt).map fun A => Real.exp (value Lg miss clut A)).sum :=
      sum_best _ (fun A => (Real.exp_pos _).le) _ (Real.one_le_exp hε0) L hnd (hord.imp fun {A B} hAB => by
        rw [← Real.exp_add, Real.exp_le_exp]; linarith) cnt _ (fun A hA => (Finset.mem_filter.1 hA).2) ((Finset.card_filter_le _ _).trans hcard)
    have h2 : ∑ A ∈ T.filter (fun A => A ∉ L), Real.exp (value Lg miss clut A) ≤ cnt * Real.exp (H + ε) := by
      refine (Finset.sum_le_card_nsmul _ _ (Real.exp (H + ε)) fun A hA => ?_).trans ?_
      · rw [Finset.mem_filter] at hA
        rw [Real.exp_le_exp]
        by_contra hn
        exact hA.2 (hall A (hT A hA.1) (not_le.1 hn))
      · rw [nsmul_eq_mul]
        refine mul_le_mul_of_nonneg_right ?_ hδ0.le
        exact_mod_cast (Finset.card_filter_le _ _).trans hcard
    rw [← Finset.sum_filter_add_sum_filter_not T (fun A => A ∈ L)]
    rw [← List.map_take, List.map_map, zero_add]
    have h3 : ((L.take cnt).map (Real.exp ∘ value Lg miss clut)).sum = ((L.take cnt).map fun A => Real.exp (value Lg miss clut A)).sum := rfl
    rw [h3, mul_add]
    have h4 : 0 ≤ Real.exp ε * e := mul_nonneg (Real.exp_pos _).le he0
    linarith

open Classical in
/-- **C114**: the value the filters compute for a partition through Murty's algorithm. It exceeds the sum of the weights of all associations by at most
`200 exp(bot + n hi + 2 n 1e-12)`, and no 200 associations have weights whose sum exceeds it, up to the factor `exp(n 1e-12)`, by more than the same amount. -/
theorem C114_partition_sum (Q : PQ ℝ (nR + nC)) (h : Ranges Lg miss clut bot big lo hi) (fuel : Nat) (hf : (nR + nC) * (nR + nC + 1) < fuel) :
    ∃ v, MurtyLik.partition Q Lg miss clut bot big fuel 200 = some v ∧
      v ≤ Assoc.total (fun m z => Real.exp (Lg m z)) (fun m => Real.exp (miss m)) (fun z => Real.exp (clut z)) +
        200 * Real.exp (bot + (nR + nC : ℕ) * hi + 2 * (nR + nC : ℕ) * (1 / 10 ^ 12)) ∧
      ∀ T : Finset (Fin nR → Option (Fin nC)), (∀ A ∈ T, OneToOne A) → T.card ≤ 200 → ∑ A ∈ T, Real.exp (value Lg miss clut A) ≤
        Real.exp ((nR + nC : ℕ) * (1 / 10 ^ 12)) * v + 200 * Real.exp (bot + (nR + nC : ℕ) * hi + 2 * (nR + nC : ℕ) * (1 / 10 ^ 12)) := by
  have h1 := partition_sum Q h fuel 200 hf
  simpa only [Nat.cast_ofNat] using h1

open Classical in
/-- C114: with at most 200 associations the value is the sum over all of them, up to `exp(n 1e-12)` and `200 exp(bot + n hi + 2 n 1e-12)`. -/
theorem C114_all (Q : PQ ℝ (nR + nC)) (h : Ranges Lg miss clut bot big lo hi) (fuel : Nat) (hf : (nR + nC) * (nR + nC + 1) < fuel)
    (hfew : (Finset.univ.filter (OneToOne : (Fin nR → Option (Fin nC)) → Prop)).card ≤ 200) :
    ∃ v, MurtyLik.partition Q Lg miss clut bot big fuel 200 = some v ∧
      v ≤ Assoc.total (fun m z => Real.exp (Lg m z)) (fun m => Real.exp (miss m)) (fun z => Real.exp (clut z)) +
        200 * Real.exp (bot + (nR + nC : ℕ) * hi + 2 * (nR + nC : ℕ) * (1 / 10 ^ 12)) ∧
      Assoc.total (fun m z => Real.exp (Lg m z)) (fun m => Real.exp (miss m)) (fun z => Real.exp (clut z)) ≤
        Real.exp ((nR + nC : ℕ) * (1 / 10 ^ 12)) * v + 200 * Real.exp (bot + (nR + nC : ℕ) * hi + 2 * (nR + nC : ℕ) * (1 / 10 ^ 12)) := by
  obtain ⟨v, h1, h2, h3⟩ := C114_partition_sum Q h fuel hf
  refine ⟨v, h1, h2, le_trans (le_of_eq ?_) (h3 _ (fun A hA => (Finset.mem_filter.1 hA).2) hfew)⟩
  unfold Assoc.total
  exact Finset.sum_congr rfl fun A _ => (exp_value A).symm

end

/-- A matrix meeting the ranges, with the constants of the code: 5 landmarks, 5 measurements, likelihoods between `exp(-1000)` and `exp(5)`. -/
example : Ranges (nR := 5) (nC := 5) (fun r c => if r = c then (5 : ℚ) else if r.val < c.val then -20 else -1000) (fun _ => -3) (fun _ => -7) (-1000) 10000 (-7) 5 where
  rows := by omega
  cols := by omega
  lik r c := by
    split
    · norm_num
    · split <;> norm_num
  miss r := by norm_num
  clut c := by norm_num
  bot_le := by norm_num
  lo_le := by norm_num
  hi_ge := by norm_num
  big := by norm_num

end MurtyBlockProps
end RFS
