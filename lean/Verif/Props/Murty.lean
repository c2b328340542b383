import Verif.Lemmas.Murty
import Mathlib.Data.Fintype.Perm
import Mathlib.Data.Rat.Floor
import Mathlib.Tactic.FinCases
import Mathlib.Tactic.NormNum

/-!
Properties C13, C14 and C15: `Murty::findNextBest`.

Specification: an assignment is a bijection of `Fin n`, its total is the sum of the selected entries of the caller's matrix. The
priority queue is arbitrary within the contract of `std::priority_queue`, so every tie-breaking is covered.
-/

set_option linter.unusedSectionVars false

namespace RFS
namespace MurtyProps
open Murty

variable {K : Type*} [Field K] [LinearOrder K] [IsStrictOrderedRing K] {n : Nat}

/-- Specification: the total of an assignment. -/
def total (C : Fin n → Fin n → K) (σ : Fin n → Fin n) : K := ∑ x, C x (σ x)

/-- **C13 and C14** in one statement: there is a list of all permutations, each once, in which nothing later is better by more
than `n * 1e-12`, such that the `i`-th call returns rank `i+1`, the `i`-th element of the list and its total; every call
after the last returns `-1`. The entries lie in `[lo, hi]` and the big number exceeds the spread as stated. -/
theorem C13_C14_enumeration (Q : PQ K n) (C : Fin n → Fin n → K) (big lo hi : K) (fuel : Nat)
    (hlo : ∀ i j, lo ≤ C i j) (hhi : ∀ i j, C i j ≤ hi) (hbig : n * (hi - lo) + n * (1 / 10 ^ 12) < big + hi)
    (hf : n * (n + 1) < fuel) :
    ∃ L : List (Fin n → Fin n), L.Nodup ∧ (∀ σ, σ ∈ L ↔ Function.Bijective σ) ∧
      L.Pairwise (fun σ τ => total C τ ≤ total C σ + n * (1 / 10 ^ 12)) ∧
      ∀ i, call Q (Prm.make C big none fuel) (start Q) i = match L[i]? with
        | some a => .found (i + 1) a (total C a)
        | none => .noMore :=
  run_all (prm := Prm.make C big none fuel) (lo := lo) (hi := hi) ⟨hlo, hhi, hbig⟩ rfl le_rfl hf Q

/-- **C13**: two calls that return assignments return different permutations, in order of their totals up to the tolerance, with
ranks counting from one and the exact totals as scores. -/
theorem C13_ordered_distinct (Q : PQ K n) (C : Fin n → Fin n → K) (big lo hi : K) (fuel : Nat)
    (hlo : ∀ i j, lo ≤ C i j) (hhi : ∀ i j, C i j ≤ hi) (hbig : n * (hi - lo) + n * (1 / 10 ^ 12) < big + hi)
    (hf : n * (n + 1) < fuel) (i j r r' : Nat) (hij : i < j) (a b : Fin n → Fin n) (s t : K)
    (hi' : call Q (Prm.make C big none fuel) (start Q) i = .found r a s)
    (hj' : call Q (Prm.make C big none fuel) (start Q) j = .found r' b t) :
    r = i + 1 ∧ r' = j + 1 ∧ Function.Bijective a ∧ Function.Bijective b ∧ a ≠ b ∧ s = total C a ∧ t = total C b ∧
      t ≤ s + n * (1 / 10 ^ 12) := by
  obtain ⟨L, h1, h2, h3, h4⟩ := C13_C14_enumeration Q C big lo hi fuel hlo hhi hbig hf
  have e1 := h4 i
  have e2 := h4 j
  rw [hi'] at e1; rw [hj'] at e2
  cases g1 : L[i]? with
  | none => rw [g1] at e1; cases e1
  | some x =>
    cases g2 : L[j]? with
    | none => rw [g2] at e2; cases e2
    | some y =>
      rw [g1] at e1; rw [g2] at e2
      cases e1; cases e2
      obtain ⟨li, rfl⟩ := List.getElem?_eq_some_iff.1 g1
      obtain ⟨lj, rfl⟩ := List.getElem?_eq_some_iff.1 g2
      refine ⟨rfl, rfl, (h2 _).1 (List.getElem_mem _), (h2 _).1 (List.getElem_mem _), ?_, rfl, rfl, ?_⟩
      · intro e
        have := (List.Nodup.getElem_inj_iff h1).1 e
        omega
      · exact List.pairwise_iff_getElem.1 h3 i j li lj hij

/-- **C13**, best first: nothing not returned by the first `i+1` calls is better than what the `i`-th call returned by more than
the tolerance. -/
theorem C13_best_of_rest (Q : PQ K n) (C : Fin n → Fin n → K) (big lo hi : K) (fuel : Nat)
    (hlo : ∀ i j, lo ≤ C i j) (hhi : ∀ i j, C i j ≤ hi) (hbig : n * (hi - lo) + n * (1 / 10 ^ 12) < big + hi)
    (hf : n * (n + 1) < fuel) (i r : Nat) (a : Fin n → Fin n) (s : K)
    (hi' : call Q (Prm.make C big none fuel) (start Q) i = .found r a s)
    (σ : Fin n → Fin n) (hσ : Function.Bijective σ)
    (hnew : ∀ j ≤ i, ∀ r' t, call Q (Prm.make C big none fuel) (start Q) j ≠ .found r' σ t) :
    total C σ ≤ s + n * (1 / 10 ^ 12) := by
  obtain ⟨L, h1, h2, h3, h4⟩ := C13_C14_enumeration Q C big lo hi fuel hlo hhi hbig hf
  obtain ⟨j, hj, rfl⟩ := List.getElem_of_mem ((h2 σ).2 hσ)
  have e := h4 j
  rw [List.getElem?_eq_getElem hj] at e
  have hij : i < j := by
    by_contra hc
    exact hnew j (by omega) _ _ e
  have := C13_ordered_distinct Q C big lo hi fuel hlo hhi hbig hf i j r _ hij a _ s _ hi' e
  exact this.2.2.2.2.2.2.2

/-- **C14**: every permutation is returned by exactly one of the first `n!` calls, these all return an assignment, and all later
calls return `-1`. -/
theorem C14_exhaustive (Q : PQ K n) (C : Fin n → Fin n → K) (big lo hi : K) (fuel : Nat)
    (hlo : ∀ i j, lo ≤ C i j) (hhi : ∀ i j, C i j ≤ hi) (hbig : n * (hi - lo) + n * (1 / 10 ^ 12) < big + hi)
    (hf : n * (n + 1) < fuel) :
    (∀ σ : Fin n → Fin n, Function.Bijective σ → ∃! i, ∃ r s,
      call Q (Prm.make C big none fuel) (start Q) i = .found r σ s) ∧
    (∀ i, i < n.factorial → ∃ a s, call Q (Prm.make C big none fuel) (start Q) i = .found (i + 1) a s) ∧
    (∀ i, n.factorial ≤ i → call Q (Prm.make C big none fuel) (start Q) i = .noMore) := by
  classical
  obtain ⟨L, h1, h2, h3, h4⟩ := C13_C14_enumeration Q C big lo hi fuel hlo hhi hbig hf
  have hlen : L.length = n.factorial := by
    have e : L.toFinset = Finset.univ.image (fun p : Equiv.Perm (Fin n) => (p : Fin n → Fin n)) := by
      ext σ
      simp only [List.mem_toFinset, h2, Finset.mem_image, Finset.mem_univ, true_and]
      constructor
      · intro h; exact ⟨Equiv.ofBijective σ h, rfl⟩
      · rintro ⟨p, rfl⟩; exact p.bijective
    rw [← List.toFinset_card_of_nodup h1, e, Finset.card_image_of_injective _ DFunLike.coe_injective,
      Finset.card_univ, Fintype.card_perm, Fintype.card_fin]
  refine ⟨fun σ hσ => ?_, fun i hi => ?_, fun i hi => ?_⟩
  · obtain ⟨j, hj, rfl⟩ := List.getElem_of_mem ((h2 σ).2 hσ)
    refine ⟨j, ⟨j + 1, total C L[j], ?_⟩, ?_⟩
    · rw [h4, List.getElem?_eq_getElem hj]
    · rintro i ⟨r, s, e⟩
      rw [h4] at e
      cases g : L[i]? with
      | none => rw [g] at e; cases e
      | some x =>
        rw [g] at e
        have hx : x = L[j] := by cases e; rfl
        obtain ⟨li, hx'⟩ := List.getElem?_eq_some_iff.1 g
        exact (List.Nodup.getElem_inj_iff h1).1 (hx'.trans hx)
  · exact ⟨L[i], _, by rw [h4, List.getElem?_eq_getElem (by omega)]⟩
  · rw [h4, List.getElem?_eq_none (by omega)]

/-- A priority queue meeting the contract: an unsorted list. -/
def listMax (l : List (Node K n)) : Option (Node K n × List (Node K n)) :=
  match l with
  | [] => none
  | x :: xs =>
    match listMax xs with
    | none => some (x, [])
    | some (y, ys) => if x.s < y.s then some (y, x :: ys) else some (x, xs)

theorem listMax_none : ∀ l : List (Node K n), listMax l = none → l = []
  | [], _ => rfl
  | x :: xs, h => by
    simp only [listMax] at h
    split at h
    · cases h
    · split at h <;> cases h

theorem listMax_some : ∀ (l : List (Node K n)) (x : Node K n) (l' : List (Node K n)), listMax l = some (x, l') →
    l.Perm (x :: l') ∧ ∀ y ∈ l, y.s ≤ x.s
  | [], _, _, h => by cases h
  | z :: zs, x, l', h => by
    simp only [listMax] at h
    split at h
    · rename_i hn
      have := listMax_none zs hn
      subst this
      cases h
      exact ⟨List.Perm.refl _, by simp⟩
    · rename_i y ys hs
      obtain ⟨h1, h2⟩ := listMax_some zs y ys hs
      split at h
      · rename_i hlt
        cases h
        refine ⟨(h1.cons z).trans (List.Perm.swap _ _ _), ?_⟩
        intro w hw
        rcases List.mem_cons.1 hw with rfl | hw
        · exact hlt.le
        · exact h2 w hw
      · rename_i hlt
        cases h
        refine ⟨List.Perm.refl _, ?_⟩
        intro w hw
        rcases List.mem_cons.1 hw with rfl | hw
        · exact le_rfl
        · exact (h2 w hw).trans (not_lt.1 hlt)

/-- The contract `PQ` can be met. -/
def listPQ (K : Type) [Field K] [LinearOrder K] [IsStrictOrderedRing K] (n : Nat) : PQ K n where
  H := List (Node K n)
  empty := []
  push := fun h x => x :: h
  pop := listMax
  elems := fun l => (l : Multiset (Node K n))
  elems_empty := rfl
  elems_push := fun _ _ => rfl
  pop_none := fun h e => by rw [listMax_none h e]; rfl
  pop_some := fun h x h' e => by
    obtain ⟨h1, h2⟩ := listMax_some h x h' e
    exact ⟨Multiset.coe_eq_coe.2 h1, fun y hy => h2 y hy⟩

/-- A concrete matrix within the hypotheses: entries between 0 and 8, the default big number 10000. -/
def exC : Fin 3 → Fin 3 → ℚ := ![![1, 5, 8], ![2, 0, 7], ![4, 4, 4]]

example : (∀ i j, (0 : ℚ) ≤ exC i j) ∧ (∀ i j, exC i j ≤ 8) ∧
    ((3 : ℕ) : ℚ) * (8 - 0) + (3 : ℕ) * (1 / 10 ^ 12) < 10000 + 8 ∧ 3 * (3 + 1) < 13 := by
  exact ⟨by decide +kernel, by decide +kernel, by norm_num, by norm_num⟩

/-- The second best assignment of the example is really a different one. -/
example : (match call (listPQ ℚ 3) (Prm.make exC 10000 none 13) (start _) 0,
      call (listPQ ℚ 3) (Prm.make exC 10000 none 13) (start _) 1 with
    | .found 1 a s, .found 2 b t => decide (a = ![1, 2, 0] ∧ s = 16 ∧ b = ![2, 0, 1] ∧ t = 14)
    | _, _ => false) = true := by decide +kernel

/-- Specification of C15: the real column of a real row, or none. -/
def realAssoc (nR nC : Nat) (a : Fin n → Fin n) : Fin n → Option (Fin n) :=
  fun i => if i.val < nR then (if (a i).val < nC then some (a i) else none) else none

/-- **C15**, full statement, as a proposition about a matrix and a block. -/
def RealDistinct (Q : PQ K n) (C : Fin n → Fin n → K) (big : K) (nR nC fuel : Nat) : Prop :=
  ∀ i j r r' a b s t, i ≠ j → call Q (Prm.make C big (some (nR, nC)) fuel) (start Q) i = .found r a s →
    call Q (Prm.make C big (some (nR, nC)) fuel) (start Q) j = .found r' b t →
    realAssoc nR nC a ≠ realAssoc nR nC b

/-- **C15** is false of the code: 3 x 3, two real rows, one real column. The first two results both pair real row 0 with real
column 0 and leave real row 1 unpaired: the reduced column index is compared with the column count of the full matrix. -/
theorem C15_violated : ¬ RealDistinct (listPQ ℚ 3) (![![10, 0, 0], ![0, 2, 1], ![0, 0, 0]]) 10000 2 1 13 := by
  intro h
  have e : (match call (listPQ ℚ 3) (Prm.make (![![10, 0, 0], ![0, 2, 1], ![0, 0, 0]]) 10000 (some (2, 1)) 13) (start _) 0,
      call (listPQ ℚ 3) (Prm.make (![![10, 0, 0], ![0, 2, 1], ![0, 0, 0]]) 10000 (some (2, 1)) 13) (start _) 1 with
    | .found _ a _, .found _ b _ => decide (realAssoc 2 1 a = realAssoc 2 1 b)
    | _, _ => false) = true := by decide +kernel
  split at e
  · rename_i h1 h2
    exact h 0 1 _ _ _ _ _ _ (by decide) h1 h2 (of_decide_eq_true e)
  · cases e

/-- **C15**, the part that holds: with the whole matrix as block (the default), no real assignment is repeated. Missing: proper
blocks, for which the statement is false (`C15_violated`). -/
theorem C15_whole_block_partial (Q : PQ K n) (C : Fin n → Fin n → K) (big lo hi : K) (fuel : Nat)
    (hlo : ∀ i j, lo ≤ C i j) (hhi : ∀ i j, C i j ≤ hi) (hbig : n * (hi - lo) + n * (1 / 10 ^ 12) < big + hi)
    (hf : n * (n + 1) < fuel) (nR nC : Nat) (hR : n ≤ nR) (hC : n ≤ nC) : RealDistinct Q C big nR nC fuel := by
  have e : Prm.make C big (some (nR, nC)) fuel = Prm.make C big none fuel := by
    simp [Prm.make, Nat.min_eq_right hR, Nat.min_eq_right hC]
  have hall : ∀ a b : Fin n → Fin n, a ≠ b → realAssoc nR nC a ≠ realAssoc nR nC b := by
    intro a b hab he
    apply hab
    funext i
    have := congrFun he i
    simp only [realAssoc] at this
    rw [if_pos (by omega), if_pos (by omega), if_pos (by omega), if_pos (by omega)] at this
    exact Option.some.inj this
  intro i j r r' a b s t hne h1 h2
  rw [e] at h1 h2
  rcases Nat.lt_or_gt_of_ne hne with h | h
  · exact hall a b (C13_ordered_distinct Q C big lo hi fuel hlo hhi hbig hf i j r r' h a b s t h1 h2).2.2.2.2.1
  · exact (hall b a (C13_ordered_distinct Q C big lo hi fuel hlo hhi hbig hf j i r' r h b a t s h2 h1).2.2.2.2.1).symm

end MurtyProps
end RFS
