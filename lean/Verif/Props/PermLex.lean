import Verif.Lemmas.PermLex
import Mathlib.Data.List.Count
import Mathlib.Data.Nat.Factorial.Basic

/-!
Properties C04 and C05: the association enumeration of `PermutationLexicographic`.

The specification: an assignment gives each of `nM` landmarks a measurement in `0..nZ-1`, or `nZ` for "none", using no
measurement twice. The order is the lexicographic order of Mathlib on lists.
-/

namespace RFS
namespace PermLexProps
open PermLex

/-- Specification: an assignment of landmarks to measurements or to "none" (`nZ`). -/
def IsAssignment (nM nZ : Nat) (p : List Nat) : Prop :=
  p.length = nM ∧ (∀ x ∈ p, x ≤ nZ) ∧ ∀ x < nZ, p.count x ≤ 1

/-- Specification: an assignment followed by the unused measurements in increasing order and padding. -/
def withUnused (nZ : Nat) (p : List Nat) : List Nat :=
  p ++ ((List.range nZ).filter (fun x => decide (x ∉ p)) ++ List.replicate (p.countP (· < nZ)) nZ)

theorem count_start (nM nZ x : Nat) : ((List.range (nM + nZ)).map fun i => if i < nZ then i else nZ).count x =
    if x < nZ then 1 else if x = nZ then nM else 0 := by
  have e : ((List.range (nM + nZ)).map fun i => if i < nZ then i else nZ) = List.range nZ ++ List.replicate nM nZ := by
    rw [Nat.add_comm, List.range_add, List.map_append]
    congr 1
    · conv_rhs => rw [← List.map_id (List.range nZ)]
      apply List.map_congr_left
      intro a ha
      simp [List.mem_range.1 ha]
    · rw [List.map_map, List.eq_replicate_iff]
      simp
  rw [e, List.count_append, List.Nodup.count List.nodup_range, List.count_replicate]
  by_cases h : x < nZ
  · simp [h, Nat.ne_of_gt h]
  · by_cases h2 : x = nZ
    · simp [h2]
    · simp [h, h2, Ne.symm h2]

theorem count_tail (nZ : Nat) (p : List Nat) (x : Nat) :
    ((List.range nZ).filter (fun x => decide (x ∉ p)) ++ List.replicate (p.countP (· < nZ)) nZ).count x =
    if x < nZ then (if x ∈ p then 0 else 1) else if x = nZ then p.countP (· < nZ) else 0 := by
  rw [List.count_append, List.Nodup.count (List.nodup_range.filter _), List.count_replicate]
  by_cases h : x < nZ
  · by_cases h2 : x ∈ p <;> simp [h, h2, Nat.ne_of_gt h]
  · by_cases h2 : x = nZ
    · simp [h2]
    · simp [h, h2, Ne.symm h2]

theorem tail_sorted (nZ : Nat) (p : List Nat) :
    ((List.range nZ).filter (fun x => decide (x ∉ p)) ++ List.replicate (p.countP (· < nZ)) nZ).Pairwise (· ≤ ·) := by
  rw [List.pairwise_append]
  refine ⟨?_, ?_, ?_⟩
  · exact (List.pairwise_lt_range.imp (fun h => le_of_lt h)).filter _
  · exact List.pairwise_replicate.2 (Or.inr (le_refl _))
  · intro a ha b hb
    rw [List.mem_filter, List.mem_range] at ha
    rw [List.mem_replicate] at hb
    omega

theorem countP_add_count {nM nZ : Nat} {p : List Nat} (h : p.length = nM) (hle : ∀ x ∈ p, x ≤ nZ) :
    p.countP (· < nZ) + p.count nZ = nM := by
  subst h
  induction p with
  | nil => simp
  | cons a p ih =>
    have := ih fun x hx => hle x (List.mem_cons_of_mem _ hx)
    have ha := hle a List.mem_cons_self
    rw [List.countP_cons, List.count_cons, List.length_cons]
    by_cases h : a < nZ
    · have h2 : a ≠ nZ := by omega
      simp [h, h2]; omega
    · have h2 : a = nZ := by omega
      simp [h2]; subst h2; omega

theorem good_iff (nM nZ : Nat) (m : List Nat) :
    Good ((List.range (nM + nZ)).map fun i => if i < nZ then i else nZ) nM m ↔
      ∃ p, IsAssignment nM nZ p ∧ m = withUnused nZ p := by
  constructor
  · rintro ⟨h1, h2⟩
    have hcount := fun x => (h1.count_eq x).trans (count_start nM nZ x)
    have hsplit : ∀ x, (m.take nM).count x + (m.drop nM).count x = m.count x := by
      intro x; rw [← List.count_append, List.take_append_drop]
    have hlen : (m.take nM).length = nM := by
      have := h1.length_eq
      simp at this
      simp [this]
    have hle : ∀ x ∈ m.take nM, x ≤ nZ := by
      intro x hx
      have h3 : 0 < m.count x := List.count_pos_iff.2 (List.mem_of_mem_take hx)
      rw [hcount] at h3
      by_contra hc
      rw [if_neg (by omega), if_neg (by omega)] at h3
      exact lt_irrefl _ h3
    refine ⟨m.take nM, ⟨hlen, hle, ?_⟩, ?_⟩
    · intro x hx
      have h3 := hsplit x
      rw [hcount, if_pos hx] at h3
      omega
    · unfold withUnused
      conv_lhs => rw [← List.take_append_drop nM m]
      congr 1
      apply sorted_perm_eq h2 (tail_sorted nZ _)
      rw [List.perm_iff_count]
      intro x
      rw [count_tail]
      have h3 := hsplit x
      rw [hcount] at h3
      by_cases hx : x < nZ
      · rw [if_pos hx] at h3 ⊢
        by_cases hm : x ∈ m.take nM
        · have := List.count_pos_iff.2 hm
          rw [if_pos hm]; omega
        · have := List.count_eq_zero.2 hm
          rw [if_neg hm]; omega
      · rw [if_neg hx] at h3 ⊢
        by_cases hx2 : x = nZ
        · subst hx2
          rw [if_pos rfl] at h3 ⊢
          have := countP_add_count hlen hle
          omega
        · rw [if_neg hx2] at h3 ⊢
          omega
  · rintro ⟨p, ⟨h1, h2, h3⟩, rfl⟩
    refine ⟨?_, ?_⟩
    · rw [List.perm_iff_count]
      intro x
      unfold withUnused
      rw [List.count_append, count_tail, count_start]
      by_cases hx : x < nZ
      · rw [if_pos hx, if_pos hx]
        have := h3 x hx
        by_cases hm : x ∈ p
        · have := List.count_pos_iff.2 hm
          rw [if_pos hm]; omega
        · have := List.count_eq_zero.2 hm
          rw [if_neg hm]; omega
      · rw [if_neg hx, if_neg hx]
        by_cases hx2 : x = nZ
        · subst hx2
          rw [if_pos rfl, if_pos rfl]
          have := countP_add_count h1 h2
          omega
        · rw [if_neg hx2, if_neg hx2]
          have : x ∉ p := fun hm => by have := h2 x hm; omega
          have := List.count_eq_zero.2 this
          omega
    · unfold withUnused
      rw [List.drop_append_of_le_length (by omega), List.drop_of_length_le (by omega), List.nil_append]
      exact tail_sorted nZ p

theorem take_withUnused {nM nZ : Nat} {p : List Nat} (h : p.length = nM) : (withUnused nZ p).take nM = p := by
  unfold withUnused
  rw [List.take_append_of_le_length (by omega), List.take_of_length_le (by omega)]

/-- **C04**: for every number of landmarks and measurements (not both zero) there is a list `L` of assignments, strictly
increasing in lexicographic order and containing every assignment, such that the `k`-th call writes the `k`-th assignment
followed by the unused measurements and returns `k+1` (as an `unsigned int`), and every call after the last assignment
writes zeros and returns 0. No call touches memory out of bounds. -/
theorem C04_enumeration (nM nZ : Nat) (h0 : 0 < nM + nZ) :
    ∃ L : List (List Nat), L.Pairwise (· < ·) ∧ (∀ p, p ∈ L ↔ IsAssignment nM nZ p) ∧
      ∀ k, call (init nM nZ true) k = if h : k < L.length then some (withUnused nZ L[k], (k + 1) % 2 ^ 32)
        else some (List.replicate (nM + nZ) 0, 0) := by
  have hinit : init nM nZ true = { o := (List.range (nM + nZ)).map fun i => if i < nZ then i else nZ, nM := nM, nZ := nZ, nP := 0, last := false } := by
    unfold init
    simp
  have hsorted : ((List.range (nM + nZ)).map fun i => if i < nZ then i else nZ).Pairwise (· ≤ ·) := by
    rw [List.pairwise_map]
    refine List.pairwise_lt_range.imp ?_
    intro a b hab
    split <;> split <;> omega
  obtain ⟨L, h1, h2, h3⟩ := chain ((List.range (nM + nZ)).map fun i => if i < nZ then i else nZ) _ (init nM nZ true) rfl
    (by rw [hinit]) (by rw [hinit]; simp) (by rw [hinit]; simp; omega) (by
      rw [hinit]
      exact ⟨List.Perm.refl _, hsorted.sublist (List.drop_sublist _ _)⟩)
  have hmem : ∀ q, q ∈ L ↔ Good ((List.range (nM + nZ)).map fun i => if i < nZ then i else nZ) nM q := by
    intro q
    rw [h2, hinit]
    constructor
    · exact fun h => h.1
    · intro h
      exact ⟨h, asc_min hsorted h.1⟩
  refine ⟨L.map (·.take nM), ?_, ?_, ?_⟩
  · rw [List.pairwise_map]
    refine h1.imp_of_mem ?_
    intro a b ha hb hab
    exact (good_lt_iff ((hmem a).1 ha) ((hmem b).1 hb)).1 hab
  · intro p
    rw [List.mem_map]
    constructor
    · rintro ⟨q, hq, rfl⟩
      rw [hmem, good_iff] at hq
      obtain ⟨p, hp, rfl⟩ := hq
      rw [take_withUnused hp.1]
      exact hp
    · intro hp
      exact ⟨withUnused nZ p, by rw [hmem, good_iff]; exact ⟨p, hp, rfl⟩, take_withUnused hp.1⟩
  · intro k
    rw [h3, hinit]
    by_cases hk : k < L.length
    · rw [dif_pos hk, dif_pos (by simpa using hk)]
      have := (hmem _).1 (List.getElem_mem hk)
      rw [good_iff] at this
      obtain ⟨p, hp, he⟩ := this
      simp only [List.getElem_map]
      rw [he, take_withUnused hp.1]
      simp [uintMod]
    · rw [dif_neg hk, dif_neg (by simpa using hk)]
      simp

/-- The sizes default to clutter when they differ (so **C04** covers every call of the constructor except the one of
**C05**). -/
theorem C04_default_clutter (nM nZ : Nat) (h : nM ≠ nZ) (b : Bool) : init nM nZ b = init nM nZ true := by
  unfold init; simp [h]

/-- **C05**: with `n >= 1` landmarks, `n` measurements and no clutter, the `n!` permutations of `0..n-1` come out once each in
lexicographic order, numbered from 1 (as an `unsigned int`), then zeros and 0 forever. -/
theorem C05_square (n : Nat) (h0 : 0 < n) :
    ∃ L : List (List Nat), L.Pairwise (· < ·) ∧ (∀ p, p ∈ L ↔ p.Perm (List.range n)) ∧ L.length = n.factorial ∧
      ∀ k, call (init n n false) k = if h : k < L.length then some (L[k], (k + 1) % 2 ^ 32)
        else some (List.replicate n 0, 0) := by
  have hinit : init n n false = { o := List.range n, nM := n, nZ := n, nP := 0, last := false } := by
    unfold init
    simp only [ne_eq, not_true_eq_false, if_false, Bool.false_eq_true, St.mk.injEq, and_true]
    conv_rhs => rw [← List.map_id (List.range n)]
    apply List.map_congr_left
    intro a ha
    simp [List.mem_range.1 ha]
  have hsorted : (List.range n).Pairwise (· ≤ ·) := List.pairwise_lt_range.imp (fun h => le_of_lt h)
  obtain ⟨L, h1, h2, h3⟩ := chain (List.range n) _ (init n n false) rfl
    (by rw [hinit]) (by rw [hinit]; simp) (by rw [hinit]; simp; omega) (by
      rw [hinit]
      exact ⟨List.Perm.refl _, hsorted.sublist (List.drop_sublist _ _)⟩)
  have hmem : ∀ q, q ∈ L ↔ q.Perm (List.range n) := by
    intro q
    rw [h2, hinit]
    constructor
    · exact fun h => h.1.1
    · intro h
      refine ⟨⟨h, ?_⟩, asc_min hsorted h⟩
      simp only
      rw [List.drop_of_length_le (by rw [h.length_eq]; simp)]
      exact List.Pairwise.nil
  refine ⟨L, h1, hmem, ?_, ?_⟩
  · have hp : L.Perm (List.range n).permutations := by
      rw [List.perm_ext_iff_of_nodup (h1.imp fun h => ne_of_lt h) (List.nodup_permutations _ List.nodup_range)]
      intro q
      rw [hmem, List.mem_permutations]
    rw [hp.length_eq, List.length_permutations, List.length_range]
  · intro k
    rw [h3, hinit]
    by_cases hk : k < L.length
    · rw [dif_pos hk, dif_pos hk]
      simp [uintMod]
    · rw [dif_neg hk, dif_neg hk]
      simp

/-- The counter is 32 bits wide: with 13 landmarks the call number `2^32` returns 0, the value documented for "no
permutations remaining", although it wrote a permutation and more follow. -/
theorem C05_counter_wraps :
    ∃ p q, p ≠ q ∧ p.Perm (List.range 13) ∧ q.Perm (List.range 13) ∧
      call (init 13 13 false) (2 ^ 32 - 1) = some (p, 0) ∧ call (init 13 13 false) (2 ^ 32) = some (q, 1) := by
  obtain ⟨L, h1, h2, h3, h4⟩ := C05_square 13 (by decide)
  have hl : 2 ^ 32 < L.length := by rw [h3]; decide
  refine ⟨L[2 ^ 32 - 1]'(by omega), L[2 ^ 32]'hl, ?_, (h2 _).1 (List.getElem_mem _), (h2 _).1 (List.getElem_mem _), ?_, ?_⟩
  · have := List.pairwise_iff_getElem.1 h1 (2 ^ 32 - 1) (2 ^ 32) (by omega) hl (by omega)
    exact ne_of_lt this
  · rw [h4, dif_pos (by omega)]
  · rw [h4, dif_pos hl]

/-- The empty object (`nM = nZ = 0`) is outside **C04**: its first call indexes outside the empty array. -/
theorem C04_empty_is_ub : call (init 0 0 true) 0 = none := by
  unfold call next init revLoop
  simp [uintMod, swapAt]

/-- Non-vacuity: two landmarks, one measurement. -/
example : (List.range 5).map (call (init 2 1 true)) =
    [some ([0, 1, 1], 1), some ([1, 0, 1], 2), some ([1, 1, 0], 3), some ([0, 0, 0], 0), some ([0, 0, 0], 0)] := by
  decide +kernel

end PermLexProps
end RFS
