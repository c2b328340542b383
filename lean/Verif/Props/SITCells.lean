import Verif.Props.SpatialIndex
import Verif.Lemmas.SITCells

/-!
Property C256: resolution of the spatial index.
-/

set_option linter.unusedSectionVars false

namespace RFS
namespace SITProps
open SIT

variable {K : Type*} [Field K] [LinearOrder K] [IsStrictOrderedRing K] [FloorRing K] {D : Type*} [DecidableEq D] {d : Nat} (I : Idx K D d)

/-- Specification: two points of the same cell of the grid of cubes of edge `mn`. -/
def OneCell (mn : K) (p q : Fin d → K) : Prop := ∀ j, ∃ z : ℤ, z * mn ≤ p j ∧ p j ≤ (z + 1) * mn ∧ z * mn ≤ q j ∧ q j ≤ (z + 1) * mn

theorem same_iff (hm : 0 < I.mn) (p q : Fin d → K) (hp : OffGrid I p) (hq : OffGrid I q) : Same I p q ↔ OneCell I.mn p q := by
  have key : ∀ (p : Fin d → K), OffGrid I p → ∀ j (z : ℤ), ⌊p j / I.mn⌋ = z ↔ z * I.mn ≤ p j ∧ p j ≤ (z + 1) * I.mn := by
    intro p hp j z
    rw [Int.floor_eq_iff, le_div_iff₀ hm, div_lt_iff₀ hm]
    have := hp j (z + 1)
    push_cast at this
    exact ⟨fun h => ⟨h.1, h.2.le⟩, fun h => ⟨h.1, lt_of_le_of_ne h.2 this⟩⟩
  constructor
  · intro h j
    have h1 := (key p hp j _).1 rfl
    have h2 := (key q hq j _).1 rfl
    rw [← h j] at h2
    exact ⟨_, h1.1, h1.2, h2.1, h2.2⟩
  · intro h j
    obtain ⟨z, a, b, c, e⟩ := h j
    rw [(key p hp j z).2 ⟨a, b⟩, (key q hq j z).2 ⟨c, e⟩]

theorem reach_fine (hm : 0 < I.mn) (hoff : ∀ x, OffGrid I (I.pos x)) (t : Tree K D d) (m : Multiset D) (h : Reach I t m) : Fine I t := by
  induction h with
  | init => intro i y hy; simp at hy
  | add t t' m x fuel h e ih => exact addData_fine I hm hoff fuel t t' x (reach_root I hm t m h).1 ih e
  | removed t t' m x h e ih =>
    unfold removeData at e
    split at e
    · simp only [Option.map_eq_some_iff] at e
      obtain ⟨r, e, e2⟩ := e
      cases r; cases e2
      exact removeRec_fine I x t true _ ih e
    · exact absurd e (by simp)
  | notFound t t' m x h e ih =>
    unfold removeData at e
    split at e
    · simp only [Option.map_eq_some_iff] at e
      obtain ⟨r, e, e2⟩ := e
      cases r; cases e2
      exact removeRec_fine I x t true _ ih e
    · exact absurd e (by simp)

/-- **C256** (partial): after any history of additions and removals, data that share a box without children lie in the same cell of the grid of smallest boxes, if no datum lies on a face of
the grid. Missing: data on the faces, see `C256_violated`. -/
theorem C256_resolution_partial (hm : 0 < I.mn) (hoff : ∀ x j (z : ℤ), I.pos x j ≠ z * I.mn) (t : Tree K D d) (m : Multiset D) (h : Reach I t m)
    (lo : Fin d → K) (k : Nat) (data : List D) (hb : Box t (.leaf lo k data)) (y y' : D) (hy : y ∈ data) (hy' : y' ∈ data) : OneCell I.mn (I.pos y) (I.pos y') :=
  (same_iff I hm _ _ (hoff y) (hoff y')).1 (fine_box I t _ hb (reach_fine I hm hoff t m h) y hy y' hy')

/-- **C256**, no box is split without need: a datum in the cell of a stored one joins it in its box, and the box stays as it is. -/
theorem C256_shared_partial (hm : 0 < I.mn) (hoff : ∀ x j (z : ℤ), I.pos x j ≠ z * I.mn) (t : Tree K D d) (m : Multiset D) (h : Reach I t m)
    (lo : Fin d → K) (k : Nat) (data : List D) (hb : Box t (.leaf lo k data)) (x y : D) (hy : y ∈ data) (hc : OneCell I.mn (I.pos y) (I.pos x)) (fuel : Nat) :
    ∃ t', addData I (fuel + 1) t x = some t' ∧ Box t' (.leaf lo k (data ++ [x])) := by
  have hs := (same_iff I hm _ _ (hoff y) (hoff x)).2 hc
  obtain ⟨hr, -⟩ := reach_root I hm t m h
  have hin := inside_of_mem I hm t hr.1 y (box_mem t _ hb y hy)
  rw [addData, if_pos (inside_same I hm t.lo (root_onGrid I t hr) _ _ _ hs (hoff y) hin)]
  exact insert_shared I hm hoff x y hs lo k data hy t hb hr.1 (root_onGrid I t hr) (reach_fine I hm hoff t m h)

/-- The first leaf of a tree that holds a datum, with the data in it. -/
def leafOf [DecidableEq D] (x : D) : Tree K D d → Option (List D)
  | .leaf _ _ data => if x ∈ data then some data else none
  | .node _ _ _ ch => (List.finRange (2 ^ d)).findSome? fun i => leafOf x (ch i)

theorem leafOf_box (x : D) (t : Tree K D d) (data : List D) (h : leafOf x t = some data) : ∃ lo k, Box t (.leaf lo k data) := by
  induction t with
  | leaf lo k l =>
    rw [leafOf] at h
    split at h
    · cases h; exact ⟨lo, k, Box.here _⟩
    · exact absurd h (by simp)
  | node lo k n ch ih =>
    rw [leafOf] at h
    obtain ⟨i, -, hi⟩ := List.exists_of_findSome?_eq_some h
    obtain ⟨lo', k', hb⟩ := ih i hi
    exact ⟨lo', k', Box.child _ _ _ _ i _ hb⟩

/-- Positions of the witness: 3.5, 1.5, 1.2, 2 and 2.5. -/
def facePos : Nat → Rat
  | 0 => 7 / 2
  | 1 => 3 / 2
  | 2 => 6 / 5
  | 3 => 2
  | _ => 5 / 2

/-- **C256**, violated: 1.2 and 2.5 share a box of edge 4 although the smallest boxes have edge 1. The datum at 2 lies on a face; once the datum before it is removed it stands for the cell on
its other side. -/
theorem C256_violated : ∃ t, Reach (ex1 facePos) t (4 ::ₘ (Multiset.erase {3, 2, 1} 1)) ∧ ∃ lo k data, Box t (.leaf lo k data) ∧ 2 ∈ data ∧ 4 ∈ data ∧
    ¬ OneCell (1 : Rat) ((ex1 facePos).pos 2) ((ex1 facePos).pos 4) := by
  have hev : ((addData (ex1 facePos) 5 (init (ex1 facePos)) 0).bind fun t0 => (removeData (ex1 facePos) t0 0).bind fun r0 => (addData (ex1 facePos) 5 r0.2 1).bind fun t1 =>
      (addData (ex1 facePos) 5 t1 2).bind fun t2 => (addData (ex1 facePos) 5 t2 3).bind fun t3 => (removeData (ex1 facePos) t3 1).bind fun r3 => (addData (ex1 facePos) 5 r3.2 4).bind fun t4 =>
      (leafOf 4 t4).map fun l => (r0.1, r3.1, l)) = some (true, true, [3, 2, 4]) := by decide +kernel
  obtain ⟨t0, e0, hev⟩ := Option.bind_eq_some_iff.1 hev
  obtain ⟨r0, d0, hev⟩ := Option.bind_eq_some_iff.1 hev
  obtain ⟨t1, e1, hev⟩ := Option.bind_eq_some_iff.1 hev
  obtain ⟨t2, e2, hev⟩ := Option.bind_eq_some_iff.1 hev
  obtain ⟨t3, e3, hev⟩ := Option.bind_eq_some_iff.1 hev
  obtain ⟨r3, d3, hev⟩ := Option.bind_eq_some_iff.1 hev
  obtain ⟨t4, e4, hev⟩ := Option.bind_eq_some_iff.1 hev
  obtain ⟨l, hl, hev⟩ := Option.map_eq_some_iff.1 hev
  obtain ⟨b0, s0⟩ := r0
  obtain ⟨b3, s3⟩ := r3
  simp only [Prod.mk.injEq] at hev
  obtain ⟨rfl, rfl, rfl⟩ := hev
  obtain ⟨lo, k, hb⟩ := leafOf_box 4 t4 _ hl
  have hr0 := Reach.removed _ _ _ 0 (Reach.add _ _ 0 0 5 Reach.init e0) d0
  have hz : Multiset.erase (0 ::ₘ (0 : Multiset Nat)) 0 = 0 := by decide
  rw [hz] at hr0
  refine ⟨t4, Reach.add _ _ _ 4 5 (Reach.removed _ _ _ 1 (Reach.add _ _ _ 3 5 (Reach.add _ _ _ 2 5 (Reach.add _ _ 0 1 5 hr0 e1) e2) e3) d3) e4, lo, k, _, hb, by decide, by decide, ?_⟩
  intro h
  obtain ⟨z, h1, h2, h3, h4⟩ := h 0
  simp only [ex1, facePos, mul_one] at h1 h2 h3 h4
  have a : (z : Rat) < 2 := by linarith
  have b : (1 : Rat) < z := by linarith
  have a' : z < 2 := by exact_mod_cast a
  have b' : 1 < z := by exact_mod_cast b
  omega

/-- Data off the grid: those in one cell share a box, the one in the next cell does not. -/
def offPos : Nat → Rat
  | 0 => 3 / 2
  | 1 => 6 / 5
  | _ => 5 / 2

example : ((addData (ex1 offPos) 5 (init (ex1 offPos)) 2).bind fun t => (addData (ex1 offPos) 5 t 0).bind fun t => (addData (ex1 offPos) 5 t 1).map fun t => (leafOf 0 t, leafOf 2 t)) =
    some (some [0, 1], some [2]) := by decide +kernel

end SITProps
end RFS
