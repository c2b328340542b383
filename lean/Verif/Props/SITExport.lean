import Verif.Model.SITExport
import Verif.Props.SpatialIndex

/-!
Property C251: the file written from the spatial index.
-/

set_option linter.unusedSectionVars false

namespace RFS
namespace SITExportProps
open SIT SITProps

variable {K : Type*} [Field K] [LinearOrder K] [IsStrictOrderedRing K] [FloorRing K] {D : Type*} [DecidableEq D] {d : Nat} (I : Idx K D d)

/-- The lines of one box and all below it: a box with its points, all of them inside it, or a box followed by the lines of its
`2^d` halves in the order of their numbers (bit `i` of the number tells the upper from the lower half along axis `i`). The number on
the line of a box is the number of points listed below it. -/
inductive Listing : (lo hi : Fin d → K) → Nat → List (Line K d) → Prop
  | points (lo hi : Fin d → K) (ps : List (Fin d → K)) (h : ∀ p ∈ ps, ∀ i, lo i ≤ p i ∧ p i ≤ hi i) :
      Listing lo hi ps.length (.box lo hi ps.length :: ps.map .pt)
  | halves (lo hi : Fin d → K) (ns : Fin (2 ^ d) → Nat) (ls : Fin (2 ^ d) → List (Line K d))
      (h : ∀ c, Listing (fun i => if c.val.testBit i then (lo i + hi i) / 2 else lo i)
        (fun i => if c.val.testBit i then hi i else (lo i + hi i) / 2) (ns c) (ls c)) :
      Listing lo hi (∑ c, ns c) (.box lo hi (∑ c, ns c) :: (List.ofFn ls).flatten)

/-- The positions on the lines of points. -/
def points (l : List (Line K d)) : List (Fin d → K) :=
  l.filterMap fun x => match x with
    | .pt p => some p
    | .box _ _ _ => none

/-- What the traversal writes for one box, as a recursion over the tree. -/
def linesOf : Tree K D d → List (Line K d)
  | .leaf lo k data => boxLine I (.leaf lo k data) :: dataLines I data
  | .node lo k n ch => boxLine I (.node lo k n ch) :: (List.ofFn fun i => linesOf (ch i)).flatten

/-- Number of boxes. -/
def boxes : Tree K D d → Nat
  | .leaf _ _ _ => 1
  | .node _ _ _ ch => 1 + (List.ofFn fun i => boxes (ch i)).sum

theorem push_eq (ch : Fin (2 ^ d) → Tree K D d) (s : List (Tree K D d)) : pushChildren ch s = List.ofFn ch ++ s := by
  unfold pushChildren
  rw [List.foldl_reverse, List.ofFn_eq_map]
  induction List.finRange (2 ^ d) with
  | nil => rfl
  | cons a l ih => simp [ih]

theorem loop_eq : ∀ (fuel : Nat) (s : List (Tree K D d)), (s.map boxes).sum ≤ fuel →
    exportLoop I fuel s = some (s.map (linesOf I)).flatten := by
  intro fuel
  induction fuel with
  | zero =>
    intro s hs
    cases s with
    | nil => rfl
    | cons t s => cases t <;> simp [boxes] at hs
  | succ f ih =>
    intro s hs
    cases s with
    | nil => rfl
    | cons t s =>
      cases t with
      | leaf lo k data =>
        simp only [List.map_cons, List.sum_cons, boxes] at hs
        rw [exportLoop, ih s (by omega)]
        simp [linesOf]
      | node lo k n ch =>
        simp only [List.map_cons, List.sum_cons, boxes] at hs
        rw [exportLoop, push_eq, ih _ (by
          rw [List.map_append, List.sum_append, List.map_ofFn]
          simp only [Function.comp_def]
          omega)]
        simp [linesOf, List.map_ofFn, Function.comp_def]

theorem listing_lines (hm : 0 < I.mn) (t : Tree K D d) (h : WF I t) :
    Listing t.lo (fun i => t.lo i + I.sz t.level) t.size (linesOf I t) := by
  induction t with
  | leaf lo k data =>
    have := Listing.points lo (fun i => lo i + I.sz k) (data.map I.pos) (by
      intro p hp i
      obtain ⟨y, hy, rfl⟩ := List.mem_map.1 hp
      exact h y hy i)
    simpa [linesOf, boxLine, dataLines, Tree.lo, Tree.level, Tree.size, Function.comp_def] using this
  | node lo k n ch ih =>
    obtain ⟨k', rfl, rfl, hch⟩ := h
    have hs := sz_succ I k'
    refine Listing.halves lo (fun i => lo i + I.sz (k' + 1)) (fun c => (ch c).size) (fun c => linesOf I (ch c)) fun c => ?_
    have h1 := ih c (hch c).2.2
    rw [(hch c).1, (hch c).2.1] at h1
    convert h1 using 1
    · funext i
      unfold childLo
      split <;> (try simp only [hs]) <;> ring
    · funext i
      unfold childLo
      split <;> (try simp only [hs]) <;> ring

theorem points_lines (t : Tree K D d) : (points (linesOf I t) : Multiset (Fin d → K)) = (items t).map I.pos := by
  induction t with
  | leaf lo k data =>
    simp only [linesOf, points, boxLine, dataLines, items, List.filterMap_cons, List.filterMap_map, Multiset.map_coe]
    congr 1
    induction data with
    | nil => rfl
    | cons a l ih => simp
  | node lo k n ch ih =>
    have key : ∀ l : List (Fin (2 ^ d)), (points (l.map fun i => linesOf I (ch i)).flatten : Multiset (Fin d → K)) =
        (l.map fun i => (items (ch i)).map I.pos).sum := by
      intro l
      induction l with
      | nil => rfl
      | cons a l ihl =>
        simp only [List.map_cons, List.flatten_cons, List.sum_cons, ← ihl, ← ih a]
        simp [points]
    have hl : points (linesOf I (.node lo k n ch)) = points (List.ofFn fun i => linesOf I (ch i)).flatten := by
      simp [linesOf, points, boxLine]
    rw [hl, List.ofFn_eq_map, key, items, show Multiset.map I.pos = Multiset.mapAddMonoidHom I.pos from rfl, map_sum, Fin.sum_univ_def]

/-- C251: after any history `exportASCII` ends, and the file is a listing of the root, a cube around the origin with the number of
stored data on its line; the positions on the lines of points are those of the data added and not removed, each as often as stored. -/
theorem C251_export (hm : 0 < I.mn) (t : Tree K D d) (m : Multiset D) (h : Reach I t m) :
    ∃ (F : Nat) (out : List (Line K d)) (r : K), 0 < r ∧ (∀ fuel, F ≤ fuel → exportASCII I fuel t = some out) ∧
      Listing (fun _ => -r) (fun _ => r) (Multiset.card m) out ∧ (points out : Multiset (Fin d → K)) = m.map I.pos := by
  obtain ⟨⟨w, k', n, ch, rfl⟩, hi⟩ := reach_root I hm t m h
  refine ⟨boxes (.node (fun _ => -I.sz k') (k' + 1) n ch), linesOf I (.node (fun _ => -I.sz k') (k' + 1) n ch), I.sz k', sz_pos I hm k', fun fuel hf => ?_, ?_, ?_⟩
  · rw [exportASCII, loop_eq I fuel _ (by simpa using hf)]
    simp
  · have h1 := listing_lines I hm _ w
    rw [size_eq I _ w, hi] at h1
    have e : (fun _ : Fin d => I.sz k') = fun _ => -I.sz k' + I.sz (k' + 1) := by
      funext i
      rw [sz_succ]
      ring
    rw [e]
    exact h1
  · rw [points_lines, hi]

/-- A file of two points, in one dimension. -/
example : (addData (ex1 fun n => if n = 0 then -1/2 else 1/2) 5 (init (ex1 fun n => if n = 0 then -1/2 else 1/2)) 0).bind (fun t =>
    (addData (ex1 fun n => if n = 0 then -1/2 else 1/2) 5 t 1).bind fun t =>
      (exportASCII (ex1 fun n => if n = 0 then -1/2 else 1/2) 9 t).map fun out => (out.length, (points out).map fun p => p 0)) =
    some (5, [-1/2, 1/2]) := by
  decide +kernel

end SITExportProps
end RFS
