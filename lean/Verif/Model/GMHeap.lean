import Verif.Model.GaussianMixture
import Mathlib.Logic.Function.Basic

/-!
Model of `rfs::GaussianMixture` (include/GaussianMixture.hpp) with explicit memory: the entries of `gList_` hold pointers to landmarks
allocated with `new`. Reading, writing or deleting through a null or freed pointer, and access outside `gList_`, is the outcome
`none` (undefined behaviour). Several mixtures share one heap.

Simplifications: as in `Verif.Model.GaussianMixture`; addresses are never reused (`new` returns a fresh one), so that a use of freed
memory is always visible; `addGaussian` always allocates (with `allocateMem = false` the caller hands over a landmark it has just
allocated).
-/

namespace RFS
namespace GMHeap
open GM

/-- The heap: live landmarks, and a bound on the addresses given out so far. -/
structure Heap (K : Type*) (d : Nat) where
  cells : Nat → Option (Lm K d)
  next : Nat

/-- `struct Gaussian`, include/GaussianMixture.hpp 60-64. -/
structure Ent (K : Type*) where
  ptr : Option Nat
  w : K
  wp : K

/-- Members, lines 213-215. -/
structure Mix (K : Type*) where
  n : Int
  g : List (Ent K)
  sorted : Bool

variable {K : Type*} [Field K] [LinearOrder K] {d : Nat}

/-- `new Landmark` followed by an assignment. -/
def Heap.alloc (h : Heap K d) (v : Lm K d) : Heap K d := ⟨Function.update h.cells h.next (some v), h.next + 1⟩

/-- `delete p`. -/
def Heap.free (h : Heap K d) (p : Nat) : Option (Heap K d) :=
  match h.cells p with
  | none => none
  | some _ => some ⟨Function.update h.cells p none, h.next⟩

/-- `*p = v`. -/
def Heap.write (h : Heap K d) (p : Nat) (v : Lm K d) : Option (Heap K d) :=
  match h.cells p with
  | none => none
  | some _ => some ⟨Function.update h.cells p (some v), h.next⟩

/-- `addGaussian(p, w, true)`, lines 297-314. -/
def addGaussian (h : Heap K d) (o : Mix K) (v : Lm K d) (w : K) : Heap K d × Mix K :=
  (h.alloc v, ⟨o.n + 1, o.g ++ [⟨some h.next, w, 0⟩], false⟩)

/-- `multiplyWeights`, lines 331-336. -/
def multiplyWeights (h : Heap K d) (o : Mix K) (w : K) : Heap K d × Mix K :=
  (h, { o with g := o.g.map fun e => { e with w := e.w * w } })

/-- `removeGaussian`, lines 362-374. -/
def removeGaussian (h : Heap K d) (o : Mix K) (i : Nat) : Option (Heap K d × Mix K) :=
  match o.g[i]? with
  | none => none
  | some e =>
    match e.ptr with
    | none => some (h, { o with sorted := false })
    | some p =>
      match h.free p with
      | none => none
      | some h' => some (h', ⟨o.n - 1, o.g.set i ⟨none, 0, 0⟩, false⟩)

/-- `setWeight`, lines 391-396. -/
def setWeight (h : Heap K d) (o : Mix K) (i : Nat) (w : K) : Option (Heap K d × Mix K) :=
  match o.g[i]? with
  | none => none
  | some e => some (h, ⟨o.n, o.g.set i ⟨e.ptr, w, e.w⟩, false⟩)

/-- `updateGaussian`, lines 427-444. -/
def updateGaussian (h : Heap K d) (o : Mix K) (i : Nat) (l : Lm K d) (w : K) : Option (Bool × Heap K d × Mix K) :=
  if o.g.length < i then some (false, h, { o with sorted := false })
  else
    match o.g[i]? with
    | none => none
    | some e =>
      match e.ptr with
      | none => some (false, h, { o with sorted := false })
      | some p =>
        match h.write p l with
        | none => none
        | some h' => some (true, h', ⟨o.n, o.g.set i ⟨some p, if w < 0 then e.w else w, e.w⟩, false⟩)

/-- `merge(idx1, idx2, t, f_inflation)`, lines 471-527. -/
def merge2 (maha : Lm K d → Lm K d → K) (t f : K) (h : Heap K d) (o : Mix K) (i j : Nat) : Option (Bool × Heap K d × Mix K) :=
  match o.g[i]?, o.g[j]? with
  | some e1, some e2 =>
    match e1.ptr, e2.ptr with
    | some p1, some p2 =>
      match h.cells p1, h.cells p2 with
      | some l1, some l2 =>
        if t * t < maha l1 l2 ∧ t * t < maha l2 l1 then some (false, h, { o with sorted := false })
        else if e1.w + e2.w = 0 then some (false, h, { o with sorted := false })
        else
          match h.write p1 (mergeLm e1.w e2.w f l1 l2) with
          | none => none
          | some h1 =>
            (removeGaussian h1 { o with g := o.g.set i ⟨some p1, e1.w + e2.w, 0⟩ } j).map fun r => (true, r.1, r.2)
      | _, _ => none
    | _, _ => some (false, h, { o with sorted := false })
  | _, _ => none

/-- The inner loop of `merge(t, f)`, lines 458-464. -/
def mergeInner (maha : Lm K d → Lm K d → K) (t f : K) (i : Nat) :
    List Nat → Nat × Heap K d × Mix K → Option (Nat × Heap K d × Mix K)
  | [], s => some s
  | j :: js, s =>
    match merge2 maha t f s.2.1 s.2.2 i j with
    | none => none
    | some (b, r) => mergeInner maha t f i js (if b then s.1 + 1 else s.1, r)

/-- The outer loop, lines 453-466. -/
def mergeOuter (maha : Lm K d → Lm K d → K) (t f : K) (N : Nat) :
    List Nat → Nat × Heap K d × Mix K → Option (Nat × Heap K d × Mix K)
  | [], s => some s
  | i :: is, s =>
    match s.2.2.g[i]? with
    | none => none
    | some e =>
      match e.ptr with
      | none => mergeOuter maha t f N is s
      | some _ =>
        match mergeInner maha t f i ((List.range N).drop (i + 1)) s with
        | none => none
        | some s' => mergeOuter maha t f N is s'

/-- `merge(t, f_inflation)`, lines 446-468. -/
def merge (maha : Lm K d → Lm K d → K) (t f : K) (h : Heap K d) (o : Mix K) : Option (Nat × Heap K d × Mix K) :=
  mergeOuter maha t f o.g.length (List.range o.g.length) (0, h, { o with sorted := false })

/-- Contract of `std::sort` on the entries. -/
def IsSort (srt : List (Ent K) → List (Ent K)) : Prop :=
  ∀ l, (srt l).Perm l ∧ (srt l).Pairwise fun a b => b.w ≤ a.w

/-- `sortByWeight`, lines 575-581. -/
def sortByWeight (srt : List (Ent K) → List (Ent K)) (h : Heap K d) (o : Mix K) : Heap K d × Mix K :=
  (h, if o.sorted then o else { o with g := srt o.g, sorted := true })

/-- The loop of lines 565-569. -/
def removeFrom : List Nat → Heap K d × Mix K → Option (Heap K d × Mix K)
  | [], s => some s
  | i :: is, s =>
    match removeGaussian s.1 s.2 i with
    | none => none
    | some s' => removeFrom is s'

/-- `prune`, lines 529-573. -/
def prune (srt : List (Ent K) → List (Ent K)) (t : K) (h : Heap K d) (o : Mix K) : Option (Nat × Heap K d × Mix K) :=
  let o := { o with sorted := false }
  if o.g.length < 1 then some (0, h, o)
  else
    let o1 := (sortByWeight srt h o).2
    let ws := o1.g.map Ent.w
    let mx := o1.g.length - 1
    let idx := mx / 2
    match ws[idx]? with
    | none => none
    | some w =>
      match bsearch ws t (o1.g.length + 2) 0 mx idx (idx + 1) w with
      | none => none
      | some (i0, w0) =>
        match scanUp ws t (o1.g.length + 1) i0 w0 with
        | none => none
        | some i1 =>
          match removeFrom ((List.range o1.g.length).drop i1) (h, o1) with
          | none => none
          | some r =>
            let k := o1.g.length - i1
            some (k, r.1, { r.2 with g := r.2.g.take (r.2.g.length - k) })

/-- The sum of `getWeightSum`, lines 382-389. -/
def getWeightSum (o : Mix K) : Option K :=
  (List.range o.n.toNat).foldlM (fun s i => (o.g[i]?).map fun e => s + e.w) 0

/-- `normalizeWeights`, lines 582-593. -/
def normalizeWeights (h : Heap K d) (o : Mix K) : Option (Heap K d × Mix K) :=
  match getWeightSum o with
  | none => none
  | some s => some (h, { o with g := o.g.mapIdx fun i e => if (i : Int) < o.n then { e with w := e.w / s } else e })

/-- The destructor, lines 269-276, for the object `o`. -/
def destroy (h : Heap K d) (o : Mix K) : Option (Heap K d × Mix K) := removeFrom (List.range o.g.length) (h, o)

/-- The loop of the copy constructor, lines 262-266: every entry is dereferenced. -/
def cloneAll : List (Ent K) → Heap K d → Option (Heap K d × List (Ent K))
  | [], h => some (h, [])
  | e :: es, h =>
    match e.ptr with
    | none => none
    | some p =>
      match h.cells p with
      | none => none
      | some v =>
        match cloneAll es (h.alloc v) with
        | none => none
        | some (h', es') => some (h', { e with ptr := some h.next } :: es')

/-- Copy constructor, lines 257-267. -/
def copyCtor (h : Heap K d) (o : Mix K) : Option (Heap K d × Mix K) :=
  match cloneAll o.g h with
  | none => none
  | some (h', g) => some (h', ⟨o.n, g, o.sorted⟩)

/-- The loop of lines 280-284 of `copyTo`: delete the landmarks of the target. -/
def freeAll : List (Ent K) → Heap K d → Option (Heap K d)
  | [], h => some h
  | e :: es, h =>
    match e.ptr with
    | none => freeAll es h
    | some p =>
      match h.free p with
      | none => none
      | some h' => freeAll es h'

/-- The loop of lines 287-293 of `copyTo`: null entries stay null. -/
def cloneSome : List (Ent K) → Heap K d → Option (Heap K d × List (Ent K))
  | [], h => some (h, [])
  | e :: es, h =>
    match e.ptr with
    | none =>
      match cloneSome es h with
      | none => none
      | some (h', es') => some (h', e :: es')
    | some p =>
      match h.cells p with
      | none => none
      | some v =>
        match cloneSome es (h.alloc v) with
        | none => none
        | some (h', es') => some (h', { e with ptr := some h.next } :: es')

/-- `src.copyTo(&dst)`, lines 278-295: the new heap and the new value of `dst`. The same function describes `o.copyTo(&o)`. -/
def copyTo (h : Heap K d) (src dst : Mix K) : Option (Heap K d × Mix K) :=
  match freeAll dst.g h with
  | none => none
  | some h1 =>
    match cloneSome src.g h1 with
    | none => none
    | some (h2, g) => some (h2, ⟨src.n, g, src.sorted⟩)

/-- `this.addGM(other, w)`, lines 316-330: both new values; pointers move. -/
def addGM (h : Heap K d) (o other : Mix K) (w : K) : Heap K d × Mix K × Mix K :=
  (h, ⟨o.n + other.n, o.g ++ other.g.map (fun e => { e with w := e.w * w }), false⟩, ⟨0, [], other.sorted⟩)

/-! ### Several mixtures on one heap -/

/-- Mixtures in scope, and the heap. -/
structure World (K : Type*) (d : Nat) where
  heap : Heap K d
  objs : List (Mix K)

/-- The calls on one mixture. -/
inductive Call (K : Type*) (d : Nat) where
  | add (v : Lm K d) (w : K)
  | multiply (w : K)
  | remove (i : Nat)
  | setWeight (i : Nat) (w : K)
  | update (i : Nat) (l : Lm K d) (w : K)
  | merge (maha : Lm K d → Lm K d → K) (t f : K)
  | sort (srt : List (Ent K) → List (Ent K))
  | prune (srt : List (Ent K) → List (Ent K)) (t : K)
  | normalize

/-- Execution of a call. -/
def call (h : Heap K d) (o : Mix K) : Call K d → Option (Heap K d × Mix K)
  | .add v w => some (addGaussian h o v w)
  | .multiply w => some (multiplyWeights h o w)
  | .remove i => removeGaussian h o i
  | .setWeight i w => setWeight h o i w
  | .update i l w => (updateGaussian h o i l w).map (·.2)
  | .merge maha t f => (merge maha t f h o).map (·.2)
  | .sort srt => some (sortByWeight srt h o)
  | .prune srt t => (prune srt t h o).map (·.2)
  | .normalize => normalizeWeights h o

/-- Calls on one mixture and between two mixtures. `addGM` of a mixture to itself inserts a vector into itself (undefined). -/
inductive Cmd (K : Type*) (d : Nat) where
  | on (k : Nat) (c : Call K d)
  | construct
  | copyCtor (k : Nat)
  | copyTo (k l : Nat)
  | addGM (k l : Nat) (w : K)
  | destroy (k : Nat)

/-- Execution of a command. A destroyed mixture keeps its place with all entries null. -/
def run (W : World K d) : Cmd K d → Option (World K d)
  | .on k c =>
    match W.objs[k]? with
    | none => none
    | some o => (call W.heap o c).map fun r => ⟨r.1, W.objs.set k r.2⟩
  | .construct => some ⟨W.heap, W.objs ++ [⟨0, [], false⟩]⟩
  | .copyCtor k =>
    match W.objs[k]? with
    | none => none
    | some o => (copyCtor W.heap o).map fun r => ⟨r.1, W.objs ++ [r.2]⟩
  | .copyTo k l =>
    match W.objs[k]?, W.objs[l]? with
    | some a, some b => (copyTo W.heap a b).map fun r => ⟨r.1, W.objs.set l r.2⟩
    | _, _ => none
  | .addGM k l w =>
    match W.objs[k]?, W.objs[l]? with
    | some a, some b =>
      if k = l then none
      else some ⟨(addGM W.heap a b w).1, (W.objs.set k (addGM W.heap a b w).2.1).set l (addGM W.heap a b w).2.2⟩
    | _, _ => none
  | .destroy k =>
    match W.objs[k]? with
    | none => none
    | some o => (destroy W.heap o).map fun r => ⟨r.1, W.objs.set k r.2⟩

/-- Execution of a program. -/
def runAll (W : World K d) : List (Cmd K d) → Option (World K d)
  | [] => some W
  | c :: cs =>
    match run W c with
    | none => none
    | some W' => runAll W' cs

/-- What a mixture reports: counts, weights and the landmarks behind the pointers. -/
def view (h : Heap K d) (o : Mix K) : GMix K d :=
  ⟨o.n, o.g.map fun e => ⟨e.ptr.bind h.cells, e.w, e.wp⟩, o.sorted⟩

end GMHeap
end RFS
