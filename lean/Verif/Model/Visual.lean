import Verif.Model.GMBernoulli

/-!
Model of `Visualizer6D` (include/Visualizer6D.hpp, src/Visualizer6D.cpp): what is shown of the filter, and how the display thread and the thread of the simulation share the display.

Of VTK the point sets, the cell arrays and their sizes are modelled. Glyphs, mappers, actors, cameras and colours that are constant are left out. A point is an arbitrary value `V`, a pose an arbitrary value `P` with a
location; `inverseMeasure` is an arbitrary function. `SetPoint` and `SetTuple3` outside the current number of points write out of range: undefined (`none`), so is `at` for a filter without particles (an exception).
The two functions `update` differ in what is read of a map entry only; this is the parameter `pick`. The maps contain no removed Gaussians.
-/

namespace RFS
namespace Visual

/-- `vtkPoints` and `vtkUnsignedCharArray`: allocated elements (`none`: never written) and the number of elements in use. -/
structure Pts (V : Type) where
  mem : List (Option V)
  n : Nat

/-- Colours, `SetTuple3`. -/
abbrev Col := Nat × Nat × Nat

/-- `vtkCellArray`: the point numbers of every cell. -/
abbrev Cells := List (List Nat)

section
variable {V : Type}

/-- A new object. -/
def Pts.new : Pts V := ⟨[], 0⟩

/-- `SetNumberOfPoints`, `SetNumberOfTuples`: memory is kept unless it is too small; new memory has arbitrary contents. -/
def Pts.resize (p : Pts V) (n : Nat) : Pts V := if n ≤ p.mem.length then ⟨p.mem, n⟩ else ⟨List.replicate n none, n⟩

/-- `SetPoint`, `SetTuple3`. -/
def Pts.put (p : Pts V) (i : Nat) (v : V) : Option (Pts V) := if i < p.n then some ⟨p.mem.set i (some v), p.n⟩ else none

/-- What is shown. -/
def Pts.shown (p : Pts V) : List (Option V) := p.mem.take p.n

/-- Points `0, 1, …` set in turn, e.g. src/Visualizer6D.cpp 109-111. -/
def Pts.fill (p : Pts V) (vs : List V) : Option (Pts V) := vs.zipIdx.foldlM (fun q a => q.put a.2 a.1) p

end

/-- `InsertNextCell`. -/
def nextCell (c : Cells) : Cells := c ++ [[]]

/-- `InsertCellPoint`: a further point of the last cell. -/
def cellPoint (c : Cells) (i : Nat) : Cells := c.dropLast ++ [c.getLastD [] ++ [i]]

/-- The first cell of a trajectory, e.g. src/Visualizer6D.cpp 114-115. -/
def firstCell : Cells := cellPoint (nextCell []) 0

/-- The next piece of a trajectory, e.g. src/Visualizer6D.cpp 340-342. -/
def growLine (c : Cells) : Cells :=
  let c1 := nextCell c
  let c2 := cellPoint c1 (c1.length - 1)
  cellPoint c2 (c2.length - 2)

/-- The members that change, include/Visualizer6D.hpp 95-106. -/
structure Disp (V : Type) where
  part : Pts V
  partCol : Pts Col
  map : Pts V
  mapCol : Pts Col
  gtMap : Pts V
  gtMapCol : Pts Col
  gt : Pts V
  gtCells : Cells
  dr : Pts V
  drCells : Cells
  est : Pts V
  estCells : Cells
  meas : Pts V
  measCells : Cells
  started : Bool

/-- What a particle shows: pose, weight, map entries. -/
structure Part (P K L : Type) where
  pose : P
  w : K
  map : List L

section
variable {V P K L M : Type}

/-- `setup`, src/Visualizer6D.cpp 18-257: the true landmarks and trajectories are copied, the estimated trajectory has as many points as the true one. -/
def setup (lms gt dr : List V) : Option (Disp V) := do
  let g ← (Pts.new.resize gt.length).fill gt
  let r ← (Pts.new.resize dr.length).fill dr
  let m ← (Pts.new.resize lms.length).fill lms
  let c ← (Pts.new.resize lms.length).fill (lms.map fun _ => ((0, 191, 255) : Col))
  some { part := .new, partCol := .new, map := .new, mapCol := .new, gtMap := m, gtMapCol := c, gt := g, gtCells := firstCell, dr := r, drCells := firstCell,
         est := Pts.new.resize gt.length, estCells := firstCell, meas := Pts.new.resize 1, measCells := firstCell, started := false }

/-- One round of the loop over the particles, src/Visualizer6D.cpp 295-305 and 404-414: points, colours, `i_w_max`, `w_max`. -/
def partStep [LT K] [DecidableLT K] (pos : P → V) (s : Pts V × Pts Col × Nat × K) (a : Part P K L × Nat) : Option (Pts V × Pts Col × Nat × K) := do
  let p ← s.1.put a.2 (pos a.1.pose)
  let c ← s.2.1.put a.2 (255, 0, 0)
  some (p, c, if s.2.2.2 < a.1.w then (a.2, a.1.w) else s.2.2)

/-- One round of the loop over the map, src/Visualizer6D.cpp 317-327 and 426-442: points, colours, `mapSize`. -/
def mapStep (pick : L → Option (Option V)) (s : Pts V × Pts Col × Nat) (l : L) : Option (Pts V × Pts Col × Nat) :=
  match pick l with
  | none => none
  | some none => some s
  | some (some v) => do
    let p ← s.1.put s.2.2 v
    let c ← s.2.1.put s.2.2 (200, 200, 200)
    some (p, c, s.2.2 + 1)

/-- One round of the loop over the measurements, src/Visualizer6D.cpp 372-381 and 487-496. -/
def measStep (inv : P → M → V) (x : P) (s : Pts V × Cells) (a : M × Nat) : Option (Pts V × Cells) := do
  let p ← s.1.put (a.2 + 1) (inv x a.1)
  some (p, cellPoint (cellPoint (nextCell s.2) 0) (a.2 + 1))

/-- The part of `update` on trajectories, src/Visualizer6D.cpp 333-363 and 448-478. -/
def trajStep (v : V) (d : Disp V) : Option (Disp V) :=
  if d.started = false then do
    let e ← d.est.put (d.estCells.length - 1) v
    some { d with est := e, started := true }
  else do
    let c := growLine d.estCells
    let e ← d.est.put (c.length - 1) v
    some { d with gtCells := growLine d.gtCells, drCells := growLine d.drCells, estCells := c, est := e }

/-- `update`, src/Visualizer6D.cpp 284-392 and 393-507. -/
def update [LT K] [DecidableLT K] [Zero K] (pos : P → V) (inv : P → M → V) (pick : L → Option (Option V)) (ps : List (Part P K L)) (Z : List M) (d : Disp V) : Option (Disp V) := do
  let r ← ps.zipIdx.foldlM (partStep pos) (d.part.resize ps.length, d.partCol.resize ps.length, 0, 0)
  let b ← ps[r.2.2.1]?
  let m ← b.map.foldlM (mapStep pick) (d.map.resize b.map.length, d.mapCol.resize b.map.length, 0)
  let d1 := { d with part := r.1, partCol := r.2.1, map := m.1.resize m.2.2, mapCol := m.2.1.resize m.2.2 }
  let d2 ← trajStep (pos b.pose) d1
  let m0 ← (d2.meas.resize (Z.length + 1)).put 0 (pos b.pose)
  let z ← Z.zipIdx.foldlM (measStep inv b.pose) (m0, [])
  some { d2 with meas := z.1, measCells := z.2 }

/-- The updates of a run, src/rbphdslam6dSim.cpp 642-759. -/
def updates [LT K] [DecidableLT K] [Zero K] (pos : P → V) (inv : P → M → V) (pick : L → Option (Option V)) (fs : List (List (Part P K L) × List M)) (d : Disp V) : Option (Disp V) :=
  fs.foldlM (fun d f => update pos inv pick f.1 f.2 d) d

/-- `getLandmark` and the test of the weight, src/Visualizer6D.cpp 321-322. -/
def pickPHD [Field K] [LinearOrder K] (l : V × K) : Option (Option V) := some (if 1 / 2 < l.2 then some l.1 else none)

/-- `getTrack`, the test of the existence probability and `getMaxGaussian`, src/Visualizer6D.cpp 430-434. Following a null pointer is undefined. -/
def pickLMB [Field K] [LinearOrder K] {n : Nat} (t : GMB.Track K n) : Option (Option (Fin n → K)) :=
  if 1 / 10 < t.P then
    match GMB.getMaxGaussian t.gm with
    | some (some l) => some (some l.x)
    | _ => none
  else some none

end

/-! The threads. `run` is started by `start` (14-17) in a thread of its own. The interactor calls `pause` from its timer in the display thread. `Start` returns when the user ends the interaction. -/

/-- The two threads. -/
inductive Th where
  | sim
  | disp
  deriving DecidableEq

/-- Where the display thread is. -/
inductive DispAt where
  /-- before `lock`, src/Visualizer6D.cpp 260 -/
  | before
  /-- in `Start`, 262: events are handled and the scene is drawn -/
  | events
  /-- in `pause` after `unlock`, 278-281 -/
  | pausing
  /-- `run` has returned -/
  | ended
  deriving DecidableEq

/-- Where the simulation is. -/
inductive SimAt where
  /-- not in `update` -/
  | out
  /-- in `update` after `lock`, 287 -/
  | inside
  deriving DecidableEq

/-- Both threads, the owner of `display_mutex_` and the number of completed calls of `update`. -/
structure Both where
  disp : DispAt
  sim : SimAt
  owner : Option Th
  done : Nat

/-- After `start`. -/
def Both.init : Both := ⟨.before, .out, none, 0⟩

/-- One step of either thread, in a run that calls `update` `n` times. -/
inductive Step (n : Nat) : Both → Both → Prop where
  /-- `lock`, src/Visualizer6D.cpp 260 -/
  | enter (s : Both) : s.disp = .before → s.owner = none → Step n s { s with disp := .events, owner := some .disp }
  /-- `unlock` in `pause`, 278 -/
  | pause (s : Both) : s.disp = .events → Step n s { s with disp := .pausing, owner := none }
  /-- `lock` in `pause`, 281 -/
  | resume (s : Both) : s.disp = .pausing → s.owner = none → Step n s { s with disp := .events, owner := some .disp }
  /-- the user ends the interaction: `Start` and `run` return, 262-276 -/
  | close (s : Both) : s.disp = .events → Step n s { s with disp := .ended }
  /-- `lock` in `update`, 287 -/
  | lock (s : Both) : s.sim = .out → s.done < n → s.owner = none → Step n s { s with sim := .inside, owner := some .sim }
  /-- `unlock` in `update`, 386 -/
  | unlock (s : Both) : s.sim = .inside → Step n s { s with sim := .out, owner := none, done := s.done + 1 }

/-- Any number of steps. -/
inductive Steps (n : Nat) : Both → Both → Prop where
  | refl (s : Both) : Steps n s s
  | tail {a b c : Both} : Steps n a b → Step n b c → Steps n a c

end Visual
end RFS
