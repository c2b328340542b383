import Verif.Model.PHD

/-!
Model of the map update of `rfs::RBPHDFilter` as the threads of `update` run it (include/RBPHDFilter.hpp, lines 459-521 and 545-727): the weighting tables
`wTables_` and `mTables_` and the Kalman filters `kfs_`, of which every thread has one, are memory that is kept from one particle to the next and from one scan to the
next, `threshold_mahalanobisDistance2_mapUpdate_` and `timer_particleWeighting_` are shared by all threads.

The body of `updateMap(i)` is cut into steps (`Act`); other threads may run between any two of them. A schedule of a loop is any list of threads, each entry being one
step of that thread; which iterations a thread gets, and in which order, is arbitrary (`Threads.queue`).

Simplifications: exact arithmetic over an ordered field; a step is atomic (what two threads touch is proved disjoint but for the two members named above, see `C208`);
landmarks, measurements and poses are opaque; the local arrays `Pd` and `landmarkCloseToSensingLimit` (size `nM`, only indexed by `m < nM`) are functions; `exp` is an
arbitrary function; of the timers only `timer_particleWeighting_` is kept, as running or not (the others are only touched outside the loops, or by a single thread);
`nRows *= 1.2` is rounded down from the exact product. Undefined behaviour (access outside a table or a vector) is `Err.index`.
-/

namespace RFS
namespace PHDT
open PHD

variable {T Z K X F : Type} [Field K] [LinearOrder K]

/-- `wTables_[t]` and `mTables_[t]` (lines 258-261), which always have the same shape. -/
structure Tab (T K : Type) where
  rows : Nat
  cols : Nat
  w : Nat → Nat → K
  m : Nat → Nat → Option T

/-- Lines 388-394. -/
def Tab.init : Tab T K := ⟨100, 100, fun _ _ => 0, fun _ _ => none⟩

/-- `boost::multi_array::resize`: the elements in the common part are kept, the others are new. -/
def Tab.resize (t : Tab T K) (r c : Nat) : Tab T K :=
  ⟨r, c, fun i j => if i < t.rows ∧ j < t.cols then t.w i j else 0, fun i j => if i < t.rows ∧ j < t.cols then t.m i j else none⟩

/-- `n *= 1.2` for an unsigned `n`. -/
def expand (n : Nat) : Nat := n * 12 / 10

/-- `checkWeightingTableSize`, lines 1201-1221. -/
def Tab.check (t : Tab T K) (nR nC : Nat) : Tab T K :=
  let r := if t.rows ≤ nR then expand nR else t.rows
  let c := if t.cols ≤ nC then expand nC else t.cols
  if t.rows ≤ nR ∨ t.cols ≤ nC then t.resize r c else t

/-- `wTables_[t][i][j] = w; mTables_[t][i][j] = l`. -/
def Tab.put (t : Tab T K) (i j : Nat) (l : Option T) (w : K) : Except Err (Tab T K) :=
  if i < t.rows ∧ j < t.cols then
    .ok ⟨t.rows, t.cols, Function.update t.w i (Function.update (t.w i) j w), Function.update t.m i (Function.update (t.m i) j l)⟩
  else .error .index

/-- Reading `mTables_[t][i][j]` and `wTables_[t][i][j]`. -/
def Tab.get (t : Tab T K) (i j : Nat) : Except Err (Option T × K) := if i < t.rows ∧ j < t.cols then .ok (t.m i j, t.w i j) else .error .index

/-- What belongs to particle `i`: pose, map and weight, `unused_measurements_[i]`, `nLandmarksInFOV_[i]`. -/
structure Cell (X T K : Type) where
  x : X
  map : List (Comp T K)
  w : K
  unused : List Nat
  nFOV : Nat

/-- The models: probability of detection with the flag of the sensing limit, `KalmanFilter::correct` of a filter with settings `f`, clutter intensity, `exp`. -/
structure Env (X T Z K F : Type) where
  pd : X → T → K × Bool
  kf : F → X → T → Z → T × K × K
  clutter : Z → Nat → K
  ex : K → K

/-- Members of `config`: `newGaussianCreateInnovMDThreshold_`, `birthGaussianWeight_`, `useClusterProcess_`; `tiny` is `denorm_min`; `nThreads_`. -/
structure TCfg (K : Type) where
  mdThr : K
  birthW : K
  cluster : Bool
  tiny : K
  nThreads : Nat

/-- The steps of `updateMap` after line 584. -/
inductive Act
  | row (m : Nat)
  | col (z : Nat)
  | weight
  | add (m z : Nat)
  | miss (m : Nat)
  | use (z : Nat)
deriving DecidableEq

/-- The steps in the order of lines 587-722. -/
def acts (cluster : Bool) (nM nZ : Nat) : List Act :=
  (List.range nM).map .row ++ (List.range nZ).map .col ++ (if cluster then [.weight] else []) ++
    ((List.range nM).flatMap fun m => (List.range nZ).map fun z => .add m z) ++ (List.range nM).map .miss ++ (List.range nZ).map .use

/-- The local variables of `updateMap`. -/
structure Loc (K : Type) where
  nM : Nat
  pd : Nat → K
  close : Nat → Bool
  wSum : K
  prod : K

/-- What a thread works on: its table, the local variables, the particle. -/
structure Work (X T K : Type) where
  tab : Tab T K
  loc : Loc K
  cell : Cell X T K

/-- Lines 550-584 for a particle that has a map: number of Gaussians, sum of the weights, size of the tables. -/
def setup (cfg : TCfg K) (nZ : Nat) (t : Tab T K) (c : Cell X T K) : Work X T K :=
  ⟨t.check c.map.length nZ, ⟨c.map.length, fun _ => 0, fun _ => false, if cfg.cluster then c.map.foldl (fun a g => a + g.w) cfg.tiny else cfg.tiny, 1⟩, { c with unused := [], nFOV := 0 }⟩

/-- Lines 550-565 for a particle without a map. -/
def noMap (nZ : Nat) (c : Cell X T K) : Cell X T K := { c with unused := List.range nZ, nFOV := 0 }

/-- Lines 598-642 for landmark `m`; `thr2` is `threshold_mahalanobisDistance2_mapUpdate_`, `f` the Kalman filter of the thread. -/
def doRow (env : Env X T Z K F) (f : F) (thr2 : K) (Zs : List Z) (m : Nat) (a : Work X T K) : Except Err (Work X T K) :=
  match a.cell.map[m]? with
  | none => .error .index
  | some g =>
    let d := env.pd a.cell.x g.lm
    let p := if d.2 then 1 else d.1
    let loc := { a.loc with pd := Function.update a.loc.pd m p, close := Function.update a.loc.close m d.2 }
    if p ≠ 0 then
      (Zs.zipIdx.foldlM (fun (t : Tab T K) (q : Z × Nat) =>
        let r := env.kf f a.cell.x g.lm q.1
        if r.2.1 = 0 ∨ thr2 < r.2.2 then t.put m q.2 none 0 else t.put m q.2 (some r.1) (p * g.w * r.2.1)) a.tab).map
        fun t => ⟨t, loc, { a.cell with nFOV := a.cell.nFOV + 1 }⟩
    else (Zs.zipIdx.foldlM (fun (t : Tab T K) (q : Z × Nat) => t.put m q.2 none 0) a.tab).map fun t => ⟨t, loc, a.cell⟩

/-- Lines 645-661 for measurement `z`. -/
def doCol (env : Env X T Z K F) (cfg : TCfg K) (Zs : List Z) (z : Nat) (a : Work X T K) : Except Err (Work X T K) :=
  match Zs[z]? with
  | none => .error .meas
  | some q =>
    ((List.range a.loc.nM).foldlM (fun s m => (a.tab.get m z).map fun e => s + e.2) (env.clutter q Zs.length)).bind fun sum =>
      let loc := if cfg.cluster then { a.loc with prod := a.loc.prod * sum } else a.loc
      if sum ≠ 0 then
        ((List.range a.loc.nM).foldlM (fun (t : Tab T K) m => (t.get m z).bind fun e => t.put m z e.1 (e.2 / sum)) a.tab).map fun t => ⟨t, loc, a.cell⟩
      else .ok ⟨a.tab, loc, a.cell⟩

/-- Lines 667-668. -/
def doWeight (env : Env X T Z K F) (a : Work X T K) : Work X T K := { a with cell := { a.cell with w := env.ex a.loc.wSum * a.loc.prod * a.cell.w } }

/-- Lines 679-683. -/
def doAdd (m z : Nat) (a : Work X T K) : Except Err (Work X T K) :=
  (a.tab.get m z).bind fun e =>
    match e.1 with
    | none => .ok a
    | some l => if 0 < e.2 then (a.tab.put m z none e.2).map fun t => { a with tab := t, cell := { a.cell with map := a.cell.map ++ [⟨l, e.2, 0⟩] } } else .ok a

/-- Lines 690-707; `setWeight` stores the old weight (include/GaussianMixture.hpp 391-396). -/
def doMiss (cfg : TCfg K) (nZ m : Nat) (a : Work X T K) : Except Err (Work X T K) :=
  match a.cell.map[m]? with
  | none => .error .index
  | some g =>
    let wk := (1 - a.loc.pd m) * g.w
    let set := fun w : K => ({ a with cell := { a.cell with map := a.cell.map.set m ⟨g.lm, w, g.w⟩ } } : Work X T K)
    if a.loc.close m = true ∧ cfg.birthW < g.w then
      ((List.range nZ).foldlM (fun s z => (a.tab.get m z).map fun e => s + e.2) 0).map fun sum =>
        let delta := a.loc.pd m * g.w - sum
        set (if 0 < delta then (if 1 < wk + delta then 1 else wk + delta) else wk)
    else .ok (set wk)

/-- The loop of lines 714-719: is there an entry that is not zero? -/
def anyUsed (t : Tab T K) (z : Nat) : List Nat → Except Err Bool
  | [] => .ok false
  | m :: ms => (t.get m z).bind fun e => if e.2 ≠ 0 then .ok true else anyUsed t z ms

/-- Lines 713-721. -/
def doUse (z : Nat) (a : Work X T K) : Except Err (Work X T K) :=
  (anyUsed a.tab z (List.range a.loc.nM)).map fun u => if u then a else { a with cell := { a.cell with unused := a.cell.unused ++ [z] } }

/-- One step. -/
def act (env : Env X T Z K F) (cfg : TCfg K) (f : F) (thr2 : K) (Zs : List Z) (a : Work X T K) : Act → Except Err (Work X T K)
  | .row m => doRow env f thr2 Zs m a
  | .col z => doCol env cfg Zs z a
  | .weight => .ok (doWeight env a)
  | .add m z => doAdd m z a
  | .miss m => doMiss cfg Zs.length m a
  | .use z => doUse z a

/-- `updateMap(i)` by one thread alone: the table it leaves behind and the particle. -/
def updateOne (env : Env X T Z K F) (cfg : TCfg K) (f : F) (Zs : List Z) (t : Tab T K) (c : Cell X T K) : Except Err (Tab T K × Cell X T K) :=
  if c.map.length = 0 then .ok (t, noMap Zs.length c)
  else
    match (acts cfg.cluster c.map.length Zs.length).foldlM (act env cfg f (cfg.mdThr * cfg.mdThr) Zs) (setup cfg Zs.length t c) with
    | .error e => .error e
    | .ok a => .ok (a.tab, a.cell)

/-- A thread: its iteration (particle, local variables, steps to do) and the iterations it still has to do. -/
structure Thread (K : Type) where
  cur : Option (Nat × Loc K × List Act)
  queue : List Nat

/-- Memory during the loop: the particles, the tables and Kalman filters of the threads, the shared members, the threads. -/
structure Mem (X T K F : Type) where
  cells : List (Cell X T K)
  tabs : List (Tab T K)
  kfs : List F
  thr2 : K
  timer : Bool
  th : Nat → Thread K

/-- The beginning of an iteration, lines 547-596. (Without a map the iteration ends at once.) -/
def begin (cfg : TCfg K) (nZ : Nat) (M : Mem X T K F) (t i : Nat) (q : List Nat) : Except Err (Mem X T K F) :=
  match M.cells[i]? with
  | none => .error .index
  | some c =>
    if c.map.length = 0 then .ok { M with cells := M.cells.set i (noMap nZ c), th := Function.update M.th t ⟨none, q⟩ }
    else
      match M.tabs[t]? with
      | none => .error .index
      | some tab =>
        let a := setup cfg nZ tab c
        .ok { M with cells := M.cells.set i a.cell, tabs := M.tabs.set t a.tab, thr2 := cfg.mdThr * cfg.mdThr, timer := if cfg.cluster then false else M.timer,
                     th := Function.update M.th t ⟨some (i, a.loc, acts cfg.cluster c.map.length nZ), q⟩ }

/-- The next step of an iteration. Lines 663-670: after the cluster weight the timer is stopped by every thread (resumed only if there is one thread). -/
def stepAct (env : Env X T Z K F) (cfg : TCfg K) (Zs : List Z) (M : Mem X T K F) (t i : Nat) (loc : Loc K) (a : Act) (rest : List Act) (q : List Nat) : Except Err (Mem X T K F) :=
  match M.cells[i]?, M.tabs[t]?, M.kfs[t]? with
  | some c, some tab, some f =>
    match act env cfg f M.thr2 Zs ⟨tab, loc, c⟩ a with
    | .error e => .error e
    | .ok r => .ok { M with cells := M.cells.set i r.cell, tabs := M.tabs.set t r.tab, timer := if a = .weight then false else M.timer,
                            th := Function.update M.th t ⟨if rest = [] then none else some (i, r.loc, rest), q⟩ }
  | _, _, _ => .error .index

/-- The next step of thread `t`; nothing when it waits at the end of the loop. -/
def tick (env : Env X T Z K F) (cfg : TCfg K) (Zs : List Z) (M : Mem X T K F) (t : Nat) : Except Err (Mem X T K F) :=
  match M.th t with
  | ⟨none, []⟩ => .ok M
  | ⟨none, i :: q⟩ => begin cfg Zs.length M t i q
  | ⟨some (_, _, []), q⟩ => .ok { M with th := Function.update M.th t ⟨none, q⟩ }
  | ⟨some (i, loc, a :: rest), q⟩ => stepAct env cfg Zs M t i loc a rest q

/-- The steps of a schedule. -/
def run (env : Env X T Z K F) (cfg : TCfg K) (Zs : List Z) (σ : List Nat) (M : Mem X T K F) : Except Err (Mem X T K F) := σ.foldlM (tick env cfg Zs) M

/-- Lines 460-465: the Kalman filter of the first thread is copied to the others. -/
def shareKf (kfs : List F) : List F :=
  match kfs with
  | [] => []
  | f :: _ => List.replicate kfs.length f

/-- The filter between two calls, as far as the loop needs it. -/
structure Filt (X T K F : Type) where
  cells : List (Cell X T K)
  tabs : List (Tab T K)
  kfs : List F
  thr2 : K
  timer : Bool

/-- The start of the loop of lines 477-479: no thread has begun, `share t` are the iterations of thread `t`. -/
def launch (share : Nat → List Nat) (f : Filt X T K F) : Mem X T K F := ⟨f.cells, f.tabs, shareKf f.kfs, f.thr2, f.timer, fun t => ⟨none, share t⟩⟩

/-- All threads have reached the end of the loop. -/
def Mem.atEnd (M : Mem X T K F) : Prop := ∀ t, (M.th t).cur = none ∧ (M.th t).queue = []

/-- A loop of lines 490-492, 503-506 or 515-517 (importance weighting, merging, pruning): every iteration works on its own particle, which is `g`; the iterations are run in the order `o`. -/
def loop (g : Cell X T K → Cell X T K) (o : List Nat) (cs : List (Cell X T K)) : Except Err (List (Cell X T K)) :=
  o.foldlM (fun cs i => match cs[i]? with | none => .error .index | some c => .ok (cs.set i (g c))) cs

/-- What the loops after the map update do to a particle: `importanceWeighting` (new weight `imp`, the Gaussians sorted by `order`), `merge`, `prune`. -/
structure Later (X T K : Type) where
  imp : X → List (Comp T K) → K → K
  order : List (Comp T K) → List (Comp T K)
  merge : List (Comp T K) → List (Comp T K)
  prune : List (Comp T K) → List (Comp T K)

/-- How the threads run one `update`: the iterations of each thread and the interleaving of the map updates, and the order of the iterations of the three other loops. -/
structure Sched where
  share : Nat → List Nat
  steps : List Nat
  o2 : List Nat
  o3 : List Nat
  o4 : List Nat

/-- The loops of `update`, lines 470-521. There is a barrier after each. `none`: the schedule leaves threads inside the first loop. -/
noncomputable def loops (env : Env X T Z K F) (cfg : TCfg K) (l : Later X T K) (σ : Sched) (Zs : List Z) (f : Filt X T K F) : Except Err (Option (Mem X T K F)) :=
  match run env cfg Zs σ.steps (launch σ.share f) with
  | .error e => .error e
  | .ok M =>
    open Classical in
    if M.atEnd then
      match (if cfg.cluster then .ok M.cells else loop (fun c => { c with w := l.imp c.x c.map c.w, map := l.order c.map }) σ.o2 M.cells) with
      | .error e => .error e
      | .ok cs2 =>
        match loop (fun c => { c with map := l.merge c.map }) σ.o3 cs2 with
        | .error e => .error e
        | .ok cs3 =>
          match loop (fun c => { c with map := l.prune c.map }) σ.o4 cs3 with
          | .error e => .error e
          | .ok cs4 => .ok (some { M with cells := cs4 })
    else .ok none

/-- The members of the filter (`Verif.Model.PHD`) with the particles as the loops leave them. -/
def rebuild (g : PHD.Filt X T Z K) (Zs : List Z) (cs : List (Cell X T K)) : PHD.Filt X T Z K :=
  { g with parts := List.zipWith (fun p c => { p with st := ⟨c.x, c.map⟩, w := c.w }) g.parts cs, meas := Zs, unused := cs.map Cell.unused, nFOV := cs.map Cell.nFOV, nUpd := g.nUpd + 1,
           nMeas := g.nMeas + Zs.length, resampled := false }

/-- Lines 526-542, after the loops. -/
def finish (cfg : PHD.Cfg K) (t tp r : K) (f1 : PHD.Filt X T Z K) : Except Err (PHD.Filt X T Z K) :=
  if cfg.minUpd ≤ f1.nUpd ∧ cfg.minMeas ≤ f1.nMeas then
    match PF.resample f1.parts 0 false t tp r with
    | none => .error .index
    | some (true, P) => .ok { f1 with parts := P, nUpd := 0, nMeas := 0, resampled := true }
    | some (false, P) => .ok { f1 with parts := PF.normalizeWeights P }
  else .ok { f1 with parts := PF.normalizeWeights f1.parts }

/-- The particles of the filter. -/
def cellsOf (g : PHD.Filt X T Z K) : List (Cell X T K) := g.parts.map fun p => ⟨p.st.x, p.st.map, p.w, [], 0⟩

/-! ### What a step touches -/

/-- Places in memory that a thread can touch. -/
inductive Place
  | cell (i : Nat)
  | tab (t : Nat)
  | kf (t : Nat)
  | thr2
  | timer
deriving DecidableEq

/-- Two memories agree at a place. -/
def Place.same (M M' : Mem X T K F) : Place → Prop
  | .cell i => M.cells[i]? = M'.cells[i]?
  | .tab t => M.tabs[t]? = M'.tabs[t]?
  | .kf t => M.kfs[t]? = M'.kfs[t]?
  | .thr2 => M.thr2 = M'.thr2
  | .timer => M.timer = M'.timer

/-- The places read by the next step of thread `t`: lines 551-584 (`begin`), 603-630 (`row`, which alone reads the threshold), and the other steps (the Kalman filter of the thread counts as read by all). -/
def readsOf (M : Mem X T K F) (t : Nat) : List Place :=
  match M.th t with
  | ⟨none, []⟩ => []
  | ⟨none, i :: _⟩ => [.cell i, .tab t]
  | ⟨some (_, _, []), _⟩ => []
  | ⟨some (i, _, .row _ :: _), _⟩ => [.cell i, .tab t, .kf t, .thr2]
  | ⟨some (i, _, _ :: _), _⟩ => [.cell i, .tab t, .kf t]

/-- The places written by the next step of thread `t`: line 592 writes the threshold, lines 580 and 669 stop the timer. -/
def writesOf (cfg : TCfg K) (M : Mem X T K F) (t : Nat) : List Place :=
  match M.th t with
  | ⟨none, []⟩ => []
  | ⟨none, i :: _⟩ =>
    match M.cells[i]? with
    | none => []
    | some c => if c.map.length = 0 then [.cell i] else [.cell i, .tab t, .thr2] ++ (if cfg.cluster then [.timer] else [])
  | ⟨some (_, _, []), _⟩ => []
  | ⟨some (i, _, .weight :: _), _⟩ => [.cell i, .tab t, .timer]
  | ⟨some (i, _, _ :: _), _⟩ => [.cell i, .tab t]

end PHDT
end RFS
