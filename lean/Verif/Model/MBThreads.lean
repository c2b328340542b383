import Verif.Model.MBFilter

/-!
Model of the parallel loops of `update` in `RBCBMeMBerFilter` (include/RBCBMeMBerFilter.hpp 441-494) and `RBLMBFilter` (include/RBLMBFilter.hpp 443-495), which are the same word for word, and of the loop
over the landmarks in `predict` (include/RBCBMeMBerFilter.hpp 288-299, include/RBLMBFilter.hpp 288-297), as several threads run them.

Each loop has one iteration per particle; there is a barrier after each loop (`#pragma omp for` without `nowait`). An iteration is cut into steps; a schedule is any list of iterations, each entry being the next step
of that iteration, and `owner i` is the thread that runs iteration `i`, so that every division of the iterations among threads and every interleaving is a schedule.

Simplifications: those of `Verif.Model.MBFilter`. A step is atomic; what it touches is given in `readsOf` and `writesOf`. The models and Kalman filters have no state that `measure`, `correct`, `probabilityOfDetection`,
`clutterIntensity` and `staticStep` write, but they have settings, which matter: each thread has a Kalman filter of its own. A particle with tracks is taken to use it, even if none is in view.
-/

namespace RFS
namespace MBT
open MBF

/-- What distinguishes the filters, in the pieces that the loops call. `F` are the settings of a Kalman filter; `has` tells whether there are tracks; `map` is `updateMap` with tracks (flag, map, unused measurements), `lik` the value it
returns then; `fresh` are the unused measurements of a particle without tracks (RBCBMeMBerFilter.hpp 529-534, RBLMBFilter.hpp 532-538); `prT` is `pruneTracks`, `prG` is `pruneGM`; the others are as in `MBF.Ops`. -/
structure Pieces (X D Z B K F : Type*) where
  has : D → Bool
  map : F → X → List Z → D → Option (Bool × D × List B)
  lik : F → X → List Z → D → K
  fresh : List Z → List B
  merge : D → Option D
  prT : X → List Z → D → Option (Bool × D)
  prG : D → Option D
  idx : B → Nat
  born : X → B → Z → D → D
  still : D → Option D
  minUpd : Nat

/-- The sequential filter with the Kalman filter `k`. -/
def Pieces.ops {X D Z B K F : Type*} [Field K] (o : Pieces X D Z B K F) (k : F) : Ops X D Z B K where
  upd x Zs m := (if o.has m then o.map k x Zs m else some (false, m, o.fresh Zs)).bind fun r =>
    (o.merge r.2.1).bind fun m1 => (o.prT x Zs m1).bind fun p => (o.prG p.2).map fun m2 => (r.1 || p.1, m2, r.2.2)
  lik x Zs m := if o.has m then o.lik k x Zs m else 1
  idx := o.idx
  born := o.born
  still := o.still
  minUpd := o.minUpd

/-- What belongs to a particle: the particle, its unused measurements (with `birthPe_`), whether freed memory was read for it. -/
structure Cell (X D B K : Type*) where
  p : PF.Part (PState X D) K
  u : List B
  ub : Bool

/-- Steps of the iterations: the beginning of `updateMap` (RBLMBFilter.hpp 519-549), the rest of it, `mergeGM`, `pruneTracks`, `pruneGM`, the landmarks of a particle in `predict`. -/
inductive Act
  | begin
  | work
  | merge
  | pruneT
  | pruneG
  | still
deriving DecidableEq

variable {X D Z B K F : Type*} [Field K] [LinearOrder K]

/-- A step on its particle; `kf` is `kfs_[threadnum]`, `none` if the vector is too short. -/
def act (o : Pieces X D Z B K F) (Zs : List Z) (kf : Option F) (c : Cell X D B K) : Act → Except Err (Cell X D B K)
  | .begin => .ok { c with u := if o.has c.p.st.m then [] else o.fresh Zs }
  | .work =>
    if o.has c.p.st.m then
      match kf with
      | none => .error .index
      | some k =>
        match o.map k c.p.st.x Zs c.p.st.m with
        | none => .error .map
        | some r => .ok ⟨{ c.p with st := ⟨c.p.st.x, r.2.1⟩, w := o.lik k c.p.st.x Zs c.p.st.m * c.p.w }, r.2.2, c.ub || r.1⟩
    else .ok c
  | .merge =>
    match o.merge c.p.st.m with
    | none => .error .map
    | some m => .ok { c with p := { c.p with st := ⟨c.p.st.x, m⟩ } }
  | .pruneT =>
    match o.prT c.p.st.x Zs c.p.st.m with
    | none => .error .map
    | some r => .ok { c with p := { c.p with st := ⟨c.p.st.x, r.2⟩ }, ub := c.ub || r.1 }
  | .pruneG =>
    match o.prG c.p.st.m with
    | none => .error .map
    | some m => .ok { c with p := { c.p with st := ⟨c.p.st.x, m⟩ } }
  | .still =>
    match o.still c.p.st.m with
    | none => .error .map
    | some m => .ok { c with p := { c.p with st := ⟨c.p.st.x, m⟩ } }

/-- Memory during a loop: what belongs to the particles, the steps that are left of each iteration, the Kalman filters of the threads, `threshold_mahalanobisDistance2_mapUpdate_`. -/
structure Mem (X D B K F : Type*) where
  cells : List (Cell X D B K)
  todo : List (List Act)
  kfs : List F
  thr : K

/-- The next step of iteration `i`, which thread `owner i` runs; nothing when the iteration is at its end. `md` is `config.newGaussianCreateInnovMDThreshold_` (RBLMBFilter.hpp 548, RBCBMeMBerFilter.hpp 544). -/
def tick (o : Pieces X D Z B K F) (md : K) (Zs : List Z) (owner : Nat → Nat) (M : Mem X D B K F) (i : Nat) : Except Err (Mem X D B K F) :=
  match M.todo[i]?, M.cells[i]? with
  | some [], some _ => .ok M
  | some (a :: rest), some c =>
    match act o Zs M.kfs[owner i]? c a with
    | .error e => .error e
    | .ok c' => .ok { M with cells := M.cells.set i c', todo := M.todo.set i rest, thr := if a = .begin ∧ o.has c.p.st.m = true then md * md else M.thr }
  | _, _ => .error .index

/-- The steps of a schedule. -/
def run (o : Pieces X D Z B K F) (md : K) (Zs : List Z) (owner : Nat → Nat) (σ : List Nat) (M : Mem X D B K F) : Except Err (Mem X D B K F) := σ.foldlM (tick o md Zs owner) M

/-- How the threads run a loop: which thread has which iteration, and in which order the steps happen. -/
structure Sched where
  owner : Nat → Nat
  steps : List Nat

/-- A loop whose iterations consist of the steps `as`. `none`: the schedule leaves threads inside the loop. -/
def loop (o : Pieces X D Z B K F) (md : K) (Zs : List Z) (as : List Act) (σ : Sched) (M : Mem X D B K F) : Except Err (Option (Mem X D B K F)) :=
  match run o md Zs σ.owner σ.steps { M with todo := M.cells.map fun _ => as } with
  | .error e => .error e
  | .ok M' => if ∀ l ∈ M'.todo, l = [] then .ok (some M') else .ok none

/-- The next loop, if the one before came to its end (the barrier). -/
def andThen (r : Except Err (Option (Mem X D B K F))) (g : Mem X D B K F → Except Err (Option (Mem X D B K F))) : Except Err (Option (Mem X D B K F)) :=
  match r with
  | .error e => .error e
  | .ok none => .ok none
  | .ok (some M) => g M

/-- The three loops of `update`, RBCBMeMBerFilter.hpp 457-490, RBLMBFilter.hpp 458-491. -/
def loops (o : Pieces X D Z B K F) (md : K) (Zs : List Z) (σ1 σ2 σ3 : Sched) (M : Mem X D B K F) : Except Err (Option (Mem X D B K F)) :=
  andThen (andThen (loop o md Zs [.begin, .work] σ1 M) (loop o md Zs [.merge] σ2)) (loop o md Zs [.pruneT, .pruneG] σ3)

/-- The filter between two calls: its members as in `Verif.Model.MBFilter`, the Kalman filters, the threshold. -/
structure TFilt (X D Z B K F : Type*) where
  f : Filt X D Z B K
  kfs : List F
  thr : K

/-- Lines 442-446 and 443-447: the Kalman filter of the first thread is copied to the others. -/
def shareKf (kfs : List F) : List F :=
  match kfs with
  | [] => []
  | k :: _ => kfs.map fun _ => k

/-- What belongs to the particles. -/
def cellsOf (f : Filt X D Z B K) : List (Cell X D B K) := List.zipWith (fun p u => ⟨p, u, false⟩) f.parts f.unused

/-- Resampling or normalisation after the loops, RBCBMeMBerFilter.hpp 497-508, RBLMBFilter.hpp 498-510. -/
def finish (o : Pieces X D Z B K F) (t tp r : K) (f1 : Filt X D Z B K) : Except Err (Filt X D Z B K) :=
  if o.minUpd ≤ f1.nUpd then
    match PF.resample f1.parts 0 false t tp r with
    | none => .error .index
    | some (true, P) => .ok { f1 with parts := P, nUpd := 0 }
    | some (false, P) => .ok { f1 with parts := PF.normalizeWeights P }
  else .ok { f1 with parts := PF.normalizeWeights f1.parts }

/-- `update` by several threads. -/
def update (o : Pieces X D Z B K F) (md t tp r : K) (Zs : List Z) (σ1 σ2 σ3 : Sched) (g : TFilt X D Z B K F) : Except Err (Option (TFilt X D Z B K F)) :=
  if Zs.length = 0 then .ok (some { g with f := { g.f with nUpd := g.f.nUpd + 1, meas := Zs } })
  else if g.f.unused.length < g.f.parts.length then .error .index
  else
    match loops o md Zs σ1 σ2 σ3 ⟨cellsOf g.f, [], shareKf g.kfs, g.thr⟩ with
    | .error e => .error e
    | .ok none => .ok none
    | .ok (some M) =>
      match finish o t tp r { parts := M.cells.map Cell.p, meas := Zs, unused := M.cells.map Cell.u ++ g.f.unused.drop g.f.parts.length, nUpd := g.f.nUpd + 1, ub := g.f.ub || M.cells.any Cell.ub } with
      | .error e => .error e
      | .ok f' => .ok (some ⟨f', M.kfs, M.thr⟩)

/-! ### What a step touches -/

/-- Places in memory. -/
inductive Place
  | cell (i : Nat)
  | kf (t : Nat)
  | thr
deriving DecidableEq

/-- Places that the next step of iteration `i` reads. -/
def readsOf (owner : Nat → Nat) (M : Mem X D B K F) (i : Nat) : List Place :=
  match M.todo[i]? with
  | some (.work :: _) => [.cell i, .kf (owner i)]
  | some (_ :: _) => [.cell i]
  | _ => []

/-- Places that it writes: line 548 of RBLMBFilter.hpp and 544 of RBCBMeMBerFilter.hpp write the threshold. -/
def writesOf (o : Pieces X D Z B K F) (M : Mem X D B K F) (i : Nat) : List Place :=
  match M.todo[i]?, M.cells[i]? with
  | some (.begin :: _), some c => if o.has c.p.st.m then [.cell i, .thr] else [.cell i]
  | some (_ :: _), some _ => [.cell i]
  | _, _ => []

/-- Two memories agree at a place. -/
def Place.same (M M' : Mem X D B K F) : Place → Prop
  | .cell i => M.cells[i]? = M'.cells[i]?
  | .kf t => M.kfs[t]? = M'.kfs[t]?
  | .thr => M.thr = M'.thr

/-! ### The filters -/

open GM GMB

/-- `RBCBMeMBerFilter`; `env k` is the environment with the Kalman filter `k`. -/
def cbm {d : Nat} (cfg : MBF.Cfg K) (env : F → X → (Zs : List Z) → CBM.Env K d Zs.length) (lik : F → X → List Z → List (Track K d) → K) (inv : X → Z → Lm K d)
    (lstep : Lm K d → Lm K d) (maha : Lm K d → Lm K d → K) (srt : List (Gauss K d) → List (Gauss K d)) (garb garb2 : X → List Z → Nat → GMix K d) :
    Pieces X (List (Track K d)) Z Nat K F where
  has ts := decide (ts.length ≠ 0)
  map k x Zs ts := CBM.updateMap (env k x Zs) (garb x Zs) ts
  lik := lik
  fresh Zs := List.range Zs.length
  merge := mergeGM maha cfg.mergeT cfg.mergeF
  prT x Zs := pruneTracks (garb2 x Zs) cfg.trackT
  prG := pruneGM srt cfg.pruneT
  idx := id
  born x _ z m := m ++ [⟨cfg.birthPE, 0, addGaussian empty (inv x z) 1⟩]
  still := stillTracks lstep
  minUpd := cfg.minUpd

/-- `RBLMBFilter`; `pe` is the probability of existence of births of a particle without tracks (line 535). -/
noncomputable def lmb {d : Nat} (cfg : LCfg) (run : F → X → (Zs : List Z) → List (Track ℝ d) → Option (List (Track ℝ d) × List (Fin Zs.length × ℝ) × ℝ))
    (inv : X → Z → Lm ℝ d) (lstep : Lm ℝ d → Lm ℝ d) (maha : Lm ℝ d → Lm ℝ d → ℝ) (srt : List (Gauss ℝ d) → List (Gauss ℝ d)) (garb : X → List Z → Nat → GMix ℝ d) (pe : List Z → ℝ) :
    Pieces X (List (Track ℝ d)) Z (Nat × ℝ) ℝ F where
  has ts := decide (ts.length ≠ 0)
  map k x Zs ts := (run k x Zs ts).map fun r => (false, r.1, r.2.1.map fun b => (b.1.1, b.2))
  lik k x Zs ts := match run k x Zs ts with
    | none => 1
    | some r => r.2.2
  fresh Zs := (List.range Zs.length).map fun z => (z, pe Zs)
  merge := mergeGM maha cfg.mergeT cfg.mergeF
  prT x Zs := pruneTracks (garb x Zs) cfg.trackT
  prG := pruneGM srt cfg.pruneT
  idx := Prod.fst
  born x b z m := m ++ [⟨b.2, 0, addGaussian empty (inv x z) 1⟩]
  still := stillTracks lstep
  minUpd := cfg.minUpd

end MBT
end RFS
