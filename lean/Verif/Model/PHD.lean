import Verif.Model.ParticleFilter

/-!
Model of `rfs::RBPHDFilter` (include/RBPHDFilter.hpp): map update, birth Gaussians, and the bookkeeping between `predict` and `update`.

Simplifications: exact arithmetic over an ordered field; landmarks, measurements and poses are opaque; the sensor (probability of
detection, Kalman correction with likelihood and Mahalanobis distance, clutter intensity, the tests of the birth step) is an arbitrary
set of functions; importance weighting and merging followed by pruning are arbitrary functions of the particle. A landmark map is the
list of its components (the null entries of `GaussianMixture` only exist inside `merge`/`prune`). Timers and the choice of the thread are
left out; the weighting tables are filled and read per particle (`checkWeightingTableSize` makes them large enough). The cluster process
weight (lines 571-581, 653-655 and 663-670) is part of the weighting function. Counters have no upper bound. Undefined behaviour is an error:
reading a measurement that does not exist (`meas`), incrementing an iterator that is at the end (`iter`), any other access outside an
array (`index`).
-/

namespace RFS
namespace PHD

inductive Err
  | meas
  | iter
  | index
deriving DecidableEq

/-- A component of the map: landmark, weight, previous weight (`GaussianMixture::Gaussian`, include/GaussianMixture.hpp 60-64). -/
structure Comp (T K : Type*) where
  lm : T
  w : K
  wp : K
deriving DecidableEq

/-- What the filter asks of the models, for one pose: `pd` is `probabilityOfDetection` with the flag of the sensing limit,
`kf` the corrected landmark, its likelihood and squared Mahalanobis distance (`KalmanFilter::correct`, include/KalmanFilter.hpp 272-351),
`clutter` is `clutterIntensity`. -/
structure Sensor (T Z K : Type*) where
  pd : T → K × Bool
  kf : T → Z → T × K × K
  clutter : Z → Nat → K

variable {T Z K : Type*} [Field K] [LinearOrder K]

/-- `Pd[m]`, lines 601-610. -/
def Pd (s : Sensor T Z K) (l : T) : K := if (s.pd l).2 then 1 else (s.pd l).1

/-- Entry of `mTables_` and `wTables_` after the loop of lines 598-642; `thr` is `newGaussianCreateInnovMDThreshold_`. -/
def entry (s : Sensor T Z K) (thr : K) (c : Comp T K) (z : Z) : Option T × K :=
  if Pd s c.lm ≠ 0 then
    let r := s.kf c.lm z
    if r.2.1 = 0 ∨ thr * thr < r.2.2 then (none, 0) else (some r.1, Pd s c.lm * c.w * r.2.1)
  else (none, 0)

/-- `sum`, lines 647-651. -/
def colSum (s : Sensor T Z K) (thr : K) (map : List (Comp T K)) (nZ : Nat) (z : Z) : K :=
  map.foldl (fun a c => a + (entry s thr c z).2) (s.clutter z nZ)

/-- `wTables_[m][z]` after lines 645-661. -/
def wTab (s : Sensor T Z K) (thr : K) (map : List (Comp T K)) (nZ : Nat) (c : Comp T K) (z : Z) : K :=
  if colSum s thr map nZ z ≠ 0 then (entry s thr c z).2 / colSum s thr map nZ z else (entry s thr c z).2

/-- Step 3, lines 677-685: the components added for landmark `c` and measurement `z`. -/
def newComp (s : Sensor T Z K) (thr : K) (map : List (Comp T K)) (nZ : Nat) (c : Comp T K) (z : Z) : Option (Comp T K) :=
  match (entry s thr c z).1 with
  | none => none
  | some l => if 0 < wTab s thr map nZ c z then some ⟨l, wTab s thr map nZ c z, 0⟩ else none

/-- Step 4, lines 688-708: the component with its new weight (`setWeight` stores the old one, include/GaussianMixture.hpp 391-396). -/
def missed (s : Sensor T Z K) (thr birthW : K) (map : List (Comp T K)) (Zs : List Z) (c : Comp T K) : Comp T K :=
  let wk := (1 - Pd s c.lm) * c.w
  let wk' :=
    if (s.pd c.lm).2 = true ∧ birthW < c.w then
      let delta := Pd s c.lm * c.w - Zs.foldl (fun a z => a + wTab s thr map Zs.length c z) 0
      if 0 < delta then (if 1 < wk + delta then 1 else wk + delta) else wk
    else wk
  ⟨c.lm, wk', c.w⟩

/-- Result of `updateMap`: map, `nLandmarksInFOV_`, `unused_measurements_`. -/
structure Upd (T K : Type*) where
  map : List (Comp T K)
  nFOV : Nat
  unused : List Nat

/-- `updateMap`, lines 545-727, for a particle whose sensor is `s`. -/
def updateMap (s : Sensor T Z K) (thr birthW : K) (map : List (Comp T K)) (Zs : List Z) : Upd T K :=
  if map.length = 0 then ⟨map, 0, List.range Zs.length⟩
  else
    ⟨map.map (missed s thr birthW map Zs) ++ map.flatMap fun c => Zs.filterMap fun z => newComp s thr map Zs.length c z,
      map.countP fun c => decide (Pd s c.lm ≠ 0),
      (List.range Zs.length).filter fun i =>
        match Zs[i]? with
        | none => false
        | some z => !(map.any fun c => decide (wTab s thr map Zs.length c z ≠ 0))⟩

/-! ### Birth Gaussians -/

/-- `BirthGaussianCandidate`, lines 174-178. -/
structure Cand (T : Type*) where
  lm : T
  sup : Nat
  chk : Nat
deriving DecidableEq

/-- The members of `Config` (lines 91-147) used here. -/
structure Cfg (K : Type*) where
  birthW : K
  countThr : Nat
  checkThr : Nat
  curThr : Nat
  mdThr : K
  minUpd : Nat
  minMeas : Nat

/-- What the birth step asks of the models, for one pose: is the measurement close to the candidate (lines 1029-1033), the corrected
candidate (line 1034), the landmark of a measurement (line 1050). -/
structure BSensor (T Z : Type*) where
  near : T → Z → Bool
  corr : T → Z → T
  inv : Z → T

/-- The loop of lines 1024-1039: the first candidate close to `z` absorbs it. -/
def absorb (b : BSensor T Z) (z : Z) : List (Cand T) → Option (List (Cand T))
  | [] => none
  | c :: cs => if b.near c.lm z then some (⟨b.corr c.lm z, c.sup + 1, c.chk⟩ :: cs) else (absorb b z cs).map (c :: ·)

/-- One pass of the `while` of lines 1016-1063 for a measurement `z`: map and candidates. -/
def birthStep (cfg : Cfg K) (b : BSensor T Z) (nFOV : Nat) (st : List (Comp T K) × List (Cand T)) (z : Z) : List (Comp T K) × List (Cand T) :=
  match absorb b z st.2 with
  | some cs => (st.1, cs)
  | none =>
    if cfg.countThr = 1 ∨ nFOV ≤ cfg.curThr then (st.1 ++ [⟨b.inv z, cfg.birthW, 0⟩], st.2)
    else (st.1, st.2 ++ [⟨b.inv z, 1, 0⟩])

/-- The `while` of lines 1016-1063: indices are taken from the back. -/
def birthLoop (cfg : Cfg K) (b : BSensor T Z) (nFOV : Nat) (meas : List Z) : List Nat → List (Comp T K) × List (Cand T) →
    Except Err (List (Comp T K) × List (Cand T))
  | [], st => .ok st
  | i :: is, st =>
    match meas[i]? with
    | none => .error .meas
    | some z => birthLoop cfg b nFOV meas is (birthStep cfg b nFOV st z)

/-- The condition of lines 1069-1071. -/
def due (cfg : Cfg K) (nFOV : Nat) (c : Cand T) : Bool := decide (cfg.countThr ≤ c.sup ∨ cfg.checkThr < c.chk ∨ nFOV ≤ cfg.curThr)

/-- Lines 1072-1076: the map after a candidate is removed. -/
def promote (cfg : Cfg K) (nFOV : Nat) (c : Cand T) (map : List (Comp T K)) : List (Comp T K) :=
  if cfg.countThr ≤ c.sup then map ++ [⟨c.lm, cfg.birthW, 0⟩]
  else if nFOV ≤ cfg.curThr then map ++ [⟨c.lm, cfg.birthW, 0⟩] else map

/-- The `while` of lines 1069-1083 at candidate `c` with `rest` behind it: the map, and the candidate at which the loop stops with what is
behind it (`none`: the end of the list). -/
def sweepWhile (cfg : Cfg K) (nFOV : Nat) : Cand T → List (Cand T) → List (Comp T K) → List (Comp T K) × Option (Cand T × List (Cand T))
  | c, rest, map =>
    if due cfg nFOV c then
      match rest with
      | [] => (promote cfg nFOV c map, none)
      | c' :: rest' => sweepWhile cfg nFOV ⟨c'.lm, c'.sup, c'.chk + 1⟩ rest' (promote cfg nFOV c map)
    else (map, some (c, rest))

/-- The `for` of lines 1066-1084: the candidates passed so far, then those from the iterator on. (The first argument bounds the number of passes.) -/
def sweepFor (cfg : Cfg K) (nFOV : Nat) : Nat → List (Cand T) → List (Cand T) → List (Comp T K) → Except Err (List (Comp T K) × List (Cand T))
  | _, kept, [], map => .ok (map, kept)
  | 0, _, _ :: _, _ => .error .index
  | fuel + 1, kept, c :: rest, map =>
    match sweepWhile cfg nFOV ⟨c.lm, c.sup, c.chk + 1⟩ rest map with
    | (_, none) => .error .iter
    | (map', some (c', rest')) => sweepFor cfg nFOV fuel (kept ++ [c']) rest' map'

/-- The sweep over the candidates of one particle. -/
def sweep (cfg : Cfg K) (nFOV : Nat) (cands : List (Cand T)) (map : List (Comp T K)) : Except Err (List (Comp T K) × List (Cand T)) :=
  sweepFor cfg nFOV cands.length [] cands map

/-! ### The filter -/

/-- State of a particle: pose and map. -/
structure PState (X T K : Type*) where
  x : X
  map : List (Comp T K)

/-- Members of the filter, lines 256-277, and `measurements_`. -/
structure Filt (X T Z K : Type*) where
  parts : List (PF.Part (PState X T K) K)
  meas : List Z
  unused : List (List Nat)
  births : List (List (Cand T))
  nFOV : List Nat
  nUpd : Nat
  nMeas : Nat
  resampled : Bool

variable {X : Type*}

/-- The constructor, lines 348-399. `resampleOccured_` is not initialised: its value is the argument `b`. -/
def ctor (n : Nat) (x0 : X) (b : Bool) : Filt X T Z K :=
  ⟨PF.addParticles [] n ⟨x0, []⟩ 1, [], List.replicate n [], List.replicate n [], List.replicate n 0, 0, 0, b⟩

/-- Lines 1008-1014: what particle `i` inherits. -/
def inherit (f : Filt X T Z K) (i : Nat) : Except Err (Filt X T Z K) :=
  match f.parts[i]? with
  | none => .error .index
  | some p =>
    if f.resampled = true ∧ p.parent ≠ i then
      match f.unused[p.parent]?, f.births[p.parent]? with
      | some u, some c => .ok { f with unused := f.unused.set i u, births := f.births.set i c }
      | _, _ => .error .index
    else .ok f

/-- One pass of the loop of lines 1006-1086. -/
def birthParticle (cfg : Cfg K) (b : X → BSensor T Z) (f0 : Filt X T Z K) (i : Nat) : Except Err (Filt X T Z K) :=
  match inherit f0 i with
  | .error e => .error e
  | .ok f =>
    match f.parts[i]?, f.unused[i]?, f.births[i]?, f.nFOV[i]? with
    | some p, some u, some c, some nv =>
      match birthLoop cfg (b p.st.x) nv f.meas u.reverse (p.st.map, c) with
      | .error e => .error e
      | .ok (m1, c1) =>
        match sweep cfg nv c1 m1 with
        | .error e => .error e
        | .ok (m2, c2) =>
          .ok { f with parts := f.parts.set i { p with st := ⟨p.st.x, m2⟩ }, unused := f.unused.set i [], births := f.births.set i c2 }
    | _, _, _, _ => .error .index

/-- `addBirthGaussians`, lines 1003-1088. -/
def addBirthGaussians (cfg : Cfg K) (b : X → BSensor T Z) (f : Filt X T Z K) : Except Err (Filt X T Z K) :=
  (List.range f.parts.length).foldlM (birthParticle cfg b) f

/-- `predict`, lines 416-443: `move i` is the sampled motion of particle `i` with the motion of its landmarks. -/
def predict (cfg : Cfg K) (b : X → BSensor T Z) (move : Nat → PState X T K → PState X T K) (check : Bool) (f : Filt X T Z K) :
    Except Err (Filt X T Z K) :=
  match (if check then addBirthGaussians cfg b f else .ok f) with
  | .error e => .error e
  | .ok f' => .ok { f' with parts := f'.parts.zipIdx.map fun q => { q.1 with st := move q.2 q.1.st } }

/-- `update`, lines 446-542. `weigh` is the particle weight from the old and the updated particle (importance weighting, or the cluster process), `tidy`
is merging followed by pruning; `t`, `tp`, `r` are the thresholds and the random number of `resample`. -/
def update (cfg : Cfg K) (s : X → Sensor T Z K) (weigh : PF.Part (PState X T K) K → PF.Part (PState X T K) K → K) (tidy : List (Comp T K) → List (Comp T K)) (t tp r : K)
    (Zs : List Z) (f : Filt X T Z K) : Except Err (Filt X T Z K) :=
  if Zs.length = 0 then .ok { f with nUpd := f.nUpd + 1, meas := Zs }
  else
    let us := f.parts.map fun p => updateMap (s p.st.x) cfg.mdThr cfg.birthW p.st.map Zs
    let parts1 := f.parts.map fun p =>
      let p' : PF.Part (PState X T K) K := { p with st := ⟨p.st.x, (updateMap (s p.st.x) cfg.mdThr cfg.birthW p.st.map Zs).map⟩ }
      ({ p' with st := ⟨p'.st.x, tidy p'.st.map⟩, w := weigh p p' } : PF.Part (PState X T K) K)
    let f1 : Filt X T Z K :=
      { f with parts := parts1, meas := Zs, unused := us.map Upd.unused, nFOV := us.map Upd.nFOV, nUpd := f.nUpd + 1, nMeas := f.nMeas + Zs.length,
               resampled := false }
    if cfg.minUpd ≤ f1.nUpd ∧ cfg.minMeas ≤ f1.nMeas then
      match PF.resample f1.parts 0 false t tp r with
      | none => .error .index
      | some (true, P) => .ok { f1 with parts := P, nUpd := 0, nMeas := 0, resampled := true }
      | some (false, P) => .ok { f1 with parts := PF.normalizeWeights P }
    else .ok { f1 with parts := PF.normalizeWeights f1.parts }

end PHD
end RFS
