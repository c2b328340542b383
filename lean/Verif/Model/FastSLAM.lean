import Verif.Model.CostMatrixReduce
import Verif.Model.ParticleFilter
import Mathlib.Analysis.SpecialFunctions.Log.Basic

/-!
Model of `FastSLAM::updateMap` and `resampleWithMapCopy` (include/FastSLAM.hpp 435-767) for one particle.

Exact real arithmetic. The measurement model and the Kalman filter, at the pose of the particle, are the functions of `Env`; a correction that fails
leaves the landmark as it was. A map is a list of landmarks with their weights (log-odds of existence). `GaussianMixture::prune` is a parameter, see
`Verif.Model.GMHeap`. The ranked assignments of Murty's algorithm are a parameter, see `Verif.Model.Murty`. Undefined behaviour and weights that are not
finite are distinct outcomes.
-/

namespace RFS
namespace FastSLAM
open Hungarian (Mat)

/-- Outcomes other than a result: undefined behaviour; a logarithm of zero or of infinity. -/
inductive Err where
  | ub
  | infinite
deriving DecidableEq

/-- The members of `Config` that are read, lines 110-159. -/
structure Cfg where
  prior : ℝ
  minLL : ℝ
  maxHyp : Nat
  maxDiff : ℝ
  supportDist : ℝ
  countThr : Nat
  curThr : Nat
  checkThr : Nat
  lockW : ℝ
  pruneMeas : Nat

/-- Models at the pose of the particle: probability of detection and the flag `closeToLimit`; likelihoods of the measurements if `measure` succeeds;
`correct`; `clutterIntensityIntegral(nZ)`; `inverseMeasure`; Mahalanobis distance of a candidate's expected measurement; `correct` of a candidate. -/
structure Env (Lm : Type) (nZ : Nat) where
  pd : Lm → ℝ
  close : Lm → Bool
  lik : Lm → Option (Fin nZ → ℝ)
  corr : Fin nZ → Lm → Option Lm
  clutter : ℝ
  inv : Fin nZ → Lm
  d2 : Fin nZ → Lm → ℝ
  corrC : Fin nZ → Lm → Lm

/-- `LandmarkCandidate`, lines 101-105. -/
structure Cand (Lm : Type) where
  lm : Lm
  n : Nat
  checks : Nat

/-- A particle: importance weight and map. -/
structure Particle (Lm : Type) where
  w : ℝ
  map : List (Lm × ℝ)

variable {Lm : Type} {nZ : Nat}

/-! ### Data association -/

/-- Lines 456-470: index, landmark and probability of detection of the landmarks in range. -/
noncomputable def inRange (env : Env Lm nZ) (map : List (Lm × ℝ)) : List (Nat × Lm × ℝ) :=
  open Classical in map.zipIdx.filterMap fun x => if env.pd x.1.1 ≠ 0 ∨ env.close x.1.1 = true then some (x.2, x.1.1, env.pd x.1.1) else none

/-- An entry of the table of log-likelihoods, lines 477-496; `log(0)` is minus infinity and `fmax` takes the limit. -/
noncomputable def tableEntry (env : Env Lm nZ) (cfg : Cfg) (lms : List (Nat × Lm × ℝ)) (m z : Nat) : ℝ :=
  match lms[m]? with
  | none => cfg.minLL
  | some x =>
    match env.lik x.2.1 with
    | none => cfg.minLL
    | some l => if h : z < nZ then (if l ⟨z, h⟩ = 0 then cfg.minLL else max cfg.minLL (Real.log (l ⟨z, h⟩))) else cfg.minLL

/-- The table of lines 473-496. -/
noncomputable def table (env : Env Lm nZ) (cfg : Cfg) (lms : List (Nat × Lm × ℝ)) : Mat ℝ (max lms.length nZ) :=
  fun m z => tableEntry env cfg lms m z

/-- The loop of lines 518-547 over the assignments Murty's algorithm returns: at most `maxHyp`, and only while the score is within `maxDiff` of the best. -/
noncomputable def kept (cfg : Cfg) {m : Nat} (ranked : List ((Fin m → Fin m) × ℝ)) : List (Fin m → Fin m) :=
  match ranked with
  | [] => []
  | b :: _ => open Classical in ((ranked.take cfg.maxHyp).takeWhile fun x => decide (b.2 - x.2 < cfg.maxDiff)).map Prod.fst

/-- Lines 498-548: the data association hypotheses, `da`; a column of the padding (`-2`) or of no measurement is `none`. When the reduction has fixed every
row, `nH` stays zero (lines 507, 511-516). -/
noncomputable def hypotheses (cfg : Cfg) {n : Nat} (nZ : Nat) (murty : ∀ m, Mat ℝ m → List ((Fin m → Fin m) × ℝ)) (T : Mat ℝ n) :
    Except Err (List (Fin n → Option (Fin nZ))) :=
  match CostMat.reduce (CostMat.mk T) cfg.minLL true with
  | none => .error .ub
  | some cm =>
    match CostMat.getReduced cm with
    | .ok r =>
      match r.C with
      | none => .ok []
      | some ⟨m, C⟩ =>
        if r.size = 0 then .ok []
        else .ok ((kept cfg (murty m C)).map fun τ i => (CostMat.remap r.iMap r.jMap τ r.fixed i).bind fun z => if h : z.1 < nZ then some ⟨z.1, h⟩ else none)
    | _ => .error .ub

/-! ### Update of one hypothesis -/

/-- `p_exist_given_Z`, lines 611-627. -/
noncomputable def existence (cfg : Cfg) (pfa pd w : ℝ) (hit : Bool) : ℝ :=
  if hit = true then ((1 - pd) * pfa * cfg.prior + pd * cfg.prior) / (pfa + (1 - pfa) * pd * cfg.prior)
  else
    open Classical in if cfg.lockW < w then 1 / 2
    else ((1 - pd) * cfg.prior) / ((1 - cfg.prior) + (1 - pd) * cfg.prior)

/-- `w += log(p / (1 - p))`, line 629. -/
noncomputable def addLogOdds (w p : ℝ) : Except Err ℝ := open Classical in if 0 < p ∧ p < 1 then .ok (w + Real.log (p / (1 - p))) else .error .infinite

/-- State of the loop of lines 598-631: map, `nLandmarksInFOV_[pi[h]]`, `zUsed`, `logParticleWeight`. -/
structure LoopSt (Lm : Type) (nZ : Nat) where
  map : List (Lm × ℝ)
  nFov : Nat
  used : Fin nZ → Bool
  logW : ℝ

/-- Lines 603-607: the corrected landmark if the update is performed. -/
noncomputable def corrected (env : Env Lm nZ) (cfg : Cfg) (ll : Fin nZ → ℝ) (z : Option (Fin nZ)) (lm : Lm) : Option (Fin nZ × Lm) :=
  z.bind fun z => open Classical in if cfg.minLL < ll z then (env.corr z lm).map fun lm' => (z, lm') else none

/-- One pass of the loop of lines 598-631: `x` is index, landmark and probability of detection, `z` the measurement assigned, `ll` the row of the table. -/
noncomputable def lmStep (env : Env Lm nZ) (cfg : Cfg) (s : LoopSt Lm nZ) (x : Nat × ℝ) (z : Option (Fin nZ)) (ll : Fin nZ → ℝ) : Except Err (LoopSt Lm nZ) :=
  match s.map[x.1]? with
  | none => .error .ub
  | some (lm, w) =>
    match corrected env cfg ll z lm with
    | some (z, lm') =>
      (addLogOdds w (existence cfg (env.clutter / nZ) x.2 w true)).map fun w' =>
        ⟨s.map.set x.1 (lm', w'), s.nFov + 1, Function.update s.used z true, s.logW + ll z⟩
    | none =>
      (addLogOdds w (existence cfg (env.clutter / nZ) x.2 w false)).map fun w' => { s with map := s.map.set x.1 (lm, w') }

/-- Lines 583-631. -/
noncomputable def lmLoop (env : Env Lm nZ) (cfg : Cfg) (lms : List (Nat × Lm × ℝ)) (da : Fin (max lms.length nZ) → Option (Fin nZ)) (map : List (Lm × ℝ)) :
    Except Err (LoopSt Lm nZ) :=
  (List.finRange lms.length).foldlM (fun s (m : Fin lms.length) => lmStep env cfg s (lms[m].1, lms[m].2.2) (da ⟨m, lt_of_lt_of_le m.2 (le_max_left _ _)⟩)
    (fun z => tableEntry env cfg lms m z)) ⟨map, 0, fun _ => false, 0⟩

/-! ### Map management -/

/-- `newLandmarkWeight`, line 643. -/
noncomputable def newWeight (cfg : Cfg) : Except Err ℝ := addLogOdds 0 cfg.prior

/-- Lines 652-667: the first candidate near enough to the measurement is corrected with it. -/
noncomputable def support (env : Env Lm nZ) (cfg : Cfg) (z : Fin nZ) : List (Cand Lm) → Option (List (Cand Lm))
  | [] => none
  | c :: cs =>
    open Classical in if env.d2 z c.lm ≤ cfg.supportDist * cfg.supportDist then some (⟨env.corrC z c.lm, c.n + 1, c.checks⟩ :: cs)
    else (support env cfg z cs).map (c :: ·)

/-- Condition of the loop of lines 692-694. -/
def leaves (cfg : Cfg) (nFov : Nat) (c : Cand Lm) : Bool := decide (cfg.countThr ≤ c.n) || decide (cfg.checkThr < c.checks) || decide (nFov ≤ cfg.curThr)

/-- Lines 696-702: whether a leaving candidate becomes a landmark. -/
def promoted (cfg : Cfg) (nFov : Nat) (c : Cand Lm) : Bool := decide (cfg.countThr ≤ c.n) || decide (nFov ≤ cfg.curThr)

/-- The loops of lines 689-710: the candidates that stay and the landmarks made of others. After the last candidate is erased, the outer loop increments an
iterator that is at the end. -/
noncomputable def sweep (cfg : Cfg) (nFov : Nat) (nw : ℝ) : List (Cand Lm) → Except Err (List (Cand Lm) × List (Lm × ℝ))
  | [] => .ok ([], [])
  | c :: cs =>
    let c' : Cand Lm := { c with checks := c.checks + 1 }
    if leaves cfg nFov c' = true then
      match cs with
      | [] => .error .ub
      | _ :: _ => (sweep cfg nFov nw cs).map fun r => (r.1, if promoted cfg nFov c' = true then (c'.lm, nw * (c'.checks : ℝ)) :: r.2 else r.2)
    else (sweep cfg nFov nw cs).map fun r => (c' :: r.1, r.2)

/-- Lines 649-686: an unused measurement supports a candidate, becomes a landmark or becomes a candidate. -/
noncomputable def place (env : Env Lm nZ) (cfg : Cfg) (nFov : Nat) (nw : ℝ) (s : List (Lm × ℝ) × List (Cand Lm)) (z : Fin nZ) : List (Lm × ℝ) × List (Cand Lm) :=
  match support env cfg z s.2 with
  | some cs => (s.1, cs)
  | none => if cfg.countThr = 1 ∨ nFov ≤ cfg.curThr then (s.1 ++ [(env.inv z, nw)], s.2) else (s.1, s.2 ++ [⟨env.inv z, 1, 0⟩])

/-- Lines 649-710, one unused measurement: map and candidates. -/
noncomputable def birthStep (env : Env Lm nZ) (cfg : Cfg) (nFov : Nat) (nw : ℝ) (s : List (Lm × ℝ) × List (Cand Lm)) (z : Fin nZ) :
    Except Err (List (Lm × ℝ) × List (Cand Lm)) :=
  (sweep cfg nFov nw (place env cfg nFov nw s z).2).map fun r => ((place env cfg nFov nw s z).1 ++ r.2, r.1)

/-- Lines 579-728 for one hypothesis: the particle and its candidates. -/
noncomputable def hypUpdate (env : Env Lm nZ) (cfg : Cfg) (prune : List (Lm × ℝ) → List (Lm × ℝ)) (lms : List (Nat × Lm × ℝ))
    (da : Fin (max lms.length nZ) → Option (Fin nZ)) (p : Particle Lm) (cands : List (Cand Lm)) : Except Err (Particle Lm × List (Cand Lm)) :=
  (lmLoop env cfg lms da p.map).bind fun s =>
    (newWeight cfg).bind fun nw =>
      (((List.finRange nZ).filter fun z => !s.used z).foldlM (birthStep env cfg s.nFov nw) (if cfg.pruneMeas ≤ nZ then prune s.map else s.map, cands)).map fun r =>
        (⟨p.w * Real.exp s.logW, r.1⟩, r.2)

/-- `updateMap`, lines 435-736: the particle for every hypothesis, the first being the particle itself, with their candidates. `cands h` is what the list
`landmarkCandidates_` holds at the index of hypothesis `h`, `resampled` is `resampleOccured_`. Without hypothesis, `pi[0] = i` writes to an array of length
zero (lines 553-555). -/
noncomputable def updateMap (env : Env Lm nZ) (cfg : Cfg) (murty : ∀ m, Mat ℝ m → List ((Fin m → Fin m) × ℝ)) (prune : List (Lm × ℝ) → List (Lm × ℝ))
    (resampled : Bool) (p : Particle Lm) (cands : Nat → List (Cand Lm)) : Except Err (List (Particle Lm × List (Cand Lm))) :=
  (hypotheses cfg nZ murty (table env cfg (inRange env p.map))).bind fun das =>
    if das.length = 0 then .error .ub
    else das.zipIdx.mapM fun x => hypUpdate env cfg prune (inRange env p.map) x.1 ⟨if 1 < das.length then p.w / das.length else p.w, p.map⟩
      (if x.2 = 0 ∨ resampled = true then cands 0 else cands x.2)

/-- Lines 757-764: the candidate lists after a resampling, written in place from the first particle on. `parent` is `getParentId`. -/
def moveCands {α : Type} (parent : List Nat) (cands : List α) : Option (List α) :=
  parent.zipIdx.foldlM (fun cs x => if x.1 = x.2 then some cs else (cs[x.1]?).bind fun c => if x.2 < cs.length then some (cs.set x.2 c) else none) cands

end FastSLAM
end RFS
