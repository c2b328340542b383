import Verif.Model.FastThreads

/-!
The loop over the particles of `rfs::FastSLAM::update` (include/FastSLAM.hpp, lines 415-424) in finer steps than `Verif.Model.FastThreads`: `updateMap(i)` (lines 435-736) takes the particle from `particleSet_` in a critical
section (lines 445-448), associates the measurements and sets the share of the weight (lines 450-557), copies the particle in another critical section of the same name (lines 558-571) if there is more than one hypothesis, and works on the
hypotheses (lines 577-728), where `pi` has the places of their particles. With every step goes what it reads and writes, and whether that is in the critical section.

Simplifications: those of `Verif.Model.FastRuns`. The particles that `particleSet_` points to are called by their index, as no entry of it changes during the loop; the array and `nParticles_` are one location, since every
enlargement can move the array. The counts of `shared_ptr` are atomic. The measurement model and the Kalman filters are only read by `measure`, `correct` and `probabilityOfDetection` (include/KalmanFilter.hpp, lines 216-268). The numbers in
`nLandmarksInFOV_` are set to 0 before they are used (line 583), so that their values are part of `hypUpdate`.
-/

namespace RFS
namespace FastFine
open FastSLAM FastRuns FastThreads

variable {X Lm : Type}

/-- How far an iteration is: not begun; with the pointer of its particle; with its hypotheses, about to copy the particle with the weight `w`; with the places of the hypotheses still to work on. -/
inductive Ph (X Lm : Type) (nZ : Nat) where
  | idle
  | held
  | ready (x : X) (lms : List (Nat × Lm × ℝ)) (das : List (Fin (max lms.length nZ) → Option (Fin nZ))) (w : ℝ)
  | busy (x : X) (lms : List (Nat × Lm × ℝ)) (rest : List (Nat × (Fin (max lms.length nZ) → Option (Fin nZ))))

/-- The filter and how far the iterations are. -/
structure Fine (X Lm : Type) (nZ : Nat) where
  f : Filt X Lm
  ph : Nat → Ph X Lm nZ

/-- Lines 445-448. -/
def take {nZ : Nat} (c : Fine X Lm nZ) (i : Nat) : Except RErr (Fine X Lm nZ) :=
  if i < c.f.parts.length then .ok ⟨c.f, Function.update c.ph i .held⟩ else .error .index

/-- Lines 450-557. `pi[0]` is written for no hypothesis (line 555), which is outside the array. -/
noncomputable def assoc (cfg : Cfg) (s : Scan X Lm) (c : Fine X Lm s.nZ) (i : Nat) : Except RErr (Fine X Lm s.nZ) :=
  match c.f.parts[i]? with
  | none => .error .index
  | some p =>
    match hypotheses cfg s.nZ s.murty (table (s.env p.st.x) cfg (inRange (s.env p.st.x) p.st.map)) with
    | .error e => .error (.upd e)
    | .ok das =>
      if das.length = 0 then .error (.upd .ub)
      else if 1 < das.length then
        .ok ⟨{ c.f with parts := c.f.parts.set i { p with w := p.w / das.length } }, Function.update c.ph i (.ready p.st.x (inRange (s.env p.st.x) p.st.map) das (p.w / das.length))⟩
      else .ok ⟨c.f, Function.update c.ph i (.busy p.st.x (inRange (s.env p.st.x) p.st.map) (das.map fun da => (i, da)))⟩

/-- Lines 553-568: `pi`, when there are `n` particles after the copying. -/
def places {α : Type} (i n : Nat) (das : List α) : List (Nat × α) := das.zipIdx.map fun o => (slot i n o.2, o.1)

/-- Lines 558-571. -/
noncomputable def dup {nZ : Nat} (c : Fine X Lm nZ) (i : Nat) (x : X) (lms : List (Nat × Lm × ℝ)) (das : List (Fin (max lms.length nZ) → Option (Fin nZ))) (w : ℝ) : Except RErr (Fine X Lm nZ) :=
  match PF.copyParticle c.f.parts i (das.length - 1) w with
  | none => .error .index
  | some P =>
    if c.f.resampled = true ∧ (c.f.cands.length ≤ i ∨ c.f.cands.length < P.length) then .error .index
    else .ok ⟨{ c.f with parts := P, cands := copyCands i P.length das.length c.f.resampled c.f.cands }, Function.update c.ph i (.busy x lms (places i P.length das))⟩

/-- Lines 577-728 for the next hypothesis, at place `k`. -/
noncomputable def hyp (cfg : Cfg) (s : Scan X Lm) (c : Fine X Lm s.nZ) (i : Nat) (x : X) (lms : List (Nat × Lm × ℝ)) (k : Nat) (da : Fin (max lms.length s.nZ) → Option (Fin s.nZ))
    (rest : List (Nat × (Fin (max lms.length s.nZ) → Option (Fin s.nZ)))) : Except RErr (Fine X Lm s.nZ) :=
  match c.f.parts[k]?, c.f.cands[k]? with
  | some q, some cs =>
    match hypUpdate (s.env x) cfg s.prune lms da ⟨q.w, q.st.map⟩ cs with
    | .error e => .error (.upd e)
    | .ok o => .ok ⟨{ c.f with parts := c.f.parts.set k { q with st := ⟨q.st.x, o.1.map⟩, w := o.1.w }, cands := c.f.cands.set k o.2 }, Function.update c.ph i (.busy x lms rest)⟩
  | _, _ => .error .index

/-- The next step of iteration `i`; nothing when it is done. -/
noncomputable def tick (cfg : Cfg) (s : Scan X Lm) (c : Fine X Lm s.nZ) (i : Nat) : Except RErr (Fine X Lm s.nZ) :=
  match c.ph i with
  | .idle => take c i
  | .held => assoc cfg s c i
  | .ready x lms das w => dup c i x lms das w
  | .busy _ _ [] => .ok c
  | .busy x lms ((k, da) :: rest) => hyp cfg s c i x lms k da rest

/-- The steps of a schedule. -/
noncomputable def run (cfg : Cfg) (s : Scan X Lm) (σ : List Nat) (c : Fine X Lm s.nZ) : Except RErr (Fine X Lm s.nZ) := σ.foldlM (tick cfg s) c

/-- No iteration has begun. -/
def fresh (nZ : Nat) (f : Filt X Lm) : Fine X Lm nZ := ⟨f, fun _ => .idle⟩

/-- `update`, lines 393-433, with the loop run by threads according to `σ`. -/
noncomputable def updateF (cfg : RCfg) (s : Scan X Lm) (σ : List Nat) (f : Filt X Lm) : Except RErr (Filt X Lm) :=
  let f0 : Filt X Lm := { f with cands := grow (f.parts.length * cfg.cfg.maxHyp) f.cands, nUpd := f.nUpd + 1 }
  if s.nZ = 0 then .ok f0
  else
    match run cfg.cfg s σ (fresh s.nZ { f0 with nMeas := f.nMeas + s.nZ }) with
    | .error e => .error e
    | .ok c => resampleMove cfg s c.f

/-- Shared memory: `particleSet_` (the array of pointers) with `nParticles_`; a particle with pose, weight and map; an entry of `landmarkCandidates_`, of `nLandmarksInFOV_`, of `kfs_`; `measurements_`; `resampleOccured_`. -/
inductive Loc
  | set
  | part (k : Nat)
  | cand (k : Nat)
  | fov (k : Nat)
  | kf (t : Nat)
  | meas
  | flag
deriving DecidableEq

/-- An access: where, whether it writes, and whether it is in the critical section `increaseParticles`. -/
structure Acc where
  loc : Loc
  write : Bool
  crit : Bool
deriving DecidableEq

/-- The accesses of the next step of iteration `i` run by thread `t`: lines 447; 450-557; 562-568 (the new particles are behind the others); 577-728 (line 598 uses the Kalman filter of the thread, line 662 the first one, both with the pose of particle `i`). -/
def accesses {nZ : Nat} (t : Nat) (c : Fine X Lm nZ) (i : Nat) : List Acc :=
  match c.ph i with
  | .idle => [⟨.set, false, true⟩]
  | .held => [⟨.part i, false, false⟩, ⟨.part i, true, false⟩, ⟨.meas, false, false⟩]
  | .ready _ _ das _ => [⟨.set, false, true⟩, ⟨.set, true, true⟩, ⟨.part i, false, true⟩, ⟨.part i, true, true⟩, ⟨.flag, false, true⟩] ++ (List.range (das.length - 1)).map (fun h => ⟨.part (c.f.parts.length + h), true, true⟩) ++
      if c.f.resampled then ⟨.cand i, false, true⟩ :: (List.range (das.length - 1)).map fun h => ⟨.cand (c.f.parts.length + h), true, true⟩ else []
  | .busy _ _ [] => []
  | .busy _ _ ((k, _) :: _) => [⟨.part k, false, false⟩, ⟨.part k, true, false⟩, ⟨.part i, false, false⟩, ⟨.cand k, false, false⟩, ⟨.cand k, true, false⟩, ⟨.fov k, false, false⟩, ⟨.fov k, true, false⟩, ⟨.meas, false, false⟩,
      ⟨.kf t, false, false⟩, ⟨.kf 0, false, false⟩]

/-- Two states agree at a location. Measurements, Kalman filters and the numbers of landmarks in view are not part of the state. -/
def Loc.same {nZ : Nat} (c d : Fine X Lm nZ) : Loc → Prop
  | .set => c.f.parts.length = d.f.parts.length
  | .part k => c.f.parts[k]? = d.f.parts[k]?
  | .cand k => c.f.cands[k]? = d.f.cands[k]?
  | .flag => c.f.resampled = d.f.resampled
  | _ => True

end FastFine
end RFS
