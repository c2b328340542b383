import Verif.Model.FastThreads

/-!
Model of the Kalman filters that the threads of `rfs::FastSLAM::update` use (include/FastSLAM.hpp): the vector `kfs_` is made by the constructor with one entry for every
thread that could be started then (lines 317-322), `updateMap` takes the entry with the number of the thread that runs it (lines 437-440, 606). OpenMP lets the number of
threads be raised later (`omp_set_num_threads`).

Simplifications: those of `Verif.Model.FastThreads`. All filters are equal when the loop starts (lines 407-412) and hold no state, so only whether the entry exists matters.
-/

namespace RFS
namespace FastThreads
open FastSLAM FastRuns

variable {X Lm : Type}

/-- The condition of line 605 holds for some landmark of the hypothesis: line 606 is run. -/
def NeedsKf {nZ : Nat} (env : Env Lm nZ) (cfg : Cfg) (lms : List (Nat × Lm × ℝ)) (da : Fin (max lms.length nZ) → Option (Fin nZ)) : Prop :=
  ∃ (m : Fin lms.length) (z : Fin nZ), da ⟨m, lt_of_lt_of_le m.2 (le_max_left _ _)⟩ = some z ∧ cfg.minLL < tableEntry env cfg lms m z

/-- The next step of iteration `i`, run by thread `owner i`, with `nK` Kalman filters: line 606 reads `kfs_[threadnum]`. -/
noncomputable def tickT (cfg : Cfg) (s : Scan X Lm) (nK : Nat) (owner : Nat → Nat) (c : Conc X Lm s.nZ) (i : Nat) : Except RErr (Conc X Lm s.nZ) :=
  open Classical in
  match c.job i with
  | none => start cfg s c i
  | some ⟨n, x, lms, [], h⟩ => work cfg s c i ⟨n, x, lms, [], h⟩
  | some ⟨n, x, lms, da :: rest, h⟩ => if nK ≤ owner i ∧ NeedsKf (s.env x) cfg lms da then .error .index else work cfg s c i ⟨n, x, lms, da :: rest, h⟩

/-- The steps of a schedule. -/
noncomputable def runT (cfg : Cfg) (s : Scan X Lm) (nK : Nat) (owner : Nat → Nat) (σ : List Nat) (c : Conc X Lm s.nZ) : Except RErr (Conc X Lm s.nZ) := σ.foldlM (tickT cfg s nK owner) c

/-- `update`, lines 393-433, by threads. -/
noncomputable def updateT (cfg : RCfg) (s : Scan X Lm) (nK : Nat) (owner : Nat → Nat) (σ : List Nat) (f : Filt X Lm) : Except RErr (Filt X Lm) :=
  let f0 : Filt X Lm := { f with cands := grow (f.parts.length * cfg.cfg.maxHyp) f.cands, nUpd := f.nUpd + 1 }
  if s.nZ = 0 then .ok f0
  else
    match runT cfg.cfg s nK owner σ (fresh s.nZ { f0 with nMeas := f.nMeas + s.nZ }) with
    | .error e => .error e
    | .ok c => resampleMove cfg s c.f

end FastThreads
end RFS
