import Verif.Model.FastRuns

/-!
Model of the loop over the particles of `rfs::FastSLAM::update` (include/FastSLAM.hpp, lines 415-424) as several threads run it. An iteration `updateMap(i)`
(lines 435-736) is cut into the steps between which other threads can be seen: the part up to and with the critical section that copies the particle (lines 437-570,
the data association only reads the particle itself), and the work on each hypothesis in turn (lines 577-728). A schedule is any list of iterations, each entry being
one step of that iteration, so every division of the iterations among threads and every interleaving is a schedule.

Simplifications: those of `Verif.Model.FastRuns`. A step is atomic; what two iterations touch is disjoint outside the critical sections, which is proved
(`C204_private`). The measurement model, the process model and the Kalman filters hold no state that `measure`, `correct` and `probabilityOfDetection` write
(include/KalmanFilter.hpp, lines 216-268). Reading `particleSet_[i]` (line 447) is a critical section of its own in the code; the entry is the same until the end of the
loop.
-/

namespace RFS
namespace FastThreads
open FastSLAM FastRuns

variable {X Lm : Type}

/-- An iteration after its critical section: number of particles then, pose, landmarks in range, the hypotheses still to work on and the number of those worked on. -/
structure Job (X Lm : Type) (nZ : Nat) where
  n : Nat
  x : X
  lms : List (Nat × Lm × ℝ)
  rest : List (Fin (max lms.length nZ) → Option (Fin nZ))
  h : Nat

/-- The filter and how far the iterations are. -/
structure Conc (X Lm : Type) (nZ : Nat) where
  f : Filt X Lm
  job : Nat → Option (Job X Lm nZ)

/-- Lines 564-568: after a resampling the copies get the candidates of the particle. -/
def copyCands (i n nH : Nat) (resampled : Bool) (C : List (List (Cand Lm))) : List (List (Cand Lm)) :=
  if resampled then (List.range' 1 (nH - 1)).foldl (fun D h => D.set (slot i n h) ((C[i]?).getD [])) C else C

/-- Lines 437-570. -/
noncomputable def start (cfg : Cfg) (s : Scan X Lm) (c : Conc X Lm s.nZ) (i : Nat) : Except RErr (Conc X Lm s.nZ) :=
  match c.f.parts[i]? with
  | none => .error .index
  | some p =>
    match hypotheses cfg s.nZ s.murty (table (s.env p.st.x) cfg (inRange (s.env p.st.x) p.st.map)) with
    | .error e => .error (.upd e)
    | .ok das =>
      if das.length = 0 then .error (.upd .ub)
      else if c.f.resampled = true ∧ 1 < das.length ∧ (c.f.cands.length ≤ i ∨ c.f.cands.length < c.f.parts.length + (das.length - 1)) then .error .index
      else
        match split c.f.parts i das.length p with
        | none => .error .index
        | some P => .ok ⟨{ c.f with parts := P, cands := copyCands i (c.f.parts.length + (das.length - 1)) das.length c.f.resampled c.f.cands },
            Function.update c.job i (some ⟨c.f.parts.length + (das.length - 1), p.st.x, inRange (s.env p.st.x) p.st.map, das, 0⟩)⟩

/-- Lines 577-728 for the next hypothesis. -/
noncomputable def work (cfg : Cfg) (s : Scan X Lm) (c : Conc X Lm s.nZ) (i : Nat) (jb : Job X Lm s.nZ) : Except RErr (Conc X Lm s.nZ) :=
  match jb with
  | ⟨_, _, _, [], _⟩ => .ok c
  | ⟨n, x, lms, da :: rest, h⟩ =>
    match c.f.parts[slot i n h]?, c.f.cands[slot i n h]? with
    | some q, some cs =>
      match hypUpdate (s.env x) cfg s.prune lms da ⟨q.w, q.st.map⟩ cs with
      | .error e => .error (.upd e)
      | .ok o => .ok ⟨{ c.f with parts := c.f.parts.set (slot i n h) { q with st := ⟨q.st.x, o.1.map⟩, w := o.1.w }, cands := c.f.cands.set (slot i n h) o.2 },
          Function.update c.job i (some ⟨n, x, lms, rest, h + 1⟩)⟩
    | _, _ => .error .index

/-- The next step of iteration `i`; nothing when it is done. -/
noncomputable def tick (cfg : Cfg) (s : Scan X Lm) (c : Conc X Lm s.nZ) (i : Nat) : Except RErr (Conc X Lm s.nZ) :=
  match c.job i with
  | none => start cfg s c i
  | some jb => work cfg s c i jb

/-- The steps of a schedule. -/
noncomputable def run (cfg : Cfg) (s : Scan X Lm) (σ : List Nat) (c : Conc X Lm s.nZ) : Except RErr (Conc X Lm s.nZ) := σ.foldlM (tick cfg s) c

/-- No iteration has begun. -/
def fresh (nZ : Nat) (f : Filt X Lm) : Conc X Lm nZ := ⟨f, fun _ => none⟩

/-- `update`, lines 393-433, with the loop run by threads according to `σ`. -/
noncomputable def updateC (cfg : RCfg) (s : Scan X Lm) (σ : List Nat) (f : Filt X Lm) : Except RErr (Filt X Lm) :=
  let f0 : Filt X Lm := { f with cands := grow (f.parts.length * cfg.cfg.maxHyp) f.cands, nUpd := f.nUpd + 1 }
  if s.nZ = 0 then .ok f0
  else
    match run cfg.cfg s σ (fresh s.nZ { f0 with nMeas := f.nMeas + s.nZ }) with
    | .error e => .error e
    | .ok c => resampleMove cfg s c.f

/-- A sequence of calls; with every `update` comes the schedule of its loop. -/
noncomputable def execC (cfg : RCfg) : List (Cmd X Lm × List Nat) → Filt X Lm → Except RErr (Filt X Lm)
  | [], f => .ok f
  | (.predict mx ml, _) :: cs, f =>
    match step cfg f (.predict mx ml) with
    | .error e => .error e
    | .ok f' => execC cfg cs f'
  | (.update s, σ) :: cs, f =>
    match updateC cfg s σ f with
    | .error e => .error e
    | .ok f' => execC cfg cs f'

end FastThreads
end RFS
