import Mathlib.Data.Real.Basic

/-!
Model of `convertLogFiles` (src/convertLogFiles.cpp), which converts logs of the 2-D simulations from an old to a new format.

A file is the list of what `fscanf` can match in it: the phrases of the old format and numbers; white space does not matter to `fscanf`. A call that meets something else matches nothing and leaves it in the stream.
Numbers are real numbers, `rd` is what is left of one after printing it (`%lf`: six decimals). Counts are natural numbers (with a negative count the loops do nothing, as with 0). `return` from `main` flushes the
files, so the output is what has been printed until then.
-/

namespace RFS
namespace Convert

/-- What a log file contains. -/
inductive Tok
  /-- `Timesteps: %d` -/
  | timesteps (n : Nat)
  /-- `nParticles: %d` -/
  | nParticles (n : Nat)
  /-- `k = %lf` -/
  | step (t : ℝ)
  /-- `nParticles = %d` -/
  | particles (n : Nat)
  /-- `Timestep: %lf   Particle: %d   Map Size: %d` -/
  | map (t : ℝ) (pid n : Nat)
  /-- a number -/
  | num (x : ℝ)

/-- `fscanf` of `n` numbers: the numbers and the rest of the file. -/
def readNums : Nat → List Tok → Option (List ℝ × List Tok)
  | 0, r => some ([], r)
  | n + 1, .num x :: r => (readNums n r).map fun a => (x :: a.1, a.2)
  | _ + 1, _ => none

/-- The particles of one step, src/convertLogFiles.cpp 85-89: what is printed, and the rest of the file (`none`: `return 4`). -/
def poseRows (rd : ℝ → ℝ) (t : ℝ) : Nat → Nat → List Tok → List Tok × Option (List Tok)
  | 0, _, r => ([], some r)
  | n + 1, i, r =>
    match readNums 4 r with
    | some ([x, y, a, w], r') =>
      let o := poseRows rd t n (i + 1) r'
      ([.num (rd t), .num i, .num (rd x), .num (rd y), .num (rd a), .num (rd w)] ++ o.1, o.2)
    | _ => ([], none)

/-- The steps, src/convertLogFiles.cpp 80-90: what is printed, and the value returned, 0 if the end was reached. -/
def poseSteps (rd : ℝ → ℝ) : Nat → List Tok → List Tok × Nat
  | 0, _ => ([], 0)
  | k + 1, .step t :: .particles n :: r =>
    let o := poseRows rd t n 0 r
    match o.2 with
    | none => (o.1, 4)
    | some r' => (o.1 ++ (poseSteps rd k r').1, (poseSteps rd k r').2)
  | _ + 1, .step _ :: _ => ([], 3)
  | _ + 1, _ => ([], 2)

/-- The pose file, src/convertLogFiles.cpp 73-90. -/
def pose (rd : ℝ → ℝ) : List Tok → List Tok × Nat
  | .timesteps n :: r => poseSteps rd n r
  | _ => ([], 1)

/-- The landmarks of one map, src/convertLogFiles.cpp 103-107. -/
def mapRows (rd : ℝ → ℝ) (t : ℝ) (pid : Nat) : Nat → List Tok → List Tok × Option (List Tok)
  | 0, r => ([], some r)
  | n + 1, r =>
    match readNums 7 r with
    | some ([x, y, sxx, sxy, _, syy, w], r') =>
      let o := mapRows rd t pid n r'
      ([.num (rd t), .num pid, .num (rd x), .num (rd y), .num (rd sxx), .num (rd sxy), .num (rd syy), .num (rd w)] ++ o.1, o.2)
    | _ => ([], none)

/-- The maps, src/convertLogFiles.cpp 102-108; every round reads at least one phrase, so fuel for the length of the file is enough. -/
def maps (rd : ℝ → ℝ) : Nat → List Tok → List Tok × Nat
  | fuel + 1, .map t pid n :: r =>
    let o := mapRows rd t pid n r
    match o.2 with
    | none => (o.1, 7)
    | some r' => (o.1 ++ (maps rd fuel r').1, (maps rd fuel r').2)
  | _, _ => ([], 0)

/-- The landmark file, src/convertLogFiles.cpp 96-108. -/
def landmarks (rd : ℝ → ℝ) : List Tok → List Tok × Nat
  | .timesteps _ :: .nParticles _ :: r => maps rd (r.length + 1) r
  | .timesteps _ :: _ => ([], 6)
  | _ => ([], 5)

/-- The four files of the log directory: `particlePose.dat`, `particlePose.bak`, `landmarkEst.dat`, `landmarkEst.bak`; `none`: no such file. -/
structure Dir where
  poseDat : Option (List Tok)
  poseBak : Option (List Tok)
  lmkDat : Option (List Tok)
  lmkBak : Option (List Tok)

/-- The program, src/convertLogFiles.cpp 37-113: the files are renamed (61-64; an existing backup is replaced), new ones are made (65-68), and the backups are read. The landmark file is not read if
the pose file fails. `none`: a file is missing and `rename` throws. -/
def run (rd : ℝ → ℝ) (d : Dir) : Option (Dir × Nat) :=
  match d.lmkDat, d.poseDat with
  | some l, some p =>
    let a := pose rd p
    if a.2 ≠ 0 then some (⟨some a.1, some p, some [], some l⟩, a.2)
    else
      let b := landmarks rd l
      some (⟨some a.1, some p, some b.1, some l⟩, b.2)
  | _, _ => none

end Convert
end RFS
