import Verif.Model.OSPA

/-!
Model of `ospaErrorFromFile` (src/examples/ospaErrorFromFile.cpp): two files of points are read and their OSPA error is printed.

Simplifications: a file is the list of its words, with the number a word stands for (`none`: not a number), and whether white space follows the last one; numbers are exact. The files can be opened.
The lines written about the points and the solution are left out.
-/

namespace RFS
namespace OspaFile

/-- A stream: the words to come, whether white space follows the last of them, and whether `good()` is false. -/
structure Str where
  words : List (Option ℝ)
  ws : Bool
  bad : Bool

/-- A file that has been opened. -/
def opened (words : List (Option ℝ)) (ws : Bool) : Str := ⟨words, ws, false⟩

/-- `in >> x`: after the last word the end of the file is met unless white space comes first. -/
noncomputable def get (s : Str) : ℝ × Str :=
  if s.bad then (0, s)
  else
    match s.words with
    | [] => (0, { s with bad := true })
    | none :: ws => (0, { s with words := ws, bad := true })
    | some v :: ws => (v, { s with words := ws, bad := ws.isEmpty && !s.ws })

/-- The loops of lines 71-79 and 81-88; a loop that ends makes no more passes than there are words and one. -/
noncomputable def readSet : Nat → Str → List (ℝ × ℝ)
  | 0, _ => []
  | k + 1, s =>
    let x := get s
    let y := get x.2
    if y.2.bad then [] else (x.1, y.1) :: readSet k y.2

/-- `Pos2d::distance`, lines 43-47. -/
noncomputable def distance (a b : ℝ × ℝ) : ℝ := Real.sqrt ((a.1 - b.1) * (a.1 - b.1) + (a.2 - b.2) * (a.2 - b.2))

/-- Lines 180-182 for the sets read: cutoff 1, order 1 (lines 59-60). -/
noncomputable def errorOf (A B : List (ℝ × ℝ)) (fuel : Nat) : Option OSPA.Err :=
  (OSPA.make A.length B.length (fun i j => distance A[i] B[j]) 1 1 fuel).map fun o => OSPA.calcError o true true

/-- `main`, lines 57-182. -/
noncomputable def main (f g : Str) (fuel : Nat) : Option OSPA.Err :=
  errorOf (readSet (f.words.length + 1) f) (readSet (g.words.length + 1) g) fuel

end OspaFile
end RFS
