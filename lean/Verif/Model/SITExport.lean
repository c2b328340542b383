import Verif.Model.SpatialIndex

/-!
Model of `SpatialIndexTree::exportASCII` (include/SpatialIndexTree.hpp 531-583).

Simplifications: a line of the file is shown by the values put into it, before they are rounded to three digits; the file can be
opened and written; the two copies of the position and the constant 0 of a line of a datum are shown once. The stack
`traverseStack` is a list whose head is the back of the vector. Running out of steps is the outcome `none`.
-/

namespace RFS
namespace SIT

variable {K : Type*} [Field K] [LinearOrder K] {D : Type*} {d : Nat}

/-- A line of the file: `BOX` with both corners and the number of data (lines 548-557), or `PT` with a position (566-573). -/
inductive Line (K : Type*) (d : Nat) where
  | box (lo hi : Fin d → K) (n : Nat)
  | pt (p : Fin d → K)

variable (I : Idx K D d)

/-- The line of a box, lines 548-557; the upper corner is `pos_ + size_` (SpatialIndexBox.hpp 190-252). -/
def boxLine (t : Tree K D d) : Line K d := .box t.lo (fun i => t.lo i + I.sz t.level) t.size

/-- The lines of the data of a box without children, lines 564-574. -/
def dataLines (data : List D) : List (Line K d) := data.map fun x => .pt (I.pos x)

/-- The children pushed from the last to the first, lines 559-562: the first child ends at the back of the stack. -/
def pushChildren (ch : Fin (2 ^ d) → Tree K D d) (stack : List (Tree K D d)) : List (Tree K D d) :=
  (List.finRange (2 ^ d)).reverse.foldl (fun s i => ch i :: s) stack

/-- The loop of lines 540-577: what is written from here on, `none` if the steps do not suffice. -/
def exportLoop : Nat → List (Tree K D d) → Option (List (Line K d))
  | _, [] => some []
  | 0, _ :: _ => none
  | fuel + 1, .leaf lo k data :: s =>
    (exportLoop fuel s).map fun out => boxLine I (.leaf lo k data) :: (dataLines I data ++ out)
  | fuel + 1, .node lo k n ch :: s =>
    (exportLoop fuel (pushChildren ch s)).map fun out => boxLine I (.node lo k n ch) :: out

/-- `exportASCII`, lines 531-583. -/
def exportASCII (fuel : Nat) (root : Tree K D d) : Option (List (Line K d)) := exportLoop I fuel [root]

end SIT
end RFS
