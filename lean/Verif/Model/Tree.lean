import Mathlib.Logic.Relation
import Mathlib.Logic.Function.Basic

/-!
Model of `TreeNode` (include/Tree.hpp 47-187), the base class of the nodes of the interpretation tree of JCBB (include/JCBB.hpp 52).

Nodes are numbered in the order of their creation. `none` as the result of an operation is undefined behaviour (a null pointer is dereferenced).
-/

namespace RFS
namespace Tree
open Function

/-- All the nodes: `children_` (include/Tree.hpp 115), `parent_` (116; `none` is an empty weak pointer), and how many nodes have been created. -/
structure Heap where
  parent : Nat → Option Nat
  children : Nat → List Nat
  next : Nat

/-- No node yet. -/
def Heap.empty : Heap := ⟨fun _ => none, fun _ => [], 0⟩

/-- `new Derived`, include/Tree.hpp 125-129: no parent, no children. -/
def create (h : Heap) : Heap × Nat := (⟨update h.parent h.next none, update h.children h.next [], h.next + 1⟩, h.next)

/-- `addChild(child)`, include/Tree.hpp 163-168. -/
def addChild (h : Heap) (p : Nat) (c : Option Nat) : Option Heap :=
  c.map fun c => { h with parent := update h.parent c (some p), children := update h.children p (h.children p ++ [c]) }

/-- `addChild()`, include/Tree.hpp 154-161: a new node is the child. -/
def addNew (h : Heap) (p : Nat) : Heap × Nat :=
  let a := create h
  ({ a.1 with parent := update a.1.parent a.2 (some p), children := update a.1.children p (a.1.children p ++ [a.2]) }, a.2)

/-- `replaceChild`, include/Tree.hpp 170-179. -/
def replaceChild (h : Heap) (p idx : Nat) (c : Option Nat) : Option (Heap × Bool) :=
  match (h.children p)[idx]? with
  | none => some (h, false)
  | some old => c.map fun c =>
      ({ h with parent := update (update h.parent old none) c (some p), children := update h.children p ((h.children p).set idx c) }, true)

/-- `removeChildren`, include/Tree.hpp 181-187. -/
def removeChildren (h : Heap) (p : Nat) : Heap :=
  { h with parent := (h.children p).foldl (fun f c => update f c none) h.parent, children := update h.children p [] }

/-- `getChild`, include/Tree.hpp 141-147; `none` is the null pointer. -/
def getChild (h : Heap) (p idx : Nat) : Option Nat := if idx < (h.children p).length then (h.children p)[idx]? else none

/-- `getChildrenCount`, include/Tree.hpp 149-152. -/
def getChildrenCount (h : Heap) (p : Nat) : Nat := (h.children p).length

/-- A node lives while the user or a living node holds a shared pointer to it (`std::vector< boost::shared_ptr<Derived> >`, include/Tree.hpp 115):
`held` says which nodes the user holds. (Reference counting frees what is not reachable, as long as there are no cycles.) -/
def Alive (h : Heap) (held : Nat → Prop) (n : Nat) : Prop := ∃ r, held r ∧ Relation.ReflTransGen (fun a b => b ∈ h.children a) r n

open Classical in
/-- `getParent`, include/Tree.hpp 136-139: `parent_.lock()` is the null pointer once the parent has been destroyed. -/
noncomputable def getParent (h : Heap) (held : Nat → Prop) (n : Nat) : Option Nat :=
  (h.parent n).bind fun p => if Alive h held p then some p else none

/-- The calls that change a tree. -/
inductive Op
  | create
  | addNew (p : Nat)
  | addChild (p : Nat) (c : Option Nat)
  | replaceChild (p idx : Nat) (c : Option Nat)
  | removeChildren (p : Nat)

/-- One call. -/
def step (h : Heap) : Op → Option Heap
  | .create => some (create h).1
  | .addNew p => some (addNew h p).1
  | .addChild p c => addChild h p c
  | .replaceChild p idx c => (replaceChild h p idx c).map (·.1)
  | .removeChildren p => some (removeChildren h p)

/-- A sequence of calls. -/
def runOps (h : Heap) : List Op → Option Heap
  | [] => some h
  | o :: os => (step h o).bind fun h' => runOps h' os

end Tree
end RFS
