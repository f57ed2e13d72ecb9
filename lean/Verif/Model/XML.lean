import Verif.Model.Quadtree

/-!
# The XML writer

Model of `XMLTree.cpp`.  Nodes refer to their children by pointer, so the model has a heap: addresses are
numbers that are never used again, a cell holds the node that lives there, or nothing when there is no
node any more.  Reading through a pointer to nothing is undefined behaviour.

The recursion of `write_` needs stack; `stack` is the depth that is available, and going deeper (always the
case when the pointers form a cycle) is undefined behaviour.
-/

namespace EF

/-- `XMLNode`, `XMLTree.hpp:27-86`. -/
structure XNode where
  name : Text
  attributes : List (Text × Text) := []
  data : Text := []
  children : List Nat := []

/-- The memory: `cells` below `next` were given out. -/
structure Heap where
  cells : Nat → Option XNode
  next : Nat

namespace Heap

/-- A new node, by a declaration or by `new`. -/
def alloc (h : Heap) (n : XNode) : Heap × Nat :=
  (⟨fun a => if a = h.next then some n else h.cells a, h.next + 1⟩, h.next)

/-- The end of the lifetime of a node. -/
def kill (h : Heap) (a : Nat) : Heap := ⟨fun b => if b = a then none else h.cells b, h.next⟩

/-- `XMLNode::addChild`, `XMLTree.cpp:17-23`. -/
def addChild (h : Heap) (a c : Nat) : Heap :=
  ⟨fun b => if b = a then (h.cells a).map (fun n => { n with children := n.children ++ [c] })
    else h.cells b, h.next⟩

end Heap

/-- `XMLNode::addAttribute`, `XMLTree.cpp:13-15`. -/
def XNode.addAttribute (n : XNode) (key value : Text) : XNode :=
  { n with attributes := n.attributes ++ [(key, value)] }

/-- The header line, `XMLTree.cpp:43-50`, with the last character (the space after the name or after the
last attribute) removed. -/
def XNode.header (n : XNode) (indent : Text) : Text :=
  (n.attributes.foldl (fun s p => s ++ (p.1 ++ '=' :: '"' :: p.2 ++ ['"', ' ']))
    (indent ++ ('<' :: n.name ++ [' ']))).dropLast ++ ['>']

/-- The children one after another, `XMLTree.cpp:58-61`; `w` writes one child. -/
def writeChildren (w : Nat → Res Text) : List Nat → Res Text
  | [] => pure []
  | c :: cs => w c >>= fun t => writeChildren w cs >>= fun ts => pure (t ++ ts)

/-- `XMLTree::write_`, `XMLTree.cpp:41-67`. -/
def writeNode (h : Heap) : Nat → Nat → Text → Res Text
  | 0, _, _ => .ub
  | stack + 1, a, indent =>
    match h.cells a with
    | none => .ub
    | some n =>
      writeChildren (fun c => writeNode h stack c (indent ++ [' ', ' '])) n.children >>= fun inner =>
        pure (n.header indent ++ ['\n'] ++ (if n.data ≠ [] then n.data ++ ['\n'] else []) ++ inner ++
          indent ++ '<' :: '/' :: n.name ++ ['>', '\n'])

/-- `XMLTree::write`, `XMLTree.cpp:33-39`: the content of the file.  A tree made by the default constructor
has a null root. -/
def writeXML (h : Heap) (stack : Nat) : Option Nat → Res Text
  | none => .ub
  | some root => writeNode h stack root [] >>= fun t =>
      pure ("<?xml version=\"1.0\"?>".toList ++ ['\n'] ++ t)

end EF
