import Verif.Model.WorldCalls
import Verif.Spec.Quadtree

/-!
# The order of collective operations in a merge

Which collective operations a rank has to take part in while a tree is merged, in the order in which it comes to them.
-/

namespace EF

/-- A collective operation: the first and the last rank that take part, and the name of the communicator. -/
abbrev Op := Nat × Nat × Text

/-- Both ranks take part in the operation. -/
def Op.both (p q : Nat) (o : Op) : Bool := decide ((o.1 ≤ p ∧ p ≤ o.2.1) ∧ o.1 ≤ q ∧ q ≤ o.2.1)

/-- What rank `r` takes part in when the leaf solver makes `c` index sets on every leaf: the index sets of its own leaves, which concern all
ranks, and for every family spread over several ranks two operations per child, which concern the ranks of the family; children first. -/
def mergeOps (size c r : Nat) : Forest → Addr → List Op
  | .leaf k, _ => if k = r then List.replicate c (0, size - 1, indexSetName) else []
  | .node c0 c1 c2 c3, a =>
    if r ∈ (Forest.node c0 c1 c2 c3).ranks then
      mergeOps size c r c0 (a ++ [0]) ++ (mergeOps size c r c1 (a ++ [1]) ++ (mergeOps size c r c2 (a ++ [2]) ++
        (mergeOps size c r c3 (a ++ [3]) ++
          if c0.first = c3.last then [] else List.replicate 8 (c0.first, c3.last, a.text))))
    else []

/-- The operations of one rank that concern the other one too. -/
def commonOps (size c : Nat) (F : Forest) (p q : Nat) : List Op := (mergeOps size c p F []).filter (Op.both p q)

/-- The leaves of every rank are those of one quadrant, `k` of them on each. -/
def QuadrantEach (size k : Nat) (F : Forest) : Prop :=
  ∀ r, r < size → ∃ b G, F.sub b = some G ∧ (∀ i ∈ G.ranks, i = r) ∧ G.ranks.count r = k ∧ F.ranks.count r = k

end EF
