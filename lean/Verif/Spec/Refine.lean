import Verif.Spec.Mesh

/-!
# Refinement trees

Nodes of a refinement tree are addressed by child numbers, as the nodes of a quadtree are.
-/

namespace EF

namespace Shape

/-- Child `i` of the root. -/
def child : Shape → Nat → Option Shape
  | node c0 _ _ _, 0 => some c0
  | node _ c1 _ _, 1 => some c1
  | node _ _ c2 _, 2 => some c2
  | node _ _ _ c3, 3 => some c3
  | _, _ => none

/-- The subtree at an address, if there is one. -/
def sub : Shape → Addr → Option Shape
  | S, [] => some S
  | S, i :: a => (S.child i).bind fun c => c.sub a

/-- `a` is the address of a leaf. -/
def IsLeaf (S : Shape) (a : Addr) : Prop := S.sub a = some leaf

/-- `T` has every node of `S`. -/
def Refines (T S : Shape) : Prop := ∀ a, (S.sub a).isSome → (T.sub a).isSome

end Shape

/-- The closed squares of two quadrants have a common point. -/
def Quadrant.Touch (M : Nat) (q q' : Quadrant) : Prop :=
  q.x ≤ q'.x + 2 ^ (M - q'.level) ∧ q'.x ≤ q.x + 2 ^ (M - q.level) ∧
  q.y ≤ q'.y + 2 ^ (M - q'.level) ∧ q'.y ≤ q.y + 2 ^ (M - q.level)

namespace Shape

/-- No leaf lies deeper than the maximal level of p4est. -/
def Fits (M : Nat) (S : Shape) : Prop := ∀ a, S.IsLeaf a → a.length ≤ M

/-- Leaves that share an edge or a corner differ by at most one level. -/
def Balanced (M : Nat) (S : Shape) : Prop :=
  ∀ a b, S.IsLeaf a → S.IsLeaf b → (Addr.quad M a).Touch M (Addr.quad M b) → b.length ≤ a.length + 1

/-- Contract of `p4est_balance(…, P4EST_CONNECT_CORNER, …)`: the least balanced refinement. -/
structure BalanceOf (M : Nat) (S T : Shape) : Prop where
  fits : T.Fits M
  refines : T.Refines S
  balanced : T.Balanced M
  least : ∀ T' : Shape, T'.Fits M → T'.Refines S → T'.Balanced M → T'.Refines T

end Shape

/-- The function is true at the centre of a cell of the grid. -/
def TrueAtCentre {K : Type} [Field K] (fn : K → K → Bool) (g : Grid K) : Prop :=
  ∃ R ∈ gridCells g, fn R.centre.1 R.centre.2 = true

end EF
