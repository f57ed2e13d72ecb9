import Verif.Spec.Tree
import Mathlib.Algebra.BigOperators.Group.Finset.Basic

/-!
# Fluxes through the sides of patches of an adaptive tree
-/

namespace EF
namespace HPS

open Finset

variable {K : Type} [Field K]

/-- The child of a node that makes up half `z` of side `s` (0 West, 1 East, 2 South, 3 North; half 0 is the
lower or left one). -/
def sideChild {P : Type} (c0 c1 c2 c3 : P) (s z : Nat) : P :=
  match s, z with
  | 0, 0 => c0
  | 0, _ => c2
  | 1, 0 => c1
  | 1, _ => c3
  | 2, 0 => c0
  | 2, _ => c1
  | _, 0 => c2
  | _, _ => c3

/-- Cells along a side of the patch of a subtree: `N` for a leaf, twice the least resolution among the four
children for a branch. -/
def res (N : Nat) : Tree (Patch K) → Nat
  | .leaf _ => N
  | .node _ c0 c1 c2 c3 => 2 * min (min (res N c0) (res N c1)) (min (res N c2) (res N c3))

/-- Mean of `x` over the `r` fine cells of coarse cell `i`. -/
def meanOver (r : Nat) (x : Nat → K) (i : Nat) : K := (∑ j ∈ range r, x (i * r + j)) / r

/-- The flux through cell `i` of side `s` of a subtree: at a leaf the given leaf flux, at a branch the mean over
the fine cells of the child at that place. -/
def sideFlux (N : Nat) (φ : Patch K → Nat → Nat → K) : Tree (Patch K) → Nat → Nat → K
  | .leaf p, s, i => φ p s i
  | .node _ c0 c1 c2 c3, s, i =>
    let n := min (min (res N c0) (res N c1)) (min (res N c2) (res N c3))
    let r := sideChild (res N c0) (res N c1) (res N c2) (res N c3) s (i / n)
    let f := sideChild (sideFlux N φ c0 s) (sideFlux N φ c1 s) (sideFlux N φ c2 s) (sideFlux N φ c3 s) s (i / n)
    meanOver (r / n) f (i % n)

/-- At every branch the fluxes of the two children at each of the four interfaces agree, cell by cell of the
coarser of the four children. -/
def Conserved (N : Nat) (φ : Patch K → Nat → Nat → K) : Tree (Patch K) → Prop
  | .leaf _ => True
  | .node _ c0 c1 c2 c3 =>
    let n := min (min (res N c0) (res N c1)) (min (res N c2) (res N c3))
    (∀ i, i < n →
      meanOver (res N c0 / n) (sideFlux N φ c0 1) i = meanOver (res N c1 / n) (sideFlux N φ c1 0) i ∧
      meanOver (res N c2 / n) (sideFlux N φ c2 1) i = meanOver (res N c3 / n) (sideFlux N φ c3 0) i ∧
      meanOver (res N c0 / n) (sideFlux N φ c0 3) i = meanOver (res N c2 / n) (sideFlux N φ c2 2) i ∧
      meanOver (res N c1 / n) (sideFlux N φ c1 3) i = meanOver (res N c3 / n) (sideFlux N φ c3 2) i) ∧
    Conserved N φ c0 ∧ Conserved N φ c1 ∧ Conserved N φ c2 ∧ Conserved N φ c3

/-- `P` holds of the patch of every branch. -/
def Branches {P : Type} (Q : P → Prop) : Tree P → Prop
  | .leaf _ => True
  | .node p c0 c1 c2 c3 => Q p ∧ Branches Q c0 ∧ Branches Q c1 ∧ Branches Q c2 ∧ Branches Q c3

/-- `Q` holds of every patch. -/
def All {P : Type} (Q : P → Prop) : Tree P → Prop
  | .leaf p => Q p
  | .node p c0 c1 c2 c3 => Q p ∧ All Q c0 ∧ All Q c1 ∧ All Q c2 ∧ All Q c3

/-- The matrix is square and nonsingular. -/
def NonsingularMat (A : Mat K) : Prop := ∃ n a, A.Has n n a ∧ Nonsing n a

end HPS
end EF
