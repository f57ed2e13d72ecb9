import Verif.Spec.Linear
import Mathlib.Algebra.BigOperators.Group.Finset.Basic

/-!
# What it means to glue four square patches to one

A square is cut into four.  Its edges are the vertical edges `V x y` (`x = 0, 1, 2` counts the lines
from the left, `y = 0, 1` the rows from below) and the horizontal edges `H x y` (`x = 0, 1` counts the
columns, `y = 0, 1, 2` the lines from below).  Every edge has `n` cells, counted upwards or rightwards.
Boundary vectors list the sides West, East, South, North.
-/

namespace EF

open Finset

variable {K : Type}

/-- One value for every cell of every edge. -/
structure Edges (K : Type) where
  V : Nat → Nat → Nat → K
  H : Nat → Nat → Nat → K

/-- The values on the boundary of quarter `c` (bit 0: column, bit 1: row), sides of `n` cells. -/
def Edges.child (E : Edges K) (n c k : Nat) : K :=
  if k < n then E.V (c % 2) (c / 2) k
  else if k < 2 * n then E.V (c % 2 + 1) (c / 2) (k - n)
  else if k < 3 * n then E.H (c % 2) (c / 2) (k - 2 * n)
  else E.H (c % 2) (c / 2 + 1) (k - 3 * n)

/-- The values on the boundary of the whole square, sides of `2n` cells. -/
def Edges.parent (E : Edges K) (n k : Nat) : K :=
  if k < n then E.V 0 0 k
  else if k < 2 * n then E.V 0 1 (k - n)
  else if k < 3 * n then E.V 2 0 (k - 2 * n)
  else if k < 4 * n then E.V 2 1 (k - 3 * n)
  else if k < 5 * n then E.H 0 0 (k - 4 * n)
  else if k < 6 * n then E.H 1 0 (k - 5 * n)
  else if k < 7 * n then E.H 0 2 (k - 6 * n)
  else E.H 1 2 (k - 7 * n)

/-- With child operators `T` and inhomogeneous fluxes `h`: the edge values `E` induce one flux value
`Q` on every edge, i.e. the two patches at an interface agree on it. -/
def FluxOf [Field K] (n : Nat) (T : Nat → Nat → Nat → K) (h : Nat → Nat → K) (E Q : Edges K) : Prop :=
  ∀ c, c < 4 → ∀ k, k < 4 * n → Q.child n c k = ∑ j ∈ range (4 * n), T c k j * E.child n c j + h c k

/-- The interface problem has at most one solution: edge values that vanish on the parent boundary and
have one (homogeneous) flux per edge vanish everywhere. -/
def Unisolvent [Field K] (n : Nat) (T : Nat → Nat → Nat → K) : Prop :=
  ∀ E Q : Edges K, (∀ k, k < 8 * n → E.parent n k = 0) → FluxOf n T (fun _ _ => 0) E Q →
    ∀ c, c < 4 → ∀ k, k < 4 * n → E.child n c k = 0

end EF
