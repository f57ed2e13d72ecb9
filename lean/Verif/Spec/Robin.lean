import Verif.Spec.FiniteVolume
import Verif.Spec.Runs

/-!
# Boundary conditions `a u + b du/dn = r`
-/

namespace EF
namespace FV

variable {K : Type} [Field K]

/-- The boundary value at cell `k` of a side (0 West, 1 East, 2 South, 3 North). -/
def Bdry.side (g : Bdry K) (s k : Nat) : K :=
  match s with
  | 0 => g.W k
  | 1 => g.E k
  | 2 => g.S k
  | _ => g.N k

/-- Derivative in the direction of the outward normal at cell `k` of a side, from the boundary value and the adjacent cell half a
cell away. -/
def normalDeriv (R : Rect K) (m : Nat) (g : Bdry K) (u : Nat → Nat → K) (s k : Nat) : K :=
  match s with
  | 0 => (g.W k - u 0 k) / (hx R m / 2)
  | 1 => (g.E k - u (m - 1) k) / (hx R m / 2)
  | 2 => (g.S k - u k 0) / (hy R m / 2)
  | _ => (g.N k - u k (m - 1)) / (hy R m / 2)

/-- The cell values `u` and the boundary values `g` solve the finite volume equations with load `f` and the boundary conditions
`a u + b du/dn = r` at every boundary cell, on a grid of `m × m` cells. -/
def RobinSolves (c : FVSolver K) (R : Rect K) (m : Nat) (a b r : Nat → Nat → K) (f : Nat → Nat → K) (g : Bdry K)
    (u : Nat → Nat → K) : Prop :=
  Solves c R m m g f u ∧ ∀ s, s < 4 → ∀ k, k < m → a s k * g.side s k + b s k * normalDeriv R m g u s k = r s k

/-- The homogeneous problem with these boundary conditions has only the zero solution. -/
def RobinUnique (c : FVSolver K) (R : Rect K) (m : Nat) (a b : Nat → Nat → K) : Prop :=
  ∀ g u, RobinSolves c R m a b (fun _ _ => 0) (fun _ _ => 0) g u →
    (∀ i, i < m → ∀ j, j < m → u i j = 0) ∧ ∀ s, s < 4 → ∀ k, k < m → g.side s k = 0

/-- The factor of the derivative with its sign changed on the West and the South side. -/
def flipWS (b : Nat → Nat → K) (s k : Nat) : K := if s = 0 ∨ s = 2 then - b s k else b s k

/-- The value in the cell next to boundary cell `k` of a side. -/
def adjacent (m : Nat) (u : Nat → Nat → K) (s k : Nat) : K :=
  match s with
  | 0 => u 0 k
  | 1 => u (m - 1) k
  | 2 => u k 0
  | _ => u k (m - 1)

/-- Conditions under which the problem is well posed: the factors are not negative and do not vanish together, and somewhere the
value itself enters: at some boundary cell, or by a zeroth order term at some cell centre. -/
def WellPosed [LinearOrder K] (c : FVSolver K) (R : Rect K) (m : Nat) (a b : Nat → Nat → K) : Prop :=
  (∀ s, s < 4 → ∀ k, k < m → 0 ≤ a s k ∧ 0 ≤ b s k ∧ 0 < a s k + b s k) ∧
    ((∃ s, s < 4 ∧ ∃ k, k < m ∧ 0 < a s k) ∨
      ∃ i, i < m ∧ ∃ j, j < m ∧ c.lambda (cx R m i) (cy R m j) / c.alpha (cx R m i) (cy R m j) < 0)

/-- What the boundary function returns (`pick` selects `r`, `a` or `b`) at the centre of boundary cell `k` of side `s`. -/
def sideData (pick : K × K × K → K) (bc : HPS.BoundaryFn K) (R : Rect K) (m s k : Nat) : K :=
  pick (bc s (HPS.sidePoint R m s k).1 (HPS.sidePoint R m s k).2)

end FV
end EF
