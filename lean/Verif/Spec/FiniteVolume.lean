import Verif.Spec.Geometry
import Verif.Model.FiniteVolume
import Mathlib.Algebra.Order.Field.Basic

/-!
# The finite volume discretisation of `alpha div(beta grad u) + lambda u = f` on a rectangle

Written with ghost cells, independently of how the solver assembles its matrix.
-/

namespace EF
namespace FV

variable {K : Type}

/-- Dirichlet values at the boundary cells of the four sides. -/
structure Bdry (K : Type) where
  W : Nat → K
  E : Nat → K
  S : Nat → K
  N : Nat → K

section
variable [Field K]

/-- Cell widths. -/
def hx (R : Rect K) (nx : Nat) : K := (R.xu - R.xl) / nx
@[inherit_doc hx] def hy (R : Rect K) (ny : Nat) : K := (R.yu - R.yl) / ny

/-- Cell centres. -/
def cx (R : Rect K) (nx i : Nat) : K := R.xl + (i + 1 / 2) * hx R nx
@[inherit_doc cx] def cy (R : Rect K) (ny j : Nat) : K := R.yl + (j + 1 / 2) * hy R ny

/-- Value in the neighbouring cell; outside the rectangle the mirror ghost value, so that the boundary value is the
mean of the cell and its ghost. -/
def west (b : Bdry K) (u : Nat → Nat → K) (i j : Nat) : K := if i = 0 then 2 * b.W j - u i j else u (i - 1) j
@[inherit_doc west]
def east (nx : Nat) (b : Bdry K) (u : Nat → Nat → K) (i j : Nat) : K :=
  if i + 1 = nx then 2 * b.E j - u i j else u (i + 1) j
@[inherit_doc west]
def south (b : Bdry K) (u : Nat → Nat → K) (i j : Nat) : K := if j = 0 then 2 * b.S i - u i j else u i (j - 1)
@[inherit_doc west]
def north (ny : Nat) (b : Bdry K) (u : Nat → Nat → K) (i j : Nat) : K :=
  if j + 1 = ny then 2 * b.N i - u i j else u i (j + 1)

/-- Left-hand side of the discretised equation in cell `(i,j)`. -/
def balance (c : FVSolver K) (R : Rect K) (nx ny : Nat) (b : Bdry K) (u : Nat → Nat → K) (i j : Nat) : K :=
  let x := cx R nx i
  let y := cy R ny j
  let dx := hx R nx
  let dy := hy R ny
  c.alpha x y *
      ((c.beta (x + dx / 2) y * (east nx b u i j - u i j) - c.beta (x - dx / 2) y * (u i j - west b u i j)) / dx ^ 2 +
        (c.beta x (y + dy / 2) * (north ny b u i j - u i j) - c.beta x (y - dy / 2) * (u i j - south b u i j)) / dy ^ 2) +
    c.lambda x y * u i j

/-- `u` solves the discretised equation with boundary values `b` and load `f` in every cell. -/
def Solves (c : FVSolver K) (R : Rect K) (nx ny : Nat) (b : Bdry K) (f u : Nat → Nat → K) : Prop :=
  ∀ i, i < nx → ∀ j, j < ny → balance c R nx ny b u i j = f i j

/-- The discrete Dirichlet problem has at most one solution. -/
def Unique (c : FVSolver K) (R : Rect K) (nx ny : Nat) : Prop :=
  ∀ b f u v, Solves c R nx ny b f u → Solves c R nx ny b f v → ∀ i, i < nx → ∀ j, j < ny → u i j = v i j

/-- Derivative in coordinate direction (x on the West and East side, y on the South and North side) at boundary
cell `k`, from the boundary value and the adjacent cell half a cell away. -/
def deriv (R : Rect K) (nx ny : Nat) (b : Bdry K) (u : Nat → Nat → K) (side k : Nat) : K :=
  match side with
  | 0 => (u 0 k - b.W k) / (hx R nx / 2)
  | 1 => (b.E k - u (nx - 1) k) / (hx R nx / 2)
  | 2 => (u k 0 - b.S k) / (hy R ny / 2)
  | _ => (b.N k - u k (ny - 1)) / (hy R ny / 2)

/-- Boundary values in West, East, South, North order, `n` per side. -/
def Bdry.ofFn (n : Nat) (g : Nat → K) : Bdry K :=
  ⟨fun k => g k, fun k => g (n + k), fun k => g (2 * n + k), fun k => g (3 * n + k)⟩

/-- The rectangle of a grid. -/
def rect (grid : Grid K) : Rect K := ⟨grid.xl, grid.xu, grid.yl, grid.yu⟩

end

section
variable [Field K] [LinearOrder K]

/-- The point lies in the closed rectangle. -/
def Inside (R : Rect K) (x y : K) : Prop := R.xl ≤ x ∧ x ≤ R.xu ∧ R.yl ≤ y ∧ y ≤ R.yu

/-- The rectangle has positive side lengths. -/
def Proper (R : Rect K) : Prop := R.xl < R.xu ∧ R.yl < R.yu

/-- The equation is elliptic on the rectangle: `beta` positive, `alpha` nonzero, `lambda/alpha` not positive. -/
def EllipticOn (c : FVSolver K) (R : Rect K) : Prop :=
  ∀ x y, Inside R x y → 0 < c.beta x y ∧ c.alpha x y ≠ 0 ∧ c.lambda x y / c.alpha x y ≤ 0

end

end FV
end EF
