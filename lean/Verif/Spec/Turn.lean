import Verif.Spec.Composite

/-!
# Turning a square around
-/

namespace EF

variable {K : Type}

/-- Leave it as it is, exchange left and right, or exchange the two coordinates.  The last two generate all symmetries of the square. -/
inductive Turn
  | keep
  | flip
  | swap

namespace Turn

/-- Where side `a` (0 West, 1 East, 2 South, 3 North) comes from. -/
def side : Turn → Nat → Nat
  | flip, 0 => 1
  | flip, 1 => 0
  | swap, 0 => 2
  | swap, 1 => 3
  | swap, 2 => 0
  | swap, 3 => 1
  | _, a => a

/-- Where quarter `d` comes from. -/
def quarter : Turn → Nat → Nat
  | flip, 0 => 1
  | flip, 1 => 0
  | flip, 2 => 3
  | flip, 3 => 2
  | swap, 1 => 2
  | swap, 2 => 1
  | _, d => d

/-- Where cell `i` of the `m` cells of side `a` comes from. -/
def idx : Turn → Nat → Nat → Nat → Nat
  | flip, m, a, i => if 2 ≤ a then m - 1 - i else i
  | _, _, _, i => i

/-- Turned values on the four sides of `m` cells. -/
def act (τ : Turn) (m : Nat) (g : Nat → Nat → K) (a i : Nat) : K := g (τ.side a) (τ.idx m a i)

/-- Turned cell values. -/
def cells : Turn → Nat → (Nat → Nat → K) → Nat → Nat → K
  | keep, _, u, i, j => u i j
  | flip, N, u, i, j => u (N - 1 - i) j
  | swap, _, u, i, j => u j i

end Turn

/-- A turned tree. -/
def Tree.turn {P : Type} (τ : Turn) : Tree P → Tree P
  | .leaf p => .leaf p
  | .node p c0 c1 c2 c3 =>
    match τ with
    | .keep => .node p (c0.turn .keep) (c1.turn .keep) (c2.turn .keep) (c3.turn .keep)
    | .flip => .node p (c1.turn .flip) (c0.turn .flip) (c3.turn .flip) (c2.turn .flip)
    | .swap => .node p (c0.turn .swap) (c2.turn .swap) (c1.turn .swap) (c3.turn .swap)

/-- Turned cell values of a mesh. -/
def Pieces.turn (τ : Turn) (N : Nat) : Pieces (Nat → Nat → K) → Pieces (Nat → Nat → K)
  | .one u => .one (τ.cells N u)
  | .four c0 c1 c2 c3 =>
    match τ with
    | .keep => .four (c0.turn .keep N) (c1.turn .keep N) (c2.turn .keep N) (c3.turn .keep N)
    | .flip => .four (c1.turn .flip N) (c0.turn .flip N) (c3.turn .flip N) (c2.turn .flip N)
    | .swap => .four (c0.turn .swap N) (c2.turn .swap N) (c1.turn .swap N) (c3.turn .swap N)

/-- Turn, magnify by `L` and shift. -/
structure Move (K : Type) where
  turn : Turn
  L : K
  a : K
  b : K

section
variable [Field K]

/-- Where the point `(x, y)` comes to lie. -/
def Move.pt (μ : Move K) (x y : K) : K × K :=
  match μ.turn with
  | .keep => (μ.L * x + μ.a, μ.L * y + μ.b)
  | .flip => (μ.a - μ.L * x, μ.L * y + μ.b)
  | .swap => (μ.L * y + μ.a, μ.L * x + μ.b)

/-- The rectangle after the move. -/
def Move.rect (μ : Move K) (R : Rect K) : Rect K :=
  match μ.turn with
  | .keep => ⟨μ.L * R.xl + μ.a, μ.L * R.xu + μ.a, μ.L * R.yl + μ.b, μ.L * R.yu + μ.b⟩
  | .flip => ⟨μ.a - μ.L * R.xu, μ.a - μ.L * R.xl, μ.L * R.yl + μ.b, μ.L * R.yu + μ.b⟩
  | .swap => ⟨μ.L * R.yl + μ.a, μ.L * R.yu + μ.a, μ.L * R.xl + μ.b, μ.L * R.xu + μ.b⟩

/-- `s'` is the equation `s` seen after the move, with `beta` multiplied by the number `c` and the equation by the function `w`. -/
structure SameEquation (μ : Move K) (c : K) (w : K → K → K) (s s' : FVSolver K) : Prop where
  beta : ∀ x y, s'.beta (μ.pt x y).1 (μ.pt x y).2 = c * s.beta x y
  alpha : ∀ x y, s'.alpha (μ.pt x y).1 (μ.pt x y).2 = w x y * (μ.L ^ 2 / c) * s.alpha x y
  lambda : ∀ x y, s'.lambda (μ.pt x y).1 (μ.pt x y).2 = w x y * s.lambda x y

end

end EF
