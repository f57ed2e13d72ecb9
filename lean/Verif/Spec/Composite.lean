import Verif.Spec.Glue
import Verif.Spec.FiniteVolume
import Verif.Spec.Flux

/-!
# The discretised equation on an adaptive mesh

Written without operators, stages or matrices: leaf equations, one value and one flux per cell of every interface.
-/

namespace EF

open Finset FV

variable {K : Type}

/-- A square with something on it, or cut into four of them (in the order of the quarters). -/
inductive Pieces (A : Type)
  | one (a : A)
  | four (c0 c1 c2 c3 : Pieces A)

/-- The two are cut in the same way and have related things on their parts. -/
def Pieces.Rel {A B : Type} (r : A → B → Prop) : Pieces A → Pieces B → Prop
  | .one a, .one b => r a b
  | .four a0 a1 a2 a3, .four b0 b1 b2 b3 => a0.Rel r b0 ∧ a1.Rel r b1 ∧ a2.Rel r b2 ∧ a3.Rel r b3
  | _, _ => False

/-- Same cuts. -/
def Pieces.Alike {A B : Type} (a : Pieces A) (b : Pieces B) : Prop := a.Rel (fun _ _ => True) b

/-- Same cuts and the same values in the `N × N` cells of every part. -/
def Pieces.Same (N : Nat) (a b : Pieces (Nat → Nat → K)) : Prop :=
  a.Rel (fun u v => ∀ i, i < N → ∀ j, j < N → u i j = v i j) b

/-- One of four. -/
def pick {α : Type} (x0 x1 x2 x3 : α) (d : Nat) : α :=
  match d with
  | 0 => x0
  | 1 => x1
  | 2 => x2
  | _ => x3

/-- Values on side `s` of quarter `d` (0 West, 1 East, 2 South, 3 North). -/
def Edges.side (E : Edges K) (d s : Nat) : Nat → K :=
  match s with
  | 0 => E.V (d % 2) (d / 2)
  | 1 => E.V (d % 2 + 1) (d / 2)
  | 2 => E.H (d % 2) (d / 2)
  | _ => E.H (d % 2) (d / 2 + 1)

/-- Values on side `s` of the whole square, whose halves have `n` cells. -/
def Edges.outer (E : Edges K) (n s i : Nat) : K :=
  match s with
  | 0 => E.V 0 (i / n) (i % n)
  | 1 => E.V 2 (i / n) (i % n)
  | 2 => E.H (i / n) 0 (i % n)
  | _ => E.H (i / n) 2 (i % n)

section
variable [Field K]

/-- From `m` values along a line to `2m`: each new cell lies in an old one and takes three quarters of it and one of its nearer
neighbour; the two end cells use the three nearest old ones. -/
def finer (m : Nat) (x : Nat → K) (i : Nat) : K :=
  if i = 0 then 45 / 32 * x 0 - 9 / 16 * x 1 + 5 / 32 * x 2
  else if i = 2 * m - 1 then 45 / 32 * x (m - 1) - 9 / 16 * x (m - 2) + 5 / 32 * x (m - 3)
  else if i % 2 = 1 then 3 / 4 * x (i / 2) + 1 / 4 * x (i / 2 + 1)
  else 3 / 4 * x (i / 2) + 1 / 4 * x (i / 2 - 1)

/-- `k` times. -/
def finest : Nat → Nat → (Nat → K) → Nat → K
  | 0, _, x => x
  | k + 1, m, x => finer (m * 2 ^ k) (finest k m x)

/-- The discretised equation on an adaptive mesh.  `u` holds the cell values of the `N × N` leaves, the square has `m` cells per side with
boundary values `g` and derivatives `q` in coordinate direction.
A leaf solves its finite volume equations and has the derivatives of its cell values.
Four parts, the coarsest with `n` cells per side, belong together if there is one value and one derivative for each of the `n` cells of
every edge, such that each part has the values interpolated from them as boundary values, and derivatives whose means they are. -/
inductive Composite (s : FVSolver K) (f : K → K → K) (N : Nat) :
    Pieces (Nat → Nat → K) → Rect K → Nat → (Nat → Nat → K) → (Nat → Nat → K) → Prop
  | one {u : Nat → Nat → K} {R : Rect K} {g q : Nat → Nat → K}
      (hu : Solves s R N N ⟨g 0, g 1, g 2, g 3⟩ (fun i j => f (cx R N i) (cy R N j)) u)
      (hq : ∀ a, a < 4 → ∀ i, i < N → q a i = deriv R N N ⟨g 0, g 1, g 2, g 3⟩ u a i) : Composite s f N (.one u) R N g q
  | four {c0 c1 c2 c3 : Pieces (Nat → Nat → K)} {R : Rect K} {n : Nat} {m : Nat → Nat} {gs qs : Nat → Nat → Nat → K} {E Q : Edges K}
      {g q : Nat → Nat → K}
      (h0 : Composite s f N c0 (R.quarter 0) (m 0) (gs 0) (qs 0)) (h1 : Composite s f N c1 (R.quarter 1) (m 1) (gs 1) (qs 1))
      (h2 : Composite s f N c2 (R.quarter 2) (m 2) (gs 2) (qs 2)) (h3 : Composite s f N c3 (R.quarter 3) (m 3) (gs 3) (qs 3))
      (hn : n = min (min (m 0) (m 1)) (min (m 2) (m 3)))
      (hE : ∀ d, d < 4 → ∃ k, m d = n * 2 ^ k ∧ ∀ a, a < 4 → ∀ i, i < m d → gs d a i = finest k n (E.side d a) i)
      (hQ : ∀ d, d < 4 → ∀ a, a < 4 → ∀ i, i < n → Q.side d a i = HPS.meanOver (m d / n) (qs d a) i)
      (hg : ∀ a, a < 4 → ∀ i, i < 2 * n → g a i = E.outer n a i)
      (hq : ∀ a, a < 4 → ∀ i, i < 2 * n → q a i = Q.outer n a i) : Composite s f N (.four c0 c1 c2 c3) R (2 * n) g q

/-- Four solutions that belong together, with the values `E` and derivatives `Q` on the edges. -/
def Joined (s : FVSolver K) (f : K → K → K) (N : Nat) (c : Nat → Pieces (Nat → Nat → K)) (R : Rect K) (n : Nat) (E Q : Edges K) : Prop :=
  ∃ (m : Nat → Nat) (gs qs : Nat → Nat → Nat → K), (∀ d, d < 4 → Composite s f N (c d) (R.quarter d) (m d) (gs d) (qs d)) ∧
    n = min (min (m 0) (m 1)) (min (m 2) (m 3)) ∧
    (∀ d, d < 4 → ∃ k, m d = n * 2 ^ k ∧ ∀ a, a < 4 → ∀ i, i < m d → gs d a i = finest k n (E.side d a) i) ∧
    ∀ d, d < 4 → ∀ a, a < 4 → ∀ i, i < n → Q.side d a i = HPS.meanOver (m d / n) (qs d a) i

/-- On every square of the mesh that is cut: without load and with zero values around it, the values at the interfaces are zero. -/
def Rigid (s : FVSolver K) (N : Nat) : Pieces Unit → Rect K → Prop
  | .one _, _ => True
  | .four c0 c1 c2 c3, R =>
    (Rigid s N c0 (R.quarter 0) ∧ Rigid s N c1 (R.quarter 1) ∧ Rigid s N c2 (R.quarter 2) ∧ Rigid s N c3 (R.quarter 3)) ∧
    ∀ M : Nat → Pieces (Nat → Nat → K), (∀ d, d < 4 → (M d).Alike (pick c0 c1 c2 c3 d)) →
      ∀ n E Q, Joined s (fun _ _ => 0) N M R n E Q → (∀ a, a < 4 → ∀ i, i < 2 * n → E.outer n a i = 0) →
        ∀ d, d < 4 → ∀ a, a < 4 → ∀ i, i < n → E.side d a i = 0

/-- How a tree is cut. -/
def Tree.cuts {P : Type} : Tree P → Pieces Unit
  | .leaf _ => .one ()
  | .node _ c0 c1 c2 c3 => .four c0.cuts c1.cuts c2.cuts c3.cuts

/-- The cell values of the leaves of a tree of patches. -/
def treeCells (N : Nat) : Tree (Patch K) → Pieces (Nat → Nat → K)
  | .leaf p => .one (fun i j => p.u.data.getD (j + i * N) 0)
  | .node _ c0 c1 c2 c3 => .four (treeCells N c0) (treeCells N c1) (treeCells N c2) (treeCells N c3)

end

end EF
