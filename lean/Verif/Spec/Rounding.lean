import Verif.Model.Rounding
import Verif.Spec.Study
import Verif.Spec.Quadtree

/-!
# Coordinates in rounded arithmetic

The place of a node in the unit square, coordinates near the exact ones, and domains on which nothing has to be rounded.
-/

namespace EF

/-- The unit roundoff of `double`. -/
def roundoff : ℚ := 1 / 2 ^ 53

namespace Rounded

/-- The place of a node: its square, when the domain is the unit square. -/
def place (a : Addr) : Rect ℚ := Addr.rect ⟨0, 1, 0, 1⟩ a

/-- In one direction: the bounds `lo'`, `hi'` of a patch of level `l` with `n` cells, its centres and the corners of its cells are close to
those of the exact bounds `lo`, `hi`; `M` is the size of the coordinates. -/
structure Near (M : ℚ) (l n : Nat) (lo hi lo' hi' : ℚ) : Prop where
  lower : |lo' - lo| ≤ 2 * l * roundoff * M
  upper : |hi' - hi| ≤ 2 * l * roundoff * M
  centre : ∀ i < n, |point roundDouble lo' hi' n i - (lo + (i + 1 / 2) * ((hi - lo) / n))| ≤ (2 * l + 18) * roundoff * M
  corner : ∀ i ≤ n, |corner roundDouble lo' hi' n i - (lo + i * ((hi - lo) / n))| ≤ (2 * l + 12) * roundoff * M

/-- In one direction: bounds, spacing, centres and corners are the exact ones. -/
structure Exact (n : Nat) (lo hi lo' hi' : ℚ) : Prop where
  lower : lo' = lo
  upper : hi' = hi
  spacing : spacing roundDouble lo' hi' n = (hi - lo) / n
  centre : ∀ i < n, point roundDouble lo' hi' n i = lo + (i + 1 / 2) * ((hi - lo) / n)
  corner : ∀ i ≤ n, Rounded.corner roundDouble lo' hi' n i = lo + i * ((hi - lo) / n)

/-- In one direction: the centres of the cells are in order and inside the patch. -/
structure Separate (n : Nat) (lo hi : ℚ) : Prop where
  wide : lo < hi
  inside : ∀ i < n, lo < point roundDouble lo hi n i ∧ point roundDouble lo hi n i < hi
  order : ∀ i j, i < j → j < n → point roundDouble lo hi n i < point roundDouble lo hi n j

/-- The ends of the domain are whole multiples of a power of two, with so few digits that `D` halvings and cells of a `2^k`-th part can
be written with 53 digits. -/
def Fits (D k : Nat) (a b : ℚ) : Prop :=
  ∃ A B e : Int, a = A * 2 ^ e ∧ b = B * 2 ^ e ∧ |A| * 2 ^ (D + k) < 2 ^ 51 ∧ |B| * 2 ^ (D + k) < 2 ^ 51 ∧ -1074 ≤ e - D - k - 1

/-- The operands before rounding of every operation with the bounds `lo`, `hi` of a patch with `n` cells. -/
def operands (lo hi : ℚ) (n i : Nat) : List ℚ :=
  let d := spacing roundDouble lo hi n
  [lo + hi, roundDouble (lo + hi) / 2, hi - lo, roundDouble (hi - lo) / n, d / 2, lo + roundDouble (d / 2), i * d,
    roundDouble (lo + roundDouble (d / 2)) + roundDouble (i * d), lo + roundDouble (i * d)]

/-- The quadtree that rank `r` makes for the forest `F` has the node `n` at the address `b`, in the arithmetic `fl`. -/
def HasNode (fl : ℚ → ℚ) (p : Patch ℚ) (F : Forest) (r : Nat) (b : Addr) (n : Node (Patch ℚ)) : Prop :=
  ∀ M, F.depth ≤ M → ∃ m, construct M r p (factory fl) F = .ok m ∧ m b.text = some (some n)

end Rounded

end EF
