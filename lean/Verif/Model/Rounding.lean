import Verif.Model.Study
import Verif.Model.Quadtree

/-!
# The geometry of patches in rounded arithmetic

Model of the arithmetic with coordinates: `FiniteVolumeGrid.cpp:9-36`, `FiniteVolumeNodeFactory.cpp:15-67` and the corner points of
`Mesh.hpp:204-230`, operation by operation as the code has them, each followed by a rounding `fl`.  With `fl` the identity this is the exact
model used elsewhere.  `roundDouble` is the rounding of IEEE 754 for `double`, to the nearest, ties to even, with gradual underflow.

Simplifications: no overflow (the claims that need it bound the numbers), no signed zero; every operation is rounded to `double`, as on
hardware with SSE2 and without contraction to fused operations.  `int` to `double` is exact.
-/

namespace EF

/-- The exponent of the last binary digit kept. -/
def lastExp (x : ℚ) : Int := max (Int.log 2 |x| - 52) (-1074)

/-- The nearest number with 53 binary digits and exponent from -1074, the one with even last digit of two: IEEE 754, `double`. -/
def roundDouble (x : ℚ) : ℚ :=
  (if x < 0 then -1 else 1) * (nearestEven (|x| / 2 ^ lastExp x) : ℚ) * 2 ^ lastExp x

namespace Rounded

variable (fl : ℚ → ℚ)

/-- `(lower + upper) / 2.0`.  FiniteVolumeNodeFactory.cpp:25, 28. -/
def mid (a b : ℚ) : ℚ := fl (fl (a + b) / 2)

/-- The `switch` on the sibling number.  FiniteVolumeNodeFactory.cpp:20-58. -/
def childGrid (g : Grid ℚ) (siblingId : Nat) : Res (Grid ℚ) :=
  let xm := mid fl g.xl g.xu
  let ym := mid fl g.yl g.yu
  match siblingId with
  | 0 => .ok ⟨g.nx, g.ny, g.xl, xm, g.yl, ym⟩
  | 1 => .ok ⟨g.nx, g.ny, xm, g.xu, g.yl, ym⟩
  | 2 => .ok ⟨g.nx, g.ny, g.xl, xm, ym, g.yu⟩
  | 3 => .ok ⟨g.nx, g.ny, xm, g.xu, ym, g.yu⟩
  | _ => .ub

/-- `createChildNode`.  FiniteVolumeNodeFactory.cpp:15-67. -/
def createChildNode (parent : Node (Patch ℚ)) (siblingId pfirst plast : Nat) : Res (Node (Patch ℚ)) := do
  let grid ← childGrid fl parent.data.grid siblingId
  pure ⟨Patch.fresh grid, parent.path ++ natText siblingId, parent.level + 1, pfirst, plast, false, none⟩

/-- `FiniteVolumeNodeFactory`. -/
def factory : NodeFactory (Patch ℚ) := ⟨FVFactory.createNode, createChildNode fl⟩

/-- `(upper - lower) / n`: `dx_` and `dy_`.  FiniteVolumeGrid.cpp:13, 17. -/
def spacing (lower upper : ℚ) (n : Nat) : ℚ := fl (fl (upper - lower) / n)

/-- `(lower + d/2) + index*d`: `point`.  FiniteVolumeGrid.cpp:23-36. -/
def point (lower upper : ℚ) (n i : Nat) : ℚ :=
  fl (fl (lower + fl (spacing fl lower upper n / 2)) + fl (i * spacing fl lower upper n))

/-- `xLower + i*dx`: the coordinate of the corners of cells.  Mesh.hpp:215-229. -/
def corner (lower upper : ℚ) (n i : Nat) : ℚ := fl (lower + fl (i * spacing fl lower upper n))

end Rounded

end EF
