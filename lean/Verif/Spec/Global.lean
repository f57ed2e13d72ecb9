import Verif.Spec.Flux
import Verif.Spec.FiniteVolume

/-!
# Cell values of a uniformly refined tree as one array
-/

namespace EF
namespace HPS

/-- Cells along a side of the region of a uniformly refined subtree with `N` cells along the side of a leaf. -/
def cells {P : Type} (N : Nat) : Tree P → Nat
  | .leaf _ => N
  | .node _ c0 _ _ _ => 2 * cells N c0

variable {K : Type} [Field K]

/-- The cell values `v` of all leaves as one array on the whole region: child 0 is the lower left quarter, 1 the lower
right, 2 the upper left, 3 the upper right; in a leaf cell `(i,j)` has position `j + i N`. -/
def gridFn (N : Nat) (v : Patch K → Vec K) : Tree (Patch K) → Nat → Nat → K
  | .leaf p, i, j => (v p).data.getD (j + i * N) 0
  | .node _ c0 c1 c2 c3, i, j =>
    let n := cells N c0
    if i < n then
      if j < n then gridFn N v c0 i j else gridFn N v c2 i (j - n)
    else
      if j < n then gridFn N v c1 (i - n) j else gridFn N v c3 (i - n) (j - n)

end HPS
end EF
