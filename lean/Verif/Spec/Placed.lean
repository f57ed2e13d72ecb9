import Verif.Spec.Tree

/-!
# Where the leaves of a tree lie
-/

namespace EF
namespace HPS

variable {K : Type} [Field K]

/-- The leaves have `N × N` cells and their rectangles are the successive quarters of `R`. -/
inductive Placed (N : Nat) : Tree (Patch K) → Rect K → Prop
  | leaf {p : Patch K} {R : Rect K} (hx : p.grid.nx = N) (hy : p.grid.ny = N) (hR : InRect p R) : Placed N (.leaf p) R
  | node {p : Patch K} {R : Rect K} {c0 c1 c2 c3 : Tree (Patch K)} (h0 : Placed N c0 (R.quarter 0)) (h1 : Placed N c1 (R.quarter 1))
      (h2 : Placed N c2 (R.quarter 2)) (h3 : Placed N c3 (R.quarter 3)) : Placed N (.node p c0 c1 c2 c3) R

end HPS
end EF
