import Verif.Model.GridPlot
import Verif.Spec.FiniteVolume

/-!
# What a picture of a grid shows
-/

namespace EF

namespace GridPlot

open FV

variable {K : Type}

/-- The marks of a call. -/
def Call.marks : Call K → List (K × K)
  | .plot x y _ => x.zip y
  | .text _ _ _ => []

/-- The format of a call. -/
def Call.format : Call K → Option Text
  | .plot _ _ t => some t
  | .text _ _ _ => none

variable [Field K]

/-- The centre of a cell. -/
def IsCentre (R : Rect K) (nx ny : Nat) (q : K × K) : Prop := ∃ i j, i < nx ∧ j < ny ∧ q = (cx R nx i, cy R ny j)

/-- The centre of a face of a cell on the boundary of the rectangle. -/
def IsFace (R : Rect K) (nx ny : Nat) (q : K × K) : Prop :=
  (∃ j, j < ny ∧ (q = (R.xl, cy R ny j) ∨ q = (R.xu, cy R ny j))) ∨ ∃ i, i < nx ∧ (q = (cx R nx i, R.yl) ∨ q = (cx R nx i, R.yu))

end GridPlot

end EF
