import Mathlib.Algebra.Field.Basic

/-!
# Rectangles and their quarters
-/

namespace EF

/-- The rectangle `[xl,xu] × [yl,yu]`. -/
structure Rect (K : Type) where
  xl : K
  xu : K
  yl : K
  yu : K
  deriving DecidableEq

/-- Quarter `k` of a rectangle: bit 0 of `k` chooses left/right, bit 1 lower/upper. -/
def Rect.quarter {K : Type} [Field K] (R : Rect K) (k : Nat) : Rect K where
  xl := if k % 2 = 0 then R.xl else (R.xl + R.xu) / 2
  xu := if k % 2 = 0 then (R.xl + R.xu) / 2 else R.xu
  yl := if k / 2 = 0 then R.yl else (R.yl + R.yu) / 2
  yu := if k / 2 = 0 then (R.yl + R.yu) / 2 else R.yu

end EF
