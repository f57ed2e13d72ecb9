import Mathlib.Algebra.Order.Field.Basic

/-!
# Square roots
-/

namespace EF

variable {K : Type} [Field K] [LinearOrder K]

/-- What is assumed of the C library's `sqrt` (exactness is an idealisation of floating point). -/
structure IsSqrt (sqrt : K → K) : Prop where
  nonneg : ∀ s, 0 ≤ s → 0 ≤ sqrt s
  sq : ∀ s, 0 ≤ s → sqrt s * sqrt s = s

end EF
