import Verif.Spec.Linear
import Mathlib.Algebra.Order.Field.Basic

/-!
# Tables and chords
-/

namespace EF

variable {K : Type} [Field K] [LinearOrder K]

/-- The first `n` values rise or fall, repetitions allowed. -/
def TableSorted (n : Nat) (t : Nat → K) : Prop :=
  (∀ i j, i ≤ j → j < n → t i ≤ t j) ∨ (∀ i j, i ≤ j → j < n → t j ≤ t i)

/-- The first `n` values rise strictly or fall strictly. -/
def TableStrict (n : Nat) (t : Nat → K) : Prop :=
  (∀ i j, i < j → j < n → t i < t j) ∨ (∀ i j, i < j → j < n → t j < t i)

/-- `x` lies between `a` and `b` or on one of them. -/
def Between (a b x : K) : Prop := (a ≤ x ∧ x ≤ b) ∨ (b ≤ x ∧ x ≤ a)

/-- The line through `(a, c)` and `(b, d)`. -/
def chord (a b c d x : K) : K := c + (x - a) * ((d - c) / (b - a))

end EF
