import Verif.Model.VTK
import Mathlib.Data.Rat.Defs

/-!
# Numbers as text

Model of `std::to_string` as the VTK interface of `Vector.hpp` uses it (lines 729-753).  A double that is
finite is a rational number; infinities and NaNs are left out, and so is the sign of a negative zero.
-/

namespace EF

/-- The number of millionths nearest to the absolute value, the even one of two that are equally near: the
digits `printf("%f")` shows. -/
def micro (x : ℚ) : Nat :=
  let a := x.num.natAbs * 10 ^ 6
  if 2 * (a % x.den) < x.den then a / x.den
  else if 2 * (a % x.den) = x.den ∧ a / x.den % 2 = 0 then a / x.den
  else a / x.den + 1

/-- At least six digits. -/
def pad6 (n : Nat) : Text := List.replicate (6 - (natText n).length) '0' ++ natText n

/-- `std::to_string(double)`, which is `printf("%f")`, as used in `Vector.hpp:730-751`. -/
def decimalText (x : ℚ) : Text :=
  (if x < 0 then ['-'] else []) ++ natText (micro x / 10 ^ 6) ++ '.' :: pad6 (micro x % 10 ^ 6)

/-- `std::to_string(int)`, as used in `Vector.hpp:730-751`. -/
def intText (i : Int) : Text := (if i < 0 then ['-'] else []) ++ natText i.natAbs

end EF
