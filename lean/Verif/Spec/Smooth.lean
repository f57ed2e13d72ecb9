import Verif.Spec.FiniteVolume
import Mathlib.Analysis.Calculus.Deriv.Basic

/-!
# Smooth functions and classical solutions
-/

namespace EF
namespace FV

/-- `F 1`, …, `F n` are the derivatives of `F 0` on the set, and all are at most `M` in absolute value. -/
def Smooth (n : Nat) (F : Nat → ℝ → ℝ) (S : Set ℝ) (M : ℝ) : Prop :=
  (∀ k, k < n → ∀ x ∈ S, HasDerivWithinAt (F k) (F (k + 1) x) S x) ∧ ∀ k, k ≤ n → ∀ x ∈ S, |F k x| ≤ M

/-- `Dx k` and `Dy k` are the `k`-th derivatives of `u` by `x` and by `y` for `k` up to 4 on the closed rectangle, bounded by `M`. -/
structure Derivs (R : Rect ℝ) (u : ℝ → ℝ → ℝ) (Dx Dy : Nat → ℝ → ℝ → ℝ) (M : ℝ) : Prop where
  x0 : Dx 0 = u
  y0 : Dy 0 = u
  inX : ∀ y ∈ Set.Icc R.yl R.yu, Smooth 4 (fun k x => Dx k x y) (Set.Icc R.xl R.xu) M
  inY : ∀ x ∈ Set.Icc R.xl R.xu, Smooth 4 (fun k y => Dy k x y) (Set.Icc R.yl R.yu) M

/-- `u` solves `alpha div(beta grad u) + lambda u = f` at every point of the rectangle; `Dx`, `Dy` and `Bx`, `By` are the
derivatives of `u` and of `beta`. -/
def Classical (c : FVSolver ℝ) (R : Rect ℝ) (u : ℝ → ℝ → ℝ) (Dx Dy Bx By : Nat → ℝ → ℝ → ℝ) (f : ℝ → ℝ → ℝ) : Prop :=
  ∀ x y, Inside R x y →
    c.alpha x y * (Bx 1 x y * Dx 1 x y + c.beta x y * Dx 2 x y + (By 1 x y * Dy 1 x y + c.beta x y * Dy 2 x y)) +
      c.lambda x y * u x y = f x y

/-- Derivative in the direction of the outward normal at a point of a side (0 West, 1 East, 2 South, 3 North). -/
def outward (Dx Dy : Nat → ℝ → ℝ → ℝ) (s : Nat) (x y : ℝ) : ℝ :=
  match s with
  | 0 => -Dx 1 x y
  | 1 => Dx 1 x y
  | 2 => -Dy 1 x y
  | _ => Dy 1 x y

/-- The point lies on side `s` of the rectangle. -/
def OnSide (R : Rect ℝ) (s : Nat) (x y : ℝ) : Prop :=
  match s with
  | 0 => x = R.xl ∧ R.yl ≤ y ∧ y ≤ R.yu
  | 1 => x = R.xu ∧ R.yl ≤ y ∧ y ≤ R.yu
  | 2 => y = R.yl ∧ R.xl ≤ x ∧ x ≤ R.xu
  | _ => y = R.yu ∧ R.xl ≤ x ∧ x ≤ R.xu

end FV
end EF
