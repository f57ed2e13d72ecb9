import Verif.Spec.Smooth

/-!
# Classical solutions of the heat equation `dv/dt = div(beta grad v) + q` on a rectangle
-/

namespace EF
namespace FV

/-- `v` solves the equation on the closed rectangle from time `t0` to time `t1`.  `Dx k`, `Dy k` and `Dt k` are its `k`-th derivatives by
`x`, `y` (for `k` up to 4) and by the time (for `k` up to 2), bounded by `M`; `Bx`, `By` are the derivatives of `beta`. -/
structure HeatSolution (R : Rect ℝ) (beta : ℝ → ℝ → ℝ) (Bx By : Nat → ℝ → ℝ → ℝ) (t0 t1 : ℝ) (q v : ℝ → ℝ → ℝ → ℝ)
    (Dx Dy Dt : Nat → ℝ → ℝ → ℝ → ℝ) (M : ℝ) : Prop where
  space : ∀ τ ∈ Set.Icc t0 t1, Derivs R (fun x y => v x y τ) (fun k x y => Dx k x y τ) (fun k x y => Dy k x y τ) M
  zeroth : Dt 0 = v
  time : ∀ x y, Inside R x y → Smooth 2 (fun k τ => Dt k x y τ) (Set.Icc t0 t1) M
  equation : ∀ τ ∈ Set.Icc t0 t1, ∀ x y, Inside R x y →
    Dt 1 x y τ = Bx 1 x y * Dx 1 x y τ + beta x y * Dx 2 x y τ + (By 1 x y * Dy 1 x y τ + beta x y * Dy 2 x y τ) + q x y τ

end FV
end EF
