import Verif.Spec.Robin

/-!
# One implicit Euler step for the heat equation `du/dt = div(beta grad u) + q`

On a rectangle with values prescribed on the West and the East side and fluxes `du/dn` on the South and the North side.
-/

namespace EF
namespace FV

variable {K : Type} [Field K]

/-- `u'` is the array after a step of length `dt` from `u`: in every cell the rate of change is the flux balance of the new array
plus the source `q`; `g` holds the boundary values. -/
def HeatStep (beta : K → K → K) (R : Rect K) (m : Nat) (dt : K) (west east south north : Nat → K) (q : Nat → Nat → K)
    (u u' : Nat → Nat → K) (g : Bdry K) : Prop :=
  (∀ i, i < m → ∀ j, j < m →
    (u' i j - u i j) / dt = balance ⟨fun _ _ => 1, beta, fun _ _ => 0⟩ R m m g u' i j + q i j) ∧
  ∀ k, k < m → g.W k = west k ∧ g.E k = east k ∧ normalDeriv R m g u' 2 k = south k ∧ normalDeriv R m g u' 3 k = north k

end FV
end EF
