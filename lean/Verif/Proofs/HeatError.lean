import Verif.Proofs.MixedError
import Verif.Proofs.Heat
import Verif.Spec.HeatEquation

/-!
# The error of implicit Euler steps against a classical solution of the heat equation
-/

namespace EF
namespace FV

open Set

/-- The backward difference quotient in time. -/
theorem time_error {F : Nat → ℝ → ℝ} {t0 t1 M τ dt : ℝ} (hF : Smooth 2 F (Icc t0 t1) M) (h1 : t0 ≤ τ - dt) (h2 : τ ≤ t1) (hdt : 0 < dt) :
    |(F 0 τ - F 0 (τ - dt)) / dt - F 1 τ| ≤ M * dt / 2 := by
  have h := taylor2 (hF.left h1 h2) hdt.le
  simp only [pow_zero, one_mul, pow_one, sub_zero] at h
  have e : (F 0 τ - F 0 (τ - dt)) / dt - F 1 τ = -(F 0 (τ - dt) - (F 0 τ + dt * (-1 * F 1 τ))) / dt := by
    field_simp
    ring
  rw [e, abs_div, abs_neg, abs_of_pos hdt, div_le_iff₀ hdt]
  refine h.trans (le_of_eq ?_)
  ring

/-- The boundary values of a function on the West and East side; on the South and North side those that give its derivative. -/
noncomputable def mixedTrace (R : Rect ℝ) (m : Nat) (v vy : ℝ → ℝ → ℝ) : Bdry ℝ :=
  ⟨fun k => v R.xl (cy R m k), fun k => v R.xu (cy R m k), fun k => v (cx R m k) (cy R m 0) - hy R m / 2 * vy (cx R m k) R.yl,
    fun k => v (cx R m k) (cy R m (m - 1)) + hy R m / 2 * vy (cx R m k) R.yu⟩

/-- The flux balance of a smooth function at the cell centres, with its values on the West and East and its fluxes on the South and North
side. -/
theorem mixed_balance_error {beta : ℝ → ℝ → ℝ} {R : Rect ℝ} (hR : Proper R) {u : ℝ → ℝ → ℝ} {Dx Dy Bx By : Nat → ℝ → ℝ → ℝ} {B M L : ℝ}
    (hβ : Derivs R beta Bx By B) (hu : Derivs R u Dx Dy M) {m : Nat} (hm : 2 ≤ m)
    (hLx : R.xu - R.xl ≤ L) (hLy : R.yu - R.yl ≤ L) {i j : Nat} (hi : i < m) (hj : j < m) :
    |balance ⟨fun _ _ => 1, beta, fun _ _ => 0⟩ R m m (mixedTrace R m u (Dy 1)) (fun i j => u (cx R m i) (cy R m j)) i j -
        (Bx 1 (cx R m i) (cy R m j) * Dx 1 (cx R m i) (cy R m j) + beta (cx R m i) (cy R m j) * Dx 2 (cx R m i) (cy R m j) +
          (By 1 (cx R m i) (cy R m j) * Dy 1 (cx R m i) (cy R m j) + beta (cx R m i) (cy R m j) * Dy 2 (cx R m i) (cy R m j)))| ≤
      B * M * (1 + L) ^ 3 * (hx R m ^ 2 + hy R m ^ 2) + 4 * (B * M) * ends m i + B * M * (1 + L) * hy R m * ends m j := by
  have hm0 : 0 < m := by omega
  have hx0 := hx_pos hR hm0
  have hy0 := hy_pos hR hm0
  have hm1 : (1 : ℝ) ≤ m := by exact_mod_cast hm0
  have hxm : hx R m * m = R.xu - R.xl := by unfold hx; field_simp
  have hym : hy R m * m = R.yu - R.yl := by unfold hy; field_simp
  have hxL : hx R m ≤ L := by nlinarith
  have hyL : hy R m ≤ L := by nlinarith
  obtain ⟨fx1, fx2⟩ := cx_face hR hi
  obtain ⟨fy1, fy2⟩ := cy_face hR hj
  have ix : cx R m i ∈ Icc R.xl R.xu := ⟨by linarith, by linarith⟩
  have iy : cy R m j ∈ Icc R.yl R.yu := ⟨by linarith, by linarith⟩
  have B0 := hβ.nonneg hR
  have M0 := hu.nonneg hR
  have rx := row_error (hβ.inX _ iy) (hu.inX _ iy) hx0 hxL hm (by linarith) hi B0 M0
  have ry := column_error (hβ.inY _ ix) (hu.inY _ ix) hy0 hyL hm (by linarith) hj B0 M0
  simp only [hβ.x0, hβ.y0, hu.x0, hu.y0] at rx ry
  unfold balance east west north south mixedTrace
  dsimp only
  have ecx : ∀ k : Nat, cx R m k = R.xl + ((k : ℝ) + 1 / 2) * hx R m := fun k => rfl
  have ecy : ∀ k : Nat, cy R m k = R.yl + ((k : ℝ) + 1 / 2) * hy R m := fun k => rfl
  rw [← ecx i, ← ecx (i + 1), ← ecx (i - 1)] at rx
  rw [← ecy j, ← ecy (j + 1), ← ecy (j - 1)] at ry
  have nN : (if j + 1 = m then 2 * (u (cx R m i) (cy R m (m - 1)) + hy R m / 2 * Dy 1 (cx R m i) R.yu) - u (cx R m i) (cy R m j)
      else u (cx R m i) (cy R m (j + 1))) =
      (if j + 1 = m then u (cx R m i) (cy R m j) + hy R m * Dy 1 (cx R m i) R.yu else u (cx R m i) (cy R m (j + 1))) := by
    split_ifs with h
    · rw [show m - 1 = j by omega]; ring
    · rfl
  have nS : (if j = 0 then 2 * (u (cx R m i) (cy R m 0) - hy R m / 2 * Dy 1 (cx R m i) R.yl) - u (cx R m i) (cy R m j)
      else u (cx R m i) (cy R m (j - 1))) =
      (if j = 0 then u (cx R m i) (cy R m j) - hy R m * Dy 1 (cx R m i) R.yl else u (cx R m i) (cy R m (j - 1))) := by
    split_ifs with h
    · rw [h]; ring
    · rfl
  rw [nN, nS]
  generalize (if i + 1 = m then 2 * u R.xu (cy R m j) - u (cx R m i) (cy R m j) else u (cx R m (i + 1)) (cy R m j)) = uE at *
  generalize (if i = 0 then 2 * u R.xl (cy R m j) - u (cx R m i) (cy R m j) else u (cx R m (i - 1)) (cy R m j)) = uW at *
  generalize (if j + 1 = m then u (cx R m i) (cy R m j) + hy R m * Dy 1 (cx R m i) R.yu else u (cx R m i) (cy R m (j + 1))) = uN at *
  generalize (if j = 0 then u (cx R m i) (cy R m j) - hy R m * Dy 1 (cx R m i) R.yl else u (cx R m i) (cy R m (j - 1))) = uS at *
  have e : ∀ X Y P Q l : ℝ, 1 * (X + Y) + 0 * l - (P + Q) = (X - P) + (Y - Q) := by
    intro X Y P Q l
    ring
  rw [e]
  refine (abs_add_le _ _).trans ((add_le_add rx ry).trans (le_of_eq ?_))
  ring

/-- A classical solution makes implicit Euler steps up to a small source. -/
theorem HeatSolution.step {beta : ℝ → ℝ → ℝ} {R : Rect ℝ} (hR : Proper R) {Bx By : Nat → ℝ → ℝ → ℝ} {B M L t0 t1 : ℝ}
    (hβ : Derivs R beta Bx By B) {q v : ℝ → ℝ → ℝ → ℝ} {Dx Dy Dt : Nat → ℝ → ℝ → ℝ → ℝ}
    (h : HeatSolution R beta Bx By t0 t1 q v Dx Dy Dt M) {m : Nat} (hm : 2 ≤ m) (hLx : R.xu - R.xl ≤ L) (hLy : R.yu - R.yl ≤ L)
    {τ dt : ℝ} (hdt : 0 < dt) (h1 : t0 ≤ τ - dt) (h2 : τ ≤ t1) :
    ∃ ρ : Nat → Nat → ℝ, (∀ i, i < m → ∀ j, j < m → |ρ i j| ≤
        (B * M * (1 + L) ^ 3 * (hx R m ^ 2 + hy R m ^ 2) + M * dt / 2) + 4 * (B * M) * ends m i + B * M * (1 + L) * hy R m * ends m j) ∧
      HeatStep beta R m dt (fun k => v R.xl (cy R m k) τ) (fun k => v R.xu (cy R m k) τ) (fun k => -Dy 1 (cx R m k) R.yl τ)
        (fun k => Dy 1 (cx R m k) R.yu τ) (fun i j => q (cx R m i) (cy R m j) τ + ρ i j) (fun i j => v (cx R m i) (cy R m j) (τ - dt))
        (fun i j => v (cx R m i) (cy R m j) τ) (mixedTrace R m (fun x y => v x y τ) (fun x y => Dy 1 x y τ)) := by
  have hτ : τ ∈ Icc t0 t1 := ⟨by linarith, h2⟩
  have hm0 : 0 < m := by omega
  have hy0 := hy_pos hR hm0
  refine ⟨fun i j => (v (cx R m i) (cy R m j) τ - v (cx R m i) (cy R m j) (τ - dt)) / dt -
    balance ⟨fun _ _ => 1, beta, fun _ _ => 0⟩ R m m (mixedTrace R m (fun x y => v x y τ) (fun x y => Dy 1 x y τ))
      (fun i j => v (cx R m i) (cy R m j) τ) i j - q (cx R m i) (cy R m j) τ, ?_, ?_, ?_⟩
  · intro i hi j hj
    obtain ⟨fx1, fx2⟩ := cx_face hR hi
    obtain ⟨fy1, fy2⟩ := cy_face hR hj
    have hx0 := hx_pos hR hm0
    have ins : Inside R (cx R m i) (cy R m j) := ⟨by linarith, by linarith, by linarith, by linarith⟩
    have a := time_error (h.time _ _ ins) h1 h2 hdt
    have b := mixed_balance_error hR hβ (h.space τ hτ) hm hLx hLy hi hj
    have e := h.equation τ hτ _ _ ins
    simp only [h.zeroth] at a
    rw [e] at a
    dsimp only
    generalize balance ⟨fun _ _ => 1, beta, fun _ _ => 0⟩ R m m (mixedTrace R m (fun x y => v x y τ) (fun x y => Dy 1 x y τ))
      (fun i j => v (cx R m i) (cy R m j) τ) i j = X at *
    generalize (v (cx R m i) (cy R m j) τ - v (cx R m i) (cy R m j) (τ - dt)) / dt = Y at *
    generalize Bx 1 (cx R m i) (cy R m j) * Dx 1 (cx R m i) (cy R m j) τ + beta (cx R m i) (cy R m j) * Dx 2 (cx R m i) (cy R m j) τ +
          (By 1 (cx R m i) (cy R m j) * Dy 1 (cx R m i) (cy R m j) τ + beta (cx R m i) (cy R m j) * Dy 2 (cx R m i) (cy R m j) τ) = Z at *
    have e2 : Y - X - q (cx R m i) (cy R m j) τ = (Y - (Z + q (cx R m i) (cy R m j) τ)) - (X - Z) := by ring
    rw [e2]
    refine (abs_sub _ _).trans ((add_le_add a b).trans (le_of_eq ?_))
    ring
  · intro i _ j _
    ring
  · intro k _
    simp only [normalDeriv, mixedTrace]
    refine ⟨trivial, trivial, ?_, ?_⟩
    · field_simp
      ring
    · field_simp
      ring

/-- Size of the barrier. -/
noncomputable def heatBound (R : Rect ℝ) (b0 B M L a b dt : ℝ) : ℝ :=
  2 * (B * M) / b0 * a + ((B * M * (1 + L) ^ 3 * (a + b) + M * dt / 2) + B * M * (1 + L) / b0 * b * (2 * B / (R.yu - R.yl) + B)) *
    top R b0 B / drop R b0 B + B * M * (1 + L) / b0 * b * (R.yu - R.yl) / 4

/-- The error bound for all steps: what the steps make of the error stays below the barrier. -/
theorem heat_error {beta : ℝ → ℝ → ℝ} {R : Rect ℝ} (hR : Proper R) {b0 : ℝ} (h0 : 0 < b0) (hb : ∀ x y, Inside R x y → b0 ≤ beta x y)
    {Bx By : Nat → ℝ → ℝ → ℝ} {B M L t0 t1 : ℝ}
    (hβ : Derivs R beta Bx By B) {q v : ℝ → ℝ → ℝ → ℝ} {Dx Dy Dt : Nat → ℝ → ℝ → ℝ → ℝ}
    (h : HeatSolution R beta Bx By t0 t1 q v Dx Dy Dt M) {m : Nat} (hm : 2 ≤ m) (hLx : R.xu - R.xl ≤ L) (hLy : R.yu - R.yl ≤ L)
    {dt : ℝ} (hdt : 0 < dt) {U : Nat → Nat → Nat → ℝ} (hU0 : ∀ i, i < m → ∀ j, j < m → U 0 i j = v (cx R m i) (cy R m j) t0) {n : Nat}
    (hn : t0 + n * dt ≤ t1)
    (hU : ∀ k : Nat, k < n → ∃ g, HeatStep beta R m dt (fun i => v R.xl (cy R m i) (t0 + (k + 1 : Nat) * dt))
      (fun i => v R.xu (cy R m i) (t0 + (k + 1 : Nat) * dt)) (fun i => -Dy 1 (cx R m i) R.yl (t0 + (k + 1 : Nat) * dt))
      (fun i => Dy 1 (cx R m i) R.yu (t0 + (k + 1 : Nat) * dt)) (fun i j => q (cx R m i) (cy R m j) (t0 + (k + 1 : Nat) * dt)) (U k) (U (k + 1)) g) :
    ∀ k, k ≤ n → ∀ i, i < m → ∀ j, j < m →
      |U k i j - v (cx R m i) (cy R m j) (t0 + k * dt)| ≤ heatBound R b0 B M L (hx R m ^ 2) (hy R m ^ 2) dt := by
  have hm0 : 0 < m := by omega
  have hx0 := hx_pos hR hm0
  have hy0 := hy_pos hR hm0
  have B0 := hβ.nonneg hR
  have i0 : Inside R R.xl R.yl := ⟨le_rfl, hR.1.le, le_rfl, hR.2.le⟩
  have ht : t0 ≤ t1 := le_trans (le_add_of_nonneg_right (by positivity)) hn
  have M0 := (h.space t0 ⟨le_rfl, ht⟩).nonneg hR
  have L0 : 0 < L := by have := hR.1; linarith
  have hB : ∀ x y, Inside R x y → beta x y ≤ B := by
    intro x y hxy
    have := (hβ.inX y ⟨hxy.2.2.1, hxy.2.2.2⟩).2 0 (by omega) x ⟨hxy.1, hxy.2.1⟩
    simp only [hβ.x0] at this
    exact (le_abs_self _).trans this
  have hl' : ∀ x y y', Inside R x y → Inside R x y' → |beta x y - beta x y'| ≤ B * |y - y'| := by
    have hs : Derivs (⟨R.yl, R.yu, R.xl, R.xu⟩ : Rect ℝ) (fun y x => beta x y) (fun k y x => By k x y) (fun k y x => Bx k x y) B :=
      ⟨by rw [hβ.y0], by rw [hβ.x0], hβ.inY, hβ.inX⟩
    exact fun x y y' a b => hs.lipschitz y y' x ⟨a.2.2.1, a.2.2.2, a.1, a.2.1⟩ ⟨b.2.2.1, b.2.2.2, b.1, b.2.1⟩
  obtain ⟨G, w, gW, gE, gS, gN, hw, hbal⟩ := mixed_barrier hR h0 hb hB hβ.lipschitz hl' hm
    (A := 2 * (B * M) / b0 * hx R m ^ 2) (T := B * M * (1 + L) ^ 3 * (hx R m ^ 2 + hy R m ^ 2) + M * dt / 2)
    (P := B * M * (1 + L) / b0 * hy R m ^ 2) (by positivity) (by positivity) (by positivity)
  have stepw : HeatStep beta R m dt G.W G.E (fun _ => 0) (fun _ => 0)
      (fun i j => -balance ⟨fun _ _ => 1, beta, fun _ _ => 0⟩ R m m G w i j) w w G :=
    ⟨fun i _ j _ => by ring, fun k _ => ⟨rfl, rfl, gS k, gN k⟩⟩
  have key : ∀ k, k ≤ n → ∀ i, i < m → ∀ j, j < m → |U k i j - v (cx R m i) (cy R m j) (t0 + k * dt)| ≤ w i j := by
    intro k
    induction k with
    | zero =>
      intro _ i hi j hj
      rw [hU0 i hi j hj]
      simpa using (hw i hi j hj).1
    | succ k ih =>
      intro hk
      have ih := ih (by omega)
      obtain ⟨g, hg⟩ := hU k (by omega)
      have hk' : ((k + 1 : Nat) : ℝ) ≤ n := by exact_mod_cast hk
      have r1 : t0 + ((k + 1 : Nat) : ℝ) * dt ≤ t1 := le_trans (by have := mul_le_mul_of_nonneg_right hk' hdt.le; linarith) hn
      have r2 : t0 ≤ t0 + ((k + 1 : Nat) : ℝ) * dt - dt := by
        push_cast
        have : 0 ≤ (k : ℝ) * dt := by positivity
        linarith
      have r3 : t0 + ((k + 1 : Nat) : ℝ) * dt - dt = t0 + k * dt := by push_cast; ring
      obtain ⟨ρ, hρ, hv⟩ := h.step hR hβ hm hLx hLy hdt r2 r1
      rw [r3] at hv
      have hρw : ∀ i, i < m → ∀ j, j < m → |ρ i j| ≤ -balance ⟨fun _ _ => 1, beta, fun _ _ => 0⟩ R m m G w i j := by
        intro i hi j hj
        refine (hρ i hi j hj).trans ?_
        have e1 : 2 * b0 * (2 * (B * M) / b0 * hx R m ^ 2) / hx R m ^ 2 = 4 * (B * M) := by field_simp; ring
        have e2 : b0 * (B * M * (1 + L) / b0 * hy R m ^ 2) / hy R m = B * M * (1 + L) * hy R m := by field_simp
        have := hbal i hi j hj
        rw [e1, e2] at this
        linarith
      have up := heat_mono hR (fun x y hxy => h0.trans_le (hb x y hxy)) hdt (hg.sub hv) stepw (fun k _ => by simpa using gW k)
        (fun k _ => by simpa using gE k) (fun k _ => by simp) (fun k _ => by simp)
        (fun i hi j hj => by have := (abs_le.mp (hρw i hi j hj)).1; linarith)
        (fun i hi j hj => (abs_le.mp (ih i hi j hj)).2)
      have down := heat_mono hR (fun x y hxy => h0.trans_le (hb x y hxy)) hdt (hv.sub hg) stepw (fun k _ => by simpa using gW k)
        (fun k _ => by simpa using gE k) (fun k _ => by simp) (fun k _ => by simp)
        (fun i hi j hj => by have := (abs_le.mp (hρw i hi j hj)).2; linarith)
        (fun i hi j hj => by have := (abs_le.mp (ih i hi j hj)).1; linarith)
      intro i hi j hj
      have a := up i hi j hj
      have b := down i hi j hj
      rw [abs_le]
      constructor <;> linarith
  intro k hk i hi j hj
  refine (key k hk i hi j hj).trans ((hw i hi j hj).2.trans (le_of_eq ?_))
  unfold heatBound
  ring

end FV
end EF
