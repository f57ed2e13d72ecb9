import Verif.Proofs.FluxError

/-!
# The error of the finite volume solution with values on some sides and fluxes on the others
-/

namespace EF
namespace FV

open Set

/-- The boundary values of a function; on the sides with a flux those that give its derivative. -/
noncomputable def fluxTrace (flux : Nat → Bool) (R : Rect ℝ) (m : Nat) (u : ℝ → ℝ → ℝ) (Dx Dy : Nat → ℝ → ℝ → ℝ) : Bdry ℝ :=
  ⟨fun k => if flux 0 = true then u (cx R m 0) (cy R m k) - hx R m / 2 * Dx 1 R.xl (cy R m k) else u R.xl (cy R m k),
    fun k => if flux 1 = true then u (cx R m (m - 1)) (cy R m k) + hx R m / 2 * Dx 1 R.xu (cy R m k) else u R.xu (cy R m k),
    fun k => if flux 2 = true then u (cx R m k) (cy R m 0) - hy R m / 2 * Dy 1 (cx R m k) R.yl else u (cx R m k) R.yl,
    fun k => if flux 3 = true then u (cx R m k) (cy R m (m - 1)) + hy R m / 2 * Dy 1 (cx R m k) R.yu else u (cx R m k) R.yu⟩

/-- The flux balance of a smooth function at the cell centres, with its values or fluxes on the sides. -/
theorem flux_balance_error {c : FVSolver ℝ} {R : Rect ℝ} (hR : Proper R) {u : ℝ → ℝ → ℝ} {Dx Dy Bx By : Nat → ℝ → ℝ → ℝ} {B M L : ℝ}
    (hβ : Derivs R c.beta Bx By B) (hu : Derivs R u Dx Dy M) {f : ℝ → ℝ → ℝ} (hf : Classical c R u Dx Dy Bx By f) {m : Nat} (hm : 2 ≤ m)
    (hLx : R.xu - R.xl ≤ L) (hLy : R.yu - R.yl ≤ L) (flux : Nat → Bool) {i j : Nat} (hi : i < m) (hj : j < m)
    (ha : c.alpha (cx R m i) (cy R m j) ≠ 0) :
    |(f (cx R m i) (cy R m j) - balance c R m m (fluxTrace flux R m u Dx Dy) (fun i j => u (cx R m i) (cy R m j)) i j) /
        c.alpha (cx R m i) (cy R m j)| ≤
      B * M * (1 + L) ^ 3 * (hx R m ^ 2 + hy R m ^ 2) +
        (4 * (B * M) * endsAt (!flux 0) (!flux 1) m i + B * M * (1 + L) * hx R m * endsAt (flux 0) (flux 1) m i) +
        (4 * (B * M) * endsAt (!flux 2) (!flux 3) m j + B * M * (1 + L) * hy R m * endsAt (flux 2) (flux 3) m j) := by
  have hm0 : 0 < m := by omega
  have hx0 := hx_pos hR hm0
  have hy0 := hy_pos hR hm0
  have hm1 : (1 : ℝ) ≤ m := by exact_mod_cast hm0
  have hxm : hx R m * m = R.xu - R.xl := by unfold hx; field_simp
  have hym : hy R m * m = R.yu - R.yl := by unfold hy; field_simp
  have hxL : hx R m ≤ L := by nlinarith
  have hyL : hy R m ≤ L := by nlinarith
  obtain ⟨fx1, fx2⟩ := cx_face hR hi
  obtain ⟨fy1, fy2⟩ := cy_face hR hj
  have ix : cx R m i ∈ Icc R.xl R.xu := ⟨by linarith, by linarith⟩
  have iy : cy R m j ∈ Icc R.yl R.yu := ⟨by linarith, by linarith⟩
  have B0 := hβ.nonneg hR
  have M0 := hu.nonneg hR
  have rx := row_error_at (hβ.inX _ iy) (hu.inX _ iy) hx0 hxL hm (by linarith) hi B0 M0 (flux 0) (flux 1)
  have ry := row_error_at (hβ.inY _ ix) (hu.inY _ ix) hy0 hyL hm (by linarith) hj B0 M0 (flux 2) (flux 3)
  simp only [hβ.x0, hβ.y0, hu.x0, hu.y0] at rx ry
  rw [← hf _ _ ⟨ix.1, ix.2, iy.1, iy.2⟩]
  unfold balance east west north south fluxTrace
  dsimp only
  have ecx : ∀ k : Nat, cx R m k = R.xl + ((k : ℝ) + 1 / 2) * hx R m := fun k => rfl
  have ecy : ∀ k : Nat, cy R m k = R.yl + ((k : ℝ) + 1 / 2) * hy R m := fun k => rfl
  rw [← ecx i, ← ecx (i + 1), ← ecx (i - 1)] at rx
  rw [← ecy j, ← ecy (j + 1), ← ecy (j - 1)] at ry
  have nE : (if i + 1 = m then 2 * (if flux 1 = true then u (cx R m (m - 1)) (cy R m j) + hx R m / 2 * Dx 1 R.xu (cy R m j) else u R.xu (cy R m j)) -
      u (cx R m i) (cy R m j) else u (cx R m (i + 1)) (cy R m j)) =
      (if i + 1 = m then above (flux 1) (hx R m) (u R.xu (cy R m j)) (Dx 1 R.xu (cy R m j)) (u (cx R m i) (cy R m j))
        else u (cx R m (i + 1)) (cy R m j)) := by
    by_cases h : i + 1 = m
    · rw [if_pos h, if_pos h, show m - 1 = i by omega]
      unfold above
      split_ifs <;> ring
    · rw [if_neg h, if_neg h]
  have nW : (if i = 0 then 2 * (if flux 0 = true then u (cx R m 0) (cy R m j) - hx R m / 2 * Dx 1 R.xl (cy R m j) else u R.xl (cy R m j)) -
      u (cx R m i) (cy R m j) else u (cx R m (i - 1)) (cy R m j)) =
      (if i = 0 then below (flux 0) (hx R m) (u R.xl (cy R m j)) (Dx 1 R.xl (cy R m j)) (u (cx R m i) (cy R m j))
        else u (cx R m (i - 1)) (cy R m j)) := by
    by_cases h : i = 0
    · rw [if_pos h, if_pos h, h]
      unfold below
      split_ifs <;> ring
    · rw [if_neg h, if_neg h]
  have nN : (if j + 1 = m then 2 * (if flux 3 = true then u (cx R m i) (cy R m (m - 1)) + hy R m / 2 * Dy 1 (cx R m i) R.yu else u (cx R m i) R.yu) -
      u (cx R m i) (cy R m j) else u (cx R m i) (cy R m (j + 1))) =
      (if j + 1 = m then above (flux 3) (hy R m) (u (cx R m i) R.yu) (Dy 1 (cx R m i) R.yu) (u (cx R m i) (cy R m j))
        else u (cx R m i) (cy R m (j + 1))) := by
    by_cases h : j + 1 = m
    · rw [if_pos h, if_pos h, show m - 1 = j by omega]
      unfold above
      split_ifs <;> ring
    · rw [if_neg h, if_neg h]
  have nS : (if j = 0 then 2 * (if flux 2 = true then u (cx R m i) (cy R m 0) - hy R m / 2 * Dy 1 (cx R m i) R.yl else u (cx R m i) R.yl) -
      u (cx R m i) (cy R m j) else u (cx R m i) (cy R m (j - 1))) =
      (if j = 0 then below (flux 2) (hy R m) (u (cx R m i) R.yl) (Dy 1 (cx R m i) R.yl) (u (cx R m i) (cy R m j))
        else u (cx R m i) (cy R m (j - 1))) := by
    by_cases h : j = 0
    · rw [if_pos h, if_pos h, h]
      unfold below
      split_ifs <;> ring
    · rw [if_neg h, if_neg h]
  rw [nE, nW, nN, nS]
  generalize (if i + 1 = m then above (flux 1) (hx R m) (u R.xu (cy R m j)) (Dx 1 R.xu (cy R m j)) (u (cx R m i) (cy R m j))
        else u (cx R m (i + 1)) (cy R m j)) = uE at *
  generalize (if i = 0 then below (flux 0) (hx R m) (u R.xl (cy R m j)) (Dx 1 R.xl (cy R m j)) (u (cx R m i) (cy R m j))
        else u (cx R m (i - 1)) (cy R m j)) = uW at *
  generalize (if j + 1 = m then above (flux 3) (hy R m) (u (cx R m i) R.yu) (Dy 1 (cx R m i) R.yu) (u (cx R m i) (cy R m j))
        else u (cx R m i) (cy R m (j + 1))) = uN at *
  generalize (if j = 0 then below (flux 2) (hy R m) (u (cx R m i) R.yl) (Dy 1 (cx R m i) R.yl) (u (cx R m i) (cy R m j))
        else u (cx R m i) (cy R m (j - 1))) = uS at *
  have e : ∀ X Y P Q l a : ℝ, a ≠ 0 → (a * (P + Q) + l - (a * (X + Y) + l)) / a = -((X - P) + (Y - Q)) := by
    intro X Y P Q l a ha
    field_simp
    ring
  rw [e _ _ _ _ _ _ ha, abs_neg]
  refine (abs_add_le _ _).trans ((add_le_add rx ry).trans (le_of_eq ?_))
  ring

theorem normalDeriv_lin (R : Rect ℝ) (m : Nat) (p q : ℝ) (g g' : Bdry ℝ) (u u' : Nat → Nat → ℝ) (s k : Nat) :
    normalDeriv R m (g.lin p q g') (fun i j => p * u i j + q * u' i j) s k = p * normalDeriv R m g u s k + q * normalDeriv R m g' u' s k := by
  unfold normalDeriv Bdry.lin
  split <;> ring

theorem side_lin (p q : ℝ) (g g' : Bdry ℝ) (s k : Nat) : (g.lin p q g').side s k = p * g.side s k + q * g'.side s k := by
  unfold Bdry.side Bdry.lin
  split <;> rfl

/-- The boundary values of a function with fluxes on some sides: close to the values there, and with the right derivative. -/
theorem fluxTrace_side {R : Rect ℝ} (hR : Proper R) {u : ℝ → ℝ → ℝ} {Dx Dy : Nat → ℝ → ℝ → ℝ} {M : ℝ} (hu : Derivs R u Dx Dy M) {m : Nat}
    (hm : 0 < m) (flux : Nat → Bool) {s k : Nat} (hs : s < 4) (hk : k < m) :
    (flux s = false → (fluxTrace flux R m u Dx Dy).side s k = u (HPS.sidePoint R m s k).1 (HPS.sidePoint R m s k).2) ∧
      (flux s = true → |(fluxTrace flux R m u Dx Dy).side s k - u (HPS.sidePoint R m s k).1 (HPS.sidePoint R m s k).2| ≤
          M / 8 * (hx R m ^ 2 + hy R m ^ 2) ∧
        normalDeriv R m (fluxTrace flux R m u Dx Dy) (fun i j => u (cx R m i) (cy R m j)) s k =
          outward Dx Dy s (HPS.sidePoint R m s k).1 (HPS.sidePoint R m s k).2) := by
  have hx0 := hx_pos hR hm
  have hy0 := hy_pos hR hm
  have M0 := hu.nonneg hR
  obtain ⟨fx1, fx2⟩ := cx_face hR hk
  obtain ⟨fy1, fy2⟩ := cy_face hR hk
  have ix : cx R m k ∈ Icc R.xl R.xu := ⟨by linarith, by linarith⟩
  have iy : cy R m k ∈ Icc R.yl R.yu := ⟨by linarith, by linarith⟩
  obtain ⟨gx1, gx2⟩ := cx_face hR (show 0 < m from hm)
  obtain ⟨gy1, gy2⟩ := cy_face hR (show 0 < m from hm)
  obtain ⟨ux1, ux2⟩ := cx_face hR (show m - 1 < m by omega)
  obtain ⟨uy1, uy2⟩ := cy_face hR (show m - 1 < m by omega)
  have hxm : hx R m * m = R.xu - R.xl := by unfold hx; field_simp
  have hym : hy R m * m = R.yu - R.yl := by unfold hy; field_simp
  have ec : ((m - 1 : Nat) : ℝ) = m - 1 := by rw [Nat.cast_sub (by omega)]; simp
  have e0 : cx R m 0 = R.xl + hx R m / 2 := by unfold cx; push_cast; ring
  have e1 : cx R m (m - 1) = R.xu - hx R m / 2 := by unfold cx; rw [ec]; linear_combination hxm
  have e2 : cy R m 0 = R.yl + hy R m / 2 := by unfold cy; push_cast; ring
  have e3 : cy R m (m - 1) = R.yu - hy R m / 2 := by unfold cy; rw [ec]; linear_combination hym
  have bx : M * (hx R m / 2) ^ 2 / 2 ≤ M / 8 * (hx R m ^ 2 + hy R m ^ 2) := by
    have : 0 ≤ M / 8 * hy R m ^ 2 := by positivity
    have e : M * (hx R m / 2) ^ 2 / 2 = M / 8 * hx R m ^ 2 := by ring
    rw [e, mul_add]
    linarith
  have by' : M * (hy R m / 2) ^ 2 / 2 ≤ M / 8 * (hx R m ^ 2 + hy R m ^ 2) := by
    have : 0 ≤ M / 8 * hx R m ^ 2 := by positivity
    have e : M * (hy R m / 2) ^ 2 / 2 = M / 8 * hy R m ^ 2 := by ring
    rw [e, mul_add]
    linarith
  rcases (by omega : s = 0 ∨ s = 1 ∨ s = 2 ∨ s = 3) with rfl | rfl | rfl | rfl
  · refine ⟨fun h => ?_, fun h => ⟨?_, ?_⟩⟩
    · simp [fluxTrace, Bdry.side, HPS.sidePoint, h]
    · have t := taylor2 ((hu.inX _ iy).right (a := R.xl) (h := hx R m / 2) le_rfl (by linarith)) (by linarith)
      simp only [add_zero, hu.x0] at t
      simp only [fluxTrace, Bdry.side, HPS.sidePoint, h, if_true, e0]
      refine le_trans (le_of_eq ?_) (t.trans bx)
      congr 1
      ring
    · simp only [fluxTrace, normalDeriv, HPS.sidePoint, outward, h, if_true]
      field_simp
      ring
  · refine ⟨fun h => ?_, fun h => ⟨?_, ?_⟩⟩
    · simp [fluxTrace, Bdry.side, HPS.sidePoint, h]
    · have t := taylor2 ((hu.inX _ iy).left (a := R.xu) (h := hx R m / 2) (by linarith) le_rfl) (by linarith)
      simp only [sub_zero, pow_zero, one_mul, pow_one, hu.x0] at t
      simp only [fluxTrace, Bdry.side, HPS.sidePoint, h, if_true, e1]
      refine le_trans (le_of_eq ?_) (t.trans bx)
      congr 1
      ring
    · simp only [fluxTrace, normalDeriv, HPS.sidePoint, outward, h, if_true]
      field_simp
      ring
  · refine ⟨fun h => ?_, fun h => ⟨?_, ?_⟩⟩
    · simp [fluxTrace, Bdry.side, HPS.sidePoint, h]
    · have t := taylor2 ((hu.inY _ ix).right (a := R.yl) (h := hy R m / 2) le_rfl (by linarith)) (by linarith)
      simp only [add_zero, hu.y0] at t
      simp only [fluxTrace, Bdry.side, HPS.sidePoint, h, if_true, e2]
      refine le_trans (le_of_eq ?_) (t.trans by')
      congr 1
      ring
    · simp only [fluxTrace, normalDeriv, HPS.sidePoint, outward, h, if_true]
      field_simp
      ring
  · refine ⟨fun h => ?_, fun h => ⟨?_, ?_⟩⟩
    · simp [fluxTrace, Bdry.side, HPS.sidePoint, h]
    · have t := taylor2 ((hu.inY _ ix).left (a := R.yu) (h := hy R m / 2) (by linarith) le_rfl) (by linarith)
      simp only [sub_zero, pow_zero, one_mul, pow_one, hu.y0] at t
      simp only [fluxTrace, Bdry.side, HPS.sidePoint, h, if_true, e3]
      refine le_trans (le_of_eq ?_) (t.trans by')
      congr 1
      ring
    · simp only [fluxTrace, normalDeriv, HPS.sidePoint, outward, h, if_true]
      field_simp
      ring

/-- The rectangle with its axes exchanged. -/
def swapRect (R : Rect ℝ) : Rect ℝ := ⟨R.yl, R.yu, R.xl, R.xu⟩

/-- Size of the barrier per unit of load. -/
noncomputable def reach (R : Rect ℝ) (b0 B : ℝ) : ℝ := top R b0 B / drop R b0 B + top (swapRect R) b0 B / drop (swapRect R) b0 B

/-- Barrier for values on at least one side and fluxes on the others. -/
theorem flux_barrier {c : FVSolver ℝ} {R : Rect ℝ} (hR : Proper R) (hc : EllipticOn c R) {b0 B : ℝ} (h0 : 0 < b0)
    (hb : ∀ x y, Inside R x y → b0 ≤ c.beta x y) (hB : ∀ x y, Inside R x y → c.beta x y ≤ B)
    (hl : ∀ x x' y, Inside R x y → Inside R x' y → |c.beta x y - c.beta x' y| ≤ B * |x - x'|)
    (hl' : ∀ x y y', Inside R x y → Inside R x y' → |c.beta x y - c.beta x y'| ≤ B * |y - y'|) {m : Nat} (hm : 2 ≤ m)
    {flux : Nat → Bool} {s0 : Nat} (hs0 : s0 < 4) (hv : flux s0 = false) {A T P Q : ℝ} (hA : 0 ≤ A) (hT : 0 ≤ T) (hP : 0 ≤ P) (hQ : 0 ≤ Q) :
    ∃ (g : Bdry ℝ) (w : Nat → Nat → ℝ), (∀ s, s < 4 → ∀ k, k < m → 0 ≤ g.side s k) ∧
      (∀ s, s < 4 → flux s = true → ∀ k, k < m → A ≤ g.side s k ∧ 0 ≤ normalDeriv R m g w s k) ∧
      (∀ i, i < m → ∀ j, j < m → 0 ≤ w i j ∧
        w i j ≤ A + T * reach R b0 B + P * (R.xu - R.xl) / 4 + Q * (R.yu - R.yl) / 4) ∧
      ∀ i, i < m → ∀ j, j < m → balance c R m m g w i j / c.alpha (cx R m i) (cy R m j) ≤
        -T + P * (2 * B / (R.xu - R.xl) + B) + Q * (2 * B / (R.yu - R.yl) + B) -
          (2 * b0 * A / hx R m ^ 2 * endsAt (!flux 0) (!flux 1) m i + b0 * P / hx R m * endsAt (flux 0) (flux 1) m i) -
          (2 * b0 * A / hy R m ^ 2 * endsAt (!flux 2) (!flux 3) m j + b0 * Q / hy R m * endsAt (flux 2) (flux 3) m j) := by
  have hm0 : 0 < m := by omega
  have hx0 := hx_pos hR hm0
  have hy0 := hy_pos hR hm0
  have B0 : 0 ≤ B := by
    have i0 : Inside R R.xl R.yl := ⟨le_rfl, hR.1.le, le_rfl, hR.2.le⟩
    exact h0.le.trans ((hb _ _ i0).trans (hB _ _ i0))
  have hR' : Proper (swapRect R) := ⟨hR.2, hR.1⟩
  have sw : ∀ y x, Inside (swapRect R) y x → Inside R x y := fun y x h => ⟨h.2.2.1, h.2.2.2, h.1, h.2.1⟩
  have r1 : 0 ≤ top R b0 B / drop R b0 B := by
    have := drop_pos hR h0 B0
    have : 0 ≤ top R b0 B := by unfold top; positivity
    positivity
  have r2 : 0 ≤ top (swapRect R) b0 B / drop (swapRect R) b0 B := by
    have := drop_pos hR' h0 B0
    have : 0 ≤ top (swapRect R) b0 B := by unfold top; positivity
    positivity
  obtain ⟨Tx, Ty, hTx, hTy, hxy, fx, fy⟩ : ∃ Tx Ty : ℝ, 0 ≤ Tx ∧ 0 ≤ Ty ∧ Tx + Ty = T ∧ (Tx = 0 ∨ flux 0 = false ∨ flux 1 = false) ∧
      (Ty = 0 ∨ flux 2 = false ∨ flux 3 = false) := by
    rcases (by omega : s0 = 0 ∨ s0 = 1 ∨ s0 = 2 ∨ s0 = 3) with rfl | rfl | rfl | rfl
    · exact ⟨T, 0, hT, le_rfl, by ring, Or.inr (Or.inl hv), Or.inl rfl⟩
    · exact ⟨T, 0, hT, le_rfl, by ring, Or.inr (Or.inr hv), Or.inl rfl⟩
    · exact ⟨0, T, le_rfl, hT, by ring, Or.inl rfl, Or.inr (Or.inl hv)⟩
    · exact ⟨0, T, le_rfl, hT, by ring, Or.inl rfl, Or.inr (Or.inr hv)⟩
  obtain ⟨lx, ux, p, p1, p2, p3, p4, p5, p6⟩ := profile hR h0 hb hB hl hm hA hTx hP fx
  obtain ⟨ly, uy, q, q1, q2, q3, q4, q5, q6⟩ := profile (beta := fun y x => c.beta x y) hR' h0 (fun y x h => hb _ _ (sw y x h))
    (fun y x h => hB _ _ (sw y x h)) (fun y y' x h h' => hl' _ _ _ (sw y x h) (sw y' x h')) hm hA hTy hQ fy
  have q5' : ∀ j, j < m → 0 ≤ q j ∧ q j ≤ Ty * top (swapRect R) b0 B / drop (swapRect R) b0 B + Q * (R.yu - R.yl) / 4 := q5
  refine ⟨⟨fun j => A + q j + (lx + p 0) / 2, fun j => A + q j + (ux + p (m - 1)) / 2, fun i => A + p i + (ly + q 0) / 2,
    fun i => A + p i + (uy + q (m - 1)) / 2⟩, fun i j => A + p i + q j, ?_, ?_, ?_, ?_⟩
  · intro s hs k hk
    have a := (p5 k hk).1
    have b := (q5 k hk).1
    rcases (by omega : s = 0 ∨ s = 1 ∨ s = 2 ∨ s = 3) with rfl | rfl | rfl | rfl <;> simp only [Bdry.side] <;> linarith
  · intro s hs hf k hk
    have a := (p5 k hk).1
    have b := (q5 k hk).1
    have a0 := (p5 0 hm0).1
    have b0 := (q5 0 hm0).1
    have a1 := (p5 (m - 1) (by omega)).1
    have b1 := (q5 (m - 1) (by omega)).1
    rcases (by omega : s = 0 ∨ s = 1 ∨ s = 2 ∨ s = 3) with rfl | rfl | rfl | rfl
    · have := p1 hf
      exact ⟨by simp only [Bdry.side]; linarith, div_nonneg (by dsimp only; linarith) (by linarith)⟩
    · have := p3 hf
      exact ⟨by simp only [Bdry.side]; linarith, div_nonneg (by dsimp only; linarith) (by linarith)⟩
    · have := q1 hf
      exact ⟨by simp only [Bdry.side]; linarith, div_nonneg (by dsimp only; linarith) (by linarith)⟩
    · have := q3 hf
      exact ⟨by simp only [Bdry.side]; linarith, div_nonneg (by dsimp only; linarith) (by linarith)⟩
  · intro i hi j hj
    obtain ⟨a1, a2⟩ := p5 i hi
    obtain ⟨c1, c2⟩ := q5' j hj
    refine ⟨by linarith, ?_⟩
    have k1 : Tx * top R b0 B / drop R b0 B = Tx * (top R b0 B / drop R b0 B) := by ring
    have k2 : Ty * top (swapRect R) b0 B / drop (swapRect R) b0 B = Ty * (top (swapRect R) b0 B / drop (swapRect R) b0 B) := by ring
    rw [k1] at a2
    rw [k2] at c2
    have k3 : T * reach R b0 B = Tx * (top R b0 B / drop R b0 B) + Ty * (top (swapRect R) b0 B / drop (swapRect R) b0 B) +
        (Ty * (top R b0 B / drop R b0 B) + Tx * (top (swapRect R) b0 B / drop (swapRect R) b0 B)) := by
      rw [← hxy]
      unfold reach
      ring
    have k4 := mul_nonneg hTy r1
    have k5 := mul_nonneg hTx r2
    rw [k3]
    linarith
  · intro i hi j hj
    obtain ⟨fx1, fx2⟩ := cx_face hR hi
    obtain ⟨fy1, fy2⟩ := cy_face hR hj
    obtain ⟨_, ha, hla⟩ := hc (cx R m i) (cy R m j) ⟨by linarith, by linarith, by linarith, by linarith⟩
    have row := p6 i hi (cy R m j) (by linarith) (by linarith)
    have col : (c.beta (cx R m i) (cy R m j + hy R m / 2) * ((if j + 1 = m then uy else q (j + 1)) - q j) -
          c.beta (cx R m i) (cy R m j - hy R m / 2) * (q j - (if j = 0 then ly else q (j - 1)))) / hy R m ^ 2 ≤
        -Ty + Q * (2 * B / (R.yu - R.yl) + B) - 2 * b0 * A / hy R m ^ 2 * endsAt (!flux 2) (!flux 3) m j -
          b0 * Q / hy R m * endsAt (flux 2) (flux 3) m j :=
      q6 j hj (cx R m i) (show R.xl ≤ cx R m i by linarith) (show cx R m i ≤ R.xu by linarith)
    have w0 : 0 ≤ A + p i + q j := by
      have := (p5 i hi).1
      have := (q5 j hj).1
      linarith
    unfold balance east west north south
    dsimp only
    have nE : (if i + 1 = m then 2 * (A + q j + (ux + p (m - 1)) / 2) - (A + p i + q j) else A + p (i + 1) + q j) =
        A + (if i + 1 = m then ux else p (i + 1)) + q j := by
      split_ifs with h
      · rw [show m - 1 = i by omega]; ring
      · rfl
    have nW : (if i = 0 then 2 * (A + q j + (lx + p 0) / 2) - (A + p i + q j) else A + p (i - 1) + q j) =
        A + (if i = 0 then lx else p (i - 1)) + q j := by
      split_ifs with h
      · rw [h]; ring
      · rfl
    have nN : (if j + 1 = m then 2 * (A + p i + (uy + q (m - 1)) / 2) - (A + p i + q j) else A + p i + q (j + 1)) =
        A + p i + (if j + 1 = m then uy else q (j + 1)) := by
      split_ifs with h
      · rw [show m - 1 = j by omega]; ring
      · rfl
    have nS : (if j = 0 then 2 * (A + p i + (ly + q 0) / 2) - (A + p i + q j) else A + p i + q (j - 1)) =
        A + p i + (if j = 0 then ly else q (j - 1)) := by
      split_ifs with h
      · rw [h]; ring
      · rfl
    rw [nE, nW, nN, nS]
    generalize (if i + 1 = m then ux else p (i + 1)) = vE at *
    generalize (if i = 0 then lx else p (i - 1)) = vW at *
    generalize (if j + 1 = m then uy else q (j + 1)) = vN at *
    generalize (if j = 0 then ly else q (j - 1)) = vS at *
    generalize c.beta (cx R m i + hx R m / 2) (cy R m j) = βE at *
    generalize c.beta (cx R m i - hx R m / 2) (cy R m j) = βW at *
    generalize c.beta (cx R m i) (cy R m j + hy R m / 2) = βN at *
    generalize c.beta (cx R m i) (cy R m j - hy R m / 2) = βS at *
    generalize c.alpha (cx R m i) (cy R m j) = α at *
    generalize c.lambda (cx R m i) (cy R m j) = lam at *
    have split : (α * ((βE * (A + vE + q j - (A + p i + q j)) - βW * (A + p i + q j - (A + vW + q j))) / hx R m ^ 2 +
        (βN * (A + p i + vN - (A + p i + q j)) - βS * (A + p i + q j - (A + p i + vS))) / hy R m ^ 2) + lam * (A + p i + q j)) / α =
        (βE * (vE - p i) - βW * (p i - vW)) / hx R m ^ 2 + (βN * (vN - q j) - βS * (q j - vS)) / hy R m ^ 2 + lam / α * (A + p i + q j) := by
      field_simp
      ring
    rw [split]
    have z : lam / α * (A + p i + q j) ≤ 0 := mul_nonpos_of_nonpos_of_nonneg hla w0
    linarith only [row, col, z, hxy]

/-- The constant of the error bound. -/
noncomputable def fluxConst (R : Rect ℝ) (b0 B M L : ℝ) : ℝ :=
  (2 * (B * M) / b0 + M / 8) + (B * M * (1 + L) ^ 3 + B * M * (1 + L) / b0 * (2 * B / (R.xu - R.xl) + B) +
    B * M * (1 + L) / b0 * (2 * B / (R.yu - R.yl) + B)) * reach R b0 B +
    B * M * (1 + L) / b0 * (R.xu - R.xl) / 4 + B * M * (1 + L) / b0 * (R.yu - R.yl) / 4

/-- Second order: the error of the finite volume solution with boundary conditions `κ u + du/dn = r`, `κ ≥ 0`, on some sides and values
on the others, of which there is at least one. -/
theorem flux_error {c : FVSolver ℝ} {R : Rect ℝ} (hR : Proper R) (hc : EllipticOn c R) {b0 : ℝ} (h0 : 0 < b0)
    (hb : ∀ x y, Inside R x y → b0 ≤ c.beta x y) {u : ℝ → ℝ → ℝ} {Dx Dy Bx By : Nat → ℝ → ℝ → ℝ} {B M L : ℝ}
    (hβ : Derivs R c.beta Bx By B) (hu : Derivs R u Dx Dy M) {f : ℝ → ℝ → ℝ} (hf : Classical c R u Dx Dy Bx By f)
    (hLx : R.xu - R.xl ≤ L) (hLy : R.yu - R.yl ≤ L) {m : Nat} (hm : 2 ≤ m) {flux : Nat → Bool} {s0 : Nat} (hs0 : s0 < 4)
    (hv : flux s0 = false) {κ : Nat → Nat → ℝ} (hκ : ∀ s, s < 4 → flux s = true → ∀ k, k < m → 0 ≤ κ s k) {g : Bdry ℝ} {U : Nat → Nat → ℝ}
    (hU : RobinSolves c R m (fun s k => if flux s = true then κ s k else 1) (fun s _ => if flux s = true then 1 else 0)
      (fun s k => if flux s = true then κ s k * u (HPS.sidePoint R m s k).1 (HPS.sidePoint R m s k).2 +
        outward Dx Dy s (HPS.sidePoint R m s k).1 (HPS.sidePoint R m s k).2 else u (HPS.sidePoint R m s k).1 (HPS.sidePoint R m s k).2)
      (fun i j => f (cx R m i) (cy R m j)) g U) :
    ∀ i, i < m → ∀ j, j < m → |U i j - u (cx R m i) (cy R m j)| ≤ fluxConst R b0 B M L * (hx R m ^ 2 + hy R m ^ 2) := by
  have hm0 : 0 < m := by omega
  have hx0 := hx_pos hR hm0
  have hy0 := hy_pos hR hm0
  have B0 := hβ.nonneg hR
  have M0 := hu.nonneg hR
  have L0 : 0 < L := by have := hR.1; linarith
  have lx : 0 < R.xu - R.xl := by have := hR.1; linarith
  have ly : 0 < R.yu - R.yl := by have := hR.2; linarith
  have hB : ∀ x y, Inside R x y → c.beta x y ≤ B := by
    intro x y hxy
    have := (hβ.inX y ⟨hxy.2.2.1, hxy.2.2.2⟩).2 0 (by omega) x ⟨hxy.1, hxy.2.1⟩
    simp only [hβ.x0] at this
    exact (le_abs_self _).trans this
  have hl' : ∀ x y y', Inside R x y → Inside R x y' → |c.beta x y - c.beta x y'| ≤ B * |y - y'| := by
    have hs : Derivs (⟨R.yl, R.yu, R.xl, R.xu⟩ : Rect ℝ) (fun y x => c.beta x y) (fun k y x => By k x y) (fun k y x => Bx k x y) B :=
      ⟨by rw [hβ.y0], by rw [hβ.x0], hβ.inY, hβ.inX⟩
    exact fun x y y' a b => hs.lipschitz y y' x ⟨a.2.2.1, a.2.2.2, a.1, a.2.1⟩ ⟨b.2.2.1, b.2.2.2, b.1, b.2.1⟩
  obtain ⟨S, eS⟩ : ∃ S, S = hx R m ^ 2 + hy R m ^ 2 := ⟨_, rfl⟩
  have S0 : 0 < S := by rw [eS]; positivity
  have sx : hx R m ^ 2 ≤ S := by rw [eS]; have : 0 ≤ hy R m ^ 2 := by positivity
                                 linarith
  have sy : hy R m ^ 2 ≤ S := by rw [eS]; have : 0 ≤ hx R m ^ 2 := by positivity
                                 linarith
  obtain ⟨P, eP⟩ : ∃ P, P = B * M * (1 + L) / b0 * S := ⟨_, rfl⟩
  obtain ⟨A, eA⟩ : ∃ A, A = (2 * (B * M) / b0 + M / 8) * S := ⟨_, rfl⟩
  have P0 : 0 ≤ P := by rw [eP]; positivity
  have A0 : 0 ≤ A := by rw [eA]; positivity
  obtain ⟨T, eT⟩ : ∃ T, T = B * M * (1 + L) ^ 3 * S + P * (2 * B / (R.xu - R.xl) + B) + P * (2 * B / (R.yu - R.yl) + B) := ⟨_, rfl⟩
  have T0 : 0 ≤ T := by rw [eT]; positivity
  obtain ⟨G, w, hG, hGf, hw, hbal⟩ := flux_barrier hR hc h0 hb hB hβ.lipschitz hl' hm hs0 hv A0 T0 P0 P0
  have wp : WellPosed c R m (fun s k => if flux s = true then κ s k else 1) (fun s _ => if flux s = true then 1 else 0) := by
    refine ⟨fun s hs k hk => ?_, Or.inl ⟨s0, hs0, 0, hm0, ?_⟩⟩
    · by_cases h : flux s = true
      · have := hκ s hs h k hk
        simp only [if_pos h]
        exact ⟨this, by norm_num, by linarith⟩
      · simp only [if_neg h]
        norm_num
    · simp [hv]
  have key : ∀ σ : ℝ, |σ| = 1 → ∀ i, i < m → ∀ j, j < m → σ * (1 * U i j + -1 * u (cx R m i) (cy R m j)) + -1 * w i j ≤ 0 := by
    intro σ hσ
    refine robin_le hR hc wp (g := (g.lin 1 (-1) (fluxTrace flux R m u Dx Dy)).lin σ (-1) G)
      (u := fun i j => σ * (1 * U i j + -1 * u (cx R m i) (cy R m j)) + -1 * w i j) (M := 0) (r := fun s k => _) (f := fun i j => _)
      ⟨fun i _ j _ => rfl, fun s _ k _ => rfl⟩ ?_ ?_
    · intro s hs k hk
      rw [mul_zero, side_lin, side_lin,
        normalDeriv_lin R m σ (-1) (g.lin 1 (-1) (fluxTrace flux R m u Dx Dy)) G (fun i j => 1 * U i j + -1 * u (cx R m i) (cy R m j)) w,
        normalDeriv_lin R m 1 (-1) g (fluxTrace flux R m u Dx Dy) U (fun i j => u (cx R m i) (cy R m j))]
      have hU2 := hU.2 s hs k hk
      obtain ⟨t1, t2⟩ := fluxTrace_side hR hu hm0 flux hs hk
      by_cases h : flux s = true
      · obtain ⟨t3, t4⟩ := t2 h
        obtain ⟨G1, G2⟩ := hGf s hs h k hk
        have hk0 := hκ s hs h k hk
        simp only [if_pos h] at hU2 ⊢
        rw [t4]
        generalize (fluxTrace flux R m u Dx Dy).side s k = a at *
        generalize u (HPS.sidePoint R m s k).1 (HPS.sidePoint R m s k).2 = v at *
        generalize outward Dx Dy s (HPS.sidePoint R m s k).1 (HPS.sidePoint R m s k).2 = o at *
        have e : κ s k * (σ * (1 * g.side s k + -1 * a) + -1 * G.side s k) +
            1 * (σ * (1 * normalDeriv R m g U s k + -1 * o) + -1 * normalDeriv R m G w s k) =
            κ s k * (-σ * (a - v) - G.side s k) - normalDeriv R m G w s k := by linear_combination σ * hU2
        rw [e]
        have b1 : -σ * (a - v) ≤ M / 8 * S := by
          refine (le_abs_self _).trans ?_
          rw [abs_mul, abs_neg, hσ, one_mul, eS]
          exact t3
        have b2 : M / 8 * S ≤ A := by
          rw [eA]
          have : 0 ≤ 2 * (B * M) / b0 * S := by positivity
          linarith
        have := mul_nonpos_of_nonneg_of_nonpos hk0 (by linarith : -σ * (a - v) - G.side s k ≤ 0)
        linarith
      · have t3 := t1 (by simpa using h)
        have := hG s hs k hk
        simp only [if_neg h] at hU2 ⊢
        rw [t3]
        have e : g.side s k = u (HPS.sidePoint R m s k).1 (HPS.sidePoint R m s k).2 := by linarith
        rw [e]
        linarith
    · intro i hi j hj
      rw [mul_zero, sub_zero, balance_lin c R m m σ (-1) (g.lin 1 (-1) (fluxTrace flux R m u Dx Dy)) G
        (fun i j => 1 * U i j + -1 * u (cx R m i) (cy R m j)) w,
        balance_lin c R m m 1 (-1) g (fluxTrace flux R m u Dx Dy) U (fun i j => u (cx R m i) (cy R m j)), hU.1 i hi j hj]
      obtain ⟨fx1, fx2⟩ := cx_face hR hi
      obtain ⟨fy1, fy2⟩ := cy_face hR hj
      have ha := (hc (cx R m i) (cy R m j) ⟨by linarith, by linarith, by linarith, by linarith⟩).2.1
      have a := flux_balance_error hR hβ hu hf hm hLx hLy flux hi hj ha
      have b := hbal i hi j hj
      have c1 := endsAt_nonneg (!flux 0) (!flux 1) m i
      have c2 := endsAt_nonneg (flux 0) (flux 1) m i
      have c3 := endsAt_nonneg (!flux 2) (!flux 3) m j
      have c4 := endsAt_nonneg (flux 2) (flux 3) m j
      have kA : 4 * (B * M) * S ≤ 2 * b0 * A := by
        rw [eA]
        have : 2 * b0 * ((2 * (B * M) / b0 + M / 8) * S) = 4 * (B * M) * S + b0 * M / 4 * S := by field_simp; ring
        rw [this]
        have : 0 ≤ b0 * M / 4 * S := by positivity
        linarith
      have kP : B * M * (1 + L) * S = b0 * P := by rw [eP]; field_simp
      have k1 : 4 * (B * M) ≤ 2 * b0 * A / hx R m ^ 2 := by
        rw [le_div_iff₀ (by positivity)]
        exact (mul_le_mul_of_nonneg_left sx (by positivity)).trans kA
      have k2 : 4 * (B * M) ≤ 2 * b0 * A / hy R m ^ 2 := by
        rw [le_div_iff₀ (by positivity)]
        exact (mul_le_mul_of_nonneg_left sy (by positivity)).trans kA
      have k3 : B * M * (1 + L) * hx R m ≤ b0 * P / hx R m := by
        rw [le_div_iff₀ hx0, ← kP]
        have := mul_le_mul_of_nonneg_left sx (by positivity : 0 ≤ B * M * (1 + L))
        linarith
      have k4 : B * M * (1 + L) * hy R m ≤ b0 * P / hy R m := by
        rw [le_div_iff₀ hy0, ← kP]
        have := mul_le_mul_of_nonneg_left sy (by positivity : 0 ≤ B * M * (1 + L))
        linarith
      have m1 := mul_le_mul_of_nonneg_right k1 c1
      have m2 := mul_le_mul_of_nonneg_right k2 c3
      have m3 := mul_le_mul_of_nonneg_right k3 c2
      have m4 := mul_le_mul_of_nonneg_right k4 c4
      rw [← eS] at a
      beta_reduce
      generalize balance c R m m (fluxTrace flux R m u Dx Dy) (fun i j => u (cx R m i) (cy R m j)) i j = X at *
      generalize balance c R m m G w i j = Y at *
      generalize c.alpha (cx R m i) (cy R m j) = α at *
      generalize f (cx R m i) (cy R m j) = F at *
      have e1 : (σ * (1 * F + -1 * X) + -1 * Y) / α = σ * ((F - X) / α) - Y / α := by ring
      rw [e1]
      have a' : -(σ * ((F - X) / α)) ≤ |(F - X) / α| := by
        refine (neg_le_abs _).trans (le_of_eq ?_)
        rw [abs_mul, hσ, one_mul]
      rw [eT] at b
      linarith only [a, a', b, m1, m2, m3, m4]
  intro i hi j hj
  have k1 := key 1 (by norm_num) i hi j hj
  have k2 := key (-1) (by norm_num) i hi j hj
  obtain ⟨_, w2⟩ := hw i hi j hj
  have e : A + T * reach R b0 B + P * (R.xu - R.xl) / 4 + P * (R.yu - R.yl) / 4 = fluxConst R b0 B M L * S := by
    rw [eT, eA, eP]
    unfold fluxConst
    ring
  rw [e] at w2
  rw [← eS, abs_le]
  constructor <;> linarith

end FV
end EF
