import Verif.Proofs.Converge

/-!
# The error of the finite volume solution from below

At a boundary cell the flux balance of a smooth function misses the differential equation by a quarter of `beta` times its second
derivative across the side, up to a multiple of the cell width.  The balance of an error below a small multiple of the square of the
cell width would be smaller.
-/

namespace EF
namespace FV

open Set

theorem taylorCubic {n : Nat} {F : Nat → ℝ → ℝ} {h M : ℝ} (hF : Smooth n F (Icc 0 h) M) (hh : 0 ≤ h) (hn : 3 ≤ n := by omega) :
    |F 0 h - (F 0 0 + h * F 1 0 + h ^ 2 / 2 * F 2 0)| ≤ M * h ^ 3 / 6 := by
  have e2 := fence (F := fun s => F 2 s - F 2 0) (F' := F 3) (h := h) (C := M) 0 (by simp)
    (fun x hx => (hF.1 2 (by omega) x hx).sub_const _) (fun x hx => by simpa using hF.2 3 (by omega) x hx)
  have e1 := fence (F := fun s => F 1 s - F 1 0 - s * F 2 0) (F' := fun s => F 2 s - F 2 0) (h := h) (C := M) 1 (by simp)
    (fun x hx => by
      have := ((hF.1 1 (by omega) x hx).sub_const (F 1 0)).sub ((hasDerivWithinAt_id x (Icc 0 h)).mul_const (F 2 0))
      exact this.congr_deriv (by simp)) (fun x hx => by simpa using e2 x hx)
  have e0 := fence (F := fun s => F 0 s - F 0 0 - s * F 1 0 - s ^ 2 / 2 * F 2 0) (F' := fun s => F 1 s - F 1 0 - s * F 2 0) (h := h)
    (C := M / 2) 2 (by simp)
    (fun x hx => by
      have := (((hF.1 0 (by omega) x hx).sub_const (F 0 0)).sub ((hasDerivWithinAt_id x (Icc 0 h)).mul_const (F 1 0))).sub
        ((((hasDerivAt_pow 2 x).div_const 2).mul_const (F 2 0)).hasDerivWithinAt (s := Icc 0 h))
      exact this.congr_deriv (by simp)) (fun x hx => by
      have := e1 x hx
      norm_num at this
      linarith)
  have := e0 h ⟨hh, le_rfl⟩
  norm_num at this
  rw [show F 0 h - (F 0 0 + h * F 1 0 + h ^ 2 / 2 * F 2 0) = F 0 h - F 0 0 - h * F 1 0 - h ^ 2 / 2 * F 2 0 by ring]
  linarith

/-- The flux difference of a smooth function in the first cell of a row. -/
theorem flux_lower_sharp {β φ : Nat → ℝ → ℝ} {lo hi B M a h : ℝ} (hβ : Smooth 4 β (Icc lo hi) B) (hφ : Smooth 4 φ (Icc lo hi) M)
    (hh : 0 ≤ h) (h1 : lo ≤ a - h / 2) (h2 : a + h ≤ hi) :
    |β 0 (a + h / 2) * (φ 0 (a + h) - φ 0 a) - β 0 (a - h / 2) * (φ 0 a - (2 * φ 0 (a - h / 2) - φ 0 a)) -
      h ^ 2 * (β 1 a * φ 1 a + β 0 a * φ 2 a - β 0 a * φ 2 a / 4)| ≤ B * M * h ^ 3 := by
  have ha : a ∈ Icc lo hi := ⟨by linarith, by linarith⟩
  have B0 : 0 ≤ B := (abs_nonneg _).trans (hβ.2 0 (by omega) a ha)
  have M0 : 0 ≤ M := (abs_nonneg _).trans (hφ.2 0 (by omega) a ha)
  have tp := taylorCubic (hφ.right (by linarith : lo ≤ a) h2) hh
  have tm := taylorCubic (hφ.left h1 (by linarith : a ≤ hi)) (by linarith)
  have bp := taylor2 (hβ.right (a := a) (h := h / 2) (by linarith) (by linarith)) (by linarith)
  have bm := taylor2 (hβ.left h1 (by linarith : a ≤ hi)) (by linarith)
  have cp := taylor1 (hβ.right (a := a) (h := h / 2) (by linarith) (by linarith)) (by linarith)
  have cm := taylor1 (hβ.left h1 (by linarith : a ≤ hi)) (by linarith)
  simp only [add_zero, sub_zero, pow_zero, one_mul, pow_one] at tp tm bp bm cp cm
  obtain ⟨q1, hq1⟩ : ∃ q, q = φ 0 (a + h) - (φ 0 a + h * φ 1 a + h ^ 2 / 2 * φ 2 a) := ⟨_, rfl⟩
  obtain ⟨q2, hq2⟩ : ∃ q, q = φ 0 (a - h / 2) - (φ 0 a + h / 2 * (-1 * φ 1 a) + (h / 2) ^ 2 / 2 * ((-1) ^ 2 * φ 2 a)) := ⟨_, rfl⟩
  obtain ⟨r1, hr1⟩ : ∃ q, q = β 0 (a + h / 2) - (β 0 a + h / 2 * β 1 a) := ⟨_, rfl⟩
  obtain ⟨r2, hr2⟩ : ∃ q, q = β 0 (a - h / 2) - (β 0 a + h / 2 * (-1 * β 1 a)) := ⟨_, rfl⟩
  rw [← hq1] at tp
  rw [← hq2] at tm
  rw [← hr1] at bp
  rw [← hr2] at bm
  have f1 := hφ.2 1 (by omega) a ha
  have f2 := hφ.2 2 (by omega) a ha
  have c1 := hβ.2 0 (by omega) (a + h / 2) ⟨by linarith, by linarith⟩
  have c2 := hβ.2 0 (by omega) (a - h / 2) ⟨by linarith, by linarith⟩
  have id : β 0 (a + h / 2) * (φ 0 (a + h) - φ 0 a) - β 0 (a - h / 2) * (φ 0 a - (2 * φ 0 (a - h / 2) - φ 0 a)) -
      h ^ 2 * (β 1 a * φ 1 a + β 0 a * φ 2 a - β 0 a * φ 2 a / 4) =
      h * (φ 1 a * (r1 - r2)) + h ^ 2 * (φ 2 a * ((β 0 (a + h / 2) - β 0 a) / 2 + (β 0 (a - h / 2) - β 0 a) / 4)) +
        β 0 (a + h / 2) * q1 + 2 * (β 0 (a - h / 2) * q2) := by
    rw [hq1, hq2, hr1, hr2]
    ring
  rw [id]
  have mul_le : ∀ {x y X Y : ℝ}, |x| ≤ X → |y| ≤ Y → 0 ≤ X → |x * y| ≤ X * Y := by
    intro x y X Y hx hy h0
    rw [abs_mul]
    exact mul_le_mul hx hy (abs_nonneg _) h0
  have d1 : |r1 - r2| ≤ B * h ^ 2 / 4 := by
    refine (abs_sub _ _).trans ((add_le_add bp bm).trans (le_of_eq (by ring)))
  have d2 : |(β 0 (a + h / 2) - β 0 a) / 2 + (β 0 (a - h / 2) - β 0 a) / 4| ≤ B * h * (3 / 8) := by
    refine (abs_add_le _ _).trans ?_
    rw [abs_div, abs_div, abs_two, abs_of_pos (by norm_num : (0 : ℝ) < 4)]
    linarith
  have t1 : |h * (φ 1 a * (r1 - r2))| ≤ h * (M * (B * h ^ 2 / 4)) := mul_le (abs_of_nonneg hh).le (mul_le f1 d1 M0) hh
  have t2 : |h ^ 2 * (φ 2 a * ((β 0 (a + h / 2) - β 0 a) / 2 + (β 0 (a - h / 2) - β 0 a) / 4))| ≤ h ^ 2 * (M * (B * h * (3 / 8))) :=
    mul_le (abs_of_nonneg (by positivity)).le (mul_le f2 d2 M0) (by positivity)
  have t3 := mul_le c1 tp B0
  have t4 : |2 * (β 0 (a - h / 2) * q2)| ≤ 2 * (B * (M * (h / 2) ^ 3 / 6)) := mul_le (by norm_num) (mul_le c2 tm B0) (by norm_num)
  refine (abs_add_le _ _).trans ((add_le_add ((abs_add_le _ _).trans (add_le_add ((abs_add_le _ _).trans (add_le_add t1 t2)) t3)) t4).trans ?_)
  have : 0 ≤ B * M * h ^ 3 := by positivity
  nlinarith

/-- The flux balance of a small grid function with zero boundary values. -/
theorem balance_small {c : FVSolver ℝ} {R : Rect ℝ} (hR : Proper R) (hE : EllipticOn c R) {B Λ : ℝ}
    (hB : ∀ x y, Inside R x y → |c.beta x y| ≤ B) (hΛ : ∀ x y, Inside R x y → |c.lambda x y / c.alpha x y| ≤ Λ) {m : Nat}
    {g : Bdry ℝ} (hg : ∀ k, k < m → g.W k = 0 ∧ g.E k = 0 ∧ g.S k = 0 ∧ g.N k = 0) {e : Nat → Nat → ℝ} {ε : ℝ}
    (he : ∀ i, i < m → ∀ j, j < m → |e i j| ≤ ε) {i j : Nat} (hi : i < m) (hj : j < m) :
    |balance c R m m g e i j / c.alpha (cx R m i) (cy R m j)| ≤ (4 * B / hx R m ^ 2 + 4 * B / hy R m ^ 2 + Λ) * ε := by
  have hm0 : 0 < m := by omega
  have hx0 := hx_pos hR hm0
  have hy0 := hy_pos hR hm0
  obtain ⟨fx1, fx2⟩ := cx_face hR hi
  obtain ⟨fy1, fy2⟩ := cy_face hR hj
  have ε0 : 0 ≤ ε := (abs_nonneg _).trans (he i hi j hj)
  have inn : Inside R (cx R m i) (cy R m j) := ⟨by linarith, by linarith, by linarith, by linarith⟩
  have ha := (hE _ _ inn).2.1
  have b1 := hB (cx R m i + hx R m / 2) (cy R m j) ⟨by linarith, by linarith, by linarith, by linarith⟩
  have b2 := hB (cx R m i - hx R m / 2) (cy R m j) ⟨by linarith, by linarith, by linarith, by linarith⟩
  have b3 := hB (cx R m i) (cy R m j + hy R m / 2) ⟨by linarith, by linarith, by linarith, by linarith⟩
  have b4 := hB (cx R m i) (cy R m j - hy R m / 2) ⟨by linarith, by linarith, by linarith, by linarith⟩
  have B0 : 0 ≤ B := (abs_nonneg _).trans b1
  have lm := hΛ _ _ inn
  have e0 := he i hi j hj
  have ew : |west g e i j| ≤ ε := by
    unfold west
    split_ifs
    · rw [(hg j hj).1, mul_zero, zero_sub, abs_neg]; exact e0
    · exact he _ (by omega) _ hj
  have ee : |east m g e i j| ≤ ε := by
    unfold east
    split_ifs
    · rw [(hg j hj).2.1, mul_zero, zero_sub, abs_neg]; exact e0
    · exact he _ (by omega) _ hj
  have es : |south g e i j| ≤ ε := by
    unfold south
    split_ifs
    · rw [(hg i hi).2.2.1, mul_zero, zero_sub, abs_neg]; exact e0
    · exact he _ hi _ (by omega)
  have en : |north m g e i j| ≤ ε := by
    unfold north
    split_ifs
    · rw [(hg i hi).2.2.2, mul_zero, zero_sub, abs_neg]; exact e0
    · exact he _ hi _ (by omega)
  have mul_le : ∀ {x y X Y : ℝ}, |x| ≤ X → |y| ≤ Y → 0 ≤ X → |x * y| ≤ X * Y := by
    intro x y X Y hx hy h0
    rw [abs_mul]
    exact mul_le_mul hx hy (abs_nonneg _) h0
  have two : ∀ {x y : ℝ}, |x| ≤ ε → |y| ≤ ε → |x - y| ≤ 2 * ε := fun h1 h2 => (abs_sub _ _).trans (by linarith)
  have side : ∀ {p q s t h : ℝ}, |p| ≤ B → |q| ≤ B → |s| ≤ ε → |t| ≤ ε → 0 < h →
      |(p * (s - e i j) - q * (e i j - t)) / h ^ 2| ≤ 4 * B / h ^ 2 * ε := by
    intro p q s t h hp hq hs ht hh
    rw [abs_div, abs_of_pos (by positivity : 0 < h ^ 2), div_le_iff₀ (by positivity)]
    have := (abs_sub _ _).trans (add_le_add (mul_le hp (two hs e0) B0) (mul_le hq (two e0 ht) B0))
    refine this.trans (le_of_eq ?_)
    field_simp
    ring
  have sx := side b1 b2 ee ew hx0
  have sy := side b3 b4 en es hy0
  have sl := mul_le lm e0 ((abs_nonneg _).trans lm)
  have id : balance c R m m g e i j / c.alpha (cx R m i) (cy R m j) =
      (c.beta (cx R m i + hx R m / 2) (cy R m j) * (east m g e i j - e i j) -
        c.beta (cx R m i - hx R m / 2) (cy R m j) * (e i j - west g e i j)) / hx R m ^ 2 +
      (c.beta (cx R m i) (cy R m j + hy R m / 2) * (north m g e i j - e i j) -
        c.beta (cx R m i) (cy R m j - hy R m / 2) * (e i j - south g e i j)) / hy R m ^ 2 +
      c.lambda (cx R m i) (cy R m j) / c.alpha (cx R m i) (cy R m j) * e i j := by
    unfold balance
    dsimp only
    generalize (c.beta (cx R m i + hx R m / 2) (cy R m j) * (east m g e i j - e i j) -
        c.beta (cx R m i - hx R m / 2) (cy R m j) * (e i j - west g e i j)) / hx R m ^ 2 = X
    generalize (c.beta (cx R m i) (cy R m j + hy R m / 2) * (north m g e i j - e i j) -
        c.beta (cx R m i) (cy R m j - hy R m / 2) * (e i j - south g e i j)) / hy R m ^ 2 = Y
    field_simp
  rw [id]
  refine (abs_add_le _ _).trans ((add_le_add ((abs_add_le _ _).trans (add_le_add sx sy)) sl).trans (le_of_eq ?_))
  ring

/-- The flux balance of a smooth function in the second cell of the West side. -/
theorem balance_west {c : FVSolver ℝ} {R : Rect ℝ} (hR : Proper R) {u : ℝ → ℝ → ℝ} {Dx Dy Bx By : Nat → ℝ → ℝ → ℝ} {B M L : ℝ}
    (hβ : Derivs R c.beta Bx By B) (hu : Derivs R u Dx Dy M) {f : ℝ → ℝ → ℝ} (hf : Classical c R u Dx Dy Bx By f) {m : Nat} (hm : 3 ≤ m)
    (hLx : R.xu - R.xl ≤ L) (hLy : R.yu - R.yl ≤ L) (ha : c.alpha (cx R m 0) (cy R m 1) ≠ 0) :
    |(f (cx R m 0) (cy R m 1) - balance c R m m (trace R m u) (fun i j => u (cx R m i) (cy R m j)) 0 1) /
        c.alpha (cx R m 0) (cy R m 1) - c.beta (cx R m 0) (cy R m 1) * Dx 2 (cx R m 0) (cy R m 1) / 4| ≤
      B * M * hx R m + B * M * (1 + L) ^ 3 * hy R m ^ 2 := by
  have hm0 : 0 < m := by omega
  have hx0 := hx_pos hR hm0
  have hy0 := hy_pos hR hm0
  have hm1 : (1 : ℝ) ≤ m := by exact_mod_cast hm0
  have hm3 : (3 : ℝ) ≤ m := by exact_mod_cast hm
  have hxm : hx R m * m = R.xu - R.xl := by unfold hx; field_simp
  have hym : hy R m * m = R.yu - R.yl := by unfold hy; field_simp
  have hyL : hy R m ≤ L := by nlinarith
  obtain ⟨fx1, fx2⟩ := cx_face hR (show 0 < m by omega)
  obtain ⟨fy1, fy2⟩ := cy_face hR (show 1 < m by omega)
  have ix : cx R m 0 ∈ Icc R.xl R.xu := ⟨by linarith, by linarith⟩
  have iy : cy R m 1 ∈ Icc R.yl R.yu := ⟨by linarith, by linarith⟩
  have B0 := hβ.nonneg hR
  have M0 := hu.nonneg hR
  have e0 : cx R m 0 - hx R m / 2 = R.xl := by unfold cx; push_cast; ring
  have e1 : cx R m 1 = cx R m 0 + hx R m := by unfold cx; push_cast; ring
  have rx := flux_lower_sharp (hβ.inX _ iy) (hu.inX _ iy) (a := cx R m 0) hx0.le fx1 (by
    have h3 : cx R m 0 = R.xl + hx R m / 2 := by linarith
    have h4 : hx R m * 3 ≤ hx R m * m := mul_le_mul_of_nonneg_left hm3 hx0.le
    linarith)
  have ry := row_error (hβ.inY _ ix) (hu.inY _ ix) hy0 hyL (by omega) (by linarith) (show 1 < m by omega) B0 M0
  have z : ends m 1 = 0 := by
    unfold ends
    rw [if_neg one_ne_zero, if_neg (by omega : ¬ 1 + 1 = m), add_zero]
  rw [z, mul_zero, add_zero] at ry
  simp only [hβ.x0, hβ.y0, hu.x0, hu.y0] at rx ry
  rw [← hf _ _ ⟨ix.1, ix.2, iy.1, iy.2⟩]
  unfold balance east west north south trace
  dsimp only
  rw [if_neg (by omega : ¬ 0 + 1 = m), if_pos rfl, zero_add, e1]
  rw [e0] at rx ⊢
  have ecy : ∀ k : Nat, cy R m k = R.yl + ((k : ℝ) + 1 / 2) * hy R m := fun k => rfl
  rw [← ecy 1, ← ecy (1 + 1), ← ecy (1 - 1)] at ry
  generalize (if 1 + 1 = m then 2 * u (cx R m 0) R.yu - u (cx R m 0) (cy R m 1) else u (cx R m 0) (cy R m (1 + 1))) = uN at *
  generalize (if 1 = 0 then 2 * u (cx R m 0) R.yl - u (cx R m 0) (cy R m 1) else u (cx R m 0) (cy R m (1 - 1))) = uS at *
  generalize c.beta (cx R m 0 + hx R m / 2) (cy R m 1) * (u (cx R m 0 + hx R m) (cy R m 1) - u (cx R m 0) (cy R m 1)) -
    c.beta R.xl (cy R m 1) * (u (cx R m 0) (cy R m 1) - (2 * u R.xl (cy R m 1) - u (cx R m 0) (cy R m 1))) = X at *
  have rx' : |X / hx R m ^ 2 - (Bx 1 (cx R m 0) (cy R m 1) * Dx 1 (cx R m 0) (cy R m 1) +
      c.beta (cx R m 0) (cy R m 1) * Dx 2 (cx R m 0) (cy R m 1) - c.beta (cx R m 0) (cy R m 1) * Dx 2 (cx R m 0) (cy R m 1) / 4)| ≤
      B * M * hx R m := by
    have e : ∀ D : ℝ, X / hx R m ^ 2 - D = (X - hx R m ^ 2 * D) / hx R m ^ 2 := by intro D; field_simp
    rw [e, abs_div, abs_of_pos (by positivity : 0 < hx R m ^ 2), div_le_iff₀ (by positivity)]
    refine rx.trans (le_of_eq (by ring))
  have e : ∀ al X Y P Q l b : ℝ, al ≠ 0 → (al * (P + Q) + l - (al * (X + Y) + l)) / al - b = -(X - (P - b)) - (Y - Q) := by
    intro al X Y P Q l b h
    field_simp
    ring
  rw [e _ _ _ _ _ _ _ ha]
  refine (abs_sub _ _).trans ?_
  rw [abs_neg]
  exact add_le_add rx' ry

theorem sharp_left {B W V Λ S q n : ℝ} (hn : 1 ≤ n) (W0 : 0 < W) (V0 : 0 < V) (B0 : 0 ≤ B) (Λ0 : 0 ≤ Λ) (q0 : 0 ≤ q)
    (hS : S = 4 * B / W ^ 2 + 4 * B / V ^ 2 + Λ + 1) :
    (4 * B / (W / n) ^ 2 + 4 * B / (V / n) ^ 2 + Λ) * (q / (16 * S) / n ^ 2) ≤ q / 16 := by
  have hn0 : 0 < n := by linarith
  have p1 : 0 ≤ 4 * B / W ^ 2 := by positivity
  have p2 : 0 ≤ 4 * B / V ^ 2 := by positivity
  have S0 : 0 < S := by linarith
  have n2 : 1 ≤ n ^ 2 := by nlinarith
  have e1 : 4 * B / (W / n) ^ 2 + 4 * B / (V / n) ^ 2 + Λ ≤ S * n ^ 2 := by
    have e : 4 * B / (W / n) ^ 2 + 4 * B / (V / n) ^ 2 = (4 * B / W ^ 2 + 4 * B / V ^ 2) * n ^ 2 := by field_simp
    have l : Λ * 1 ≤ Λ * n ^ 2 := mul_le_mul_of_nonneg_left n2 Λ0
    rw [e, hS]
    linarith
  have e2 : 0 ≤ q / (16 * S) / n ^ 2 := by positivity
  refine (mul_le_mul_of_nonneg_right e1 e2).trans (le_of_eq ?_)
  field_simp

theorem sharp_right {X Y Z W V n : ℝ} (hn : 1 ≤ n) (hX : 0 ≤ X * W) (hZ : 0 ≤ Z) (hV : 0 ≤ V ^ 2) :
    X * (W / n / 2) + (Y * (W / n) + Z * (V / n) ^ 2) ≤ (X * W + Y * W + Z * V ^ 2) / n := by
  have hn0 : 0 < n := by linarith
  rw [le_div_iff₀ hn0]
  have t1 : (V / n) ^ 2 * n ≤ V ^ 2 := by
    have e : (V / n) ^ 2 * n = V ^ 2 / n := by field_simp
    rw [e, div_le_iff₀ hn0]
    have := mul_le_mul_of_nonneg_left hn hV
    linarith
  have t2 := mul_le_mul_of_nonneg_left t1 hZ
  have e : (X * (W / n / 2) + (Y * (W / n) + Z * (V / n) ^ 2)) * n = X * W / 2 + Y * W + Z * ((V / n) ^ 2 * n) := by
    field_simp
    ring
  rw [e]
  linarith

/-- The error of the finite volume solution is at least a constant over the square of the number of cells per side in some cell, on
all grids from some size on. -/
theorem error_below {c : FVSolver ℝ} {R : Rect ℝ} (hR : Proper R) (hE : EllipticOn c R) {u : ℝ → ℝ → ℝ}
    {Dx Dy Bx By : Nat → ℝ → ℝ → ℝ} {B M b0 Λ μ : ℝ} (h0 : 0 < b0) (hb : ∀ x y, Inside R x y → b0 ≤ c.beta x y)
    (hβ : Derivs R c.beta Bx By B) (hu : Derivs R u Dx Dy M) {f : ℝ → ℝ → ℝ} (hf : Classical c R u Dx Dy Bx By f)
    (hΛ : ∀ x y, Inside R x y → |c.lambda x y / c.alpha x y| ≤ Λ) (hμ0 : 0 < μ)
    (hμ : ∀ y ∈ Icc R.yl R.yu, μ ≤ |Dx 2 R.xl y|) :
    ∃ C, 0 < C ∧ ∃ m0 : Nat, ∀ m, m0 ≤ m → ∀ g : Bdry ℝ,
      (∀ k, k < m → g.W k = (trace R m u).W k ∧ g.E k = (trace R m u).E k ∧ g.S k = (trace R m u).S k ∧ g.N k = (trace R m u).N k) →
      ∀ U : Nat → Nat → ℝ, Solves c R m m g (fun i j => f (cx R m i) (cy R m j)) U →
      ∃ i, i < m ∧ ∃ j, j < m ∧ C / m ^ 2 ≤ |U i j - u (cx R m i) (cy R m j)| := by
  have B0 := hβ.nonneg hR
  have M0 := hu.nonneg hR
  obtain ⟨W, hW⟩ : ∃ W, W = R.xu - R.xl := ⟨_, rfl⟩
  obtain ⟨V, hV⟩ : ∃ V, V = R.yu - R.yl := ⟨_, rfl⟩
  have W0 : 0 < W := by have := hR.1; linarith
  have V0 : 0 < V := by have := hR.2; linarith
  have Λ0 : 0 ≤ Λ := (abs_nonneg _).trans (hΛ R.xl R.yl ⟨le_rfl, hR.1.le, le_rfl, hR.2.le⟩)
  obtain ⟨S, hS⟩ : ∃ S, S = 4 * B / W ^ 2 + 4 * B / V ^ 2 + Λ + 1 := ⟨_, rfl⟩
  have S0 : 0 < S := by rw [hS]; positivity
  obtain ⟨Q, hQ⟩ : ∃ Q, Q = b0 * M * W + B * M * W + B * M * (1 + (W + V)) ^ 3 * V ^ 2 := ⟨_, rfl⟩
  have Q0 : 0 ≤ Q := by rw [hQ]; positivity
  have hBn : ∀ x y, Inside R x y → |c.beta x y| ≤ B := by
    intro x y h
    have := (hβ.inX y ⟨h.2.2.1, h.2.2.2⟩).2 0 (by omega) x ⟨h.1, h.2.1⟩
    simpa only [hβ.x0] using this
  refine ⟨b0 * μ / (16 * S), by positivity, max 3 (⌈8 * Q / (b0 * μ)⌉₊ + 1), fun m hm g hg U hU => ?_⟩
  have hm3 : 3 ≤ m := (le_max_left _ _).trans hm
  have hm0 : 0 < m := by omega
  have hmQ : 8 * Q / (b0 * μ) < m := by
    have h1 := Nat.le_ceil (8 * Q / (b0 * μ))
    have h2 : ((⌈8 * Q / (b0 * μ)⌉₊ + 1 : Nat) : ℝ) ≤ m := by exact_mod_cast (le_max_right _ _).trans hm
    push_cast at h2
    linarith
  have hm1 : (1 : ℝ) ≤ m := by exact_mod_cast hm0
  have hmp : (0 : ℝ) < m := by linarith
  have hx0 := hx_pos hR hm0
  have hy0 := hy_pos hR hm0
  have hxe : hx R m = W / m := by rw [hW]; rfl
  have hye : hy R m = V / m := by rw [hV]; rfl
  by_contra hno
  push Not at hno
  have small := balance_small hR hE hBn hΛ (m := m) (g := g.lin 1 (-1) (trace R m u))
    (e := fun i j => 1 * U i j + -1 * u (cx R m i) (cy R m j)) (ε := b0 * μ / (16 * S) / m ^ 2) (by
      intro k hk
      obtain ⟨a, b, c, d⟩ := hg k hk
      simp only [Bdry.lin, a, b, c, d]
      refine ⟨by ring, by ring, by ring, by ring⟩) (by
      intro i hi j hj
      rw [show 1 * U i j + -1 * u (cx R m i) (cy R m j) = U i j - u (cx R m i) (cy R m j) by ring]
      exact (hno i hi j hj).le) (i := 0) (j := 1) (by omega) (by omega)
  obtain ⟨fx1, fx2⟩ := cx_face hR (show 0 < m by omega)
  obtain ⟨fy1, fy2⟩ := cy_face hR (show 1 < m by omega)
  have inn : Inside R (cx R m 0) (cy R m 1) := ⟨by linarith, by linarith, by linarith, by linarith⟩
  have ha := (hE _ _ inn).2.1
  have west := balance_west hR hβ hu hf hm3 (L := W + V) (by linarith) (by linarith) ha
  rw [balance_lin c R m m 1 (-1) g (trace R m u) U (fun i j => u (cx R m i) (cy R m j)), hU 0 (by omega) 1 (by omega), one_mul,
    neg_one_mul, ← sub_eq_add_neg] at small
  generalize (f (cx R m 0) (cy R m 1) - balance c R m m (trace R m u) (fun i j => u (cx R m i) (cy R m j)) 0 1) /
    c.alpha (cx R m 0) (cy R m 1) = r at *
  -- the second derivative at the cell centre
  have d2 : |Dx 2 (cx R m 0) (cy R m 1) - Dx 2 R.xl (cy R m 1)| ≤ M * (hx R m / 2) := by
    have sm := hu.inX (cy R m 1) ⟨by linarith, by linarith⟩
    have e0 : cx R m 0 = R.xl + hx R m / 2 := by unfold cx; push_cast; ring
    have s2 : Smooth 2 (fun k x => Dx (k + 2) x (cy R m 1)) (Icc R.xl R.xu) M :=
      ⟨fun k hk x hx => sm.1 (k + 2) (by omega) x hx, fun k hk x hx => sm.2 (k + 2) (by omega) x hx⟩
    have := taylor1 (s2.right (a := R.xl) (h := hx R m / 2) le_rfl (by linarith)) (by linarith)
    simpa only [add_zero, ← e0, zero_add] using this
  have d3 := hμ (cy R m 1) ⟨by linarith, by linarith⟩
  have d4 : μ - M * (hx R m / 2) ≤ |Dx 2 (cx R m 0) (cy R m 1)| := by
    have := abs_sub_abs_le_abs_sub (Dx 2 R.xl (cy R m 1)) (Dx 2 (cx R m 0) (cy R m 1))
    rw [abs_sub_comm] at this
    linarith
  have bb := hb _ _ inn
  have d5 : b0 * (μ - M * (hx R m / 2)) ≤ |c.beta (cx R m 0) (cy R m 1) * Dx 2 (cx R m 0) (cy R m 1)| := by
    rw [abs_mul, abs_of_pos (h0.trans_le bb)]
    have : b0 * |Dx 2 (cx R m 0) (cy R m 1)| ≤ c.beta (cx R m 0) (cy R m 1) * |Dx 2 (cx R m 0) (cy R m 1)| :=
      mul_le_mul_of_nonneg_right bb (abs_nonneg _)
    have := mul_le_mul_of_nonneg_left d4 h0.le
    linarith
  have d6 : |c.beta (cx R m 0) (cy R m 1) * Dx 2 (cx R m 0) (cy R m 1)| / 4 ≤ |r| + (B * M * hx R m + B * M * (1 + (W + V)) ^ 3 * hy R m ^ 2) := by
    have := abs_sub_abs_le_abs_sub (c.beta (cx R m 0) (cy R m 1) * Dx 2 (cx R m 0) (cy R m 1) / 4) r
    rw [abs_sub_comm, abs_div, abs_of_pos (by norm_num : (0 : ℝ) < 4)] at this
    linarith
  -- the two estimates exclude each other
  have s1 : (4 * B / hx R m ^ 2 + 4 * B / hy R m ^ 2 + Λ) * (b0 * μ / (16 * S) / m ^ 2) ≤ b0 * μ / 16 := by
    rw [hxe, hye]
    exact sharp_left hm1 W0 V0 B0 Λ0 (by positivity) hS
  have s2 : b0 * M * (hx R m / 2) + (B * M * hx R m + B * M * (1 + (W + V)) ^ 3 * hy R m ^ 2) ≤ Q / m := by
    rw [hxe, hye, hQ]
    exact sharp_right hm1 (by positivity) (by positivity) (by positivity)
  have s3 : Q / m < b0 * μ / 8 := by
    rw [div_lt_iff₀ (by positivity)] at hmQ
    rw [div_lt_iff₀ hmp]
    nlinarith
  have s4 := small.trans s1
  have p : 0 < b0 * μ := by positivity
  have : b0 * (μ - M * (hx R m / 2)) = b0 * μ - b0 * M * (hx R m / 2) := by ring
  have q : 0 ≤ b0 * M * (hx R m / 2) := by positivity
  linarith

end FV
end EF
