import Verif.Proofs.Converge
import Verif.Spec.Robin

/-!
# Fluxes on the South and North side: the error of flux differences and a barrier
-/

namespace EF
namespace FV

open Set

theorem taylor3 {n : Nat} {F : Nat → ℝ → ℝ} {h M : ℝ} (hF : Smooth n F (Icc 0 h) M) (hh : 0 ≤ h) (hn : 3 ≤ n := by omega) :
    |F 0 h - (F 0 0 + h * F 1 0 + h ^ 2 / 2 * F 2 0)| ≤ M * h ^ 3 / 6 := by
  have e2 := fence (F := fun s => F 2 s - F 2 0) (F' := F 3) (h := h) (C := M) 0 (by simp)
    (fun x hx => (hF.1 2 (by omega) x hx).sub_const _) (fun x hx => by simpa using hF.2 3 (by omega) x hx)
  have e1 := fence (F := fun s => F 1 s - F 1 0 - s * F 2 0) (F' := fun s => F 2 s - F 2 0) (h := h) (C := M) 1 (by simp)
    (fun x hx => by
      have := ((hF.1 1 (by omega) x hx).sub_const (F 1 0)).sub ((hasDerivWithinAt_id x (Icc 0 h)).mul_const (F 2 0))
      exact this.congr_deriv (by simp)) (fun x hx => by simpa using e2 x hx)
  have e0 := fence (F := fun s => F 0 s - F 0 0 - s * F 1 0 - s ^ 2 / 2 * F 2 0) (F' := fun s => F 1 s - F 1 0 - s * F 2 0) (h := h)
    (C := M / 2) 2 (by simp)
    (fun x hx => by
      have := (((hF.1 0 (by omega) x hx).sub_const (F 0 0)).sub ((hasDerivWithinAt_id x (Icc 0 h)).mul_const (F 1 0))).sub
        ((((hasDerivAt_pow 2 x).div_const 2).mul_const (F 2 0)).hasDerivWithinAt (s := Icc 0 h))
      exact this.congr_deriv (by simp)) (fun x hx => by
        have := e1 x hx
        norm_num at this ⊢
        linarith)
  have := e0 h ⟨hh, le_rfl⟩
  norm_num at this
  rw [show F 0 h - (F 0 0 + h * F 1 0 + h ^ 2 / 2 * F 2 0) = F 0 h - F 0 0 - h * F 1 0 - h ^ 2 / 2 * F 2 0 by ring]
  linarith

/-- The derivatives without the function. -/
theorem Smooth.tail {n : Nat} {F : Nat → ℝ → ℝ} {S : Set ℝ} {M : ℝ} (hF : Smooth (n + 1) F S M) : Smooth n (fun k => F (k + 1)) S M :=
  ⟨fun k hk x hx => hF.1 (k + 1) (by omega) x hx, fun k hk x hx => hF.2 (k + 1) (by omega) x hx⟩

/-- The difference of two fluxes where the lower one is given by the derivative. -/
theorem flux_lower_slope {β φ : Nat → ℝ → ℝ} {lo hi B M a h L : ℝ} (hβ : Smooth 4 β (Icc lo hi) B) (hφ : Smooth 4 φ (Icc lo hi) M)
    (hh : 0 ≤ h) (hL : h ≤ L) (h1 : lo ≤ a - h / 2) (h2 : a + h ≤ hi) :
    |β 0 (a + h / 2) * (φ 0 (a + h) - φ 0 a) - β 0 (a - h / 2) * (h * φ 1 (a - h / 2)) -
      h ^ 2 * (β 1 a * φ 1 a + β 0 a * φ 2 a)| ≤ B * M * (1 + L) * h ^ 3 := by
  have ha : a ∈ Icc lo hi := ⟨by linarith, by linarith⟩
  have B0 : 0 ≤ B := (abs_nonneg _).trans (hβ.2 0 (by omega) a ha)
  have M0 : 0 ≤ M := (abs_nonneg _).trans (hφ.2 0 (by omega) a ha)
  have tp := taylor3 (hφ.right (by linarith : lo ≤ a) h2) hh
  have tm := taylor2 (hφ.tail.left h1 (by linarith : a ≤ hi)) (by linarith)
  have bp := taylor2 (hβ.right (by linarith : lo ≤ a) (by linarith : a + h / 2 ≤ hi)) (by linarith)
  have bm := taylor2 (hβ.left h1 (by linarith : a ≤ hi)) (by linarith)
  simp only [add_zero, sub_zero, pow_zero, one_mul, pow_one, zero_add] at tp tm bp bm
  obtain ⟨q, hq⟩ : ∃ q, q = φ 0 (a + h) - (φ 0 a + h * φ 1 a + h ^ 2 / 2 * φ 2 a) := ⟨_, rfl⟩
  obtain ⟨s, hs⟩ : ∃ s, s = φ 1 (a - h / 2) - (φ 1 a + h / 2 * (-1 * φ (1 + 1) a)) := ⟨_, rfl⟩
  obtain ⟨r1, hr1⟩ : ∃ r, r = β 0 (a + h / 2) - (β 0 a + h / 2 * β 1 a) := ⟨_, rfl⟩
  obtain ⟨r2, hr2⟩ : ∃ r, r = β 0 (a - h / 2) - (β 0 a + h / 2 * (-1 * β 1 a)) := ⟨_, rfl⟩
  rw [← hq] at tp
  rw [← hs] at tm
  rw [← hr1] at bp
  rw [← hr2] at bm
  have f1 := hφ.2 1 (by omega) a ha
  have f2 := hφ.2 2 (by omega) a ha
  have c1 := hβ.2 0 (by omega) (a + h / 2) ⟨by linarith, by linarith⟩
  have c2 := hβ.2 0 (by omega) (a - h / 2) ⟨by linarith, by linarith⟩
  have id : β 0 (a + h / 2) * (φ 0 (a + h) - φ 0 a) - β 0 (a - h / 2) * (h * φ 1 (a - h / 2)) -
      h ^ 2 * (β 1 a * φ 1 a + β 0 a * φ 2 a) =
      r1 * (h * φ 1 a + h ^ 2 / 2 * φ 2 a) + β 0 (a + h / 2) * q - r2 * (h * φ 1 a - h ^ 2 / 2 * φ 2 a) - β 0 (a - h / 2) * (h * s) := by
    rw [hq, hs, hr1, hr2]
    ring
  rw [id]
  have mul_le : ∀ {x y X Y : ℝ}, |x| ≤ X → |y| ≤ Y → 0 ≤ X → |x * y| ≤ X * Y := by
    intro x y X Y hx hy h0
    rw [abs_mul]
    exact mul_le_mul hx hy (abs_nonneg _) h0
  have s1 : |h * φ 1 a| ≤ h * M := mul_le (abs_of_nonneg hh).le f1 hh
  have s2 : |h ^ 2 / 2 * φ 2 a| ≤ h ^ 2 / 2 * M := mul_le (abs_of_nonneg (by positivity)).le f2 (by positivity)
  have t1 := mul_le bp ((abs_add_le _ _).trans (add_le_add s1 s2)) (by positivity)
  have t2 := mul_le bm ((abs_sub _ _).trans (add_le_add s1 s2)) (by positivity)
  have t3 := mul_le c1 tp B0
  have t4 := mul_le c2 (mul_le (abs_of_nonneg hh).le tm hh) B0
  refine (abs_sub _ _).trans ((add_le_add ((abs_sub _ _).trans (add_le_add ((abs_add_le _ _).trans (add_le_add t1 t3)) t2)) t4).trans ?_)
  have hBM : 0 ≤ B * M * h ^ 3 := by positivity
  have key : 13 / 24 + h / 8 ≤ 1 + L := by linarith
  have := mul_le_mul_of_nonneg_left key hBM
  refine le_trans (le_of_eq ?_) (this.trans (le_of_eq ?_))
  · ring
  · ring

/-- The same at the upper end. -/
theorem flux_upper_slope {β φ : Nat → ℝ → ℝ} {lo hi B M a h L : ℝ} (hβ : Smooth 4 β (Icc lo hi) B) (hφ : Smooth 4 φ (Icc lo hi) M)
    (hh : 0 ≤ h) (hL : h ≤ L) (h1 : lo ≤ a - h) (h2 : a + h / 2 ≤ hi) :
    |β 0 (a + h / 2) * (h * φ 1 (a + h / 2)) - β 0 (a - h / 2) * (φ 0 a - φ 0 (a - h)) -
      h ^ 2 * (β 1 a * φ 1 a + β 0 a * φ 2 a)| ≤ B * M * (1 + L) * h ^ 3 := by
  have ha : a ∈ Icc lo hi := ⟨by linarith, by linarith⟩
  have B0 : 0 ≤ B := (abs_nonneg _).trans (hβ.2 0 (by omega) a ha)
  have M0 : 0 ≤ M := (abs_nonneg _).trans (hφ.2 0 (by omega) a ha)
  have tm := taylor3 (hφ.left h1 (by linarith : a ≤ hi)) hh
  have tp := taylor2 (hφ.tail.right (by linarith : lo ≤ a) h2) (by linarith)
  have bp := taylor2 (hβ.right (by linarith : lo ≤ a) h2) (by linarith)
  have bm := taylor2 (hβ.left (by linarith : lo ≤ a - h / 2) (by linarith : a ≤ hi)) (by linarith)
  simp only [add_zero, sub_zero, pow_zero, one_mul, pow_one, zero_add, neg_one_sq] at tp tm bp bm
  obtain ⟨q, hq⟩ : ∃ q, q = φ 0 (a - h) - (φ 0 a + h * (-1 * φ 1 a) + h ^ 2 / 2 * φ 2 a) := ⟨_, rfl⟩
  obtain ⟨s, hs⟩ : ∃ s, s = φ 1 (a + h / 2) - (φ 1 a + h / 2 * φ (1 + 1) a) := ⟨_, rfl⟩
  obtain ⟨r1, hr1⟩ : ∃ r, r = β 0 (a + h / 2) - (β 0 a + h / 2 * β 1 a) := ⟨_, rfl⟩
  obtain ⟨r2, hr2⟩ : ∃ r, r = β 0 (a - h / 2) - (β 0 a + h / 2 * (-1 * β 1 a)) := ⟨_, rfl⟩
  rw [← hq] at tm
  rw [← hs] at tp
  rw [← hr1] at bp
  rw [← hr2] at bm
  have f1 := hφ.2 1 (by omega) a ha
  have f2 := hφ.2 2 (by omega) a ha
  have c1 := hβ.2 0 (by omega) (a + h / 2) ⟨by linarith, by linarith⟩
  have c2 := hβ.2 0 (by omega) (a - h / 2) ⟨by linarith, by linarith⟩
  have id : β 0 (a + h / 2) * (h * φ 1 (a + h / 2)) - β 0 (a - h / 2) * (φ 0 a - φ 0 (a - h)) -
      h ^ 2 * (β 1 a * φ 1 a + β 0 a * φ 2 a) =
      r1 * (h * φ 1 a + h ^ 2 / 2 * φ 2 a) + β 0 (a - h / 2) * q - r2 * (h * φ 1 a - h ^ 2 / 2 * φ 2 a) + β 0 (a + h / 2) * (h * s) := by
    rw [hq, hs, hr1, hr2]
    ring
  rw [id]
  have mul_le : ∀ {x y X Y : ℝ}, |x| ≤ X → |y| ≤ Y → 0 ≤ X → |x * y| ≤ X * Y := by
    intro x y X Y hx hy h0
    rw [abs_mul]
    exact mul_le_mul hx hy (abs_nonneg _) h0
  have s1 : |h * φ 1 a| ≤ h * M := mul_le (abs_of_nonneg hh).le f1 hh
  have s2 : |h ^ 2 / 2 * φ 2 a| ≤ h ^ 2 / 2 * M := mul_le (abs_of_nonneg (by positivity)).le f2 (by positivity)
  have t1 := mul_le bp ((abs_add_le _ _).trans (add_le_add s1 s2)) (by positivity)
  have t2 := mul_le bm ((abs_sub _ _).trans (add_le_add s1 s2)) (by positivity)
  have t3 := mul_le c2 tm B0
  have t4 := mul_le c1 (mul_le (abs_of_nonneg hh).le tp hh) B0
  refine (abs_add_le _ _).trans ((add_le_add ((abs_sub _ _).trans (add_le_add ((abs_add_le _ _).trans (add_le_add t1 t3)) t2)) t4).trans ?_)
  have hBM : 0 ≤ B * M * h ^ 3 := by positivity
  have key : 13 / 24 + h / 8 ≤ 1 + L := by linarith
  have := mul_le_mul_of_nonneg_left key hBM
  refine le_trans (le_of_eq ?_) (this.trans (le_of_eq ?_))
  · ring
  · ring

/-- The flux difference of a smooth function along a column of cells with given fluxes at the ends. -/
theorem column_error {β φ : Nat → ℝ → ℝ} {lo hi B M h L : ℝ} (hβ : Smooth 4 β (Icc lo hi) B) (hφ : Smooth 4 φ (Icc lo hi) M) (hh : 0 < h)
    (hL : h ≤ L) {m : Nat} (hm : 2 ≤ m) (hlo : lo + h * m = hi) {i : Nat} (hi' : i < m) (B0 : 0 ≤ B) (M0 : 0 ≤ M) :
    |(β 0 (lo + (i + 1 / 2) * h + h / 2) *
        ((if i + 1 = m then φ 0 (lo + (i + 1 / 2) * h) + h * φ 1 hi else φ 0 (lo + ((i + 1 : Nat) + 1 / 2) * h)) - φ 0 (lo + (i + 1 / 2) * h)) -
      β 0 (lo + (i + 1 / 2) * h - h / 2) * (φ 0 (lo + (i + 1 / 2) * h) -
        (if i = 0 then φ 0 (lo + (i + 1 / 2) * h) - h * φ 1 lo else φ 0 (lo + ((i - 1 : Nat) + 1 / 2) * h)))) / h ^ 2 -
      (β 1 (lo + (i + 1 / 2) * h) * φ 1 (lo + (i + 1 / 2) * h) + β 0 (lo + (i + 1 / 2) * h) * φ 2 (lo + (i + 1 / 2) * h))| ≤
      B * M * (1 + L) ^ 3 * h ^ 2 + B * M * (1 + L) * h * ends m i := by
  have L0 : 0 < L := hh.trans_le hL
  have hm' : ((i : ℝ) + 1) ≤ m := by exact_mod_cast hi'
  have hi0 : (0 : ℝ) ≤ i := by positivity
  obtain ⟨a, ea⟩ : ∃ a, a = lo + ((i : ℝ) + 1 / 2) * h := ⟨_, rfl⟩
  have a1 : lo ≤ a - h / 2 := by rw [ea]; nlinarith
  have a2 : a + h / 2 ≤ hi := by rw [ea, ← hlo]; nlinarith
  have div : ∀ X D C : ℝ, |X - h ^ 2 * D| ≤ C * h ^ 2 → |X / h ^ 2 - D| ≤ C := by
    intro X D C hX
    have e : X / h ^ 2 - D = (X - h ^ 2 * D) / h ^ 2 := by field_simp
    rw [e, abs_div, abs_of_pos (by positivity : 0 < h ^ 2), div_le_iff₀ (by positivity)]
    exact hX
  rw [← ea]
  have e1 : lo + (((i + 1 : Nat) : ℝ) + 1 / 2) * h = a + h := by rw [ea]; push_cast; ring
  rw [e1]
  have p1 : 0 ≤ B * M * (1 + L) ^ 3 * h ^ 2 := by positivity
  have p2 : 0 ≤ B * M * (1 + L) * h := by positivity
  have h3 : B * M * (1 + L) * h ^ 3 = B * M * (1 + L) * h * h ^ 2 := by ring
  by_cases hz : i = 0
  · have hne : ¬ i + 1 = m := by omega
    rw [if_neg hne, if_pos hz]
    have el : a - h / 2 = lo := by rw [ea, hz]; push_cast; ring
    have e2 : a + h ≤ hi := by
      have : (2 : ℝ) ≤ m := by exact_mod_cast hm
      rw [ea, hz, ← hlo]
      push_cast
      nlinarith
    have := flux_lower_slope hβ hφ hh.le hL a1 e2
    rw [el, h3] at this
    rw [el, sub_sub_cancel]
    refine (div _ _ _ this).trans ?_
    have : 1 ≤ ends m i := by unfold ends; rw [if_pos hz]; split_ifs <;> norm_num
    have := mul_le_mul_of_nonneg_left this p2
    linarith
  · have e0 : lo + (((i - 1 : Nat) : ℝ) + 1 / 2) * h = a - h := by
      rw [ea, Nat.cast_sub (by omega)]
      push_cast
      ring
    rw [if_neg hz, e0]
    have i1 : (1 : ℝ) ≤ i := by exact_mod_cast Nat.one_le_iff_ne_zero.mpr hz
    have b1 : lo ≤ a - h := by rw [ea]; nlinarith
    by_cases hu : i + 1 = m
    · rw [if_pos hu]
      have eu : a + h / 2 = hi := by rw [ea, ← hlo, ← hu]; push_cast; ring
      have := flux_upper_slope hβ hφ hh.le hL b1 a2
      rw [eu, h3] at this
      rw [eu, add_sub_cancel_left]
      refine (div _ _ _ this).trans ?_
      have : 1 ≤ ends m i := by unfold ends; rw [if_pos hu]; split_ifs <;> norm_num
      have := mul_le_mul_of_nonneg_left this p2
      linarith
    · rw [if_neg hu]
      have e2 : a + h ≤ hi := by
        have : ((i : ℝ) + 2) ≤ m := by exact_mod_cast (by omega : i + 2 ≤ m)
        rw [ea, ← hlo]
        nlinarith
      have := flux_inner hβ hφ hh.le hL b1 e2
      have h4 : B * M * (1 + L) ^ 3 * h ^ 4 = B * M * (1 + L) ^ 3 * h ^ 2 * h ^ 2 := by ring
      rw [h4] at this
      refine (div _ _ _ this).trans ?_
      have := mul_nonneg p2 (ends_nonneg m i)
      linarith

/-- Distance of a cell centre from the middle of the column. -/
noncomputable def offset (h L : ℝ) (j : Nat) : ℝ := (j + 1 / 2) * h - L / 2

/-- The flux difference of the square of the distance from the middle, without fluxes at the ends: bounded from above, and by a
negative number that grows with the number of cells at the ends. -/
theorem column_barrier {βN βS b0 B h L : ℝ} (h0 : 0 ≤ b0) (hN : b0 ≤ βN) (hS : b0 ≤ βS) (hN' : βN ≤ B) (hS' : βS ≤ B) (hl : |βN - βS| ≤ B * h)
    (hh : 0 < h) {m : Nat} (hm : 2 ≤ m) (hL : h * m = L) {j : Nat} (hj : j < m) :
    (βN * ((if j + 1 = m then offset h L j ^ 2 else offset h L (j + 1) ^ 2) - offset h L j ^ 2) -
      βS * (offset h L j ^ 2 - (if j = 0 then offset h L j ^ 2 else offset h L (j - 1) ^ 2))) / h ^ 2 ≤
      2 * B + B * L - b0 * L / h * ends m j := by
  have hm' : (2 : ℝ) ≤ m := by exact_mod_cast hm
  have hj' : ((j : ℝ) + 1) ≤ m := by exact_mod_cast hj
  have hj0 : (0 : ℝ) ≤ j := by positivity
  have L0 : 0 < L := by rw [← hL]; positivity
  have B0 : 0 ≤ B := h0.trans (hN.trans hN')
  have eN : offset h L (j + 1) ^ 2 - offset h L j ^ 2 = h * (2 * offset h L j + h) := by
    unfold offset
    push_cast
    ring
  by_cases hz : j = 0
  · have hne : ¬ j + 1 = m := by omega
    rw [if_neg hne, if_pos hz, eN, sub_self, mul_zero, sub_zero]
    have e1 : ends m j = 1 := by unfold ends; rw [if_pos hz, if_neg hne]; norm_num
    have e2 : 2 * offset h L j + h = 2 * h - L := by unfold offset; rw [hz]; push_cast; ring
    have e3 : βN * (h * (2 * h - L)) / h ^ 2 = 2 * βN - βN * (L / h) := by field_simp
    have e4 : b0 * L / h * 1 = b0 * (L / h) := by ring
    rw [e1, e2, e3, e4]
    have : 0 ≤ B * L := by positivity
    have := mul_le_mul_of_nonneg_right hN (by positivity : 0 ≤ L / h)
    linarith
  · have eS : offset h L j ^ 2 - offset h L (j - 1) ^ 2 = h * (2 * offset h L j - h) := by
      unfold offset
      rw [Nat.cast_sub (by omega)]
      push_cast
      ring
    rw [if_neg hz, eS]
    by_cases hu : j + 1 = m
    · rw [if_pos hu, sub_self, mul_zero, zero_sub]
      have e1 : ends m j = 1 := by unfold ends; rw [if_neg hz, if_pos hu]; norm_num
      have hjm : (j : ℝ) + 1 = m := by exact_mod_cast hu
      have e2 : 2 * offset h L j - h = L - 2 * h := by unfold offset; rw [← hL, ← hjm]; ring
      have e3 : -(βS * (h * (L - 2 * h))) / h ^ 2 = 2 * βS - βS * (L / h) := by field_simp; ring
      have e4 : b0 * L / h * 1 = b0 * (L / h) := by ring
      rw [e1, e2, e3, e4]
      have : 0 ≤ B * L := by positivity
      have := mul_le_mul_of_nonneg_right hS (by positivity : 0 ≤ L / h)
      linarith
    · rw [if_neg hu, eN]
      have e1 : ends m j = 0 := by unfold ends; rw [if_neg hz, if_neg hu]; norm_num
      rw [e1, mul_zero, sub_zero]
      have e2 : (βN * (h * (2 * offset h L j + h)) - βS * (h * (2 * offset h L j - h))) / h ^ 2 =
          βN + βS + 2 * ((βN - βS) / h * offset h L j) := by field_simp; ring
      rw [e2]
      have o1 : |offset h L j| ≤ L / 2 := by
        rw [abs_le]
        unfold offset
        constructor
        · have : 0 ≤ ((j : ℝ) + 1 / 2) * h := by positivity
          linarith
        · have : ((j : ℝ) + 1 / 2) * h ≤ m * h := mul_le_mul_of_nonneg_right (by linarith) hh.le
          linarith
      have o2 : |(βN - βS) / h| ≤ B := by
        rw [abs_div, abs_of_pos hh, div_le_iff₀ hh]
        exact hl
      have o3 : |(βN - βS) / h * offset h L j| ≤ B * (L / 2) := by
        rw [abs_mul]
        exact mul_le_mul o2 o1 (abs_nonneg _) B0
      have := (abs_le.mp o3).2
      linarith

/-- Barrier for values on the West and East and fluxes on the South and North side. -/
theorem mixed_barrier {beta : ℝ → ℝ → ℝ} {R : Rect ℝ} (hR : Proper R) {b0 B : ℝ} (h0 : 0 < b0)
    (hb : ∀ x y, Inside R x y → b0 ≤ beta x y) (hB : ∀ x y, Inside R x y → beta x y ≤ B)
    (hl : ∀ x x' y, Inside R x y → Inside R x' y → |beta x y - beta x' y| ≤ B * |x - x'|)
    (hl' : ∀ x y y', Inside R x y → Inside R x y' → |beta x y - beta x y'| ≤ B * |y - y'|) {m : Nat} (hm : 2 ≤ m)
    {A T P : ℝ} (hA : 0 ≤ A) (hT : 0 ≤ T) (hP : 0 ≤ P) :
    ∃ (g : Bdry ℝ) (w : Nat → Nat → ℝ), (∀ k, 0 ≤ g.W k) ∧ (∀ k, 0 ≤ g.E k) ∧
      (∀ k, normalDeriv R m g w 2 k = 0) ∧ (∀ k, normalDeriv R m g w 3 k = 0) ∧
      (∀ i, i < m → ∀ j, j < m → 0 ≤ w i j ∧
        w i j ≤ A + (T + P * (2 * B / (R.yu - R.yl) + B)) * top R b0 B / drop R b0 B + P * (R.yu - R.yl) / 4) ∧
      ∀ i, i < m → ∀ j, j < m → balance ⟨fun _ _ => 1, beta, fun _ _ => 0⟩ R m m g w i j ≤
        -T - 2 * b0 * A / hx R m ^ 2 * ends m i - b0 * P / hy R m * ends m j := by
  have hm0 : 0 < m := by omega
  obtain ⟨L, eL⟩ : ∃ L, L = R.yu - R.yl := ⟨_, rfl⟩
  have L0 : 0 < L := by have := hR.2; linarith
  rw [← eL]
  have B0 : 0 < B := by
    have i0 : Inside R R.xl R.yl := ⟨le_rfl, hR.1.le, le_rfl, hR.2.le⟩
    exact h0.trans_le ((hb _ _ i0).trans (hB _ _ i0))
  have hx0 := hx_pos hR hm0
  have hy0 := hy_pos hR hm0
  have hym : hy R m * m = L := by rw [eL]; unfold hy; field_simp
  obtain ⟨gW, gE, w, hgW, hgE, _, hw, hrow⟩ := barrier_row hR h0 B0.le hb hl hm0 hA
    (T := T + P * (2 * B / L + B)) (by positivity)
  have hq : ∀ j, j < m → 0 ≤ offset (hy R m) L j ^ 2 ∧ offset (hy R m) L j ^ 2 ≤ L ^ 2 / 4 := by
    intro j hj
    refine ⟨sq_nonneg _, ?_⟩
    have hj' : ((j : ℝ) + 1) ≤ m := by exact_mod_cast hj
    have hj0 : (0 : ℝ) ≤ j := by positivity
    have a : -(L / 2) ≤ offset (hy R m) L j := by
      unfold offset
      have : 0 ≤ ((j : ℝ) + 1 / 2) * hy R m := by positivity
      linarith
    have b : offset (hy R m) L j ≤ L / 2 := by
      unfold offset
      have : ((j : ℝ) + 1 / 2) * hy R m ≤ m * hy R m := mul_le_mul_of_nonneg_right (by linarith) hy0.le
      linarith
    have := sq_le_sq' a b
    linarith [this, (by ring : (L / 2) ^ 2 = L ^ 2 / 4)]
  have hPL : 0 ≤ P / L := by positivity
  refine ⟨⟨fun j => gW + P / L * offset (hy R m) L j ^ 2, fun j => gE + P / L * offset (hy R m) L j ^ 2,
    fun i => w i + P / L * offset (hy R m) L 0 ^ 2, fun i => w i + P / L * offset (hy R m) L (m - 1) ^ 2⟩,
    fun i j => w i + P / L * offset (hy R m) L j ^ 2, ?_, ?_, ?_, ?_, ?_, ?_⟩
  · intro k
    have := mul_nonneg hPL (sq_nonneg (offset (hy R m) L k))
    dsimp only
    linarith
  · intro k
    have := mul_nonneg hPL (sq_nonneg (offset (hy R m) L k))
    dsimp only
    linarith
  · intro k
    simp [normalDeriv]
  · intro k
    simp [normalDeriv]
  · intro i hi j hj
    obtain ⟨a1, a2⟩ := hw i hi
    obtain ⟨q1, q2⟩ := hq j hj
    have q3 := mul_nonneg hPL q1
    have q4 := mul_le_mul_of_nonneg_left q2 hPL
    have q5 : P / L * (L ^ 2 / 4) = P * L / 4 := by field_simp
    constructor <;> linarith
  · intro i hi j hj
    obtain ⟨fx1, fx2⟩ := cx_face hR hi
    obtain ⟨fy1, fy2⟩ := cy_face hR hj
    have iN : Inside R (cx R m i) (cy R m j + hy R m / 2) := ⟨by linarith, by linarith, by linarith, by linarith⟩
    have iS : Inside R (cx R m i) (cy R m j - hy R m / 2) := ⟨by linarith, by linarith, by linarith, by linarith⟩
    have row := hrow i hi (cy R m j) (by linarith) (by linarith)
    have lip := hl' _ _ _ iN iS
    rw [show cy R m j + hy R m / 2 - (cy R m j - hy R m / 2) = hy R m by ring, abs_of_pos hy0] at lip
    have col := column_barrier h0.le (hb _ _ iN) (hb _ _ iS) (hB _ _ iN) (hB _ _ iS) lip hy0 hm hym hj
    unfold balance east west north south
    dsimp only
    have nE : (if i + 1 = m then 2 * (gE + P / L * offset (hy R m) L j ^ 2) - (w i + P / L * offset (hy R m) L j ^ 2)
        else w (i + 1) + P / L * offset (hy R m) L j ^ 2) =
        (if i + 1 = m then 2 * gE - w i else w (i + 1)) + P / L * offset (hy R m) L j ^ 2 := by
      split_ifs <;> ring
    have nW : (if i = 0 then 2 * (gW + P / L * offset (hy R m) L j ^ 2) - (w i + P / L * offset (hy R m) L j ^ 2)
        else w (i - 1) + P / L * offset (hy R m) L j ^ 2) =
        (if i = 0 then 2 * gW - w i else w (i - 1)) + P / L * offset (hy R m) L j ^ 2 := by
      split_ifs <;> ring
    have nN : (if j + 1 = m then 2 * (w i + P / L * offset (hy R m) L (m - 1) ^ 2) - (w i + P / L * offset (hy R m) L j ^ 2)
        else w i + P / L * offset (hy R m) L (j + 1) ^ 2) =
        w i + P / L * (if j + 1 = m then offset (hy R m) L j ^ 2 else offset (hy R m) L (j + 1) ^ 2) := by
      split_ifs with hu
      · rw [show m - 1 = j by omega]; ring
      · ring
    have nS : (if j = 0 then 2 * (w i + P / L * offset (hy R m) L 0 ^ 2) - (w i + P / L * offset (hy R m) L j ^ 2)
        else w i + P / L * offset (hy R m) L (j - 1) ^ 2) =
        w i + P / L * (if j = 0 then offset (hy R m) L j ^ 2 else offset (hy R m) L (j - 1) ^ 2) := by
      split_ifs with hu
      · rw [hu]; ring
      · ring
    rw [nE, nW, nN, nS]
    generalize (if i + 1 = m then 2 * gE - w i else w (i + 1)) = vE at *
    generalize (if i = 0 then 2 * gW - w i else w (i - 1)) = vW at *
    generalize (if j + 1 = m then offset (hy R m) L j ^ 2 else offset (hy R m) L (j + 1) ^ 2) = vN at *
    generalize (if j = 0 then offset (hy R m) L j ^ 2 else offset (hy R m) L (j - 1) ^ 2) = vS at *
    generalize beta (cx R m i + hx R m / 2) (cy R m j) = βE at *
    generalize beta (cx R m i - hx R m / 2) (cy R m j) = βW at *
    generalize beta (cx R m i) (cy R m j + hy R m / 2) = βN at *
    generalize beta (cx R m i) (cy R m j - hy R m / 2) = βS at *
    generalize offset (hy R m) L j ^ 2 = o at *
    have split : 1 * ((βE * (vE + P / L * o - (w i + P / L * o)) - βW * (w i + P / L * o - (vW + P / L * o))) / hx R m ^ 2 +
        (βN * (w i + P / L * vN - (w i + P / L * o)) - βS * (w i + P / L * o - (w i + P / L * vS))) / hy R m ^ 2) +
        0 * (w i + P / L * o) =
        (βE * (vE - w i) - βW * (w i - vW)) / hx R m ^ 2 + P / L * ((βN * (vN - o) - βS * (o - vS)) / hy R m ^ 2) := by
      ring
    rw [split]
    have c2 := mul_le_mul_of_nonneg_left col hPL
    have c3 : P / L * (2 * B + B * L - b0 * L / hy R m * ends m j) = P * (2 * B / L + B) - b0 * P / hy R m * ends m j := by
      field_simp
    rw [c3] at c2
    linarith only [row, c2]

end FV
end EF
