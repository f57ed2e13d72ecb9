import Verif.Spec.Smooth
import Mathlib.Analysis.Calculus.MeanValue
import Mathlib.Analysis.Calculus.Deriv.Pow
import Mathlib.Analysis.Calculus.Deriv.Comp
import Mathlib.Analysis.Calculus.Deriv.Add
import Mathlib.Tactic.FieldSimp

/-!
# Taylor's formula and the error of flux differences
-/

namespace EF
namespace FV

open Set

theorem fence {F F' : ℝ → ℝ} {h C : ℝ} (n : Nat) (h0 : F 0 = 0) (hd : ∀ x ∈ Icc 0 h, HasDerivWithinAt F (F' x) (Icc 0 h) x)
    (hb : ∀ x ∈ Icc 0 h, |F' x| ≤ C * x ^ n) : ∀ x ∈ Icc 0 h, |F x| ≤ C * x ^ (n + 1) / (n + 1) := by
  have hB : ∀ x : ℝ, HasDerivAt (fun x => C * x ^ (n + 1) / (n + 1)) (C * x ^ n) x := by
    intro x
    have := ((hasDerivAt_pow (n + 1) x).const_mul C).div_const ((n : ℝ) + 1)
    refine this.congr_deriv ?_
    have : (n : ℝ) + 1 ≠ 0 := by positivity
    push_cast
    field_simp
  have key := image_norm_le_of_norm_deriv_right_le_deriv_boundary (f := F) (f' := F') (a := 0) (b := h)
    (fun x hx => (hd x hx).continuousWithinAt) (fun x hx => ?_) (B := fun x => C * x ^ (n + 1) / (n + 1)) (B' := fun x => C * x ^ n)
    (by simp [h0]) hB (fun x hx => by rw [Real.norm_eq_abs]; exact hb x ⟨hx.1, hx.2.le⟩)
  · intro x hx
    have := key hx
    rwa [Real.norm_eq_abs] at this
  · refine (hd x ⟨hx.1, hx.2.le⟩).mono_of_mem_nhdsWithin ?_
    exact Filter.mem_of_superset (Icc_mem_nhdsGE hx.2) (Icc_subset_Icc_left hx.1)

/-- Taylor's formula at zero for four derivatives. -/
theorem taylor4 {F : Nat → ℝ → ℝ} {h M : ℝ} (hF : Smooth 4 F (Icc 0 h) M) (hh : 0 ≤ h) :
    |F 0 h - (F 0 0 + h * F 1 0 + h ^ 2 / 2 * F 2 0 + h ^ 3 / 6 * F 3 0)| ≤ M * h ^ 4 / 24 := by
  have h0 : (0 : ℝ) ∈ Icc 0 h := ⟨le_rfl, hh⟩
  have e3 := fence (F := fun s => F 3 s - F 3 0) (F' := F 4) (h := h) (C := M) 0 (by simp)
    (fun x hx => (hF.1 3 (by omega) x hx).sub_const _) (fun x hx => by simpa using hF.2 4 le_rfl x hx)
  have e2 := fence (F := fun s => F 2 s - F 2 0 - s * F 3 0) (F' := fun s => F 3 s - F 3 0) (h := h) (C := M) 1 (by simp)
    (fun x hx => by
      have := ((hF.1 2 (by omega) x hx).sub_const (F 2 0)).sub ((hasDerivWithinAt_id x (Icc 0 h)).mul_const (F 3 0))
      exact this.congr_deriv (by simp)) (fun x hx => by simpa using e3 x hx)
  have e1 := fence (F := fun s => F 1 s - F 1 0 - s * F 2 0 - s ^ 2 / 2 * F 3 0) (F' := fun s => F 2 s - F 2 0 - s * F 3 0) (h := h)
    (C := M / 2) 2 (by simp)
    (fun x hx => by
      have := (((hF.1 1 (by omega) x hx).sub_const (F 1 0)).sub ((hasDerivWithinAt_id x (Icc 0 h)).mul_const (F 2 0))).sub
        ((((hasDerivAt_pow 2 x).div_const 2).mul_const (F 3 0)).hasDerivWithinAt (s := Icc 0 h))
      exact this.congr_deriv (by simp)) (fun x hx => by
        have := e2 x hx
        norm_num at this ⊢
        linarith)
  have e0 := fence (F := fun s => F 0 s - F 0 0 - s * F 1 0 - s ^ 2 / 2 * F 2 0 - s ^ 3 / 6 * F 3 0)
    (F' := fun s => F 1 s - F 1 0 - s * F 2 0 - s ^ 2 / 2 * F 3 0) (h := h) (C := M / 6) 3 (by simp)
    (fun x hx => by
      have := ((((hF.1 0 (by omega) x hx).sub_const (F 0 0)).sub ((hasDerivWithinAt_id x (Icc 0 h)).mul_const (F 1 0))).sub
        ((((hasDerivAt_pow 2 x).div_const 2).mul_const (F 2 0)).hasDerivWithinAt (s := Icc 0 h))).sub
        ((((hasDerivAt_pow 3 x).div_const 6).mul_const (F 3 0)).hasDerivWithinAt (s := Icc 0 h))
      exact this.congr_deriv (by push_cast; ring_nf)) (fun x hx => by
        have := e1 x hx
        norm_num at this ⊢
        linarith)
  have := e0 h ⟨hh, le_rfl⟩
  norm_num at this
  rw [show F 0 h - (F 0 0 + h * F 1 0 + h ^ 2 / 2 * F 2 0 + h ^ 3 / 6 * F 3 0) =
    F 0 h - F 0 0 - h * F 1 0 - h ^ 2 / 2 * F 2 0 - h ^ 3 / 6 * F 3 0 by ring]
  linarith

theorem taylor2 {n : Nat} {F : Nat → ℝ → ℝ} {h M : ℝ} (hF : Smooth n F (Icc 0 h) M) (hh : 0 ≤ h) (hn : 2 ≤ n := by omega) :
    |F 0 h - (F 0 0 + h * F 1 0)| ≤ M * h ^ 2 / 2 := by
  have e1 := fence (F := fun s => F 1 s - F 1 0) (F' := F 2) (h := h) (C := M) 0 (by simp)
    (fun x hx => (hF.1 1 (by omega) x hx).sub_const _) (fun x hx => by simpa using hF.2 2 (by omega) x hx)
  have e0 := fence (F := fun s => F 0 s - F 0 0 - s * F 1 0) (F' := fun s => F 1 s - F 1 0) (h := h) (C := M) 1 (by simp)
    (fun x hx => by
      have := ((hF.1 0 (by omega) x hx).sub_const (F 0 0)).sub ((hasDerivWithinAt_id x (Icc 0 h)).mul_const (F 1 0))
      exact this.congr_deriv (by simp)) (fun x hx => by simpa using e1 x hx)
  have := e0 h ⟨hh, le_rfl⟩
  norm_num at this
  rw [show F 0 h - (F 0 0 + h * F 1 0) = F 0 h - F 0 0 - h * F 1 0 by ring]
  exact this

theorem taylor1 {n : Nat} {F : Nat → ℝ → ℝ} {h M : ℝ} (hF : Smooth n F (Icc 0 h) M) (hh : 0 ≤ h) (hn : 1 ≤ n := by omega) :
    |F 0 h - F 0 0| ≤ M * h := by
  have e1 := fence (F := fun s => F 0 s - F 0 0) (F' := F 1) (h := h) (C := M) 0 (by simp)
    (fun x hx => (hF.1 0 (by omega) x hx).sub_const _) (fun x hx => by simpa using hF.2 1 (by omega) x hx)
  have := e1 h ⟨hh, le_rfl⟩
  simpa using this

/-- The function to the right and to the left of a point. -/
theorem Smooth.right {n : Nat} {F : Nat → ℝ → ℝ} {lo hi M a h : ℝ} (hF : Smooth n F (Icc lo hi) M) (h1 : lo ≤ a) (h2 : a + h ≤ hi) :
    Smooth n (fun k s => F k (a + s)) (Icc 0 h) M := by
  have hm : ∀ s ∈ Icc 0 h, a + s ∈ Icc lo hi := fun s hs => ⟨by linarith [hs.1], by linarith [hs.2]⟩
  refine ⟨fun k hk x hx => ?_, fun k hk x hx => hF.2 k hk _ (hm x hx)⟩
  have h0 : HasDerivWithinAt (fun s : ℝ => a + s) 1 (Icc 0 h) x := (hasDerivWithinAt_id x _).const_add a
  have := (hF.1 k hk (a + x) (hm x hx)).comp x h0 (fun s hs => hm s hs)
  exact this.congr_deriv (by simp)

theorem Smooth.left {n : Nat} {F : Nat → ℝ → ℝ} {lo hi M a h : ℝ} (hF : Smooth n F (Icc lo hi) M) (h1 : lo ≤ a - h) (h2 : a ≤ hi) :
    Smooth n (fun k s => (-1) ^ k * F k (a - s)) (Icc 0 h) M := by
  have hm : ∀ s ∈ Icc 0 h, a - s ∈ Icc lo hi := fun s hs => ⟨by linarith [hs.2], by linarith [hs.1]⟩
  refine ⟨fun k hk x hx => ?_, fun k hk x hx => ?_⟩
  · have h0 : HasDerivWithinAt (fun s : ℝ => a - s) (-1) (Icc 0 h) x := (hasDerivWithinAt_id x _).const_sub a
    have := ((hF.1 k hk (a - x) (hm x hx)).comp x h0 (fun s hs => hm s hs)).const_mul ((-1) ^ k)
    exact this.congr_deriv (by dsimp only; rw [pow_succ]; ring)
  · rw [abs_mul, abs_pow, abs_neg, abs_one, one_pow, one_mul]
    exact hF.2 k hk _ (hm x hx)

/-- The difference of two fluxes in the interior. -/
theorem flux_inner {β φ : Nat → ℝ → ℝ} {lo hi B M a h L : ℝ} (hβ : Smooth 4 β (Icc lo hi) B) (hφ : Smooth 4 φ (Icc lo hi) M)
    (hh : 0 ≤ h) (hL : h ≤ L) (h1 : lo ≤ a - h) (h2 : a + h ≤ hi) :
    |β 0 (a + h / 2) * (φ 0 (a + h) - φ 0 a) - β 0 (a - h / 2) * (φ 0 a - φ 0 (a - h)) -
      h ^ 2 * (β 1 a * φ 1 a + β 0 a * φ 2 a)| ≤ B * M * (1 + L) ^ 3 * h ^ 4 := by
  have ha : a ∈ Icc lo hi := ⟨by linarith, by linarith⟩
  have B0 : 0 ≤ B := (abs_nonneg _).trans (hβ.2 0 (by omega) a ha)
  have M0 : 0 ≤ M := (abs_nonneg _).trans (hφ.2 0 (by omega) a ha)
  have tp := taylor4 (hφ.right (by linarith : lo ≤ a) h2) hh
  have tm := taylor4 (hφ.left h1 (by linarith : a ≤ hi)) hh
  have bp := taylor4 (hβ.right (by linarith : lo ≤ a) (by linarith : a + h / 2 ≤ hi)) (by linarith)
  have bm := taylor4 (hβ.left (by linarith : lo ≤ a - h / 2) (by linarith : a ≤ hi)) (by linarith)
  simp only [add_zero, sub_zero, pow_zero, one_mul, pow_one, neg_one_sq] at tp tm bp bm
  have e3 : ((-1 : ℝ)) ^ 3 = -1 := by norm_num
  rw [e3] at tm bm
  obtain ⟨q1, hq1⟩ : ∃ q, q = φ 0 (a + h) - (φ 0 a + h * φ 1 a + h ^ 2 / 2 * φ 2 a + h ^ 3 / 6 * φ 3 a) := ⟨_, rfl⟩
  obtain ⟨q2, hq2⟩ : ∃ q, q = φ 0 (a - h) - (φ 0 a + h * (-1 * φ 1 a) + h ^ 2 / 2 * φ 2 a + h ^ 3 / 6 * (-1 * φ 3 a)) := ⟨_, rfl⟩
  obtain ⟨r1, hr1⟩ : ∃ q, q = β 0 (a + h / 2) - (β 0 a + h / 2 * β 1 a + (h / 2) ^ 2 / 2 * β 2 a + (h / 2) ^ 3 / 6 * β 3 a) := ⟨_, rfl⟩
  obtain ⟨r2, hr2⟩ : ∃ q, q = β 0 (a - h / 2) - (β 0 a + h / 2 * (-1 * β 1 a) + (h / 2) ^ 2 / 2 * β 2 a + (h / 2) ^ 3 / 6 * (-1 * β 3 a)) :=
    ⟨_, rfl⟩
  rw [← hq1] at tp
  rw [← hq2] at tm
  rw [← hr1] at bp
  rw [← hr2] at bm
  have f1 := hφ.2 1 (by omega) a ha
  have f2 := hφ.2 2 (by omega) a ha
  have f3 := hφ.2 3 (by omega) a ha
  have b1 := hβ.2 1 (by omega) a ha
  have b2 := hβ.2 2 (by omega) a ha
  have b3 := hβ.2 3 (by omega) a ha
  have c1 := hβ.2 0 (by omega) (a + h / 2) ⟨by linarith, by linarith⟩
  have c2 := hβ.2 0 (by omega) (a - h / 2) ⟨by linarith, by linarith⟩
  have id : β 0 (a + h / 2) * (φ 0 (a + h) - φ 0 a) - β 0 (a - h / 2) * (φ 0 a - φ 0 (a - h)) -
      h ^ 2 * (β 1 a * φ 1 a + β 0 a * φ 2 a) =
      h ^ 4 / 8 * (β 2 a * φ 2 a) + h ^ 4 / 6 * (β 1 a * φ 3 a) + h ^ 4 / 24 * (β 3 a * φ 1 a) + h ^ 6 / 144 * (β 3 a * φ 3 a) +
      r1 * (h * φ 1 a + h ^ 2 / 2 * φ 2 a + h ^ 3 / 6 * φ 3 a) + r2 * (-(h * φ 1 a) + h ^ 2 / 2 * φ 2 a - h ^ 3 / 6 * φ 3 a) +
      β 0 (a + h / 2) * q1 + β 0 (a - h / 2) * q2 := by
    rw [hq1, hq2, hr1, hr2]
    ring
  rw [id]
  have mul_le : ∀ {x y X Y : ℝ}, |x| ≤ X → |y| ≤ Y → 0 ≤ X → |x * y| ≤ X * Y := by
    intro x y X Y hx hy h0
    rw [abs_mul]
    exact mul_le_mul hx hy (abs_nonneg _) h0
  have h4 : 0 ≤ h ^ 4 := by positivity
  have t1 : |h ^ 4 / 8 * (β 2 a * φ 2 a)| ≤ h ^ 4 / 8 * (B * M) := mul_le (abs_of_nonneg (by positivity)).le (mul_le b2 f2 B0) (by positivity)
  have t2 : |h ^ 4 / 6 * (β 1 a * φ 3 a)| ≤ h ^ 4 / 6 * (B * M) := mul_le (abs_of_nonneg (by positivity)).le (mul_le b1 f3 B0) (by positivity)
  have t3 : |h ^ 4 / 24 * (β 3 a * φ 1 a)| ≤ h ^ 4 / 24 * (B * M) := mul_le (abs_of_nonneg (by positivity)).le (mul_le b3 f1 B0) (by positivity)
  have t4 : |h ^ 6 / 144 * (β 3 a * φ 3 a)| ≤ h ^ 6 / 144 * (B * M) := mul_le (abs_of_nonneg (by positivity)).le (mul_le b3 f3 B0) (by positivity)
  have s1 : |h * φ 1 a| ≤ h * M := mul_le (abs_of_nonneg hh).le f1 hh
  have s2 : |h ^ 2 / 2 * φ 2 a| ≤ h ^ 2 / 2 * M := mul_le (abs_of_nonneg (by positivity)).le f2 (by positivity)
  have s3 : |h ^ 3 / 6 * φ 3 a| ≤ h ^ 3 / 6 * M := mul_le (abs_of_nonneg (by positivity)).le f3 (by positivity)
  have p1 : |h * φ 1 a + h ^ 2 / 2 * φ 2 a + h ^ 3 / 6 * φ 3 a| ≤ h * M + h ^ 2 / 2 * M + h ^ 3 / 6 * M :=
    (abs_add_le _ _).trans (add_le_add ((abs_add_le _ _).trans (add_le_add s1 s2)) s3)
  have p2 : |-(h * φ 1 a) + h ^ 2 / 2 * φ 2 a - h ^ 3 / 6 * φ 3 a| ≤ h * M + h ^ 2 / 2 * M + h ^ 3 / 6 * M :=
    (abs_sub _ _).trans (add_le_add ((abs_add_le _ _).trans (add_le_add (by rw [abs_neg]; exact s1) s2)) s3)
  have t5 := mul_le bp p1 (by positivity)
  have t6 := mul_le bm p2 (by positivity)
  have t7 := mul_le c1 tp B0
  have t8 := mul_le c2 tm B0
  refine (abs_add_le _ _).trans ((add_le_add ((abs_add_le _ _).trans (add_le_add ((abs_add_le _ _).trans (add_le_add
    ((abs_add_le _ _).trans (add_le_add ((abs_add_le _ _).trans (add_le_add ((abs_add_le _ _).trans (add_le_add ((abs_add_le _ _).trans
    (add_le_add t1 t2)) t3)) t4)) t5)) t6)) t7)) t8).trans ?_)
  have L0 : 0 ≤ L := hh.trans hL
  have hBM : 0 ≤ B * M * h ^ 4 := by positivity
  have hL2 : h ^ 2 ≤ L ^ 2 := pow_le_pow_left₀ hh hL 2
  have hL3 : h ^ 3 ≤ L ^ 3 := pow_le_pow_left₀ hh hL 3
  have key : 5 / 12 + h ^ 2 / 144 + (h + h ^ 2 / 2 + h ^ 3 / 6) / 192 ≤ (1 + L) ^ 3 := by
    have : (1 + L) ^ 3 = 1 + 3 * L + 3 * L ^ 2 + L ^ 3 := by ring
    rw [this]
    have : 0 ≤ L ^ 2 := by positivity
    have : 0 ≤ L ^ 3 := by positivity
    linarith
  have := mul_le_mul_of_nonneg_left key hBM
  refine le_trans (le_of_eq ?_) (this.trans (le_of_eq ?_))
  · ring
  · ring

/-- At the lower end of the interval. -/
theorem flux_lower {β φ : Nat → ℝ → ℝ} {lo hi B M a h : ℝ} (hβ : Smooth 4 β (Icc lo hi) B) (hφ : Smooth 4 φ (Icc lo hi) M)
    (hh : 0 ≤ h) (h1 : lo ≤ a - h / 2) (h2 : a + h ≤ hi) :
    |β 0 (a + h / 2) * (φ 0 (a + h) - φ 0 a) - β 0 (a - h / 2) * (φ 0 a - (2 * φ 0 (a - h / 2) - φ 0 a)) -
      h ^ 2 * (β 1 a * φ 1 a + β 0 a * φ 2 a)| ≤ 4 * (B * M) * h ^ 2 := by
  have ha : a ∈ Icc lo hi := ⟨by linarith, by linarith⟩
  have B0 : 0 ≤ B := (abs_nonneg _).trans (hβ.2 0 (by omega) a ha)
  have M0 : 0 ≤ M := (abs_nonneg _).trans (hφ.2 0 (by omega) a ha)
  have tp := taylor2 (hφ.right (by linarith : lo ≤ a) h2) hh
  have tm := taylor2 (hφ.left h1 (by linarith : a ≤ hi)) (by linarith)
  have bd := taylor1 (hβ.right (a := a - h / 2) (h := h) h1 (by linarith)) hh
  simp only [add_zero, sub_zero, pow_zero, one_mul, pow_one] at tp tm bd
  rw [show a - h / 2 + h = a + h / 2 by ring] at bd
  obtain ⟨q1, hq1⟩ : ∃ q, q = φ 0 (a + h) - (φ 0 a + h * φ 1 a) := ⟨_, rfl⟩
  obtain ⟨q2, hq2⟩ : ∃ q, q = φ 0 (a - h / 2) - (φ 0 a + h / 2 * (-1 * φ 1 a)) := ⟨_, rfl⟩
  rw [← hq1] at tp
  rw [← hq2] at tm
  have f1 := hφ.2 1 (by omega) a ha
  have f2 := hφ.2 2 (by omega) a ha
  have b1 := hβ.2 1 (by omega) a ha
  have b0 := hβ.2 0 (by omega) a ha
  have c1 := hβ.2 0 (by omega) (a + h / 2) ⟨by linarith, by linarith⟩
  have c2 := hβ.2 0 (by omega) (a - h / 2) ⟨by linarith, by linarith⟩
  have id : β 0 (a + h / 2) * (φ 0 (a + h) - φ 0 a) - β 0 (a - h / 2) * (φ 0 a - (2 * φ 0 (a - h / 2) - φ 0 a)) -
      h ^ 2 * (β 1 a * φ 1 a + β 0 a * φ 2 a) =
      h * ((β 0 (a + h / 2) - β 0 (a - h / 2)) * φ 1 a) + β 0 (a + h / 2) * q1 + 2 * (β 0 (a - h / 2) * q2) -
        h ^ 2 * (β 1 a * φ 1 a + β 0 a * φ 2 a) := by
    rw [hq1, hq2]
    ring
  rw [id]
  have mul_le : ∀ {x y X Y : ℝ}, |x| ≤ X → |y| ≤ Y → 0 ≤ X → |x * y| ≤ X * Y := by
    intro x y X Y hx hy h0
    rw [abs_mul]
    exact mul_le_mul hx hy (abs_nonneg _) h0
  have t1 : |h * ((β 0 (a + h / 2) - β 0 (a - h / 2)) * φ 1 a)| ≤ h * (B * h * M) :=
    mul_le (abs_of_nonneg hh).le (mul_le bd f1 (by positivity)) hh
  have t2 := mul_le c1 tp B0
  have t3 : |2 * (β 0 (a - h / 2) * q2)| ≤ 2 * (B * (M * (h / 2) ^ 2 / 2)) := mul_le (by norm_num) (mul_le c2 tm B0) (by norm_num)
  have t4 : |h ^ 2 * (β 1 a * φ 1 a + β 0 a * φ 2 a)| ≤ h ^ 2 * (B * M + B * M) :=
    mul_le (abs_of_nonneg (by positivity)).le ((abs_add_le _ _).trans (add_le_add (mul_le b1 f1 B0) (mul_le b0 f2 B0))) (by positivity)
  refine (abs_sub _ _).trans ((add_le_add ((abs_add_le _ _).trans (add_le_add ((abs_add_le _ _).trans (add_le_add t1 t2)) t3)) t4).trans ?_)
  have : 0 ≤ B * M * h ^ 2 := by positivity
  nlinarith

/-- At the upper end of the interval. -/
theorem flux_upper {β φ : Nat → ℝ → ℝ} {lo hi B M a h : ℝ} (hβ : Smooth 4 β (Icc lo hi) B) (hφ : Smooth 4 φ (Icc lo hi) M)
    (hh : 0 ≤ h) (h1 : lo ≤ a - h) (h2 : a + h / 2 ≤ hi) :
    |β 0 (a + h / 2) * ((2 * φ 0 (a + h / 2) - φ 0 a) - φ 0 a) - β 0 (a - h / 2) * (φ 0 a - φ 0 (a - h)) -
      h ^ 2 * (β 1 a * φ 1 a + β 0 a * φ 2 a)| ≤ 4 * (B * M) * h ^ 2 := by
  have ha : a ∈ Icc lo hi := ⟨by linarith, by linarith⟩
  have B0 : 0 ≤ B := (abs_nonneg _).trans (hβ.2 0 (by omega) a ha)
  have M0 : 0 ≤ M := (abs_nonneg _).trans (hφ.2 0 (by omega) a ha)
  have tp := taylor2 (hφ.right (by linarith : lo ≤ a) h2) (by linarith)
  have tm := taylor2 (hφ.left h1 (by linarith : a ≤ hi)) hh
  have bd := taylor1 (hβ.right (a := a - h / 2) (h := h) (by linarith) (by linarith)) hh
  simp only [add_zero, sub_zero, pow_zero, one_mul, pow_one] at tp tm bd
  rw [show a - h / 2 + h = a + h / 2 by ring] at bd
  obtain ⟨q1, hq1⟩ : ∃ q, q = φ 0 (a + h / 2) - (φ 0 a + h / 2 * φ 1 a) := ⟨_, rfl⟩
  obtain ⟨q2, hq2⟩ : ∃ q, q = φ 0 (a - h) - (φ 0 a + h * (-1 * φ 1 a)) := ⟨_, rfl⟩
  rw [← hq1] at tp
  rw [← hq2] at tm
  have f1 := hφ.2 1 (by omega) a ha
  have f2 := hφ.2 2 (by omega) a ha
  have b1 := hβ.2 1 (by omega) a ha
  have b0 := hβ.2 0 (by omega) a ha
  have c1 := hβ.2 0 (by omega) (a + h / 2) ⟨by linarith, by linarith⟩
  have c2 := hβ.2 0 (by omega) (a - h / 2) ⟨by linarith, by linarith⟩
  have id : β 0 (a + h / 2) * ((2 * φ 0 (a + h / 2) - φ 0 a) - φ 0 a) - β 0 (a - h / 2) * (φ 0 a - φ 0 (a - h)) -
      h ^ 2 * (β 1 a * φ 1 a + β 0 a * φ 2 a) =
      h * ((β 0 (a + h / 2) - β 0 (a - h / 2)) * φ 1 a) + 2 * (β 0 (a + h / 2) * q1) + β 0 (a - h / 2) * q2 -
        h ^ 2 * (β 1 a * φ 1 a + β 0 a * φ 2 a) := by
    rw [hq1, hq2]
    ring
  rw [id]
  have mul_le : ∀ {x y X Y : ℝ}, |x| ≤ X → |y| ≤ Y → 0 ≤ X → |x * y| ≤ X * Y := by
    intro x y X Y hx hy h0
    rw [abs_mul]
    exact mul_le_mul hx hy (abs_nonneg _) h0
  have t1 : |h * ((β 0 (a + h / 2) - β 0 (a - h / 2)) * φ 1 a)| ≤ h * (B * h * M) :=
    mul_le (abs_of_nonneg hh).le (mul_le bd f1 (by positivity)) hh
  have t2 := mul_le c2 tm B0
  have t3 : |2 * (β 0 (a + h / 2) * q1)| ≤ 2 * (B * (M * (h / 2) ^ 2 / 2)) := mul_le (by norm_num) (mul_le c1 tp B0) (by norm_num)
  have t4 : |h ^ 2 * (β 1 a * φ 1 a + β 0 a * φ 2 a)| ≤ h ^ 2 * (B * M + B * M) :=
    mul_le (abs_of_nonneg (by positivity)).le ((abs_add_le _ _).trans (add_le_add (mul_le b1 f1 B0) (mul_le b0 f2 B0))) (by positivity)
  refine (abs_sub _ _).trans ((add_le_add ((abs_add_le _ _).trans (add_le_add ((abs_add_le _ _).trans (add_le_add t1 t3)) t2)) t4).trans ?_)
  have : 0 ≤ B * M * h ^ 2 := by positivity
  nlinarith

end FV
end EF
