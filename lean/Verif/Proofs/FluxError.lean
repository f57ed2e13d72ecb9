import Verif.Proofs.MixedError
import Verif.Proofs.RobinMax

/-!
# Values on some sides and fluxes on the others: errors and barriers along rows
-/

namespace EF
namespace FV

open Set

/-- Number of faces of a cell of a row on those ends of the row that are marked. -/
def endsAt (lo hi : Bool) (m i : Nat) : ℝ := (if i = 0 ∧ lo = true then 1 else 0) + (if i + 1 = m ∧ hi = true then 1 else 0)

theorem endsAt_nonneg (lo hi : Bool) (m i : Nat) : 0 ≤ endsAt lo hi m i := by
  unfold endsAt
  split_ifs <;> norm_num

theorem endsAt_lower {lo hi : Bool} {m i : Nat} (hz : i = 0) (hu : ¬ i + 1 = m) : endsAt lo hi m i = if lo = true then 1 else 0 := by
  unfold endsAt
  rw [if_neg (fun h => hu h.1 : ¬ (i + 1 = m ∧ hi = true)), add_zero]
  simp [hz]

theorem endsAt_upper {lo hi : Bool} {m i : Nat} (hz : ¬ i = 0) (hu : i + 1 = m) : endsAt lo hi m i = if hi = true then 1 else 0 := by
  unfold endsAt
  rw [if_neg (fun h => hz h.1 : ¬ (i = 0 ∧ lo = true)), zero_add]
  simp [hu]

theorem endsAt_inner {lo hi : Bool} {m i : Nat} (hz : ¬ i = 0) (hu : ¬ i + 1 = m) : endsAt lo hi m i = 0 := by
  unfold endsAt
  rw [if_neg (fun h => hz h.1 : ¬ (i = 0 ∧ lo = true)), if_neg (fun h => hu h.1 : ¬ (i + 1 = m ∧ hi = true)), zero_add]

/-- The neighbour of a cell at the lower end of a row: mirrored at the boundary value, or given by the derivative. -/
noncomputable def below (fl : Bool) (h v d u : ℝ) : ℝ := if fl = true then u - h * d else 2 * v - u
/-- The neighbour of a cell at the upper end of a row. -/
noncomputable def above (fu : Bool) (h v d u : ℝ) : ℝ := if fu = true then u + h * d else 2 * v - u

/-- The flux difference of a smooth function along a row of cells with values or fluxes at the ends. -/
theorem row_error_at {β φ : Nat → ℝ → ℝ} {lo hi B M h L : ℝ} (hβ : Smooth 4 β (Icc lo hi) B) (hφ : Smooth 4 φ (Icc lo hi) M) (hh : 0 < h)
    (hL : h ≤ L) {m : Nat} (hm : 2 ≤ m) (hlo : lo + h * m = hi) {i : Nat} (hi' : i < m) (B0 : 0 ≤ B) (M0 : 0 ≤ M) (fl fu : Bool) :
    |(β 0 (lo + (i + 1 / 2) * h + h / 2) *
        ((if i + 1 = m then above fu h (φ 0 hi) (φ 1 hi) (φ 0 (lo + (i + 1 / 2) * h)) else φ 0 (lo + ((i + 1 : Nat) + 1 / 2) * h)) -
          φ 0 (lo + (i + 1 / 2) * h)) -
      β 0 (lo + (i + 1 / 2) * h - h / 2) * (φ 0 (lo + (i + 1 / 2) * h) -
        (if i = 0 then below fl h (φ 0 lo) (φ 1 lo) (φ 0 (lo + (i + 1 / 2) * h)) else φ 0 (lo + ((i - 1 : Nat) + 1 / 2) * h)))) / h ^ 2 -
      (β 1 (lo + (i + 1 / 2) * h) * φ 1 (lo + (i + 1 / 2) * h) + β 0 (lo + (i + 1 / 2) * h) * φ 2 (lo + (i + 1 / 2) * h))| ≤
      B * M * (1 + L) ^ 3 * h ^ 2 + 4 * (B * M) * endsAt (!fl) (!fu) m i + B * M * (1 + L) * h * endsAt fl fu m i := by
  have r := row_error hβ hφ hh hL hm hlo hi' B0 M0
  have c := column_error hβ hφ hh hL hm hlo hi' B0 M0
  by_cases hz : i = 0
  · have hne : ¬ i + 1 = m := by omega
    rw [endsAt_lower hz hne, endsAt_lower hz hne]
    simp only [if_neg hne, if_pos hz, ends] at r c ⊢
    cases fl
    · simp only [below, Bool.not_false, Bool.false_eq_true, if_true, if_false]
      linarith
    · simp only [below, Bool.not_true, Bool.false_eq_true, if_true, if_false]
      linarith
  · by_cases hu : i + 1 = m
    · rw [endsAt_upper hz hu, endsAt_upper hz hu]
      simp only [if_neg hz, if_pos hu, ends] at r c ⊢
      cases fu
      · simp only [above, Bool.not_false, Bool.false_eq_true, if_true, if_false]
        linarith
      · simp only [above, Bool.not_true, Bool.false_eq_true, if_true, if_false]
        linarith
    · rw [endsAt_inner hz hu, endsAt_inner hz hu]
      simp only [if_neg hz, if_neg hu, ends] at r ⊢
      linarith

/-- Barrier that falls towards an end with given values. -/
theorem drift_profile {beta : ℝ → ℝ → ℝ} {R : Rect ℝ} (hR : Proper R) {b0 B : ℝ} (h0 : 0 < b0) (h1 : 0 ≤ B)
    (hb : ∀ x y, Inside R x y → b0 ≤ beta x y)
    (hl : ∀ x x' y, Inside R x y → Inside R x' y → |beta x y - beta x' y| ≤ B * |x - x'|) {m : Nat} (hm : 0 < m)
    {fl fu : Bool} {T : ℝ} (hT : 0 ≤ T) (hf : T = 0 ∨ fl = false ∨ fu = false) :
    ∃ (lo hi : ℝ) (w : Nat → ℝ), (fl = true → w 0 ≤ lo) ∧ 0 ≤ lo + w 0 ∧ (fu = true → w (m - 1) ≤ hi) ∧ 0 ≤ hi + w (m - 1) ∧
      (∀ i, i < m → 0 ≤ w i ∧ w i ≤ T * top R b0 B / drop R b0 B) ∧
      ∀ i, i < m → ∀ y, R.yl ≤ y → y ≤ R.yu →
        (beta (cx R m i + hx R m / 2) y * ((if i + 1 = m then hi else w (i + 1)) - w i) -
          beta (cx R m i - hx R m / 2) y * (w i - (if i = 0 then lo else w (i - 1)))) / hx R m ^ 2 ≤ -T := by
  rcases hf with rfl | rfl | rfl
  · refine ⟨0, 0, fun _ => 0, fun _ => le_rfl, by simp, fun _ => le_rfl, by simp, fun i _ => by simp, fun i _ y _ _ => by simp⟩
  · -- falls towards the lower end: mirror the coefficient
    have mir : ∀ x y, Inside R x y → Inside R (R.xl + R.xu - x) y := fun x y h => ⟨by linarith [h.2.1], by linarith [h.1], h.2.2.1, h.2.2.2⟩
    obtain ⟨gW, gE, w, hgW, hgE, hw0, hw, hrow⟩ := barrier_row (beta := fun x y => beta (R.xl + R.xu - x) y) hR h0 h1
      (fun x y h => hb _ _ (mir x y h)) (fun x x' y h h' => by
        have := hl _ _ _ (mir x y h) (mir x' y h')
        rwa [show R.xl + R.xu - x - (R.xl + R.xu - x') = -(x - x') by ring, abs_neg] at this) hm (le_refl (0 : ℝ)) hT
    have hx0 := hx_pos hR hm
    have hxm : hx R m * m = R.xu - R.xl := by unfold hx; field_simp
    refine ⟨2 * gE - w (m - 1), 2 * gW - w 0, fun i => w (m - 1 - i), by simp, ?_, ?_, ?_, ?_, ?_⟩
    · simp only [Nat.sub_zero]; linarith
    · intro _; simp only [Nat.sub_self]; linarith
    · simp only [Nat.sub_self]; linarith
    · intro i hi
      have := hw (m - 1 - i) (by omega)
      simpa using this
    · intro i hi y hy1 hy2
      have := hrow (m - 1 - i) (by omega) y hy1 hy2
      have e1 : R.xl + R.xu - (cx R m (m - 1 - i) + hx R m / 2) = cx R m i - hx R m / 2 := by
        unfold cx
        rw [Nat.cast_sub (by omega), Nat.cast_sub (by omega)]
        push_cast
        linear_combination -hxm
      have e2 : R.xl + R.xu - (cx R m (m - 1 - i) - hx R m / 2) = cx R m i + hx R m / 2 := by
        unfold cx
        rw [Nat.cast_sub (by omega), Nat.cast_sub (by omega)]
        push_cast
        linear_combination -hxm
      simp only [e1, e2] at this
      have n1 : (if m - 1 - i + 1 = m then 2 * gE - w (m - 1 - i) else w (m - 1 - i + 1)) =
          (if i = 0 then 2 * gE - w (m - 1) else w (m - 1 - (i - 1))) := by
        by_cases hz : i = 0
        · rw [if_pos (by omega), if_pos hz, hz, Nat.sub_zero]
        · rw [if_neg (by omega), if_neg hz, show m - 1 - i + 1 = m - 1 - (i - 1) by omega]
      have n2 : (if m - 1 - i = 0 then 2 * gW - w (m - 1 - i) else w (m - 1 - i - 1)) =
          (if i + 1 = m then 2 * gW - w 0 else w (m - 1 - (i + 1))) := by
        by_cases hz : i + 1 = m
        · rw [if_pos (by omega), if_pos hz, show m - 1 - i = 0 by omega]
        · rw [if_neg (by omega), if_neg hz, show m - 1 - i - 1 = m - 1 - (i + 1) by omega]
      rw [n1, n2] at this
      dsimp only
      refine le_trans (le_of_eq ?_) (this.trans (le_of_eq ?_))
      · ring
      · ring
  · obtain ⟨gW, gE, w, hgW, hgE, hw0, hw, hrow⟩ := barrier_row hR h0 h1 hb hl hm (le_refl (0 : ℝ)) hT
    refine ⟨2 * gW - w 0, 2 * gE - w (m - 1), w, fun _ => by linarith, by linarith, by simp, by linarith, fun i hi => by simpa using hw i hi, ?_⟩
    intro i hi y hy1 hy2
    have := hrow i hi y hy1 hy2
    have n1 : (if i + 1 = m then 2 * gE - w i else w (i + 1)) = (if i + 1 = m then 2 * gE - w (m - 1) else w (i + 1)) := by
      by_cases hz : i + 1 = m
      · rw [if_pos hz, if_pos hz, show m - 1 = i by omega]
      · rw [if_neg hz, if_neg hz]
    have n2 : (if i = 0 then 2 * gW - w i else w (i - 1)) = (if i = 0 then 2 * gW - w 0 else w (i - 1)) := by
      by_cases hz : i = 0
      · rw [if_pos hz, if_pos hz, hz]
      · rw [if_neg hz, if_neg hz]
    rw [n1, n2] at this
    refine this.trans (le_of_eq ?_)
    ring

/-- The flux difference of the square of the distance from the middle, with or without fluxes at the ends. -/
theorem square_profile {βN βS b0 B h L : ℝ} (h0 : 0 ≤ b0) (hN : b0 ≤ βN) (hS : b0 ≤ βS) (hN' : βN ≤ B) (hS' : βS ≤ B) (hl : |βN - βS| ≤ B * h)
    (hh : 0 < h) {m : Nat} (hm : 2 ≤ m) (hL : h * m = L) {j : Nat} (hj : j < m) (fl fu : Bool) :
    (βN * ((if j + 1 = m then (if fu = true then offset h L j ^ 2 else (offset h L j + h) ^ 2) else offset h L (j + 1) ^ 2) - offset h L j ^ 2) -
      βS * (offset h L j ^ 2 - (if j = 0 then (if fl = true then offset h L j ^ 2 else (offset h L j - h) ^ 2) else offset h L (j - 1) ^ 2))) /
        h ^ 2 ≤ 2 * B + B * L - b0 * L / h * endsAt fl fu m j := by
  have col := column_barrier h0 hN hS hN' hS' hl hh hm hL hj
  have hm' : (2 : ℝ) ≤ m := by exact_mod_cast hm
  have hj' : ((j : ℝ) + 1) ≤ m := by exact_mod_cast hj
  have hj0 : (0 : ℝ) ≤ j := by positivity
  have L0 : 0 < L := by rw [← hL]; positivity
  have B0 : 0 ≤ B := h0.trans (hN.trans hN')
  have inner : (βN * ((offset h L j + h) ^ 2 - offset h L j ^ 2) - βS * (offset h L j ^ 2 - (offset h L j - h) ^ 2)) / h ^ 2 ≤ 2 * B + B * L := by
    have e2 : (βN * ((offset h L j + h) ^ 2 - offset h L j ^ 2) - βS * (offset h L j ^ 2 - (offset h L j - h) ^ 2)) / h ^ 2 =
        βN + βS + 2 * ((βN - βS) / h * offset h L j) := by field_simp; ring
    rw [e2]
    have o1 : |offset h L j| ≤ L / 2 := by
      rw [abs_le]
      unfold offset
      constructor
      · have : 0 ≤ ((j : ℝ) + 1 / 2) * h := by positivity
        linarith
      · have : ((j : ℝ) + 1 / 2) * h ≤ m * h := mul_le_mul_of_nonneg_right (by linarith) hh.le
        linarith
    have o2 : |(βN - βS) / h| ≤ B := by
      rw [abs_div, abs_of_pos hh, div_le_iff₀ hh]
      exact hl
    have o3 : |(βN - βS) / h * offset h L j| ≤ B * (L / 2) := by
      rw [abs_mul]
      exact mul_le_mul o2 o1 (abs_nonneg _) B0
    have := (abs_le.mp o3).2
    linarith
  have eN : offset h L (j + 1) = offset h L j + h := by unfold offset; push_cast; ring
  by_cases hz : j = 0
  · have hne : ¬ j + 1 = m := by omega
    simp only [if_neg hne, if_pos hz, eN] at col ⊢
    have e1 : ends m j = 1 := by unfold ends; rw [if_pos hz, if_neg hne]; norm_num
    rw [e1] at col
    cases fl
    · have e2 : endsAt false fu m j = 0 := by unfold endsAt; rw [if_neg (by simp), if_neg (by simp [hne])]; norm_num
      rw [e2]
      simp only [Bool.false_eq_true, if_false]
      linarith
    · have e2 : endsAt true fu m j = 1 := by unfold endsAt; rw [if_pos ⟨hz, rfl⟩, if_neg (by simp [hne])]; norm_num
      rw [e2]
      simpa using col
  · have eS : offset h L (j - 1) = offset h L j - h := by
      unfold offset
      rw [Nat.cast_sub (by omega)]
      push_cast
      ring
    by_cases hu : j + 1 = m
    · simp only [if_pos hu, if_neg hz, eS] at col ⊢
      have e1 : ends m j = 1 := by unfold ends; rw [if_neg hz, if_pos hu]; norm_num
      rw [e1] at col
      cases fu
      · have e2 : endsAt fl false m j = 0 := by unfold endsAt; rw [if_neg (by simp [hz]), if_neg (by simp)]; norm_num
        rw [e2]
        simp only [Bool.false_eq_true, if_false]
        linarith
      · have e2 : endsAt fl true m j = 1 := by unfold endsAt; rw [if_neg (by simp [hz]), if_pos ⟨hu, rfl⟩]; norm_num
        rw [e2]
        simpa using col
    · simp only [if_neg hu, if_neg hz, eS, eN]
      have e2 : endsAt fl fu m j = 0 := by unfold endsAt; rw [if_neg (by simp [hz]), if_neg (by simp [hu])]; norm_num
      rw [e2]
      linarith

/-- Barrier along the rows: not below zero, flux difference of at most `-T` up to a constant, and of at most that much less at the
ends of the row. -/
theorem profile {beta : ℝ → ℝ → ℝ} {R : Rect ℝ} (hR : Proper R) {b0 B : ℝ} (h0 : 0 < b0)
    (hb : ∀ x y, Inside R x y → b0 ≤ beta x y) (hB : ∀ x y, Inside R x y → beta x y ≤ B)
    (hl : ∀ x x' y, Inside R x y → Inside R x' y → |beta x y - beta x' y| ≤ B * |x - x'|) {m : Nat} (hm : 2 ≤ m)
    {fl fu : Bool} {A T P : ℝ} (hA : 0 ≤ A) (hT : 0 ≤ T) (hP : 0 ≤ P) (hf : T = 0 ∨ fl = false ∨ fu = false) :
    ∃ (lo hi : ℝ) (w : Nat → ℝ), (fl = true → w 0 ≤ lo) ∧ -2 * A ≤ lo + w 0 ∧ (fu = true → w (m - 1) ≤ hi) ∧ -2 * A ≤ hi + w (m - 1) ∧
      (∀ i, i < m → 0 ≤ w i ∧ w i ≤ T * top R b0 B / drop R b0 B + P * (R.xu - R.xl) / 4) ∧
      ∀ i, i < m → ∀ y, R.yl ≤ y → y ≤ R.yu →
        (beta (cx R m i + hx R m / 2) y * ((if i + 1 = m then hi else w (i + 1)) - w i) -
          beta (cx R m i - hx R m / 2) y * (w i - (if i = 0 then lo else w (i - 1)))) / hx R m ^ 2 ≤
        -T + P * (2 * B / (R.xu - R.xl) + B) - 2 * b0 * A / hx R m ^ 2 * endsAt (!fl) (!fu) m i - b0 * P / hx R m * endsAt fl fu m i := by
  have hm0 : 0 < m := by omega
  obtain ⟨L, eL⟩ : ∃ L, L = R.xu - R.xl := ⟨_, rfl⟩
  have L0 : 0 < L := by have := hR.1; linarith
  have B0 : 0 < B := by
    have i0 : Inside R R.xl R.yl := ⟨le_rfl, hR.1.le, le_rfl, hR.2.le⟩
    exact h0.trans_le ((hb _ _ i0).trans (hB _ _ i0))
  have hx0 := hx_pos hR hm0
  have hxm : hx R m * m = L := by rw [eL]; unfold hx; field_simp
  obtain ⟨lo, hi, w, p1, p2, p3, p4, p5, p6⟩ := drift_profile hR h0 B0.le hb hl hm0 hT hf
  rw [← eL]
  have hPL : 0 ≤ P / L := by positivity
  have hq : ∀ j, j < m → 0 ≤ offset (hx R m) L j ^ 2 ∧ offset (hx R m) L j ^ 2 ≤ L ^ 2 / 4 := by
    intro j hj
    refine ⟨sq_nonneg _, ?_⟩
    have hj' : ((j : ℝ) + 1) ≤ m := by exact_mod_cast hj
    have hj0 : (0 : ℝ) ≤ j := by positivity
    have a : -(L / 2) ≤ offset (hx R m) L j := by
      unfold offset
      have : 0 ≤ ((j : ℝ) + 1 / 2) * hx R m := by positivity
      linarith
    have b : offset (hx R m) L j ≤ L / 2 := by
      unfold offset
      have : ((j : ℝ) + 1 / 2) * hx R m ≤ m * hx R m := mul_le_mul_of_nonneg_right (by linarith) hx0.le
      linarith
    have := sq_le_sq' a b
    linarith [this, (by ring : (L / 2) ^ 2 = L ^ 2 / 4)]
  refine ⟨lo + P / L * (if fl = true then offset (hx R m) L 0 ^ 2 else (offset (hx R m) L 0 - hx R m) ^ 2) - (if fl = true then 0 else 2 * A),
    hi + P / L * (if fu = true then offset (hx R m) L (m - 1) ^ 2 else (offset (hx R m) L (m - 1) + hx R m) ^ 2) -
      (if fu = true then 0 else 2 * A), fun i => w i + P / L * offset (hx R m) L i ^ 2, ?_, ?_, ?_, ?_, ?_, ?_⟩
  · intro h
    simp only [if_pos h, sub_zero]
    have := p1 h
    linarith
  · have q1 : 0 ≤ P / L * (if fl = true then offset (hx R m) L 0 ^ 2 else (offset (hx R m) L 0 - hx R m) ^ 2) :=
      mul_nonneg hPL (by split_ifs <;> positivity)
    have q2 : 0 ≤ P / L * offset (hx R m) L 0 ^ 2 := mul_nonneg hPL (by positivity)
    have q3 : (if fl = true then 0 else 2 * A) ≤ 2 * A := by split_ifs <;> linarith
    linarith
  · intro h
    simp only [if_pos h, sub_zero]
    have := p3 h
    linarith
  · have q1 : 0 ≤ P / L * (if fu = true then offset (hx R m) L (m - 1) ^ 2 else (offset (hx R m) L (m - 1) + hx R m) ^ 2) :=
      mul_nonneg hPL (by split_ifs <;> positivity)
    have q2 : 0 ≤ P / L * offset (hx R m) L (m - 1) ^ 2 := mul_nonneg hPL (by positivity)
    have q3 : (if fu = true then 0 else 2 * A) ≤ 2 * A := by split_ifs <;> linarith
    linarith
  · intro i hi
    obtain ⟨a1, a2⟩ := p5 i hi
    obtain ⟨q1, q2⟩ := hq i hi
    have q3 := mul_nonneg hPL q1
    have q4 := mul_le_mul_of_nonneg_left q2 hPL
    have q5 : P / L * (L ^ 2 / 4) = P * L / 4 := by field_simp
    constructor <;> linarith
  · intro i hi' y hy1 hy2
    obtain ⟨fx1, fx2⟩ := cx_face hR hi'
    have iE : Inside R (cx R m i + hx R m / 2) y := ⟨by linarith, by linarith, hy1, hy2⟩
    have iW : Inside R (cx R m i - hx R m / 2) y := ⟨by linarith, by linarith, hy1, hy2⟩
    have row := p6 i hi' y hy1 hy2
    have lip := hl _ _ _ iE iW
    rw [show cx R m i + hx R m / 2 - (cx R m i - hx R m / 2) = hx R m by ring, abs_of_pos hx0] at lip
    have col := square_profile h0.le (hb _ _ iE) (hb _ _ iW) (hB _ _ iE) (hB _ _ iW) lip hx0 hm hxm hi' fl fu
    have bE := hb _ _ iE
    have bW := hb _ _ iW
    have nE : (if i + 1 = m then
        hi + P / L * (if fu = true then offset (hx R m) L (m - 1) ^ 2 else (offset (hx R m) L (m - 1) + hx R m) ^ 2) -
          (if fu = true then 0 else 2 * A) else w (i + 1) + P / L * offset (hx R m) L (i + 1) ^ 2) =
        (if i + 1 = m then hi else w (i + 1)) + P / L * (if i + 1 = m then (if fu = true then offset (hx R m) L i ^ 2 else
          (offset (hx R m) L i + hx R m) ^ 2) else offset (hx R m) L (i + 1) ^ 2) - 2 * A * (if i + 1 = m ∧ (!fu) = true then 1 else 0) := by
      by_cases hz : i + 1 = m
      · rw [show m - 1 = i by omega]
        cases fu <;> simp [hz]
      · simp [hz]
    have nW : (if i = 0 then
        lo + P / L * (if fl = true then offset (hx R m) L 0 ^ 2 else (offset (hx R m) L 0 - hx R m) ^ 2) -
          (if fl = true then 0 else 2 * A) else w (i - 1) + P / L * offset (hx R m) L (i - 1) ^ 2) =
        (if i = 0 then lo else w (i - 1)) + P / L * (if i = 0 then (if fl = true then offset (hx R m) L i ^ 2 else
          (offset (hx R m) L i - hx R m) ^ 2) else offset (hx R m) L (i - 1) ^ 2) - 2 * A * (if i = 0 ∧ (!fl) = true then 1 else 0) := by
      by_cases hz : i = 0
      · subst hz
        cases fl <;> simp
      · simp [hz]
    dsimp only
    rw [nE, nW]
    generalize (if i + 1 = m then hi else w (i + 1)) = vE at *
    generalize (if i = 0 then lo else w (i - 1)) = vW at *
    generalize (if i + 1 = m then (if fu = true then offset (hx R m) L i ^ 2 else (offset (hx R m) L i + hx R m) ^ 2) else
      offset (hx R m) L (i + 1) ^ 2) = qE at *
    generalize (if i = 0 then (if fl = true then offset (hx R m) L i ^ 2 else (offset (hx R m) L i - hx R m) ^ 2) else
      offset (hx R m) L (i - 1) ^ 2) = qW at *
    generalize beta (cx R m i + hx R m / 2) y = βE at *
    generalize beta (cx R m i - hx R m / 2) y = βW at *
    generalize offset (hx R m) L i ^ 2 = o at *
    have split : (βE * (vE + P / L * qE - 2 * A * (if i + 1 = m ∧ (!fu) = true then 1 else 0) - (w i + P / L * o)) -
        βW * (w i + P / L * o - (vW + P / L * qW - 2 * A * (if i = 0 ∧ (!fl) = true then 1 else 0)))) / hx R m ^ 2 =
        (βE * (vE - w i) - βW * (w i - vW)) / hx R m ^ 2 + P / L * ((βE * (qE - o) - βW * (o - qW)) / hx R m ^ 2) -
          2 * A / hx R m ^ 2 * (βE * (if i + 1 = m ∧ (!fu) = true then 1 else 0) + βW * (if i = 0 ∧ (!fl) = true then 1 else 0)) := by
      ring
    rw [split]
    have c2 := mul_le_mul_of_nonneg_left col hPL
    have c3 : P / L * (2 * B + B * L - b0 * L / hx R m * endsAt fl fu m i) = P * (2 * B / L + B) - b0 * P / hx R m * endsAt fl fu m i := by
      field_simp
    rw [c3] at c2
    have ex : 2 * A / hx R m ^ 2 * (b0 * endsAt (!fl) (!fu) m i) ≤
        2 * A / hx R m ^ 2 * (βE * (if i + 1 = m ∧ (!fu) = true then 1 else 0) + βW * (if i = 0 ∧ (!fl) = true then 1 else 0)) := by
      refine mul_le_mul_of_nonneg_left ?_ (by positivity)
      unfold endsAt
      have u1 : b0 * (if i = 0 ∧ (!fl) = true then 1 else 0) ≤ βW * (if i = 0 ∧ (!fl) = true then 1 else 0) :=
        mul_le_mul_of_nonneg_right bW (by split_ifs <;> norm_num)
      have u2 : b0 * (if i + 1 = m ∧ (!fu) = true then 1 else 0) ≤ βE * (if i + 1 = m ∧ (!fu) = true then 1 else 0) :=
        mul_le_mul_of_nonneg_right bE (by split_ifs <;> norm_num)
      linarith
    have r1 : 2 * A / hx R m ^ 2 * (b0 * endsAt (!fl) (!fu) m i) = 2 * b0 * A / hx R m ^ 2 * endsAt (!fl) (!fu) m i := by ring
    rw [r1] at ex
    linarith only [row, c2, ex]

end FV
end EF
