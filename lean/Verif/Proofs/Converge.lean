import Verif.Proofs.Taylor
import Verif.Proofs.FVMax
import Mathlib.Analysis.SpecialFunctions.Exp
import Mathlib.Tactic.LinearCombination

/-!
# A barrier for variable coefficients and the error of the finite volume solution
-/

namespace EF
namespace FV

open Set

/-- Number of faces of a cell of a row on the ends of the row. -/
def ends (m i : Nat) : ℝ := (if i = 0 then 1 else 0) + (if i + 1 = m then 1 else 0)

theorem ends_nonneg (m i : Nat) : 0 ≤ ends m i := by
  unfold ends
  split_ifs <;> norm_num

/-- Growth rate, size and decay of the barrier. -/
noncomputable def rate (R : Rect ℝ) (b0 b1 : ℝ) : ℝ := 2 * b1 / b0 + 1 / (R.xu - R.xl)
@[inherit_doc rate] noncomputable def top (R : Rect ℝ) (b0 b1 : ℝ) : ℝ := Real.exp (rate R b0 b1 * (R.xu - R.xl)) + 1
@[inherit_doc rate] noncomputable def drop (R : Rect ℝ) (b0 b1 : ℝ) : ℝ :=
  rate R b0 b1 * (rate R b0 b1 * b0 - b1) / (1 + rate R b0 b1 * (R.xu - R.xl))

theorem rate_pos {R : Rect ℝ} (hR : Proper R) {b0 b1 : ℝ} (h0 : 0 < b0) (h1 : 0 ≤ b1) : 0 < rate R b0 b1 := by
  have : 0 < R.xu - R.xl := by have := hR.1; linarith
  unfold rate
  positivity

theorem rate_gap {R : Rect ℝ} (hR : Proper R) {b0 b1 : ℝ} (h0 : 0 < b0) (h1 : 0 ≤ b1) : 0 < rate R b0 b1 * b0 - b1 := by
  have hL : 0 < R.xu - R.xl := by have := hR.1; linarith
  have : rate R b0 b1 * b0 = 2 * b1 + b0 / (R.xu - R.xl) := by
    unfold rate
    field_simp
  rw [this]
  have : 0 < b0 / (R.xu - R.xl) := by positivity
  linarith

theorem drop_pos {R : Rect ℝ} (hR : Proper R) {b0 b1 : ℝ} (h0 : 0 < b0) (h1 : 0 ≤ b1) : 0 < drop R b0 b1 := by
  have hL : 0 < R.xu - R.xl := by have := hR.1; linarith
  have a := rate_pos hR h0 h1
  have b := rate_gap hR h0 h1
  unfold drop
  positivity

/-- Barrier along the rows: values between `A` and `A + T top / drop`, boundary values not below zero, and a flux difference of at most
`-T`, and of at most that much less at the ends of the row. -/
theorem barrier_row {beta : ℝ → ℝ → ℝ} {R : Rect ℝ} (hR : Proper R) {b0 b1 : ℝ} (h0 : 0 < b0) (h1 : 0 ≤ b1)
    (hb : ∀ x y, Inside R x y → b0 ≤ beta x y)
    (hl : ∀ x x' y, Inside R x y → Inside R x' y → |beta x y - beta x' y| ≤ b1 * |x - x'|) {m : Nat} (hm : 0 < m)
    {A T : ℝ} (hA : 0 ≤ A) (hT : 0 ≤ T) :
    ∃ (gW gE : ℝ) (w : Nat → ℝ), 0 ≤ gW ∧ 0 ≤ gE ∧ w 0 ≤ A + gW ∧ (∀ i, i < m → A ≤ w i ∧ w i ≤ A + T * top R b0 b1 / drop R b0 b1) ∧
      ∀ i, i < m → ∀ y, R.yl ≤ y → y ≤ R.yu →
        (beta (cx R m i + hx R m / 2) y * ((if i + 1 = m then 2 * gE - w i else w (i + 1)) - w i) -
          beta (cx R m i - hx R m / 2) y * (w i - (if i = 0 then 2 * gW - w i else w (i - 1)))) / hx R m ^ 2 ≤
        -T - 2 * b0 * A / hx R m ^ 2 * ends m i := by
  have hL : 0 < R.xu - R.xl := by have := hR.1; linarith
  have hγ := rate_pos hR h0 h1
  have hgap := rate_gap hR h0 h1
  have hσ := drop_pos hR h0 h1
  obtain ⟨γ, eγ⟩ : ∃ γ, γ = rate R b0 b1 := ⟨_, rfl⟩
  rw [← eγ] at hγ hgap
  have hx0 := hx_pos hR hm
  have hy0 := hy_pos hR hm
  have hm1 : (1 : ℝ) ≤ m := by exact_mod_cast hm
  have hxm : hx R m * m = R.xu - R.xl := by unfold hx; field_simp
  have hxL : hx R m ≤ R.xu - R.xl := by nlinarith
  obtain ⟨ρ, eρ⟩ : ∃ ρ, ρ = 1 + γ * hx R m := ⟨_, rfl⟩
  have hρ1 : 1 ≤ ρ := by rw [eρ]; have : 0 ≤ γ * hx R m := by positivity
                         linarith
  have hρ0 : 0 < ρ := by linarith
  have hρL : ρ ≤ 1 + γ * (R.xu - R.xl) := by rw [eρ]; have := mul_le_mul_of_nonneg_left hxL hγ.le; linarith
  have hpow : ∀ i, i ≤ m → ρ ^ i ≤ top R b0 b1 := by
    intro i hi
    have a1 : ρ ^ i ≤ ρ ^ m := pow_le_pow_right₀ hρ1 hi
    have a2 : ρ ≤ Real.exp (γ * hx R m) := by rw [eρ]; have := Real.add_one_le_exp (γ * hx R m); linarith
    have a3 : ρ ^ m ≤ Real.exp (γ * hx R m) ^ m := pow_le_pow_left₀ hρ0.le a2 m
    have a4 : Real.exp (γ * hx R m) ^ m = Real.exp (γ * (R.xu - R.xl)) := by
      rw [← Real.exp_nat_mul]
      congr 1
      rw [← hxm]
      ring
    unfold top
    rw [← eγ]
    linarith
  obtain ⟨E, eE⟩ : ∃ E, E = top R b0 b1 := ⟨_, rfl⟩
  rw [← eE] at hpow
  have hE1 : 1 ≤ E := by have := hpow 0 (by omega); simpa using this
  have hinv : 1 / ρ ≤ 1 := by rw [div_le_one hρ0]; exact hρ1
  obtain ⟨τ, eτ⟩ : ∃ τ, τ = T / drop R b0 b1 := ⟨_, rfl⟩
  have hτ : 0 ≤ τ := by rw [eτ]; positivity
  have hv : ∀ i, i ≤ m → 0 ≤ E - ρ ^ i ∧ E - ρ ^ i ≤ E := fun i hi =>
    ⟨by have := hpow i hi; linarith, by have : 0 ≤ ρ ^ i := by positivity
                                        linarith⟩
  refine ⟨τ * ((E - 1 + (E - 1 / ρ)) / 2), τ * ((E - ρ ^ (m - 1) + (E - ρ ^ m)) / 2), fun i => A + τ * (E - ρ ^ i), ?_, ?_, ?_, ?_, ?_⟩
  · exact mul_nonneg hτ (by linarith)
  · have a := (hv (m - 1) (by omega)).1
    have b := (hv m le_rfl).1
    exact mul_nonneg hτ (by linarith)
  · have := mul_le_mul_of_nonneg_left (by linarith : E - 1 ≤ (E - 1 + (E - 1 / ρ)) / 2) hτ
    simpa using this
  · intro i hi
    obtain ⟨a, b⟩ := hv i hi.le
    have a' := mul_nonneg hτ a
    refine ⟨by linarith, ?_⟩
    have := mul_le_mul_of_nonneg_left b hτ
    have e : T * top R b0 b1 / drop R b0 b1 = τ * E := by rw [eτ, eE]; ring
    rw [e]
    linarith
  · intro i hi y hy1 hy2
    obtain ⟨fx1, fx2⟩ := cx_face hR hi
    have iE : Inside R (cx R m i + hx R m / 2) y := ⟨by linarith, by linarith, hy1, hy2⟩
    have iW : Inside R (cx R m i - hx R m / 2) y := ⟨by linarith, by linarith, hy1, hy2⟩
    have bE := hb _ _ iE
    have bW := hb _ _ iW
    have lip := hl _ _ _ iE iW
    rw [show cx R m i + hx R m / 2 - (cx R m i - hx R m / 2) = hx R m by ring, abs_of_pos hx0] at lip
    obtain ⟨lip1, lip2⟩ := abs_le.mp lip
    have nW : (if i = 0 then 2 * (τ * ((E - 1 + (E - 1 / ρ)) / 2)) - (A + τ * (E - ρ ^ i)) else A + τ * (E - ρ ^ (i - 1))) =
        A + τ * (E - ρ ^ i) + τ * (ρ ^ i - ρ ^ i / ρ) - 2 * A * (if i = 0 then 1 else 0) := by
      split_ifs with hi0
      · subst hi0
        simp only [pow_zero]
        ring
      · obtain ⟨k, rfl⟩ := Nat.exists_eq_succ_of_ne_zero hi0
        simp only [Nat.succ_eq_add_one, Nat.add_sub_cancel, pow_succ]
        field_simp
        ring
    have nE : (if i + 1 = m then 2 * (τ * ((E - ρ ^ (m - 1) + (E - ρ ^ m)) / 2)) - (A + τ * (E - ρ ^ i)) else A + τ * (E - ρ ^ (i + 1))) =
        A + τ * (E - ρ ^ i) - τ * (ρ ^ i * (ρ - 1)) - 2 * A * (if i + 1 = m then 1 else 0) := by
      split_ifs with hi0
      · rw [show m - 1 = i by omega, ← hi0, pow_succ]
        ring
      · rw [pow_succ]
        ring
    dsimp only
    rw [nW, nE]
    generalize beta (cx R m i + hx R m / 2) y = βE at *
    generalize beta (cx R m i - hx R m / 2) y = βW at *
    have split : (βE * (A + τ * (E - ρ ^ i) - τ * (ρ ^ i * (ρ - 1)) - 2 * A * (if i + 1 = m then 1 else 0) - (A + τ * (E - ρ ^ i))) -
          βW * (A + τ * (E - ρ ^ i) - (A + τ * (E - ρ ^ i) + τ * (ρ ^ i - ρ ^ i / ρ) - 2 * A * (if i = 0 then 1 else 0)))) / hx R m ^ 2 =
        -(τ * ρ ^ i * ((ρ - 1) * (βE * ρ - βW)) / ρ / hx R m ^ 2) -
          2 * A / hx R m ^ 2 * (βE * (if i + 1 = m then 1 else 0) + βW * (if i = 0 then 1 else 0)) := by
      field_simp
      ring
    rw [split]
    -- the part from the growth
    have g1 : hx R m * (γ * b0 - b1) ≤ βE * ρ - βW := by
      rw [eρ]
      have : b0 * (γ * hx R m) ≤ βE * (γ * hx R m) := mul_le_mul_of_nonneg_right bE (by positivity)
      have d1 : βE * (1 + γ * hx R m) - βW = (βE - βW) + βE * (γ * hx R m) := by ring
      have d2 : hx R m * (γ * b0 - b1) = b0 * (γ * hx R m) - b1 * hx R m := by ring
      rw [d1, d2]
      linarith only [this, lip1]
    have g2 : T ≤ τ * ρ ^ i * ((ρ - 1) * (βE * ρ - βW)) / ρ / hx R m ^ 2 := by
      have hρi : 1 ≤ ρ ^ i := one_le_pow₀ hρ1
      have q1 : γ * hx R m * (hx R m * (γ * b0 - b1)) ≤ (ρ - 1) * (βE * ρ - βW) := by
        rw [show ρ - 1 = γ * hx R m by rw [eρ]; ring]
        exact mul_le_mul_of_nonneg_left g1 (by positivity)
      have q0 : 0 ≤ γ * hx R m * (hx R m * (γ * b0 - b1)) := by positivity
      have q2 : τ * (γ * hx R m * (hx R m * (γ * b0 - b1))) ≤ τ * ρ ^ i * ((ρ - 1) * (βE * ρ - βW)) := by
        calc τ * (γ * hx R m * (hx R m * (γ * b0 - b1))) ≤ τ * ((ρ - 1) * (βE * ρ - βW)) := mul_le_mul_of_nonneg_left q1 hτ
          _ = τ * 1 * ((ρ - 1) * (βE * ρ - βW)) := by ring
          _ ≤ τ * ρ ^ i * ((ρ - 1) * (βE * ρ - βW)) :=
            mul_le_mul_of_nonneg_right (mul_le_mul_of_nonneg_left hρi hτ) (q0.trans q1)
      rw [div_div, le_div_iff₀ (by positivity)]
      refine le_trans ?_ q2
      have e1 : T = τ * drop R b0 b1 := by rw [eτ]; field_simp
      have e2 : drop R b0 b1 * (1 + γ * (R.xu - R.xl)) = γ * (γ * b0 - b1) := by
        unfold drop
        rw [← eγ]
        have : 1 + γ * (R.xu - R.xl) ≠ 0 := by positivity
        field_simp
      rw [e1]
      have e3 : drop R b0 b1 * ρ ≤ γ * (γ * b0 - b1) := by rw [← e2]; exact mul_le_mul_of_nonneg_left hρL hσ.le
      have e4 := mul_le_mul_of_nonneg_left e3 (by positivity : 0 ≤ τ * hx R m ^ 2)
      refine le_trans (le_of_eq ?_) (e4.trans (le_of_eq ?_))
      · ring
      · ring
    have ex : 2 * A / hx R m ^ 2 * (b0 * ends m i) ≤
        2 * A / hx R m ^ 2 * (βE * (if i + 1 = m then 1 else 0) + βW * (if i = 0 then 1 else 0)) := by
      refine mul_le_mul_of_nonneg_left ?_ (by positivity)
      unfold ends
      split_ifs <;> linarith
    have r1 : 2 * A / hx R m ^ 2 * (b0 * ends m i) = 2 * b0 * A / hx R m ^ 2 * ends m i := by ring
    rw [r1] at ex
    linarith only [g2, ex]

/-- Barrier: values between zero and `A + T top / drop`, boundary values not below zero, and a flux balance of at most `-T`, and of
at most that much less at boundary cells. -/
theorem barrier {c : FVSolver ℝ} {R : Rect ℝ} (hR : Proper R) (hc : EllipticOn c R) {b0 b1 : ℝ} (h0 : 0 < b0) (h1 : 0 ≤ b1)
    (hb : ∀ x y, Inside R x y → b0 ≤ c.beta x y)
    (hl : ∀ x x' y, Inside R x y → Inside R x' y → |c.beta x y - c.beta x' y| ≤ b1 * |x - x'|) {m : Nat} (hm : 0 < m)
    {A T : ℝ} (hA : 0 ≤ A) (hT : 0 ≤ T) :
    ∃ (g : Bdry ℝ) (w : Nat → Nat → ℝ), (∀ k, 0 ≤ g.W k) ∧ (∀ k, k < m → 0 ≤ g.E k) ∧ (∀ k, k < m → 0 ≤ g.S k) ∧ (∀ k, k < m → 0 ≤ g.N k) ∧
      (∀ i, i < m → ∀ j, j < m → 0 ≤ w i j ∧ w i j ≤ A + T * top R b0 b1 / drop R b0 b1) ∧
      ∀ i, i < m → ∀ j, j < m → balance c R m m g w i j / c.alpha (cx R m i) (cy R m j) ≤
        -T - 2 * b0 * A / hx R m ^ 2 * ends m i - 2 * b0 * A / hy R m ^ 2 * ends m j := by
  obtain ⟨gW, gE, w, hgW, hgE, _, hw, hrow⟩ := barrier_row hR h0 h1 hb hl hm hA hT
  have hx0 := hx_pos hR hm
  have hy0 := hy_pos hR hm
  refine ⟨⟨fun _ => gW, fun _ => gE, fun i => w i - A, fun i => w i - A⟩, fun i _ => w i, fun _ => hgW, fun _ _ => hgE, ?_, ?_, ?_, ?_⟩
  · intro k hk
    have := (hw k hk).1
    dsimp only
    linarith
  · intro k hk
    have := (hw k hk).1
    dsimp only
    linarith
  · intro i hi j _
    exact ⟨hA.trans (hw i hi).1, (hw i hi).2⟩
  · intro i hi j hj
    obtain ⟨fx1, fx2⟩ := cx_face hR hi
    obtain ⟨fy1, fy2⟩ := cy_face hR hj
    obtain ⟨_, ha, hla⟩ := hc (cx R m i) (cy R m j) ⟨by linarith, by linarith, by linarith, by linarith⟩
    have bN := hb (cx R m i) (cy R m j + hy R m / 2) ⟨by linarith, by linarith, by linarith, by linarith⟩
    have bS := hb (cx R m i) (cy R m j - hy R m / 2) ⟨by linarith, by linarith, by linarith, by linarith⟩
    have row := hrow i hi (cy R m j) (by linarith) (by linarith)
    have hw0 : 0 ≤ w i := hA.trans (hw i hi).1
    unfold balance east west north south
    dsimp only
    generalize (if i + 1 = m then 2 * gE - w i else w (i + 1)) = nE at *
    generalize (if i = 0 then 2 * gW - w i else w (i - 1)) = nW at *
    have nN : (if j + 1 = m then 2 * (w i - A) - w i else w i) = w i - 2 * A * (if j + 1 = m then 1 else 0) := by
      split_ifs <;> ring
    have nS : (if j = 0 then 2 * (w i - A) - w i else w i) = w i - 2 * A * (if j = 0 then 1 else 0) := by
      split_ifs <;> ring
    rw [nN, nS]
    generalize c.beta (cx R m i + hx R m / 2) (cy R m j) = βE at *
    generalize c.beta (cx R m i - hx R m / 2) (cy R m j) = βW at *
    generalize c.beta (cx R m i) (cy R m j + hy R m / 2) = βN at *
    generalize c.beta (cx R m i) (cy R m j - hy R m / 2) = βS at *
    generalize c.alpha (cx R m i) (cy R m j) = α at *
    generalize c.lambda (cx R m i) (cy R m j) = lam at *
    generalize (βE * (nE - w i) - βW * (w i - nW)) / hx R m ^ 2 = X at *
    have split : (α * (X + (βN * (w i - 2 * A * (if j + 1 = m then 1 else 0) - w i) -
          βS * (w i - (w i - 2 * A * (if j = 0 then 1 else 0)))) / hy R m ^ 2) + lam * w i) / α =
        X - 2 * A / hy R m ^ 2 * (βN * (if j + 1 = m then 1 else 0) + βS * (if j = 0 then 1 else 0)) + lam / α * w i := by
      field_simp
      ring
    rw [split]
    have z : lam / α * w i ≤ 0 := mul_nonpos_of_nonpos_of_nonneg hla hw0
    have ay : 2 * A / hy R m ^ 2 * (b0 * ends m j) ≤
        2 * A / hy R m ^ 2 * (βN * (if j + 1 = m then 1 else 0) + βS * (if j = 0 then 1 else 0)) := by
      refine mul_le_mul_of_nonneg_left ?_ (by positivity)
      unfold ends
      split_ifs <;> linarith
    have r2 : 2 * A / hy R m ^ 2 * (b0 * ends m j) = 2 * b0 * A / hy R m ^ 2 * ends m j := by ring
    rw [r2] at ay
    linarith only [row, ay, z]

/-- A grid function with zero boundary values whose flux balance is small, except at boundary cells, is small. -/
theorem small_of_balance {c : FVSolver ℝ} {R : Rect ℝ} (hR : Proper R) (hc : EllipticOn c R) {b0 b1 : ℝ} (h0 : 0 < b0) (h1 : 0 ≤ b1)
    (hb : ∀ x y, Inside R x y → b0 ≤ c.beta x y)
    (hl : ∀ x x' y, Inside R x y → Inside R x' y → |c.beta x y - c.beta x' y| ≤ b1 * |x - x'|) {m : Nat} (hm : 0 < m)
    {A T : ℝ} (hA : 0 ≤ A) (hT : 0 ≤ T) {g : Bdry ℝ} (hg : ∀ k, k < m → g.W k = 0 ∧ g.E k = 0 ∧ g.S k = 0 ∧ g.N k = 0) {e : Nat → Nat → ℝ}
    (he : ∀ i, i < m → ∀ j, j < m → |balance c R m m g e i j / c.alpha (cx R m i) (cy R m j)| ≤
      T + 2 * b0 * A / hx R m ^ 2 * ends m i + 2 * b0 * A / hy R m ^ 2 * ends m j) :
    ∀ i, i < m → ∀ j, j < m → |e i j| ≤ A + T * top R b0 b1 / drop R b0 b1 := by
  obtain ⟨G, w, gW, gE, gS, gN, hw, hbal⟩ := barrier hR hc h0 h1 hb hl hm hA hT
  have key : ∀ σ : ℝ, |σ| = 1 → ∀ i, i < m → ∀ j, j < m → σ * e i j + -1 * w i j ≤ 0 := by
    intro σ hσ
    refine comparison hR hc (b := g.lin σ (-1) G) (u := fun i j => σ * e i j + -1 * w i j) ⟨?_, ?_, ?_, ?_⟩ (Or.inl le_rfl) ?_
    · intro k hk
      simp only [Bdry.lin, (hg k hk).1]
      have := gW k
      linarith
    · intro k hk
      simp only [Bdry.lin, (hg k hk).2.1]
      have := gE k hk
      linarith
    · intro k hk
      simp only [Bdry.lin, (hg k hk).2.2.1]
      have := gS k hk
      linarith
    · intro k hk
      simp only [Bdry.lin, (hg k hk).2.2.2]
      have := gN k hk
      linarith
    · intro i hi j hj
      rw [balance_lin]
      have a := he i hi j hj
      have b := hbal i hi j hj
      have c1 : |σ * (balance c R m m g e i j / c.alpha (cx R m i) (cy R m j))| ≤
          T + 2 * b0 * A / hx R m ^ 2 * ends m i + 2 * b0 * A / hy R m ^ 2 * ends m j := by rw [abs_mul, hσ, one_mul]; exact a
      have c2 := (abs_le.mp c1).1
      have e1 : (σ * balance c R m m g e i j + -1 * balance c R m m G w i j) / c.alpha (cx R m i) (cy R m j) =
          σ * (balance c R m m g e i j / c.alpha (cx R m i) (cy R m j)) - balance c R m m G w i j / c.alpha (cx R m i) (cy R m j) := by
        ring
      rw [e1]
      linarith
  intro i hi j hj
  have k1 := key 1 (by norm_num) i hi j hj
  have k2 := key (-1) (by norm_num) i hi j hj
  obtain ⟨_, w2⟩ := hw i hi j hj
  rw [abs_le]
  constructor <;> linarith

/-- The boundary values of a function at the centres of the boundary cells. -/
noncomputable def trace (R : Rect ℝ) (m : Nat) (u : ℝ → ℝ → ℝ) : Bdry ℝ :=
  ⟨fun k => u R.xl (cy R m k), fun k => u R.xu (cy R m k), fun k => u (cx R m k) R.yl, fun k => u (cx R m k) R.yu⟩

theorem Derivs.nonneg {R : Rect ℝ} (hR : Proper R) {u : ℝ → ℝ → ℝ} {Dx Dy : Nat → ℝ → ℝ → ℝ} {M : ℝ} (h : Derivs R u Dx Dy M) : 0 ≤ M :=
  (abs_nonneg _).trans ((h.inX R.yl ⟨le_rfl, hR.2.le⟩).2 0 (by omega) R.xl ⟨le_rfl, hR.1.le⟩)

/-- A function with bounded derivative is Lipschitz. -/
theorem Derivs.lipschitz {R : Rect ℝ} {u : ℝ → ℝ → ℝ} {Dx Dy : Nat → ℝ → ℝ → ℝ} {M : ℝ} (h : Derivs R u Dx Dy M) :
    ∀ x x' y, Inside R x y → Inside R x' y → |u x y - u x' y| ≤ M * |x - x'| := by
  have key : ∀ x x' y, Inside R x y → Inside R x' y → x' ≤ x → |u x y - u x' y| ≤ M * |x - x'| := by
    intro x x' y hx hx' hle
    have := taylor1 ((h.inX y ⟨hx.2.2.1, hx.2.2.2⟩).right (a := x') (h := x - x') hx'.1 (by linarith [hx.2.1])) (by linarith)
    simp only [add_zero, add_sub_cancel, h.x0] at this
    rwa [abs_of_nonneg (by linarith : 0 ≤ x - x')]
  intro x x' y hx hx'
  rcases le_total x' x with hle | hle
  · exact key x x' y hx hx' hle
  · rw [abs_sub_comm, abs_sub_comm x x']
    exact key x' x y hx' hx hle

/-- The flux difference of a smooth function along a row of cells. -/
theorem row_error {β φ : Nat → ℝ → ℝ} {lo hi B M h L : ℝ} (hβ : Smooth 4 β (Icc lo hi) B) (hφ : Smooth 4 φ (Icc lo hi) M) (hh : 0 < h)
    (hL : h ≤ L) {m : Nat} (hm : 2 ≤ m) (hlo : lo + h * m = hi) {i : Nat} (hi' : i < m) (B0 : 0 ≤ B) (M0 : 0 ≤ M) :
    |(β 0 (lo + (i + 1 / 2) * h + h / 2) *
        ((if i + 1 = m then 2 * φ 0 hi - φ 0 (lo + (i + 1 / 2) * h) else φ 0 (lo + ((i + 1 : Nat) + 1 / 2) * h)) - φ 0 (lo + (i + 1 / 2) * h)) -
      β 0 (lo + (i + 1 / 2) * h - h / 2) * (φ 0 (lo + (i + 1 / 2) * h) -
        (if i = 0 then 2 * φ 0 lo - φ 0 (lo + (i + 1 / 2) * h) else φ 0 (lo + ((i - 1 : Nat) + 1 / 2) * h)))) / h ^ 2 -
      (β 1 (lo + (i + 1 / 2) * h) * φ 1 (lo + (i + 1 / 2) * h) + β 0 (lo + (i + 1 / 2) * h) * φ 2 (lo + (i + 1 / 2) * h))| ≤
      B * M * (1 + L) ^ 3 * h ^ 2 + 4 * (B * M) * ends m i := by
  have L0 : 0 < L := hh.trans_le hL
  have hm' : ((i : ℝ) + 1) ≤ m := by exact_mod_cast hi'
  have hi0 : (0 : ℝ) ≤ i := by positivity
  obtain ⟨a, ea⟩ : ∃ a, a = lo + ((i : ℝ) + 1 / 2) * h := ⟨_, rfl⟩
  have a1 : lo ≤ a - h / 2 := by rw [ea]; nlinarith
  have a2 : a + h / 2 ≤ hi := by rw [ea, ← hlo]; nlinarith
  have div : ∀ X D C : ℝ, |X - h ^ 2 * D| ≤ C * h ^ 2 → |X / h ^ 2 - D| ≤ C := by
    intro X D C hX
    have e : X / h ^ 2 - D = (X - h ^ 2 * D) / h ^ 2 := by field_simp
    rw [e, abs_div, abs_of_pos (by positivity : 0 < h ^ 2), div_le_iff₀ (by positivity)]
    exact hX
  rw [← ea]
  have e1 : lo + (((i + 1 : Nat) : ℝ) + 1 / 2) * h = a + h := by rw [ea]; push_cast; ring
  rw [e1]
  have p1 : 0 ≤ B * M * (1 + L) ^ 3 * h ^ 2 := by positivity
  have p2 : 0 ≤ 4 * (B * M) := by positivity
  by_cases hz : i = 0
  · have hne : ¬ i + 1 = m := by omega
    rw [if_neg hne, if_pos hz]
    have el : a - h / 2 = lo := by rw [ea, hz]; push_cast; ring
    have e2 : a + h ≤ hi := by
      have : (2 : ℝ) ≤ m := by exact_mod_cast hm
      rw [ea, hz, ← hlo]
      push_cast
      nlinarith
    have := flux_lower hβ hφ hh.le a1 e2
    rw [el] at this
    rw [el]
    refine (div _ _ _ this).trans ?_
    have : 1 ≤ ends m i := by unfold ends; rw [if_pos hz]; split_ifs <;> norm_num
    nlinarith
  · have e0 : lo + (((i - 1 : Nat) : ℝ) + 1 / 2) * h = a - h := by
      rw [ea, Nat.cast_sub (by omega)]
      push_cast
      ring
    rw [if_neg hz, e0]
    have i1 : (1 : ℝ) ≤ i := by exact_mod_cast Nat.one_le_iff_ne_zero.mpr hz
    have b1 : lo ≤ a - h := by rw [ea]; nlinarith
    by_cases hu : i + 1 = m
    · rw [if_pos hu]
      have eu : a + h / 2 = hi := by rw [ea, ← hlo, ← hu]; push_cast; ring
      have := flux_upper hβ hφ hh.le b1 a2
      rw [eu] at this
      rw [eu]
      refine (div _ _ _ this).trans ?_
      have : 1 ≤ ends m i := by unfold ends; rw [if_pos hu]; split_ifs <;> norm_num
      nlinarith
    · rw [if_neg hu]
      have e2 : a + h ≤ hi := by
        have : ((i : ℝ) + 2) ≤ m := by exact_mod_cast (by omega : i + 2 ≤ m)
        rw [ea, ← hlo]
        nlinarith
      have := flux_inner hβ hφ hh.le hL b1 e2
      have h4 : B * M * (1 + L) ^ 3 * h ^ 4 = B * M * (1 + L) ^ 3 * h ^ 2 * h ^ 2 := by ring
      rw [h4] at this
      refine (div _ _ _ this).trans ?_
      have := mul_nonneg p2 (ends_nonneg m i)
      linarith

/-- The flux balance of a smooth function at the cell centres, with its boundary values. -/
theorem balance_error {c : FVSolver ℝ} {R : Rect ℝ} (hR : Proper R) {u : ℝ → ℝ → ℝ} {Dx Dy Bx By : Nat → ℝ → ℝ → ℝ} {B M L : ℝ}
    (hβ : Derivs R c.beta Bx By B) (hu : Derivs R u Dx Dy M) {f : ℝ → ℝ → ℝ} (hf : Classical c R u Dx Dy Bx By f) {m : Nat} (hm : 2 ≤ m)
    (hLx : R.xu - R.xl ≤ L) (hLy : R.yu - R.yl ≤ L) {i j : Nat} (hi : i < m) (hj : j < m) (ha : c.alpha (cx R m i) (cy R m j) ≠ 0) :
    |(f (cx R m i) (cy R m j) - balance c R m m (trace R m u) (fun i j => u (cx R m i) (cy R m j)) i j) /
        c.alpha (cx R m i) (cy R m j)| ≤
      B * M * (1 + L) ^ 3 * (hx R m ^ 2 + hy R m ^ 2) + 4 * (B * M) * ends m i + 4 * (B * M) * ends m j := by
  have hm0 : 0 < m := by omega
  have hx0 := hx_pos hR hm0
  have hy0 := hy_pos hR hm0
  have hm1 : (1 : ℝ) ≤ m := by exact_mod_cast hm0
  have hxm : hx R m * m = R.xu - R.xl := by unfold hx; field_simp
  have hym : hy R m * m = R.yu - R.yl := by unfold hy; field_simp
  have hxL : hx R m ≤ L := by nlinarith
  have hyL : hy R m ≤ L := by nlinarith
  obtain ⟨fx1, fx2⟩ := cx_face hR hi
  obtain ⟨fy1, fy2⟩ := cy_face hR hj
  have ix : cx R m i ∈ Icc R.xl R.xu := ⟨by linarith, by linarith⟩
  have iy : cy R m j ∈ Icc R.yl R.yu := ⟨by linarith, by linarith⟩
  have B0 := hβ.nonneg hR
  have M0 := hu.nonneg hR
  have rx := row_error (hβ.inX _ iy) (hu.inX _ iy) hx0 hxL hm (by linarith) hi B0 M0
  have ry := row_error (hβ.inY _ ix) (hu.inY _ ix) hy0 hyL hm (by linarith) hj B0 M0
  simp only [hβ.x0, hβ.y0, hu.x0, hu.y0] at rx ry
  rw [← hf _ _ ⟨ix.1, ix.2, iy.1, iy.2⟩]
  unfold balance east west north south trace
  dsimp only
  have ecx : ∀ k : Nat, cx R m k = R.xl + ((k : ℝ) + 1 / 2) * hx R m := fun k => rfl
  have ecy : ∀ k : Nat, cy R m k = R.yl + ((k : ℝ) + 1 / 2) * hy R m := fun k => rfl
  rw [← ecx i, ← ecx (i + 1), ← ecx (i - 1)] at rx
  rw [← ecy j, ← ecy (j + 1), ← ecy (j - 1)] at ry
  generalize (if i + 1 = m then 2 * u R.xu (cy R m j) - u (cx R m i) (cy R m j) else u (cx R m (i + 1)) (cy R m j)) = uE at *
  generalize (if i = 0 then 2 * u R.xl (cy R m j) - u (cx R m i) (cy R m j) else u (cx R m (i - 1)) (cy R m j)) = uW at *
  generalize (if j + 1 = m then 2 * u (cx R m i) R.yu - u (cx R m i) (cy R m j) else u (cx R m i) (cy R m (j + 1))) = uN at *
  generalize (if j = 0 then 2 * u (cx R m i) R.yl - u (cx R m i) (cy R m j) else u (cx R m i) (cy R m (j - 1))) = uS at *
  have e : ∀ al X Y P Q l : ℝ, al ≠ 0 → (al * (P + Q) + l - (al * (X + Y) + l)) / al = -(X - P) - (Y - Q) := by
    intro al X Y P Q l h
    field_simp
    ring
  rw [e _ _ _ _ _ _ ha]
  refine (abs_sub _ _).trans ?_
  rw [abs_neg]
  refine (add_le_add rx ry).trans (le_of_eq ?_)
  ring

/-- Second order: the error of the finite volume solution. -/
theorem error_bound {c : FVSolver ℝ} {R : Rect ℝ} (hR : Proper R) (hc : EllipticOn c R) {b0 : ℝ} (h0 : 0 < b0)
    (hb : ∀ x y, Inside R x y → b0 ≤ c.beta x y) {u : ℝ → ℝ → ℝ} {Dx Dy Bx By : Nat → ℝ → ℝ → ℝ} {B M L : ℝ}
    (hβ : Derivs R c.beta Bx By B) (hu : Derivs R u Dx Dy M) {f : ℝ → ℝ → ℝ} (hf : Classical c R u Dx Dy Bx By f)
    (hLx : R.xu - R.xl ≤ L) (hLy : R.yu - R.yl ≤ L) {m : Nat} (hm : 2 ≤ m) {g : Bdry ℝ}
    (hg : ∀ k, k < m → g.W k = (trace R m u).W k ∧ g.E k = (trace R m u).E k ∧ g.S k = (trace R m u).S k ∧ g.N k = (trace R m u).N k)
    {U : Nat → Nat → ℝ} (hU : Solves c R m m g (fun i j => f (cx R m i) (cy R m j)) U) :
    ∀ i, i < m → ∀ j, j < m → |U i j - u (cx R m i) (cy R m j)| ≤
      (2 / b0 + (1 + L) ^ 3 * top R b0 B / drop R b0 B) * (B * M) * (hx R m ^ 2 + hy R m ^ 2) := by
  have hm0 : 0 < m := by omega
  have hx0 := hx_pos hR hm0
  have hy0 := hy_pos hR hm0
  have B0 := hβ.nonneg hR
  have M0 := hu.nonneg hR
  have L0 : 0 < L := by have := hR.1; linarith
  have key := small_of_balance hR hc h0 B0 hb hβ.lipschitz hm0 (A := 2 * (B * M) / b0 * (hx R m ^ 2 + hy R m ^ 2))
    (T := B * M * (1 + L) ^ 3 * (hx R m ^ 2 + hy R m ^ 2)) (by positivity) (by positivity)
    (g := g.lin 1 (-1) (trace R m u)) (e := fun i j => 1 * U i j + -1 * u (cx R m i) (cy R m j)) ?_ ?_
  · intro i hi j hj
    have := key i hi j hj
    rw [show 1 * U i j + -1 * u (cx R m i) (cy R m j) = U i j - u (cx R m i) (cy R m j) by ring] at this
    refine this.trans (le_of_eq ?_)
    ring
  · intro k hk
    obtain ⟨a, b, c, d⟩ := hg k hk
    simp only [Bdry.lin, a, b, c, d]
    refine ⟨by ring, by ring, by ring, by ring⟩
  · intro i hi j hj
    rw [balance_lin c R m m 1 (-1) g (trace R m u) U (fun i j => u (cx R m i) (cy R m j)), hU i hi j hj]
    obtain ⟨fx1, fx2⟩ := cx_face hR hi
    obtain ⟨fy1, fy2⟩ := cy_face hR hj
    have ha := (hc (cx R m i) (cy R m j) ⟨by linarith, by linarith, by linarith, by linarith⟩).2.1
    have := balance_error hR hβ hu hf hm hLx hLy hi hj ha
    rw [one_mul, neg_one_mul, ← sub_eq_add_neg]
    refine this.trans ?_
    have ex := ends_nonneg m i
    have ey := ends_nonneg m j
    have kx : 4 * (B * M) ≤ 2 * b0 * (2 * (B * M) / b0 * (hx R m ^ 2 + hy R m ^ 2)) / hx R m ^ 2 := by
      rw [le_div_iff₀ (by positivity)]
      have : 2 * b0 * (2 * (B * M) / b0 * (hx R m ^ 2 + hy R m ^ 2)) = 4 * (B * M) * (hx R m ^ 2 + hy R m ^ 2) := by field_simp; ring
      rw [this]
      have : 0 ≤ 4 * (B * M) * hy R m ^ 2 := by positivity
      linarith
    have ky : 4 * (B * M) ≤ 2 * b0 * (2 * (B * M) / b0 * (hx R m ^ 2 + hy R m ^ 2)) / hy R m ^ 2 := by
      rw [le_div_iff₀ (by positivity)]
      have : 2 * b0 * (2 * (B * M) / b0 * (hx R m ^ 2 + hy R m ^ 2)) = 4 * (B * M) * (hx R m ^ 2 + hy R m ^ 2) := by field_simp; ring
      rw [this]
      have : 0 ≤ 4 * (B * M) * hx R m ^ 2 := by positivity
      linarith
    have k1 := mul_le_mul_of_nonneg_right kx ex
    have k2 := mul_le_mul_of_nonneg_right ky ey
    linarith

end FV
end EF
