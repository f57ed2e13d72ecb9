import Verif.Model.Rounding
import Verif.Spec.Rounding
import Verif.Proofs.Scientific
import Mathlib.Algebra.Order.Field.Power
import Verif.Proofs.QuadMap

/-!
# Rounding to double: lemmas
-/

namespace EF

/-- A number with 53 binary digits and exponent from -1074: a `double` if it is not too large. -/
def Short (x : ℚ) : Prop := ∃ m e : Int, x = m * 2 ^ e ∧ |m| < 2 ^ 53 ∧ -1074 ≤ e

theorem IsDouble.short {x : ℚ} (h : IsDouble x) : Short x := by
  obtain ⟨m, e, h1, h2, h3, _⟩ := h
  exact ⟨m, e, h1, h2, h3⟩

theorem zpow_split (a b : Int) : (2 : ℚ) ^ (a + b) = 2 ^ a * 2 ^ b := zpow_add₀ (by norm_num) a b

theorem zpow_nat_of_nonneg {a : Int} (h : 0 ≤ a) : (2 : ℚ) ^ a = ((2 ^ a.toNat : Nat) : ℚ) := by
  conv_lhs => rw [← Int.toNat_of_nonneg h]
  rw [zpow_natCast]; push_cast; rfl

theorem Short.isDouble {x : ℚ} (h : Short x) (hx : |x| < 2 ^ (1024 : Int)) : IsDouble x := by
  obtain ⟨m, e, h1, h2, h3⟩ := h
  by_cases he : e ≤ 971
  · exact ⟨m, e, h1, h2, h3, he⟩
  · have e0 : 0 ≤ e - 971 := by omega
    refine ⟨m * ((2 ^ (e - 971).toNat : Nat) : Int), 971, ?_, ?_, by norm_num, le_rfl⟩
    · rw [h1, show e = (e - 971) + 971 by omega, zpow_split, zpow_nat_of_nonneg e0]
      push_cast
      rw [show (e - 971 + 971 - 971).toNat = (e - 971).toNat by congr 1; omega]
      ring
    · have hx' : |((m * ((2 ^ (e - 971).toNat : Nat) : Int) : Int) : ℚ)| * 2 ^ (971 : Int) < 2 ^ (53 : Int) * 2 ^ (971 : Int) := by
        rw [← zpow_split]
        norm_num only
        refine lt_of_eq_of_lt ?_ hx
        rw [h1, abs_mul, abs_of_pos (show (0 : ℚ) < 2 ^ e by positivity), Int.cast_mul, abs_mul]
        rw [show e = (e - 971) + 971 by omega, zpow_split, zpow_nat_of_nonneg e0]
        push_cast
        rw [show (e - 971 + 971 - 971).toNat = (e - 971).toNat by congr 1; omega, abs_of_pos (show (0:ℚ) < 2 ^ (e - 971).toNat by positivity)]
        ring
      have := lt_of_mul_lt_mul_right hx' (by positivity)
      have h4 : ((|m * ((2 ^ (e - 971).toNat : Nat) : Int)| : Int) : ℚ) < ((2 ^ 53 : Int) : ℚ) := by
        rw [Int.cast_abs]
        refine lt_of_lt_of_eq this ?_
        norm_num
      exact_mod_cast h4

theorem Short.neg {x : ℚ} (h : Short x) : Short (-x) := by
  obtain ⟨m, e, h1, h2, h3⟩ := h
  exact ⟨-m, e, by rw [h1]; push_cast; ring, by rwa [abs_neg], h3⟩

theorem Short.double {x : ℚ} (h : Short x) : Short (2 * x) := by
  obtain ⟨m, e, h1, h2, h3⟩ := h
  refine ⟨m, e + 1, ?_, h2, by omega⟩
  rw [h1, zpow_split]; norm_num; ring

theorem Short.zero : Short 0 := ⟨0, 0, by simp, by norm_num, by norm_num⟩

theorem lastExp_neg (x : ℚ) : lastExp (-x) = lastExp x := by rw [lastExp, abs_neg]; rfl

theorem nearestEven_zero : nearestEven 0 = 0 := by
  have := nearestEven_le (y := 0) (n := 1) le_rfl (by norm_num)
  unfold nearestEven
  rw [if_pos (by simp)]; simp

theorem roundDouble_zero : roundDouble 0 = 0 := by
  unfold roundDouble
  rw [abs_zero, zero_div, nearestEven_zero]
  simp

theorem roundDouble_neg (x : ℚ) : roundDouble (-x) = -roundDouble x := by
  rcases lt_trichotomy x 0 with h | rfl | h
  · unfold roundDouble
    rw [if_pos h, if_neg (by linarith), lastExp_neg, abs_neg]; ring
  · rw [neg_zero, roundDouble_zero, neg_zero]
  · unfold roundDouble
    rw [if_neg (show ¬ x < 0 by linarith), if_pos (by linarith), lastExp_neg, abs_neg]; ring

theorem roundDouble_of_nonneg {x : ℚ} (h : 0 ≤ x) : roundDouble x = (nearestEven (x / 2 ^ lastExp x) : ℚ) * 2 ^ lastExp x := by
  unfold roundDouble
  rw [if_neg (by linarith), abs_of_nonneg h, one_mul]

theorem roundDouble_nonneg {x : ℚ} (h : 0 ≤ x) : 0 ≤ roundDouble x := by
  rw [roundDouble_of_nonneg h]; positivity

theorem nearestEven_nat (n : Nat) : nearestEven (n : ℚ) = n := by
  unfold nearestEven
  rw [if_pos (by simp)]; simp

theorem log2_le {x : ℚ} (h : 0 < x) : (2 : ℚ) ^ Int.log 2 x ≤ x := by
  have := Int.zpow_log_le_self (b := 2) (r := x) (by norm_num) h
  exact_mod_cast this

theorem lt_log2 (x : ℚ) : x < (2 : ℚ) ^ (Int.log 2 x + 1) := by
  have := Int.lt_zpow_succ_log_self (b := 2) (by norm_num) x
  exact_mod_cast this

theorem zpow2_le {a b : Int} (h : a ≤ b) : (2 : ℚ) ^ a ≤ 2 ^ b := zpow_le_zpow_right₀ (by norm_num) h

theorem zpow2_lt {a b : Int} : (2 : ℚ) ^ a < 2 ^ b ↔ a < b := zpow_lt_zpow_iff_right₀ (by norm_num)

/-- Numbers that fit are not changed. -/
theorem roundDouble_short {x : ℚ} (h : Short x) : roundDouble x = x := by
  wlog hx : 0 ≤ x generalizing x
  · have := this h.neg (by linarith)
    rw [roundDouble_neg] at this
    linarith
  obtain ⟨m, e, h1, h2, h3⟩ := h
  rcases eq_or_lt_of_le hx with h0 | hpos
  · rw [← h0, roundDouble_zero]
  have pe : (0 : ℚ) < 2 ^ e := by positivity
  have hm : 0 ≤ m := by
    by_contra hn
    have : (m : ℚ) < 0 := by exact_mod_cast not_le.1 hn
    have : x < 0 := by rw [h1]; exact mul_neg_of_neg_of_pos this pe
    linarith
  have hlog : Int.log 2 x < e + 53 := by
    rw [← zpow2_lt]
    refine lt_of_le_of_lt (log2_le hpos) ?_
    rw [h1, zpow_split, mul_comm]
    refine mul_lt_mul_of_pos_left ?_ pe
    rw [abs_of_nonneg hm] at h2
    have : (m : ℚ) < ((2 ^ 53 : Int) : ℚ) := by exact_mod_cast h2
    refine lt_of_lt_of_eq this ?_
    norm_num
  have hl : lastExp x ≤ e := by
    unfold lastExp; rw [abs_of_nonneg hx]; omega
  have hd : x / 2 ^ lastExp x = ((m.toNat * 2 ^ (e - lastExp x).toNat : Nat) : ℚ) := by
    rw [div_eq_iff (by positivity), h1]
    have hmq : ((m.toNat : Nat) : ℚ) = (m : ℚ) := by
      have : ((m.toNat : Nat) : Int) = m := Int.toNat_of_nonneg hm
      exact_mod_cast congrArg (Int.cast : Int → ℚ) this
    push_cast
    rw [hmq]
    have := zpow_nat_of_nonneg (a := e - lastExp (m * 2 ^ e)) (by rw [h1] at hl; omega)
    push_cast at this
    rw [← this, mul_assoc, ← zpow_split]
    congr 2; omega
  rw [roundDouble_of_nonneg hx, hd, nearestEven_nat, ← hd, div_mul_cancel₀ _ (by positivity)]

/-- The error is at most half a unit of the last digit. -/
theorem roundDouble_near (x : ℚ) : |roundDouble x - x| ≤ 2 ^ lastExp x / 2 := by
  wlog hx : 0 ≤ x generalizing x
  · have := this (-x) (by linarith)
    rw [roundDouble_neg, lastExp_neg] at this
    rwa [← abs_neg, show -(roundDouble x - x) = -roundDouble x - -x by ring]
  have p : (0 : ℚ) < 2 ^ lastExp x := by positivity
  have h := nearestEven_near (y := x / 2 ^ lastExp x) (by positivity)
  rw [roundDouble_of_nonneg hx]
  have e : (nearestEven (x / 2 ^ lastExp x) : ℚ) * 2 ^ lastExp x - x = ((nearestEven (x / 2 ^ lastExp x) : ℚ) - x / 2 ^ lastExp x) * 2 ^ lastExp x := by
    rw [sub_mul, div_mul_cancel₀ _ p.ne']
  rw [e, abs_mul, abs_of_pos p]
  calc _ ≤ 1 / 2 * 2 ^ lastExp x := mul_le_mul_of_nonneg_right h p.le
    _ = _ := by ring

theorem roundDouble_error {x M : ℚ} (h : |x| ≤ M) (hM : 1 / 2 ^ 1022 ≤ M) : |roundDouble x - x| ≤ roundoff * M := by
  have hM0 : 0 < M := lt_of_lt_of_le (by positivity) hM
  rcases eq_or_ne x 0 with rfl | h0
  · rw [roundDouble_zero, sub_zero, abs_zero]
    unfold roundoff; positivity
  refine (roundDouble_near x).trans ?_
  have key : (2 : ℚ) ^ lastExp x ≤ M / 2 ^ 52 := by
    unfold lastExp
    rcases le_total (Int.log 2 |x| - 52) (-1074) with hc | hc
    · rw [max_eq_right hc, le_div_iff₀ (by positivity)]
      refine le_trans (le_of_eq ?_) hM
      rw [show (-1074 : Int) = -((1022 + 52 : Nat) : Int) by norm_num, zpow_neg, zpow_natCast, pow_add]
      generalize (2 : ℚ) ^ 1022 = t
      field_simp
    · rw [max_eq_left hc, zpow_sub₀ (by norm_num)]
      have := (log2_le (abs_pos.2 h0)).trans h
      have e : (2 : ℚ) ^ (52 : Int) = 2 ^ 52 := by norm_cast
      rw [e]
      exact div_le_div_of_nonneg_right this (by positivity)
  calc (2 : ℚ) ^ lastExp x / 2 ≤ M / 2 ^ 52 / 2 := by linarith
    _ = roundoff * M := by unfold roundoff; ring

theorem lastExp_ge (x : ℚ) : -1074 ≤ lastExp x := le_max_right _ _

theorem le_lastExp {x : ℚ} (hx : 0 ≤ x) : x < 2 ^ (lastExp x + 53) := by
  refine lt_of_lt_of_le (lt_log2 x) (zpow2_le ?_)
  unfold lastExp; rw [abs_of_nonneg hx]; omega

/-- What rounding gives fits. -/
theorem roundDouble_isShort (x : ℚ) : Short (roundDouble x) := by
  wlog hx : 0 ≤ x generalizing x
  · have := (this (-x) (by linarith)).neg
    rwa [roundDouble_neg, neg_neg] at this
  rw [roundDouble_of_nonneg hx]
  have p : (0 : ℚ) < 2 ^ lastExp x := by positivity
  have h : nearestEven (x / 2 ^ lastExp x) ≤ 2 ^ 53 := by
    refine nearestEven_le (by positivity) ?_
    rw [div_lt_iff₀ p]
    refine lt_of_lt_of_eq (le_lastExp hx) ?_
    rw [zpow_split, mul_comm]; norm_num
  rcases Nat.lt_or_eq_of_le h with h | h
  · exact ⟨nearestEven (x / 2 ^ lastExp x), lastExp x, by push_cast; rfl, by rw [Nat.abs_cast]; exact_mod_cast h, lastExp_ge x⟩
  · refine ⟨2 ^ 52, lastExp x + 1, ?_, by norm_num, by have := lastExp_ge x; omega⟩
    rw [h, zpow_split]; push_cast; norm_num; ring

theorem nearestEven_best {y : ℚ} (hy : 0 ≤ y) (k : Int) : |(nearestEven y : ℚ) - y| ≤ |(k : ℚ) - y| := by
  have h := nearestEven_near hy
  by_cases e : k = (nearestEven y : Int)
  · rw [e]; push_cast; rfl
  · have h1 : (1 : ℚ) ≤ |(k : ℚ) - (nearestEven y : ℚ)| := by
      have : (1 : Int) ≤ |k - (nearestEven y : Int)| := Int.one_le_abs (sub_ne_zero.2 e)
      have h2 : ((1 : Int) : ℚ) ≤ ((|k - (nearestEven y : Int)| : Int) : ℚ) := by exact_mod_cast this
      push_cast at h2
      exact h2
    have h2 : |(k : ℚ) - (nearestEven y : ℚ)| ≤ |(k : ℚ) - y| + |(nearestEven y : ℚ) - y| := by
      have := abs_sub_le (k : ℚ) y (nearestEven y : ℚ)
      rwa [abs_sub_comm y] at this
    linarith

/-- No number that fits is nearer. -/
theorem roundDouble_best (x : ℚ) {s : ℚ} (hs : Short s) : |roundDouble x - x| ≤ |s - x| := by
  wlog hx : 0 ≤ x generalizing x s
  · have := this (-x) hs.neg (by linarith)
    rw [roundDouble_neg] at this
    rwa [← abs_neg, ← abs_neg (s - x), show -(roundDouble x - x) = -roundDouble x - -x by ring, show -(s - x) = -s - -x by ring]
  have p : (0 : ℚ) < 2 ^ lastExp x := by positivity
  have mul : ∀ k : Int, |roundDouble x - x| ≤ |(k : ℚ) * 2 ^ lastExp x - x| := by
    intro k
    have h := nearestEven_best (y := x / 2 ^ lastExp x) (by positivity) k
    have e : ∀ z : ℚ, z * 2 ^ lastExp x - x = (z - x / 2 ^ lastExp x) * 2 ^ lastExp x := by
      intro z; rw [sub_mul, div_mul_cancel₀ _ p.ne']
    rw [roundDouble_of_nonneg hx, e, e, abs_mul, abs_mul, abs_of_pos p]
    exact mul_le_mul_of_nonneg_right h p.le
  obtain ⟨m, e, h1, h2, h3⟩ := hs
  by_cases he : lastExp x ≤ e
  · have h := mul (m * ((2 ^ (e - lastExp x).toNat : Nat) : Int))
    have h4 := zpow_nat_of_nonneg (a := e - lastExp x) (by omega)
    push_cast at h4 h
    rw [← h4, mul_assoc, ← zpow_split, sub_add_cancel, ← h1] at h
    exact h
  · push Not at he
    have hl : lastExp x = Int.log 2 x - 52 := by
      unfold lastExp at he ⊢; rw [abs_of_nonneg hx] at he ⊢; omega
    rcases eq_or_lt_of_le hx with h0 | hpos
    · rw [← h0, roundDouble_zero, sub_zero, abs_zero]; positivity
    have hT : ((2 ^ 52 : Int) : ℚ) * 2 ^ lastExp x = 2 ^ Int.log 2 x := by
      rw [hl, zpow_sub₀ (by norm_num)]
      push_cast
      rw [mul_div_assoc', mul_comm, mul_div_assoc]
      norm_num
    have h := mul (2 ^ 52)
    rw [hT] at h
    have hle := log2_le hpos
    have hsm : s < 2 ^ Int.log 2 x := by
      have : s ≤ |s| := le_abs_self s
      refine lt_of_le_of_lt this ?_
      rw [h1, abs_mul, abs_of_pos (show (0 : ℚ) < 2 ^ e by positivity)]
      have q : (|(m : ℚ)|) < 2 ^ (53 : Int) := by
        have : ((|m| : Int) : ℚ) < ((2 ^ 53 : Int) : ℚ) := by exact_mod_cast h2
        push_cast at this
        exact this.trans_eq (by norm_num)
      calc |(m : ℚ)| * 2 ^ e < 2 ^ (53 : Int) * 2 ^ e := mul_lt_mul_of_pos_right q (by positivity)
        _ = 2 ^ (53 + e) := (zpow_split _ _).symm
        _ ≤ 2 ^ Int.log 2 x := zpow2_le (by omega)
    rw [abs_of_nonpos (show (2 : ℚ) ^ Int.log 2 x - x ≤ 0 by linarith)] at h
    rw [abs_of_nonpos (show s - x ≤ 0 by linarith)]
    linarith

theorem roundDouble_ge {x s : ℚ} (hs : Short s) (h : s ≤ x) : s ≤ roundDouble x := by
  have := roundDouble_best x hs
  rw [abs_of_nonpos (show s - x ≤ 0 by linarith)] at this
  have := (abs_le.1 this).1
  linarith

theorem roundDouble_le {x s : ℚ} (hs : Short s) (h : x ≤ s) : roundDouble x ≤ s := by
  have := roundDouble_best x hs
  rw [abs_of_nonneg (show 0 ≤ s - x by linarith)] at this
  have := (abs_le.1 this).2
  linarith

theorem roundDouble_mono {x y : ℚ} (h : x ≤ y) : roundDouble x ≤ roundDouble y := by
  by_contra hn
  push Not at hn
  have sx := roundDouble_isShort x
  have sy := roundDouble_isShort y
  have h1 : roundDouble y < x := by
    by_contra hc
    exact absurd (roundDouble_le sy (not_lt.1 hc)) (by linarith)
  have h2 : y < roundDouble x := by
    by_contra hc
    exact absurd (roundDouble_ge sx (not_lt.1 hc)) (by linarith)
  have b1 := roundDouble_best x sy
  have b2 := roundDouble_best y sx
  rw [abs_of_nonneg (by linarith), abs_of_nonpos (by linarith)] at b1
  rw [abs_of_nonpos (by linarith), abs_of_nonneg (by linarith)] at b2
  have : x = y := by linarith
  subst this
  linarith

/-! ## Bounds of patches -/

/-- Column and row of an address among the quadrants of its level. -/
def Addr.col (a : Addr) : Nat := a.foldl (fun i k => 2 * i + k % 2) 0
def Addr.row (a : Addr) : Nat := a.foldl (fun i k => 2 * i + k / 2) 0

theorem Addr.col_snoc (a : Addr) (k : Nat) : Addr.col (a ++ [k]) = 2 * Addr.col a + k % 2 := by simp [Addr.col]
theorem Addr.row_snoc (a : Addr) (k : Nat) : Addr.row (a ++ [k]) = 2 * Addr.row a + k / 2 := by simp [Addr.row]

theorem Addr.col_lt {a : Addr} (_h : a.Valid) : Addr.col a < 2 ^ a.length := by
  induction a using List.reverseRecOn with
  | nil => simp [Addr.col]
  | append_singleton a k ih =>
    obtain ⟨h1, h2⟩ := _h.init
    have := ih h1
    rw [Addr.col_snoc, List.length_append, List.length_singleton, pow_succ]
    omega

theorem Addr.row_lt {a : Addr} (_h : a.Valid) : Addr.row a < 2 ^ a.length := by
  induction a using List.reverseRecOn with
  | nil => simp [Addr.row]
  | append_singleton a k ih =>
    obtain ⟨h1, h2⟩ := _h.init
    have := ih h1
    rw [Addr.row_snoc, List.length_append, List.length_singleton, pow_succ]
    omega

namespace Rounded

variable (fl : ℚ → ℚ)

/-- Bound number `i` of level `l`. -/
def V (a b : ℚ) : Nat → Nat → ℚ
  | 0, i => if i = 0 then a else b
  | l + 1, i => if i % 2 = 0 then V a b l (i / 2) else mid fl (V a b l (i / 2)) (V a b l (i / 2 + 1))

theorem V_even (a b : ℚ) (l i : Nat) : V fl a b (l + 1) (2 * i) = V fl a b l i := by
  rw [V, if_pos (by omega)]; congr 1; omega

theorem V_odd (a b : ℚ) (l i : Nat) : V fl a b (l + 1) (2 * i + 1) = mid fl (V fl a b l i) (V fl a b l (i + 1)) := by
  rw [V, if_neg (by omega), show (2 * i + 1) / 2 = i by omega]

theorem V_finer (a b : ℚ) (l d k : Nat) : V fl a b (l + d) (k * 2 ^ d) = V fl a b l k := by
  induction d with
  | zero => simp
  | succ d ih => rw [← Nat.add_assoc, pow_succ, show k * (2 ^ d * 2) = 2 * (k * 2 ^ d) by ring, V_even, ih]

theorem V_pos (a b : ℚ) {l i l' i' : Nat} (h : (i : ℚ) / 2 ^ l = i' / 2 ^ l') : V fl a b l i = V fl a b l' i' := by
  wlog hl : l ≤ l' generalizing l i l' i'
  · exact (this h.symm (by omega)).symm
  obtain ⟨d, rfl⟩ := Nat.exists_eq_add_of_le hl
  have : i' = i * 2 ^ d := by
    rw [div_eq_div_iff (by positivity) (by positivity), pow_add] at h
    have h2 : (2 : ℚ) ^ l * (i * 2 ^ d) = 2 ^ l * i' := by linarith
    have := mul_left_cancel₀ (by positivity) h2
    exact_mod_cast this.symm
  rw [this, V_finer]

/-- The bounds as a function of the place. -/
theorem V_function (a b : ℚ) : ∃ X : ℚ → ℚ, ∀ l i : Nat, X (i / 2 ^ l) = V fl a b l i := by
  classical
  refine ⟨fun q => if h : ∃ p : Nat × Nat, q = p.2 / 2 ^ p.1 then V fl a b h.choose.1 h.choose.2 else 0, fun l i => ?_⟩
  have h : ∃ p : Nat × Nat, (i : ℚ) / 2 ^ l = p.2 / 2 ^ p.1 := ⟨(l, i), rfl⟩
  simp only [dif_pos h]
  exact (V_pos fl a b h.choose_spec).symm

/-- The grid of the node at an address. -/
def gridOf (g : Grid ℚ) (a : Addr) : Grid ℚ :=
  ⟨g.nx, g.ny, V fl g.xl g.xu a.length a.col, V fl g.xl g.xu a.length (a.col + 1),
    V fl g.yl g.yu a.length a.row, V fl g.yl g.yu a.length (a.row + 1)⟩

/-- The data of the node at an address. -/
def dataOf (p : Patch ℚ) (a : Addr) : Patch ℚ := if a = [] then p else Patch.fresh (gridOf fl p.grid a)

theorem gridOf_nil (g : Grid ℚ) : gridOf fl g [] = g := by
  simp [gridOf, V, Addr.col, Addr.row]

theorem dataOf_grid (p : Patch ℚ) (a : Addr) : (dataOf fl p a).grid = gridOf fl p.grid a := by
  unfold dataOf
  split
  · rename_i h; subst h; rw [gridOf_nil]
  · rfl

theorem childGrid_gridOf (g : Grid ℚ) (a : Addr) {i : Nat} (hi : i < 4) :
    childGrid fl (gridOf fl g a) i = .ok (gridOf fl g (a ++ [i])) := by
  unfold gridOf childGrid
  simp only [Addr.col_snoc, Addr.row_snoc, List.length_append, List.length_singleton]
  have e2 : ∀ n : Nat, 2 * n + 1 + 1 = 2 * (n + 1) := by omega
  interval_cases i <;> norm_num [V_even, V_odd, e2]

/-- Related nodes: equal but for the rounded data. -/
def Rel (p : Patch ℚ) (n n' : Node (Patch ℚ)) : Prop := ∃ a : Addr, a.Valid ∧ n.path = a.text ∧ n' = { n with data := dataOf fl p a }

/-- Related maps. -/
def Sim (p : Patch ℚ) (m m' : NodeMap (Patch ℚ)) : Prop :=
  ∀ t, (m t = none ∧ m' t = none) ∨ (m t = some none ∧ m' t = some none) ∨
    ∃ n n', m t = some (some n) ∧ m' t = some (some n') ∧ Rel fl p n n'

variable {fl}

theorem Sim.set {p : Patch ℚ} {m m' : NodeMap (Patch ℚ)} (h : Sim fl p m m') (t : Text) {n n' : Node (Patch ℚ)} (hr : Rel fl p n n') :
    Sim fl p (m.set t (some n)) (m'.set t (some n')) := by
  intro s
  unfold NodeMap.set
  by_cases e : s = t
  · simp only [e, if_pos]
    exact Or.inr (Or.inr ⟨n, n', rfl, rfl, hr⟩)
  · simp only [e, if_false]
    exact h s

theorem Sim.setNone {p : Patch ℚ} {m m' : NodeMap (Patch ℚ)} (h : Sim fl p m m') (t : Text) :
    Sim fl p (m.set t none) (m'.set t none) := by
  intro s
  unfold NodeMap.set
  by_cases e : s = t
  · simp [e]
  · simp only [e, if_false]
    exact h s

theorem createChild_sim {p : Patch ℚ} {n n' c : Node (Patch ℚ)} (hr : Rel fl p n n') {i f l : Nat}
    (h : FVFactory.createChildNode n i f l = .ok c) : ∃ c', createChildNode fl n' i f l = .ok c' ∧ Rel fl p c c' := by
  obtain ⟨a, hv, e1, rfl⟩ := hr
  unfold FVFactory.createChildNode at h
  simp only [Res.bind_eq_ok, Res.pure_def, Res.ok_inj] at h
  obtain ⟨g, hg, rfl⟩ := h
  have hi : i < 4 := by
    by_contra hn
    obtain ⟨j, rfl⟩ := Nat.exists_eq_add_of_le (not_lt.1 hn)
    rw [Nat.add_comm] at hg
    unfold FVFactory.childGrid at hg
    cases hg
  unfold createChildNode
  rw [dataOf_grid, childGrid_gridOf _ _ _ hi]
  refine ⟨_, rfl, a ++ [i], hv.snoc hi, ?_, ?_⟩
  · show n.path ++ natText i = _
    rw [e1, Addr.text_snoc a hi]
  · have e : dataOf fl p (a ++ [i]) = Patch.fresh (gridOf fl p.grid (a ++ [i])) := by
      unfold dataOf
      rw [if_neg (by simp)]
    rw [e]

theorem ctorVisit_sim {p : Patch ℚ} {m m' m1 : NodeMap (Patch ℚ)} (hs : Sim fl p m m') {M r : Nat} {v : Visit}
    (h : ctorVisit M r p FVFactory.factory m v = .ok m1) :
    ∃ m1', ctorVisit M r p (factory fl) m' v = .ok m1' ∧ Sim fl p m1 m1' := by
  unfold ctorVisit at h ⊢
  by_cases hc : v.pfirst ≤ r ∧ r ≤ v.plast
  · simp only [if_pos hc] at h ⊢
    by_cases hl : v.quadrant.level = 0
    · simp only [if_pos hl, Res.pure_def, Res.ok_bind, Res.ok_inj] at h ⊢
      subst h
      refine ⟨_, rfl, hs.set _ ⟨[], Addr.Valid.nil, ?_, ?_⟩⟩
      · show v.quadrant.path M = _
        unfold Quadrant.path
        rw [hl]; rfl
      · rfl
    · simp only [if_neg hl] at h ⊢
      rcases hs (v.quadrant.path M).dropLast with ⟨e1, e2⟩ | ⟨e1, e2⟩ | ⟨n, n', e1, e2, hr⟩
      · simp only [NodeMap.get, e1] at h; cases h
      · simp only [NodeMap.get, e1] at h; cases h
      · simp only [NodeMap.get, e1, e2, Res.bind_eq_ok, Res.pure_def, Res.ok_inj] at h ⊢
        obtain ⟨c, h1, rfl⟩ := h
        obtain ⟨c', h2, hr'⟩ := createChild_sim hr h1
        refine ⟨_, ⟨c', h2, rfl⟩, hs.set _ ?_⟩
        obtain ⟨a, hv, q1, rfl⟩ := hr'
        exact ⟨a, hv, q1, rfl⟩
  · rw [if_neg hc, Res.pure_def, Res.ok_inj] at h
    subst h
    rw [if_neg hc]
    exact ⟨_, rfl, hs.setNone _⟩

theorem construct_sim {p : Patch ℚ} {M r : Nat} {F : Forest} {m : NodeMap (Patch ℚ)}
    (h : construct M r p FVFactory.factory F = .ok m) : ∃ m', construct M r p (factory fl) F = .ok m' ∧ Sim fl p m m' := by
  unfold construct at h ⊢
  have aux : ∀ (l : List Visit) (m0 m0' m : NodeMap (Patch ℚ)), Sim fl p m0 m0' → l.foldlM (ctorVisit M r p FVFactory.factory) m0 = .ok m →
      ∃ m', l.foldlM (ctorVisit M r p (factory fl)) m0' = .ok m' ∧ Sim fl p m m' := by
    intro l
    induction l with
    | nil =>
      intro m0 m0' m hs h
      rw [← Res.ok_inj.mp h]
      exact ⟨_, rfl, hs⟩
    | cons v l ih =>
      intro m0 m0' m hs h
      rw [List.foldlM_cons] at h ⊢
      simp only [Res.bind_eq_ok] at h
      obtain ⟨m1, h1, h2⟩ := h
      obtain ⟨m1', h3, h4⟩ := ctorVisit_sim hs h1
      obtain ⟨m', h5, h6⟩ := ih _ _ _ h4 h2
      exact ⟨m', by rw [h3, Res.ok_bind, h5], h6⟩
  exact aux _ _ _ _ (fun t => Or.inl ⟨rfl, rfl⟩) h

/-- The quadtree in rounded arithmetic. -/
theorem construct_rounded (fl : ℚ → ℚ) {M : Nat} (r : Nat) (p : Patch ℚ) {F : Forest} (hM : F.depth ≤ M) (hs : F.Sorted) :
    ∃ m, construct M r p (factory fl) F = .ok m ∧
      (∀ b G, F.sub b = some G → G.Spans r → m b.text = some (some (nodeOf (dataOf fl p b) b G))) ∧
      (∀ t n, m t = some (some n) → ∃ b G, F.sub b = some G ∧ G.Spans r ∧ t = b.text ∧ n = nodeOf (dataOf fl p b) b G) := by
  obtain ⟨m0, h1, h2⟩ := construct_ok (M := M) r p hM hs
  obtain ⟨m, h3, h4⟩ := construct_sim (fl := fl) h1
  have here : ∀ b G, F.sub b = some G → G.Spans r → m b.text = some (some (nodeOf (dataOf fl p b) b G)) := by
    intro b G hb hG
    have e := h2.here b G hb hG
    rw [List.nil_append] at e
    rcases h4 b.text with ⟨e1, e2⟩ | ⟨e1, e2⟩ | ⟨n, n', e1, e2, a, hv, q1, rfl⟩
    · rw [e] at e1; cases e1
    · rw [e] at e1; cases e1
    · rw [e] at e1
      cases e1
      have : a = b := (Addr.text_inj (Forest.sub_valid hb) hv q1).symm
      subst this
      exact e2
  refine ⟨m, h3, here, fun t n ht => ?_⟩
  rcases h4 t with ⟨e1, e2⟩ | ⟨e1, e2⟩ | ⟨n0, n', e1, e2, -⟩
  · rw [ht] at e2; cases e2
  · rw [ht] at e2; cases e2
  · rcases h2.only t n0 e1 with h | ⟨b, G, hb, hG, rfl⟩
    · cases h
    · rw [List.nil_append] at ht ⊢
      refine ⟨b, G, hb, hG, rfl, ?_⟩
      rw [here b G hb hG] at ht
      cases ht; rfl

/-! ## Bounds in double -/

variable {a b : ℚ}

theorem mid_between (ha : Short a) (hb : Short b) (h : a ≤ b) : a ≤ mid roundDouble a b ∧ mid roundDouble a b ≤ b := by
  have h1 : 2 * a ≤ roundDouble (a + b) := roundDouble_ge ha.double (by linarith)
  have h2 : roundDouble (a + b) ≤ 2 * b := roundDouble_le hb.double (by linarith)
  exact ⟨roundDouble_ge ha (by linarith), roundDouble_le hb (by linarith)⟩

theorem V_short (ha : Short a) (hb : Short b) (l i : Nat) : Short (V roundDouble a b l i) := by
  induction l generalizing i with
  | zero => rw [V]; split <;> assumption
  | succ l ih =>
    rw [V]; split
    · exact ih _
    · exact roundDouble_isShort _

theorem V_step (ha : Short a) (hb : Short b) (h : a ≤ b) (l i : Nat) :
    V roundDouble a b l i ≤ V roundDouble a b l (i + 1) := by
  induction l generalizing i with
  | zero => rw [V, V]; split <;> simp_all
  | succ l ih =>
    rcases Nat.even_or_odd' i with ⟨k, rfl | rfl⟩
    · rw [V_even, V_odd]
      exact (mid_between (V_short ha hb _ _) (V_short ha hb _ _) (ih k)).1
    · rw [show 2 * k + 1 + 1 = 2 * (k + 1) by ring, V_even, V_odd]
      exact (mid_between (V_short ha hb _ _) (V_short ha hb _ _) (ih k)).2

theorem V_mono (ha : Short a) (hb : Short b) (h : a ≤ b) (l : Nat) : Monotone (V roundDouble a b l) :=
  monotone_nat_of_le_succ (V_step ha hb h l)

theorem V_zero (fl : ℚ → ℚ) (a b : ℚ) (l : Nat) : V fl a b l 0 = a := by
  have := V_finer fl a b 0 l 0
  simpa [V] using this

theorem V_last (fl : ℚ → ℚ) (a b : ℚ) (l : Nat) : V fl a b l (2 ^ l) = b := by
  have := V_finer fl a b 0 l 1
  simpa [V] using this

theorem V_in (ha : Short a) (hb : Short b) (h : a ≤ b) {l i : Nat} (hi : i ≤ 2 ^ l) :
    a ≤ V roundDouble a b l i ∧ V roundDouble a b l i ≤ b := by
  constructor
  · have := V_mono ha hb h l (Nat.zero_le i)
    rwa [V_zero] at this
  · have := V_mono ha hb h l hi
    rwa [V_last] at this

/-- The exact bound number `i` of level `l`. -/
def E (a b : ℚ) (l i : Nat) : ℚ := a + (b - a) * (i / 2 ^ l)

theorem E_even (a b : ℚ) (l i : Nat) : E a b (l + 1) (2 * i) = E a b l i := by
  unfold E; push_cast; rw [pow_succ]; congr 2; field_simp

theorem E_odd (a b : ℚ) (l i : Nat) : E a b (l + 1) (2 * i + 1) = (E a b l i + E a b l (i + 1)) / 2 := by
  unfold E; push_cast; rw [pow_succ]; field_simp; ring

theorem V_error (ha : Short a) (hb : Short b) (h : a ≤ b) {M : ℚ} (h1 : |a| ≤ M) (h2 : |b| ≤ M) (hM : 1 / 2 ^ 1022 ≤ M)
    {l i : Nat} (hi : i ≤ 2 ^ l) : |V roundDouble a b l i - E a b l i| ≤ 2 * l * roundoff * M := by
  induction l generalizing i with
  | zero =>
    have hi' : i = 0 ∨ i = 1 := by
      simp only [pow_zero] at hi; omega
    rcases hi' with rfl | rfl <;> simp [V, E]
  | succ l ih =>
    have hM0 : 0 < M := lt_of_lt_of_le (by positivity) hM
    have hu : 0 < roundoff := by unfold roundoff; positivity
    have hp : 0 < roundoff * M := mul_pos hu hM0
    rw [pow_succ] at hi
    rcases Nat.even_or_odd' i with ⟨k, rfl | rfl⟩
    · rw [V_even, E_even]
      have := ih (i := k) (by omega)
      push_cast
      nlinarith
    · rw [V_odd, E_odd]
      have i1 := ih (i := k) (by omega)
      have i2 := ih (i := k + 1) (by omega)
      obtain ⟨p1, p2⟩ := V_in ha hb h (l := l) (i := k) (by omega)
      obtain ⟨q1, q2⟩ := V_in ha hb h (l := l) (i := k + 1) (by omega)
      have sp := V_short ha hb l k
      have sq := V_short ha hb l (k + 1)
      have hpq := V_step ha hb h l k
      generalize V roundDouble a b l k = p at *
      generalize V roundDouble a b l (k + 1) = q at *
      rw [abs_le] at h1 h2
      have s1 := roundDouble_error (x := p + q) (M := 2 * M) (by rw [abs_le]; constructor <;> linarith) (by linarith)
      have hs1 : 2 * p ≤ roundDouble (p + q) := roundDouble_ge sp.double (by linarith)
      have hs2 : roundDouble (p + q) ≤ 2 * q := roundDouble_le sq.double (by linarith)
      have s2 := roundDouble_error (x := roundDouble (p + q) / 2) (M := M) (by rw [abs_le]; constructor <;> linarith) hM
      unfold mid
      push_cast
      rw [abs_le] at *
      constructor <;> nlinarith

/-! ## Spacing, centres and corners -/

theorem roundoff_small : roundoff ≤ 1 / 1000 := by unfold roundoff; norm_num

theorem spacing_error {M : ℚ} (h1 : |a| ≤ M) (h2 : |b| ≤ M) {n : Nat} (hn : 0 < n) (hM : n / 2 ^ 1022 ≤ M) :
    |spacing roundDouble a b n - (b - a) / n| ≤ 5 * (roundoff * M) / n := by
  have hn' : (0 : ℚ) < n := by exact_mod_cast hn
  have hn1 : (1 : ℚ) ≤ n := by exact_mod_cast hn
  have t0 : (0 : ℚ) < 1 / 2 ^ 1022 := by positivity
  have hM2 : (n : ℚ) * (1 / 2 ^ 1022) ≤ M := by rwa [mul_one_div]
  have hM1 : 1 / 2 ^ 1022 ≤ M := by nlinarith
  have hM0 : 0 < M := lt_of_lt_of_le t0 hM1
  have hu : 0 < roundoff := by unfold roundoff; positivity
  have us := roundoff_small
  have hp : 0 < roundoff * M := mul_pos hu hM0
  rw [abs_le] at h1 h2
  have s1 := roundDouble_error (x := b - a) (M := 2 * M) (by rw [abs_le]; constructor <;> linarith) (by linarith)
  have hpu : roundoff * (roundoff * M) ≤ 1 / 1000 * (roundoff * M) := mul_le_mul_of_nonneg_right us hp.le
  have hpu2 : roundoff * M ≤ 1 / 1000 * M := mul_le_mul_of_nonneg_right us hM0.le
  unfold spacing
  generalize roundDouble (b - a) = w at *
  rw [abs_le] at s1
  have bound : |w / n| ≤ (21 / 10 * M) / n := by
    rw [abs_div, abs_of_pos hn']
    refine div_le_div_of_nonneg_right ?_ hn'.le
    rw [abs_le]; constructor <;> linarith
  have s2 := roundDouble_error bound (by rw [le_div_iff₀ hn']; linarith)
  have s3 : |w / n - (b - a) / n| ≤ 2 * (roundoff * M) / n := by
    rw [← sub_div, abs_div, abs_of_pos hn']
    refine div_le_div_of_nonneg_right ?_ hn'.le
    rw [abs_le]; constructor <;> linarith
  have s4 : roundoff * (21 / 10 * M / n) ≤ 3 * (roundoff * M) / n := by
    rw [mul_div_assoc']
    refine div_le_div_of_nonneg_right ?_ hn'.le
    linarith
  have e : 2 * (roundoff * M) / n + 3 * (roundoff * M) / n = 5 * (roundoff * M) / n := by ring
  calc _ = |(roundDouble (w / n) - w / n) + (w / n - (b - a) / n)| := by congr 1; ring
    _ ≤ _ := abs_add_le _ _
    _ ≤ _ := by linarith

theorem step_error {M : ℚ} (h1 : |a| ≤ M) (h2 : |b| ≤ M) {n i : Nat} (hn : 0 < n) (hi : i ≤ n) (hM : n / 2 ^ 1022 ≤ M) :
    |roundDouble (i * spacing roundDouble a b n) - (b - a) * (i / n)| ≤ 8 * (roundoff * M) := by
  have hn' : (0 : ℚ) < n := by exact_mod_cast hn
  have hn1 : (1 : ℚ) ≤ n := by exact_mod_cast hn
  have hi' : (i : ℚ) ≤ n := by exact_mod_cast hi
  have hi0 : (0 : ℚ) ≤ i := by positivity
  have t0 : (0 : ℚ) < 1 / 2 ^ 1022 := by positivity
  have hM2 : (n : ℚ) * (1 / 2 ^ 1022) ≤ M := by rwa [mul_one_div]
  have hM1 : 1 / 2 ^ 1022 ≤ M := by nlinarith
  have hM0 : 0 < M := lt_of_lt_of_le t0 hM1
  have hu : 0 < roundoff := by unfold roundoff; positivity
  have us := roundoff_small
  have hp : 0 < roundoff * M := mul_pos hu hM0
  have hpu2 : roundoff * M ≤ 1 / 1000 * M := mul_le_mul_of_nonneg_right us hM0.le
  have d := spacing_error h1 h2 hn hM
  rw [abs_le] at h1 h2
  generalize spacing roundDouble a b n = w at *
  have q : (i : ℚ) / n ≤ 1 := (div_le_one hn').2 hi'
  have q0 : 0 ≤ (i : ℚ) / n := by positivity
  have d2 : |i * w - (b - a) * (i / n)| ≤ 5 * (roundoff * M) := by
    rw [show i * w - (b - a) * (i / n) = i * (w - (b - a) / n) by ring, abs_mul, abs_of_nonneg hi0]
    calc _ ≤ (i : ℚ) * (5 * (roundoff * M) / n) := mul_le_mul_of_nonneg_left d hi0
      _ = 5 * (roundoff * M) * (i / n) := by ring
      _ ≤ 5 * (roundoff * M) * 1 := mul_le_mul_of_nonneg_left q (by linarith)
      _ = _ := by ring
  have d3 : |(b - a) * ((i : ℚ) / n)| ≤ 2 * M := by
    rw [abs_mul, abs_of_nonneg q0]
    calc _ ≤ (2 * M) * 1 := by
          refine mul_le_mul ?_ q q0 (by linarith)
          rw [abs_le]; constructor <;> linarith
      _ = _ := by ring
  have s := roundDouble_error (x := i * w) (M := 21 / 10 * M)
    (by rw [abs_le] at *; constructor <;> linarith) (by linarith)
  rw [abs_le] at *
  constructor <;> linarith

theorem corner_error {M : ℚ} (h1 : |a| ≤ M) (h2 : |b| ≤ M) {n i : Nat} (hn : 0 < n) (hi : i ≤ n) (hM : n / 2 ^ 1022 ≤ M) :
    |corner roundDouble a b n i - (a + (b - a) * (i / n))| ≤ 12 * (roundoff * M) := by
  have hn' : (0 : ℚ) < n := by exact_mod_cast hn
  have hn1 : (1 : ℚ) ≤ n := by exact_mod_cast hn
  have hi' : (i : ℚ) ≤ n := by exact_mod_cast hi
  have t0 : (0 : ℚ) < 1 / 2 ^ 1022 := by positivity
  have hM2 : (n : ℚ) * (1 / 2 ^ 1022) ≤ M := by rwa [mul_one_div]
  have hM1 : 1 / 2 ^ 1022 ≤ M := by nlinarith
  have hM0 : 0 < M := lt_of_lt_of_le t0 hM1
  have hpu2 : roundoff * M ≤ 1 / 1000 * M := mul_le_mul_of_nonneg_right roundoff_small hM0.le
  have s := step_error h1 h2 hn hi hM
  unfold corner
  generalize roundDouble (i * spacing roundDouble a b n) = t at *
  have q : (i : ℚ) / n ≤ 1 := (div_le_one hn').2 hi'
  have q0 : 0 ≤ (i : ℚ) / n := by positivity
  generalize (i : ℚ) / n = x at *
  have c : |a + (b - a) * x| ≤ M := by
    rw [abs_le] at *
    constructor <;> nlinarith
  have s2 := roundDouble_error (x := a + t) (M := 2 * M) (by rw [abs_le] at *; constructor <;> linarith) (by linarith)
  rw [abs_le] at *
  constructor <;> linarith

theorem point_error {M : ℚ} (h1 : |a| ≤ M) (h2 : |b| ≤ M) {n i : Nat} (hi : i < n) (hM : n / 2 ^ 1022 ≤ M) :
    |point roundDouble a b n i - (a + (b - a) * ((i + 1 / 2) / n))| ≤ 18 * (roundoff * M) := by
  have hn : 0 < n := by omega
  have hn' : (0 : ℚ) < n := by exact_mod_cast hn
  have hn1 : (1 : ℚ) ≤ n := by exact_mod_cast hn
  have hi' : (i : ℚ) + 1 ≤ n := by exact_mod_cast hi
  have t0 : (0 : ℚ) < 1 / 2 ^ 1022 := by positivity
  have hM2 : (n : ℚ) * (1 / 2 ^ 1022) ≤ M := by rwa [mul_one_div]
  have hM1 : 1 / 2 ^ 1022 ≤ M := by nlinarith
  have hM0 : 0 < M := lt_of_lt_of_le t0 hM1
  have hu : 0 < roundoff := by unfold roundoff; positivity
  have hp : 0 < roundoff * M := mul_pos hu hM0
  have hpu2 : roundoff * M ≤ 1 / 1000 * M := mul_le_mul_of_nonneg_right roundoff_small hM0.le
  have s := step_error h1 h2 hn hi.le hM
  have d := spacing_error h1 h2 hn hM
  unfold point
  generalize roundDouble (i * spacing roundDouble a b n) = t at *
  generalize spacing roundDouble a b n = w at *
  have d1 : |w - (b - a) / n| ≤ 5 * (roundoff * M) := d.trans (by rw [div_le_iff₀ hn']; nlinarith)
  have e0 : (b - a) * ((i + 1 / 2) / n) = (b - a) * (i / n) + (b - a) / n / 2 := by field_simp
  have q : ((i : ℚ) + 1 / 2) / n ≤ 1 := (div_le_one hn').2 (by linarith)
  have q0 : 0 ≤ ((i : ℚ) + 1 / 2) / n := by positivity
  have c : |a + (b - a) * ((i + 1 / 2) / n)| ≤ M := by
    generalize ((i : ℚ) + 1 / 2) / n = x at *
    rw [abs_le] at *
    constructor <;> nlinarith
  have z : |(b - a) / n| ≤ 2 * M := by
    rw [abs_div, abs_of_pos hn', div_le_iff₀ hn']
    have : |b - a| ≤ 2 * M := by rw [abs_le] at *; constructor <;> linarith
    nlinarith
  rw [e0] at c ⊢
  generalize (b - a) / n = y at *
  generalize (b - a) * ((i : ℚ) / n) = x at *
  rw [abs_le] at h1 h2 c s d1 z
  have r1 := roundDouble_error (x := w / 2) (M := 11 / 10 * M) (by rw [abs_le]; constructor <;> linarith) (by linarith)
  generalize roundDouble (w / 2) = h at *
  rw [abs_le] at r1
  have r2 := roundDouble_error (x := a + h) (M := 22 / 10 * M) (by rw [abs_le]; constructor <;> linarith) (by linarith)
  generalize roundDouble (a + h) = v at *
  rw [abs_le] at r2
  have r3 := roundDouble_error (x := v + t) (M := 11 / 10 * M) (by rw [abs_le]; constructor <;> linarith) (by linarith)
  rw [abs_le] at r3 ⊢
  constructor <;> linarith

/-! ## The exact bounds of an address -/

theorem gridAt_eq (g : Grid ℚ) {b : Addr} (hb : b.Valid) :
    gridAt g b = ⟨g.nx, g.ny, E g.xl g.xu b.length b.col, E g.xl g.xu b.length (b.col + 1),
      E g.yl g.yu b.length b.row, E g.yl g.yu b.length (b.row + 1)⟩ := by
  induction b using List.reverseRecOn with
  | nil => simp [gridAt, Addr.rect, E, Addr.col, Addr.row]
  | append_singleton b k ih =>
    obtain ⟨h1, h2⟩ := hb.init
    have e := childGrid_eq g b h2
    rw [ih h1] at e
    have e2 : ∀ n : Nat, 2 * n + 1 + 1 = 2 * (n + 1) := by omega
    unfold FVFactory.childGrid at e
    rw [Addr.col_snoc, Addr.row_snoc, List.length_append, List.length_singleton]
    interval_cases k <;> simp only [Res.ok_inj] at e <;> rw [← e] <;> norm_num [E_even, E_odd, e2]

/-! ## Domains on a dyadic lattice -/

/-- Whole multiples of `2^f`. -/
def Dyadic (f : Int) (x : ℚ) : Prop := ∃ q : Int, x = q * 2 ^ f

theorem Dyadic.add {f : Int} {x y : ℚ} (hx : Dyadic f x) (hy : Dyadic f y) : Dyadic f (x + y) := by
  obtain ⟨p, rfl⟩ := hx
  obtain ⟨q, rfl⟩ := hy
  exact ⟨p + q, by push_cast; ring⟩

theorem Dyadic.sub {f : Int} {x y : ℚ} (hx : Dyadic f x) (hy : Dyadic f y) : Dyadic f (x - y) := by
  obtain ⟨p, rfl⟩ := hx
  obtain ⟨q, rfl⟩ := hy
  exact ⟨p - q, by push_cast; ring⟩

theorem Dyadic.nsmul {f : Int} {x : ℚ} (hx : Dyadic f x) (n : Nat) : Dyadic f (n * x) := by
  obtain ⟨p, rfl⟩ := hx
  exact ⟨n * p, by push_cast; ring⟩

theorem Dyadic.div {f : Int} {x : ℚ} {k : Nat} (hx : Dyadic (f + k) x) : Dyadic f (x / 2 ^ k) := by
  obtain ⟨p, rfl⟩ := hx
  refine ⟨p, ?_⟩
  rw [zpow_split, zpow_natCast]; field_simp

theorem Dyadic.mono {f g : Int} (h : f ≤ g) {x : ℚ} (hx : Dyadic g x) : Dyadic f x := by
  obtain ⟨p, rfl⟩ := hx
  refine ⟨p * ((2 ^ (g - f).toNat : Nat) : Int), ?_⟩
  have := zpow_nat_of_nonneg (a := g - f) (by omega)
  push_cast at this ⊢
  rw [← this, mul_assoc, ← zpow_split, sub_add_cancel]

theorem Dyadic.short {f : Int} {x : ℚ} (hx : Dyadic f x) (hf : -1074 ≤ f) (h : |x| < 2 ^ (53 + f)) : Short x := by
  obtain ⟨p, rfl⟩ := hx
  refine ⟨p, f, rfl, ?_, hf⟩
  rw [abs_mul, abs_of_pos (show (0 : ℚ) < 2 ^ f by positivity), zpow_split] at h
  have h2 := lt_of_mul_lt_mul_right h (by positivity)
  have h3 : ((|p| : Int) : ℚ) < ((2 ^ 53 : Int) : ℚ) := by push_cast; exact h2.trans_eq (by norm_num)
  exact_mod_cast h3

theorem E_dyadic {f : Int} {l : Nat} (i : Nat) (ha : Dyadic (f + l) a) (hb : Dyadic (f + l) b) : Dyadic f (E a b l i) := by
  unfold E
  rw [show (b - a) * ((i : ℚ) / 2 ^ l) = i * ((b - a) / 2 ^ l) by ring]
  exact (ha.mono (by omega)).add ((hb.sub ha).div.nsmul i)

theorem E_abs {M : ℚ} (h1 : |a| < M) (h2 : |b| < M) {l i : Nat} (hi : i ≤ 2 ^ l) : |E a b l i| < M := by
  have q : (i : ℚ) / 2 ^ l ≤ 1 := (div_le_one (by positivity)).2 (by exact_mod_cast hi)
  have q0 : 0 ≤ (i : ℚ) / 2 ^ l := by positivity
  unfold E
  generalize (i : ℚ) / 2 ^ l = x at *
  rw [abs_lt] at *
  have e : a + (b - a) * x = a * (1 - x) + b * x := by ring
  rw [e]
  rcases eq_or_lt_of_le q0 with h | h
  · subst h; constructor <;> linarith
  · have x1 : 0 ≤ 1 - x := by linarith
    have b1 := mul_lt_mul_of_pos_right h2.1 h
    have b2 := mul_lt_mul_of_pos_right h2.2 h
    have a1 := mul_le_mul_of_nonneg_right h1.1.le x1
    have a2 := mul_le_mul_of_nonneg_right h1.2.le x1
    constructor <;> nlinarith

/-- Bounds on a dyadic domain are exact. -/
theorem V_exact {f : Int} (hf : -1074 ≤ f) {D : Nat} (ha : Dyadic (f + D) a) (hb : Dyadic (f + D) b) (h1 : |a| < 2 ^ (52 + f))
    (h2 : |b| < 2 ^ (52 + f)) {l i : Nat} (hl : l ≤ D) (hi : i ≤ 2 ^ l) : V roundDouble a b l i = E a b l i := by
  induction l generalizing i with
  | zero =>
    have hi' : i = 0 ∨ i = 1 := by
      simp only [pow_zero] at hi; omega
    rcases hi' with rfl | rfl <;> simp [V, E]
  | succ l ih =>
    have hi0 := hi
    rw [pow_succ] at hi
    rcases Nat.even_or_odd' i with ⟨k, rfl | rfl⟩
    · rw [V_even, E_even]
      exact ih (by omega) (by omega)
    · have d := E_dyadic (f := f) (2 * k + 1) (ha.mono (g := f + D) (f := f + (l + 1 : Nat)) (by omega))
        (hb.mono (f := f + (l + 1 : Nat)) (by omega))
      have n := E_abs h1 h2 hi0
      rw [V_odd, ih (by omega) (by omega), ih (by omega) (by omega)]
      unfold mid
      rw [E_odd] at d n ⊢
      have e2 : (2 : ℚ) ^ (53 + f) = 2 * 2 ^ (52 + f) := by
        rw [show 53 + f = 1 + (52 + f) by ring, zpow_split]; norm_num
      have s1 : Short (E a b l k + E a b l (k + 1)) := by
        refine Dyadic.short (f := f) ?_ hf ?_
        · have := d.nsmul 2
          push_cast at this
          rwa [mul_div_cancel₀ _ (by norm_num : (2 : ℚ) ≠ 0)] at this
        · rw [abs_div, abs_of_pos (by norm_num : (0 : ℚ) < 2)] at n
          rw [e2]; linarith
      rw [roundDouble_short s1]
      refine roundDouble_short (d.short hf (n.trans ?_))
      rw [e2]; linarith [show (0 : ℚ) < 2 ^ (52 + f) by positivity]

theorem spacing_exact {f : Int} (hf : -1074 ≤ f) {k : Nat} (ha : Dyadic (f + k) a) (hb : Dyadic (f + k) b) (h1 : |a| < 2 ^ (52 + f))
    (h2 : |b| < 2 ^ (52 + f)) : spacing roundDouble a b (2 ^ k) = (b - a) / (2 ^ k : Nat) ∧ Dyadic f ((b - a) / (2 ^ k : Nat)) ∧
      |(b - a) / (2 ^ k : Nat)| * 2 ^ k < 2 ^ (53 + f) := by
  have e2 : (2 : ℚ) ^ (53 + f) = 2 * 2 ^ (52 + f) := by
    rw [show 53 + f = 1 + (52 + f) by ring, zpow_split]; norm_num
  have hw : |b - a| < 2 ^ (53 + f) := by rw [e2]; rw [abs_lt] at *; constructor <;> linarith
  have d : Dyadic f ((b - a) / (2 ^ k : Nat)) := by push_cast; exact (hb.sub ha).div
  have n : |(b - a) / (2 ^ k : Nat)| * 2 ^ k < 2 ^ (53 + f) := by
    rw [abs_div]; push_cast
    rw [abs_of_pos (show (0 : ℚ) < 2 ^ k by positivity), div_mul_cancel₀ _ (by positivity)]
    exact hw
  refine ⟨?_, d, n⟩
  unfold spacing
  rw [roundDouble_short (((hb.sub ha).mono (f := f) (by omega)).short hf hw)]
  refine roundDouble_short (d.short hf (lt_of_le_of_lt ?_ n))
  have : (1 : ℚ) ≤ 2 ^ k := one_le_pow₀ (by norm_num)
  nlinarith [abs_nonneg ((b - a) / ((2 ^ k : Nat) : ℚ))]

theorem step_exact {f : Int} (hf : -1074 ≤ f) {k i : Nat} (ha : Dyadic (f + k) a) (hb : Dyadic (f + k) b) (h1 : |a| < 2 ^ (52 + f))
    (h2 : |b| < 2 ^ (52 + f)) (hi : i ≤ 2 ^ k) : roundDouble (i * spacing roundDouble a b (2 ^ k)) = i * ((b - a) / (2 ^ k : Nat)) := by
  obtain ⟨e, d, n⟩ := spacing_exact hf ha hb h1 h2
  rw [e]
  refine roundDouble_short ((d.nsmul i).short hf (lt_of_le_of_lt ?_ n))
  rw [abs_mul, Nat.abs_cast, mul_comm]
  exact mul_le_mul_of_nonneg_left (by exact_mod_cast hi) (abs_nonneg _)

theorem corner_exact {f : Int} (hf : -1074 ≤ f) {k i : Nat} (ha : Dyadic (f + k) a) (hb : Dyadic (f + k) b) (h1 : |a| < 2 ^ (52 + f))
    (h2 : |b| < 2 ^ (52 + f)) (hi : i ≤ 2 ^ k) : corner roundDouble a b (2 ^ k) i = a + i * ((b - a) / (2 ^ k : Nat)) := by
  obtain ⟨-, d, -⟩ := spacing_exact hf ha hb h1 h2
  unfold corner
  rw [step_exact hf ha hb h1 h2 hi]
  refine roundDouble_short (((ha.mono (by omega)).add (d.nsmul i)).short hf ?_)
  have := E_abs h1 h2 hi
  unfold E at this
  rw [show a + i * ((b - a) / ((2 ^ k : Nat) : ℚ)) = a + (b - a) * (i / 2 ^ k) by push_cast; ring]
  exact this.trans (zpow2_lt.2 (by omega))

theorem point_exact {f : Int} (hf : -1074 ≤ f) {k i : Nat} (ha : Dyadic (f + k + 1) a) (hb : Dyadic (f + k + 1) b)
    (h1 : |a| < 2 ^ (52 + f)) (h2 : |b| < 2 ^ (52 + f)) (hi : i < 2 ^ k) :
    point roundDouble a b (2 ^ k) i = a + (i + 1 / 2) * ((b - a) / (2 ^ k : Nat)) := by
  have ha' : Dyadic (f + k) a := ha.mono (by omega)
  have hb' : Dyadic (f + k) b := hb.mono (by omega)
  obtain ⟨e, d, n⟩ := spacing_exact hf ha' hb' h1 h2
  have hd : Dyadic f ((b - a) / (2 ^ k : Nat) / 2) := by
    have := ((hb.sub ha).mono (f := f + (k + 1 : Nat)) (by push_cast; omega)).div
    rw [pow_succ] at this
    push_cast
    rwa [div_div]
  have h52 : (2 : ℚ) ^ (52 + f) < 2 ^ (53 + f) := zpow2_lt.2 (by omega)
  have half : roundDouble (spacing roundDouble a b (2 ^ k) / 2) = (b - a) / (2 ^ k : Nat) / 2 := by
    rw [e]
    refine roundDouble_short (hd.short hf (lt_of_le_of_lt ?_ n))
    rw [abs_div, abs_of_pos (by norm_num : (0 : ℚ) < 2)]
    have : (1 : ℚ) ≤ 2 ^ k := one_le_pow₀ (by norm_num)
    nlinarith [abs_nonneg ((b - a) / ((2 ^ k : Nat) : ℚ))]
  have inside : ∀ j : Nat, j ≤ 2 ^ (k + 1) → |a + j * ((b - a) / (2 ^ k : Nat) / 2)| < 2 ^ (52 + f) := by
    intro j hj
    have := E_abs h1 h2 hj
    unfold E at this
    rw [pow_succ] at this
    rw [show a + j * ((b - a) / ((2 ^ k : Nat) : ℚ) / 2) = a + (b - a) * (j / (2 ^ k * 2)) by push_cast; field_simp]
    exact this
  unfold point
  rw [half, step_exact hf ha' hb' h1 h2 hi.le]
  have i1 := inside 1 (Nat.one_le_two_pow)
  rw [Nat.cast_one, one_mul] at i1
  have hda : Dyadic f a := ha.mono (by omega)
  rw [roundDouble_short ((hda.add hd).short hf (i1.trans h52))]
  have i2 := inside (2 * i + 1) (by rw [pow_succ]; omega)
  have e3 : a + (b - a) / ((2 ^ k : Nat) : ℚ) / 2 + i * ((b - a) / ((2 ^ k : Nat) : ℚ)) = a + ((2 * i + 1 : Nat) : ℚ) * ((b - a) / (2 ^ k : Nat) / 2) := by
    push_cast; ring
  rw [e3, roundDouble_short ((hda.add (hd.nsmul _)).short hf (i2.trans h52))]
  push_cast; ring

/-! ## Fitting, and no overflow -/

theorem fits_dyadic {D k : Nat} {a b : ℚ} (h : Fits D k a b) :
    ∃ f : Int, -1074 ≤ f ∧ Dyadic (f + k + 1 + D) a ∧ Dyadic (f + k + 1 + D) b ∧ |a| < 2 ^ (52 + f) ∧ |b| < 2 ^ (52 + f) := by
  obtain ⟨A, B, e, ha, hb, hA, hB, he⟩ := h
  have key : ∀ {C : Int} {c : ℚ}, c = C * 2 ^ e → |C| * 2 ^ (D + k) < 2 ^ 51 →
      Dyadic (e - D - k - 1 + k + 1 + D) c ∧ |c| < 2 ^ (52 + (e - D - k - 1)) := by
    intro C c hc hC
    refine ⟨⟨C, by rw [hc]; congr 2; omega⟩, ?_⟩
    rw [hc, abs_mul, abs_of_pos (show (0 : ℚ) < 2 ^ e by positivity)]
    have h1 : |(C : ℚ)| * 2 ^ (D + k) < 2 ^ 51 := by exact_mod_cast hC
    have h2 : (2 : ℚ) ^ (52 + (e - D - k - 1)) * 2 ^ (D + k) = 2 ^ 51 * 2 ^ e := by
      rw [← zpow_natCast, ← zpow_split, ← zpow_natCast, ← zpow_split]; congr 1; push_cast; ring
    refine lt_of_mul_lt_mul_right (a := (2 : ℚ) ^ (D + k)) ?_ (by positivity)
    rw [h2, mul_right_comm]
    exact mul_lt_mul_of_pos_right h1 (by positivity)
  exact ⟨e - D - k - 1, by omega, (key ha hA).1, (key hb hB).1, (key ha hA).2, (key hb hB).2⟩

theorem isDouble_of_between {a b x : ℚ} (ha : IsDouble a) (hb : IsDouble b) (hx : Short x) (h1 : a ≤ x) (h2 : x ≤ b) : IsDouble x := by
  have big : ∀ {y : ℚ}, IsDouble y → |y| < 2 ^ (1024 : Int) := by
    intro y hy
    obtain ⟨m, e, rfl, q1, q2, q3⟩ := hy
    rw [abs_mul, abs_of_pos (show (0 : ℚ) < 2 ^ e by positivity)]
    have h3 : |(m : ℚ)| < 2 ^ (53 : Int) := by
      have : ((|m| : Int) : ℚ) < ((2 ^ 53 : Int) : ℚ) := by exact_mod_cast q1
      push_cast at this
      exact this.trans_eq (by norm_num)
    calc |(m : ℚ)| * 2 ^ e < 2 ^ (53 : Int) * 2 ^ e := mul_lt_mul_of_pos_right h3 (by positivity)
      _ = 2 ^ (53 + e) := (zpow_split _ _).symm
      _ ≤ _ := zpow2_le (by omega)
  refine hx.isDouble ?_
  have p1 := big ha
  have p2 := big hb
  rw [abs_lt] at *
  constructor <;> linarith

end Rounded

end EF
