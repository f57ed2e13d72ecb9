import Verif.Spec.Study
import Verif.Proofs.Number

/-!
# Numbers with seventeen digits: lemmas
-/

namespace EF

/-! ## Rounding -/

theorem nearestEven_near {y : ℚ} (hy : 0 ≤ y) : |(nearestEven y : ℚ) - y| ≤ 1 / 2 := by
  have h1 := Nat.floor_le hy
  have h2 := Nat.lt_floor_add_one y
  unfold nearestEven
  split
  · rw [abs_le]
    constructor <;> linarith
  · split
    · rw [abs_le]
      constructor <;> linarith
    · rw [abs_le]
      push_cast
      constructor <;> linarith

theorem nearestEven_ge {y : ℚ} {n : Nat} (h : (n : ℚ) ≤ y) : n ≤ nearestEven y := by
  have h1 : n ≤ ⌊y⌋₊ := Nat.le_floor h
  unfold nearestEven
  split
  · exact h1
  · split <;> omega

theorem nearestEven_le {y : ℚ} {n : Nat} (h0 : 0 ≤ y) (h : y < n) : nearestEven y ≤ n := by
  have h1 : ⌊y⌋₊ < n := (Nat.floor_lt h0).mpr h
  unfold nearestEven
  split
  · omega
  · split <;> omega

/-- Digits and exponent are within half a unit of the last digit. -/
theorem sciParts_near {x : ℚ} (hx : x ≠ 0) :
    10 ^ 16 ≤ (sciParts x).1 ∧ (sciParts x).1 < 10 ^ 17 ∧ Int.log 10 |x| ≤ (sciParts x).2 ∧ (sciParts x).2 ≤ Int.log 10 |x| + 1 ∧
      abs (((sciParts x).1 : ℚ) * 10 ^ ((sciParts x).2 - 16) - |x|) ≤ |x| / 10 ^ 16 / 2 := by
  have ha : 0 < |x| := abs_pos.mpr hx
  obtain ⟨e, he⟩ : ∃ e, e = Int.log 10 |x| := ⟨_, rfl⟩
  have h1 : (10 : ℚ) ^ e ≤ |x| := by
    have := Int.zpow_log_le_self (b := 10) (r := |x|) (by norm_num) ha
    rw [← he] at this
    exact_mod_cast this
  have h2 : |x| < (10 : ℚ) ^ (e + 1) := by
    have := Int.lt_zpow_succ_log_self (b := 10) (by norm_num) |x|
    rw [← he] at this
    exact_mod_cast this
  have p1 : (0 : ℚ) < 10 ^ (16 - e) := zpow_pos (by norm_num) _
  have e1 : (10 : ℚ) ^ e * 10 ^ (16 - e) = 10 ^ 16 := by
    rw [← zpow_add₀ (by norm_num), show e + (16 - e) = (16 : Int) by omega]
    norm_num
  have e2 : (10 : ℚ) ^ (e + 1) * 10 ^ (16 - e) = 10 ^ 17 := by
    rw [← zpow_add₀ (by norm_num), show e + 1 + (16 - e) = (17 : Int) by omega]
    norm_num
  obtain ⟨y, hy⟩ : ∃ y, y = |x| * 10 ^ (16 - e) := ⟨_, rfl⟩
  have y0 : 0 ≤ y := by rw [hy]; positivity
  have y1 : ((10 ^ 16 : Nat) : ℚ) ≤ y := by
    rw [hy]
    rw [show ((10 ^ 16 : Nat) : ℚ) = 10 ^ 16 by norm_num, ← e1]
    exact mul_le_mul_of_nonneg_right h1 p1.le
  have y2 : y < ((10 ^ 17 : Nat) : ℚ) := by
    rw [hy]
    rw [show ((10 ^ 17 : Nat) : ℚ) = 10 ^ 17 by norm_num, ← e2]
    exact mul_lt_mul_of_pos_right h2 p1
  have n1 := nearestEven_ge y1
  have n2 := nearestEven_le y0 y2
  have n3 := nearestEven_near y0
  have back : y * 10 ^ (e - 16) = |x| := by
    rw [hy, mul_assoc, ← zpow_add₀ (by norm_num), show 16 - e + (e - 16) = (0 : Int) by omega, zpow_zero, mul_one]
  have p2 : (0 : ℚ) < 10 ^ (e - 16) := zpow_pos (by norm_num) _
  have p3 : (10 : ℚ) ^ (e - 16) ≤ |x| / 10 ^ 16 := by
    rw [zpow_sub₀ (by norm_num)]
    norm_num
    exact div_le_div_of_nonneg_right h1 (by norm_num)
  have key : ∀ m : ℚ, |m - y| ≤ 1 / 2 → abs (m * 10 ^ (e - 16) - |x|) ≤ |x| / 10 ^ 16 / 2 := by
    intro m hm
    rw [← back, ← sub_mul, abs_mul, abs_of_pos p2, back]
    calc |m - y| * 10 ^ (e - 16) ≤ 1 / 2 * 10 ^ (e - 16) := mul_le_mul_of_nonneg_right hm p2.le
      _ ≤ |x| / 10 ^ 16 / 2 := by linarith
  unfold sciParts
  dsimp only
  rw [← he, ← hy]
  split
  · rename_i h
    refine ⟨le_rfl, by norm_num, by omega, le_rfl, ?_⟩
    have := key _ n3
    rw [h] at this
    convert this using 3
    push_cast
    rw [show e + 1 - 16 = 1 + (e - 16) by omega, zpow_add₀ (by norm_num)]
    norm_num
    ring
  · rename_i h
    exact ⟨n1, by omega, le_rfl, by omega, key _ n3⟩

/-! ## Distance of doubles -/

/-- Two doubles are farther apart than the sixteenth digit. -/
theorem IsDouble.apart {x y : ℚ} (hx : IsDouble x) (hy : IsDouble y) (h : y ≠ x) : |x| / 10 ^ 16 < |x - y| := by
  obtain ⟨m, e, rfl, hm, -, -⟩ := hx
  obtain ⟨n, f, rfl, hn, -, -⟩ := hy
  have hm' : |(m : ℚ)| < 2 ^ 53 := by exact_mod_cast hm
  have hn' : |(n : ℚ)| < 2 ^ 53 := by exact_mod_cast hn
  have pe : (0 : ℚ) < 2 ^ e := zpow_pos (by norm_num) _
  have pf : (0 : ℚ) < 2 ^ f := zpow_pos (by norm_num) _
  have whole : ∀ (g : Int) (z : Int), (z : ℚ) * 2 ^ g ≠ 0 → (2 : ℚ) ^ g ≤ |(z : ℚ) * 2 ^ g| := by
    intro g z hz
    have pg : (0 : ℚ) < 2 ^ g := zpow_pos (by norm_num) _
    rw [abs_mul, abs_of_pos pg]
    have : z ≠ 0 := by
      rintro rfl
      simp at hz
    have : (1 : ℚ) ≤ |(z : ℚ)| := by exact_mod_cast Int.one_le_abs this
    calc (2 : ℚ) ^ g = 1 * 2 ^ g := by ring
      _ ≤ _ := mul_le_mul_of_nonneg_right this pg.le
  have hd : (m : ℚ) * 2 ^ e - n * 2 ^ f ≠ 0 := sub_ne_zero.mpr (Ne.symm h)
  rcases le_total e f with hef | hef
  · obtain ⟨k, rfl⟩ := Int.le.dest hef
    have e1 : (m : ℚ) * 2 ^ e - n * 2 ^ (e + (k : Int)) = ((m - n * 2 ^ k : Int) : ℚ) * 2 ^ e := by
      rw [zpow_add₀ (by norm_num)]
      push_cast
      rw [zpow_natCast]
      ring
    have h1 := whole e (m - n * 2 ^ k) (e1 ▸ hd)
    rw [← e1] at h1
    have h2 : |(m : ℚ) * 2 ^ e| < 2 ^ 53 * 2 ^ e := by
      rw [abs_mul, abs_of_pos pe]
      exact mul_lt_mul_of_pos_right hm' pe
    rw [div_lt_iff₀ (by norm_num)]
    nlinarith
  · obtain ⟨k, rfl⟩ := Int.le.dest hef
    have e1 : (m : ℚ) * 2 ^ (f + (k : Int)) - n * 2 ^ f = ((m * 2 ^ k - n : Int) : ℚ) * 2 ^ f := by
      rw [zpow_add₀ (by norm_num)]
      push_cast
      rw [zpow_natCast]
      ring
    have h1 := whole f (m * 2 ^ k - n) (e1 ▸ hd)
    rw [← e1] at h1
    have h2 : |(n : ℚ) * 2 ^ f| < 2 ^ 53 * 2 ^ f := by
      rw [abs_mul, abs_of_pos pf]
      exact mul_lt_mul_of_pos_right hn' pf
    have h3 : |(m : ℚ) * 2 ^ (f + (k : Int))| ≤ |(m : ℚ) * 2 ^ (f + (k : Int)) - n * 2 ^ f| + |(n : ℚ) * 2 ^ f| := by
      have := abs_add_le ((m : ℚ) * 2 ^ (f + (k : Int)) - n * 2 ^ f) (n * 2 ^ f)
      rwa [sub_add_cancel] at this
    rw [div_lt_iff₀ (by norm_num)]
    nlinarith

set_option exponentiation.threshold 2000 in
/-- The decimal exponent of a double has at most three digits. -/
theorem IsDouble.exponent {x : ℚ} (hx : IsDouble x) (h0 : x ≠ 0) : -324 ≤ Int.log 10 |x| ∧ Int.log 10 |x| ≤ 308 := by
  obtain ⟨m, e, rfl, hm, h1, h2⟩ := hx
  have ha : 0 < |(m : ℚ) * 2 ^ e| := abs_pos.mpr h0
  have pe : (0 : ℚ) < 2 ^ e := zpow_pos (by norm_num) _
  have hm' : |(m : ℚ)| < 2 ^ 53 := by exact_mod_cast hm
  have hm1 : (1 : ℚ) ≤ |(m : ℚ)| := by
    have : m ≠ 0 := by
      rintro rfl
      simp at h0
    exact_mod_cast Int.one_le_abs this
  constructor
  · have := (Int.zpow_le_iff_le_log (b := 10) (R := ℚ) (by norm_num) (x := -324) ha).mp
    apply this
    rw [abs_mul, abs_of_pos pe]
    have a : (2 : ℚ) ^ (-1074 : Int) ≤ 2 ^ e := zpow_le_zpow_right₀ (by norm_num) h1
    have b : ((10 : Nat) : ℚ) ^ (-324 : Int) ≤ 2 ^ (-1074 : Int) := by norm_num
    nlinarith
  · have := (Int.lt_zpow_iff_log_lt (b := 10) (R := ℚ) (by norm_num) (x := 309) ha).mp
    have h := this (by
      rw [abs_mul, abs_of_pos pe]
      have a : (2 : ℚ) ^ e ≤ 2 ^ (971 : Int) := zpow_le_zpow_right₀ (by norm_num) h2
      have b : (2 : ℚ) ^ 53 * 2 ^ (971 : Int) < ((10 : Nat) : ℚ) ^ (309 : Int) := by norm_num
      nlinarith)
    omega

/-! ## Reading what was written -/

theorem natText_length {n k : Nat} (h1 : 10 ^ k ≤ n) (h2 : n < 10 ^ (k + 1)) : (natText n).length = k + 1 := by
  have a : (natText n).length ≤ k + 1 := (Nat.length_toDigits_le_iff (by omega) (by omega)).mpr h2
  have b : ¬ (natText n).length ≤ k := fun h => by
    rcases Nat.eq_zero_or_pos k with rfl | hk
    · exact natText_ne n (List.eq_nil_of_length_eq_zero (by omega))
    · have := (Nat.length_toDigits_le_iff (b := 10) (by omega) hk).mp h
      omega
  omega

theorem pad2_digits (n : Nat) : (pad2 n).all Char.isDigit := by
  unfold pad2
  rw [List.all_append, natText_digits, Bool.and_true, List.all_eq_true]
  intro c hc
  rw [List.eq_of_mem_replicate hc]
  decide

theorem readDigits_pad2 (n : Nat) : readDigits (pad2 n) = some n := by
  unfold readDigits
  rw [if_pos ⟨by unfold pad2; simp [natText_ne], pad2_digits n⟩]
  congr 1
  refine (Nat.ofDigitChars_eq_foldl (b := 10)).symm.trans ?_
  unfold pad2
  rw [Nat.ofDigitChars_append, Nat.ofDigitChars_replicate_zero, Nat.mul_zero]
  exact Nat.ofDigitChars_toDigits (by omega) (by omega)

theorem pad2_length {n : Nat} (h : n < 1000) : (pad2 n).length ≤ 3 := by
  have a : (natText n).length ≤ 3 := (Nat.length_toDigits_le_iff (by omega) (by omega)).mpr h
  unfold pad2
  rw [List.length_append, List.length_replicate]
  omega

theorem readUnsigned_digits {a f : Text} {n k : Nat} (ha : readDigits a = some n) (hf : readDigits f = some k)
    (h : a.all Char.isDigit) : readUnsigned (a ++ '.' :: f) = some ((n : ℚ) + (k : ℚ) / 10 ^ f.length) := by
  unfold readUnsigned
  have hd := digit_no_dot h
  rw [List.dropWhile_append_of_pos hd, List.takeWhile_append_of_pos hd]
  rw [List.dropWhile_cons_of_neg (by simp), List.takeWhile_cons_of_neg (by simp), List.append_nil]
  show ((readDigits a).bind _) = _
  rw [ha, hf]
  rfl

/-- The digits of a number with a point after the first. -/
theorem readUnsigned_pointed {m : Nat} (h1 : 10 ^ 16 ≤ m) (h2 : m < 10 ^ 17) :
    readUnsigned ((natText m).take 1 ++ '.' :: (natText m).drop 1) = some ((m : ℚ) / 10 ^ 16) := by
  have hl := natText_length (k := 16) h1 h2
  have hd := natText_digits m
  have e : (natText m).take 1 ++ (natText m).drop 1 = natText m := List.take_append_drop _ _
  have d1 : ((natText m).take 1).all Char.isDigit = true := by
    rw [← e, List.all_append, Bool.and_eq_true] at hd
    exact hd.1
  have d2 : ((natText m).drop 1).all Char.isDigit = true := by
    rw [← e, List.all_append, Bool.and_eq_true] at hd
    exact hd.2
  have n1 : (natText m).take 1 ≠ [] := by
    intro h
    have := congrArg List.length h
    rw [List.length_take, hl] at this
    simp at this
  have l2 : ((natText m).drop 1).length = 16 := by rw [List.length_drop, hl]
  have n2 : (natText m).drop 1 ≠ [] := by
    intro h
    rw [h] at l2
    simp at l2
  have r1 : readDigits ((natText m).take 1) = some (Nat.ofDigitChars 10 ((natText m).take 1) 0) := by
    unfold readDigits
    rw [if_pos ⟨n1, d1⟩]
    congr 1
  have r2 : readDigits ((natText m).drop 1) = some (Nat.ofDigitChars 10 ((natText m).drop 1) 0) := by
    unfold readDigits
    rw [if_pos ⟨n2, d2⟩]
    congr 1
  rw [readUnsigned_digits r1 r2 d1, l2]
  have hm : Nat.ofDigitChars 10 (natText m) 0 = m := Nat.ofDigitChars_toDigits (by omega) (by omega)
  rw [← e, Nat.ofDigitChars_append, Nat.ofDigitChars_eq_ofDigitChars_zero, l2] at hm
  congr 1
  have hm' : (m : ℚ) = 10 ^ 16 * (Nat.ofDigitChars 10 (List.take 1 (natText m)) 0 : ℚ) + (Nat.ofDigitChars 10 (List.drop 1 (natText m)) 0 : ℚ) := by
    exact_mod_cast hm.symm
  rw [eq_div_iff (by norm_num)]
  rw [hm', add_mul, div_mul_cancel₀ _ (by norm_num)]
  ring

theorem sciForm_chars {m : Nat} {e : Int} {c : Char} (hc : c ∈ sciForm m e) : c.isDigit = true ∨ c = '.' ∨ c = 'e' ∨ c = '+' ∨ c = '-' := by
  have hd := natText_digits m
  rw [List.all_eq_true] at hd
  have hp := pad2_digits e.natAbs
  rw [List.all_eq_true] at hp
  unfold sciForm at hc
  simp only [List.mem_append, List.mem_cons] at hc
  rcases hc with (hc | hc | hc) | hc | hc | hc
  · exact .inl (hd c (List.mem_of_mem_take hc))
  · exact .inr (.inl hc)
  · exact .inl (hd c (List.mem_of_mem_drop hc))
  · exact .inr (.inr (.inl hc))
  · split at hc
    · exact .inr (.inr (.inr (.inr hc)))
    · exact .inr (.inr (.inr (.inl hc)))
  · exact .inl (hp c hc)

theorem sciText_chars {x : ℚ} {c : Char} (hc : c ∈ sciText x) : c.isDigit = true ∨ c = '.' ∨ c = 'e' ∨ c = '+' ∨ c = '-' := by
  unfold sciText at hc
  split at hc
  · revert c
    decide
  · rw [List.mem_append] at hc
    rcases hc with hc | hc
    · split at hc
      · simp at hc
        exact .inr (.inr (.inr (.inr hc)))
      · simp at hc
    · exact sciForm_chars hc

/-- Reading scientific notation. -/
theorem readScientific_form {m : Nat} {e : Int} (h1 : 10 ^ 16 ≤ m) (h2 : m < 10 ^ 17) (sign : Text) (s : ℚ)
    (hs : sign = [] ∧ s = 1 ∨ sign = ['-'] ∧ s = -1) :
    readScientific (sign ++ sciForm m e) = some (s * (m * 10 ^ (e - 16))) := by
  have hd := natText_digits m
  have noE : ∀ c ∈ sign ++ ((natText m).take 1 ++ '.' :: (natText m).drop 1), decide (c ≠ 'e') = true := by
    rw [List.all_eq_true] at hd
    intro c hc
    simp only [ne_eq, decide_not, Bool.not_eq_true', decide_eq_false_iff_not]
    rintro rfl
    simp only [List.mem_append, List.mem_cons] at hc
    rcases hc with hc | hc | hc | hc
    · rcases hs with ⟨rfl, -⟩ | ⟨rfl, -⟩ <;> simp at hc
    · exact absurd (hd _ (List.mem_of_mem_take hc)) (by decide)
    · exact absurd hc (by decide)
    · exact absurd (hd _ (List.mem_of_mem_drop hc)) (by decide)
  have split : sign ++ sciForm m e = (sign ++ ((natText m).take 1 ++ '.' :: (natText m).drop 1)) ++
      'e' :: (if e < 0 then '-' else '+') :: pad2 e.natAbs := by
    unfold sciForm
    simp
  have n1 : (natText m).take 1 ≠ [] := by
    intro h
    have := congrArg List.length h
    rw [List.length_take, natText_length (k := 16) h1 h2] at this
    simp at this
  have d1 : ((natText m).take 1).all Char.isDigit = true := by
    rw [List.all_eq_true] at hd ⊢
    exact fun c hc => hd c (List.mem_of_mem_take hc)
  have num : readNumber (sign ++ ((natText m).take 1 ++ '.' :: (natText m).drop 1)) = some (s * (m / 10 ^ 16)) := by
    rcases hs with ⟨rfl, rfl⟩ | ⟨rfl, rfl⟩
    · rw [List.nil_append, readNumber_unsigned (fun r => digits_minus d1 n1), readUnsigned_pointed h1 h2, one_mul]
    · show (readUnsigned (List.take 1 (natText m) ++ '.' :: List.drop 1 (natText m))).map _ = _
      rw [readUnsigned_pointed h1 h2]
      simp
  have ex : readExponent ((if e < 0 then '-' else '+') :: pad2 e.natAbs) = some e := by
    split
    · show (readDigits _).map _ = _
      rw [readDigits_pad2]
      simp only [Option.map_some, Option.some.injEq]
      omega
    · show (readDigits _).map _ = _
      rw [readDigits_pad2]
      simp only [Option.map_some, Option.some.injEq]
      omega
  unfold readScientific
  rw [split, List.takeWhile_append_of_pos noE, List.dropWhile_append_of_pos noE, List.dropWhile_cons_of_neg (by simp),
    List.takeWhile_cons_of_neg (by simp), List.append_nil, num]
  show Option.map _ (readExponent ((if e < 0 then '-' else '+') :: pad2 e.natAbs)) = _
  rw [ex, Option.map_some]
  congr 1
  rw [zpow_sub₀ (by norm_num)]
  norm_num
  ring

theorem sciForm_length {m : Nat} {e : Int} (h1 : 10 ^ 16 ≤ m) (h2 : m < 10 ^ 17) (he : e.natAbs < 1000) : (sciForm m e).length ≤ 23 := by
  have a := natText_length (k := 16) h1 h2
  have b := pad2_length he
  unfold sciForm
  simp only [List.length_append, List.length_cons, List.length_take, List.length_drop, a]
  omega

end EF
