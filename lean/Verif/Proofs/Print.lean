import Verif.Model.Print
import Verif.Spec.Print
import Verif.Proofs.Scientific

/-!
# Writing to a stream: lemmas
-/

namespace EF

/-! ## Digits -/

theorem sigParts_near (p : Nat) {x : ℚ} (hx : x ≠ 0) :
    10 ^ p ≤ (sigParts p x).1 ∧ (sigParts p x).1 < 10 ^ (p + 1) ∧ Int.log 10 |x| ≤ (sigParts p x).2 ∧
      (sigParts p x).2 ≤ Int.log 10 |x| + 1 ∧
      abs (((sigParts p x).1 : ℚ) * 10 ^ ((sigParts p x).2 - p) - |x|) ≤ |x| / 10 ^ p / 2 := by
  have ha : 0 < |x| := abs_pos.mpr hx
  obtain ⟨e, he⟩ : ∃ e, e = Int.log 10 |x| := ⟨_, rfl⟩
  have h1 : (10 : ℚ) ^ e ≤ |x| := by
    have := Int.zpow_log_le_self (b := 10) (r := |x|) (by norm_num) ha
    rw [← he] at this
    exact_mod_cast this
  have h2 : |x| < (10 : ℚ) ^ (e + 1) := by
    have := Int.lt_zpow_succ_log_self (b := 10) (by norm_num) |x|
    rw [← he] at this
    exact_mod_cast this
  have p1 : (0 : ℚ) < 10 ^ ((p : Int) - e) := zpow_pos (by norm_num) _
  have e1 : (10 : ℚ) ^ e * 10 ^ ((p : Int) - e) = 10 ^ p := by
    rw [← zpow_add₀ (by norm_num), show e + ((p : Int) - e) = (p : Int) by omega, zpow_natCast]
  have e2 : (10 : ℚ) ^ (e + 1) * 10 ^ ((p : Int) - e) = 10 ^ (p + 1) := by
    rw [← zpow_add₀ (by norm_num), show e + 1 + ((p : Int) - e) = ((p + 1 : Nat) : Int) by omega, zpow_natCast]
  obtain ⟨y, hy⟩ : ∃ y, y = |x| * 10 ^ ((p : Int) - e) := ⟨_, rfl⟩
  have y0 : 0 ≤ y := by rw [hy]; positivity
  have y1 : ((10 ^ p : Nat) : ℚ) ≤ y := by
    rw [hy, show ((10 ^ p : Nat) : ℚ) = 10 ^ p by norm_num, ← e1]
    exact mul_le_mul_of_nonneg_right h1 p1.le
  have y2 : y < ((10 ^ (p + 1) : Nat) : ℚ) := by
    rw [hy, show ((10 ^ (p + 1) : Nat) : ℚ) = 10 ^ (p + 1) by norm_num, ← e2]
    exact mul_lt_mul_of_pos_right h2 p1
  have n1 := nearestEven_ge y1
  have n2 := nearestEven_le y0 y2
  have n3 := nearestEven_near y0
  have back : y * 10 ^ (e - (p : Int)) = |x| := by
    rw [hy, mul_assoc, ← zpow_add₀ (by norm_num), show (p : Int) - e + (e - p) = (0 : Int) by omega, zpow_zero, mul_one]
  have p2 : (0 : ℚ) < 10 ^ (e - (p : Int)) := zpow_pos (by norm_num) _
  have p3 : (10 : ℚ) ^ (e - (p : Int)) ≤ |x| / 10 ^ p := by
    rw [zpow_sub₀ (by norm_num), zpow_natCast]
    exact div_le_div_of_nonneg_right h1 (by positivity)
  have key : ∀ m : ℚ, |m - y| ≤ 1 / 2 → abs (m * 10 ^ (e - (p : Int)) - |x|) ≤ |x| / 10 ^ p / 2 := by
    intro m hm
    rw [← back, ← sub_mul, abs_mul, abs_of_pos p2, back]
    calc |m - y| * 10 ^ (e - (p : Int)) ≤ 1 / 2 * 10 ^ (e - (p : Int)) := mul_le_mul_of_nonneg_right hm p2.le
      _ ≤ |x| / 10 ^ p / 2 := by linarith
  unfold sigParts
  dsimp only
  rw [← he, ← hy]
  have pp : 10 ^ (p + 1) = 10 * 10 ^ p := pow_succ' 10 p
  have pq : 0 < 10 ^ p := by positivity
  split
  · rename_i h
    refine ⟨le_rfl, by omega, by omega, le_rfl, ?_⟩
    have := key _ n3
    rw [h] at this
    convert this using 3
    push_cast
    rw [show e + 1 - (p : Int) = 1 + (e - p) by omega, zpow_add₀ (by norm_num), pow_succ]
    norm_num
    ring
  · rename_i h
    exact ⟨n1, by omega, le_rfl, by omega, key _ n3⟩

/-- What is dropped are zeros. -/
theorem dropZeros_split (t : Text) : ∃ k, t = dropZeros t ++ List.replicate k '0' := by
  have h := List.takeWhile_append_dropWhile (p := fun c => decide (c = '0')) (l := t.reverse)
  refine ⟨(t.reverse.takeWhile (fun c => decide (c = '0'))).length, ?_⟩
  have h2 : t = (t.reverse.dropWhile (fun c => decide (c = '0'))).reverse ++ (t.reverse.takeWhile (fun c => decide (c = '0'))).reverse := by
    rw [← List.reverse_append, h, List.reverse_reverse]
  have h3 : (t.reverse.takeWhile (fun c => decide (c = '0'))).reverse =
      List.replicate (t.reverse.takeWhile (fun c => decide (c = '0'))).length '0' := by
    rw [List.eq_replicate_iff]
    refine ⟨List.length_reverse, fun c hc => ?_⟩
    have := mem_takeWhile' _ (List.mem_reverse.1 hc)
    simpa using this
  rw [← h3]
  exact h2

theorem dropZeros_mem {t : Text} {c : Char} (h : c ∈ dropZeros t) : c ∈ t := by
  obtain ⟨k, hk⟩ := dropZeros_split t
  rw [hk]
  exact List.mem_append_left _ h

theorem dropZeros_length (t : Text) : (dropZeros t).length ≤ t.length := by
  obtain ⟨k, hk⟩ := dropZeros_split t
  conv_rhs => rw [hk]
  rw [List.length_append]
  omega

theorem readDigits_chars {t : Text} (hn : t ≠ []) (hd : t.all Char.isDigit) : readDigits t = some (Nat.ofDigitChars 10 t 0) := by
  unfold readDigits
  rw [if_pos ⟨hn, hd⟩]
  congr 1

/-- Reading digits, a point, and digits without the zeros at the end. -/
theorem readUnsigned_shown {a f : Text} (hn : a ≠ []) (ha : a.all Char.isDigit) (hf : f.all Char.isDigit) :
    readUnsigned (pointed a (dropZeros f)) =
      some ((Nat.ofDigitChars 10 a 0 : ℚ) + (Nat.ofDigitChars 10 f 0 : ℚ) / 10 ^ f.length) := by
  obtain ⟨k, hk⟩ := dropZeros_split f
  have hg : (dropZeros f).all Char.isDigit := by
    rw [List.all_eq_true] at hf ⊢
    exact fun c hc => hf c (dropZeros_mem hc)
  have hv : (Nat.ofDigitChars 10 f 0 : ℚ) / 10 ^ f.length = (Nat.ofDigitChars 10 (dropZeros f) 0 : ℚ) / 10 ^ (dropZeros f).length := by
    conv_lhs => rw [hk]
    rw [Nat.ofDigitChars_append, Nat.ofDigitChars_replicate_zero, List.length_append, List.length_replicate]
    push_cast
    rw [pow_add, mul_comm ((10 : ℚ) ^ k)]
    field_simp
  unfold pointed
  by_cases h : dropZeros f = []
  · rw [if_pos h, List.append_nil, hv, h]
    unfold readUnsigned
    have : a.dropWhile (· ≠ '.') = [] := by
      have := List.dropWhile_append_of_pos (l₂ := []) (digit_no_dot ha)
      rwa [List.append_nil] at this
    rw [this]
    show (readDigits a).map _ = _
    rw [readDigits_chars hn ha]
    simp
  · rw [if_neg h, readUnsigned_digits (readDigits_chars hn ha) (readDigits_chars h hg) ha, hv]

theorem pointed_chars {a f : Text} (ha : a.all Char.isDigit) (hf : f.all Char.isDigit) {c : Char} (hc : c ∈ pointed a (dropZeros f)) :
    c.isDigit = true ∨ c = '.' := by
  rw [List.all_eq_true] at ha hf
  unfold pointed at hc
  rcases List.mem_append.1 hc with hc | hc
  · exact .inl (ha c hc)
  · split at hc
    · cases hc
    · rcases List.mem_cons.1 hc with rfl | hc
      · exact .inr rfl
      · exact .inl (hf c (dropZeros_mem hc))

theorem pointed_length (a f : Text) : (pointed a (dropZeros f)).length ≤ a.length + 1 + f.length := by
  have := dropZeros_length f
  unfold pointed
  rw [List.length_append]
  split
  · simp
    omega
  · simp only [List.length_cons]
    omega

theorem take_digits {m : Nat} (k : Nat) : ((natText m).take k).all Char.isDigit := by
  have hd := natText_digits m
  rw [List.all_eq_true] at hd ⊢
  exact fun c hc => hd c (List.mem_of_mem_take hc)

theorem drop_digits {m : Nat} (k : Nat) : ((natText m).drop k).all Char.isDigit := by
  have hd := natText_digits m
  rw [List.all_eq_true] at hd ⊢
  exact fun c hc => hd c (List.mem_of_mem_drop hc)

/-- The digits of a number with a point after the first `k`. -/
theorem split_value {m p k : Nat} (h1 : 10 ^ p ≤ m) (h2 : m < 10 ^ (p + 1)) (hk : k ≤ p) :
    (Nat.ofDigitChars 10 ((natText m).take (k + 1)) 0 : ℚ) +
      (Nat.ofDigitChars 10 ((natText m).drop (k + 1)) 0 : ℚ) / 10 ^ ((natText m).drop (k + 1)).length = (m : ℚ) * 10 ^ ((k : Int) - p) := by
  have hl := natText_length h1 h2
  have hm : Nat.ofDigitChars 10 (natText m) 0 = m := Nat.ofDigitChars_toDigits (by omega) (by omega)
  have e : (natText m).take (k + 1) ++ (natText m).drop (k + 1) = natText m := List.take_append_drop _ _
  have l2 : ((natText m).drop (k + 1)).length = p - k := by rw [List.length_drop, hl]; omega
  rw [l2]
  rw [← e, Nat.ofDigitChars_append, Nat.ofDigitChars_eq_ofDigitChars_zero, l2] at hm
  have hm' : (m : ℚ) = 10 ^ (p - k) * (Nat.ofDigitChars 10 (List.take (k + 1) (natText m)) 0 : ℚ) +
      (Nat.ofDigitChars 10 (List.drop (k + 1) (natText m)) 0 : ℚ) := by
    exact_mod_cast hm.symm
  have hz : (10 : ℚ) ^ ((k : Int) - p) = (10 ^ (p - k))⁻¹ := by
    rw [← zpow_natCast, ← zpow_neg]
    congr 1
    omega
  rw [hz, ← div_eq_mul_inv, eq_div_iff (by positivity), hm', add_mul, div_mul_cancel₀ _ (by positivity)]
  ring

theorem readReal_plain {t : Text} (h : ∀ c ∈ t, c.isDigit = true ∨ c = '.' ∨ c = '-') : readReal t = readNumber t := by
  unfold readReal
  rw [if_neg]
  intro he
  have := h 'e' he
  revert this
  decide

/-- The sign of a number. -/
structure Signed (sign : Text) (s : ℚ) : Prop where
  or : sign = [] ∧ s = 1 ∨ sign = ['-'] ∧ s = -1

theorem Signed.read {sign : Text} {s : ℚ} (h : Signed sign s) {t : Text} {d : ℚ} (hd : readUnsigned t = some d) (ht : ∀ r, t ≠ '-' :: r) :
    readNumber (sign ++ t) = some (s * d) := by
  rcases h.or with ⟨rfl, rfl⟩ | ⟨rfl, rfl⟩
  · rw [List.nil_append, readNumber_unsigned ht, hd, one_mul]
  · show (readUnsigned t).map _ = _
    rw [hd]
    simp

theorem Signed.chars {sign : Text} {s : ℚ} (h : Signed sign s) {c : Char} (hc : c ∈ sign) : c = '-' := by
  rcases h.or with ⟨rfl, rfl⟩ | ⟨rfl, rfl⟩
  · cases hc
  · exact List.mem_singleton.1 hc

theorem pointed_minus {a f : Text} (hn : a ≠ []) (ha : a.all Char.isDigit) (r : Text) : pointed a f ≠ '-' :: r :=
  digits_minus ha hn

theorem take_ne {m k : Nat} : (natText m).take (k + 1) ≠ [] := by
  intro h
  have := natText_ne m
  cases hm : natText m with
  | nil => exact this hm
  | cons c t => rw [hm] at h; simp at h

/-- Reading what was written, for every exponent. -/
theorem readReal_general {p m : Nat} {e : Int} (h1 : 10 ^ p ≤ m) (h2 : m < 10 ^ (p + 1)) {sign : Text} {s : ℚ} (hs : Signed sign s) :
    readReal (sign ++ generalForm p m e) = some (s * (m * 10 ^ (e - p))) := by
  have zd : ∀ k, (List.replicate k '0' ++ natText m).all Char.isDigit := by
    intro k
    rw [List.all_append, natText_digits, Bool.and_true, List.all_eq_true]
    intro c hc
    rw [List.eq_of_mem_replicate hc]
    decide
  unfold generalForm
  by_cases hr : -4 ≤ e ∧ e < (p + 1 : Nat)
  · rw [if_pos hr]
    by_cases h0 : e < 0
    · rw [if_pos h0]
      rw [readReal_plain (fun c hc => by
        rcases List.mem_append.1 hc with hc | hc
        · exact .inr (.inr (hs.chars hc))
        · rcases pointed_chars (by decide) (zd _) hc with h | h
          · exact .inl h
          · exact .inr (.inl h))]
      rw [hs.read (readUnsigned_shown (by decide) (by decide) (zd _)) (pointed_minus (by decide) (by decide))]
      congr 2
      rw [Nat.ofDigitChars_append, Nat.ofDigitChars_replicate_zero, Nat.mul_zero,
        show Nat.ofDigitChars 10 (natText m) 0 = m from Nat.ofDigitChars_toDigits (by omega) (by omega), List.length_append,
        List.length_replicate, natText_length h1 h2, show Nat.ofDigitChars 10 ['0'] 0 = 0 by decide, Nat.cast_zero, zero_add,
        div_eq_mul_inv, ← zpow_natCast, ← zpow_neg]
      congr 2
      omega
    · rw [if_neg h0]
      rw [readReal_plain (fun c hc => by
        rcases List.mem_append.1 hc with hc | hc
        · exact .inr (.inr (hs.chars hc))
        · rcases pointed_chars (take_digits _) (drop_digits _) hc with h | h
          · exact .inl h
          · exact .inr (.inl h))]
      rw [hs.read (readUnsigned_shown take_ne (take_digits _) (drop_digits _)) (pointed_minus take_ne (take_digits _)),
        split_value h1 h2 (by omega), show ((e.toNat : Nat) : Int) = e by omega]
  · rw [if_neg hr]
    have noE : ∀ c ∈ sign ++ pointed ((natText m).take 1) (dropZeros ((natText m).drop 1)), decide (c ≠ 'e') = true := by
      intro c hc
      simp only [ne_eq, decide_not, Bool.not_eq_true', decide_eq_false_iff_not]
      rintro rfl
      rcases List.mem_append.1 hc with hc | hc
      · exact absurd (hs.chars hc) (by decide)
      · have := pointed_chars (take_digits 1) (drop_digits 1) hc
        revert this
        decide
    have ex : readExponent ((if e < 0 then '-' else '+') :: pad2 e.natAbs) = some e := by
      split
      · show (readDigits _).map _ = _
        rw [readDigits_pad2]
        simp only [Option.map_some, Option.some.injEq]
        omega
      · show (readDigits _).map _ = _
        rw [readDigits_pad2]
        simp only [Option.map_some, Option.some.injEq]
        omega
    unfold readReal
    rw [if_pos (by simp)]
    unfold readScientific
    rw [← List.append_assoc, List.takeWhile_append_of_pos noE, List.dropWhile_append_of_pos noE, List.dropWhile_cons_of_neg (by simp),
      List.takeWhile_cons_of_neg (by simp), List.append_nil,
      hs.read (readUnsigned_shown take_ne (take_digits _) (drop_digits _)) (pointed_minus take_ne (take_digits _)),
      split_value (k := 0) h1 h2 (by omega)]
    show Option.map _ (readExponent ((if e < 0 then '-' else '+') :: pad2 e.natAbs)) = _
    rw [ex, Option.map_some]
    congr 1
    rw [mul_assoc, mul_assoc, ← zpow_add₀ (by norm_num)]
    congr 3
    push_cast
    omega

theorem generalForm_chars {p m : Nat} {e : Int} {c : Char} (hc : c ∈ generalForm p m e) :
    c.isDigit = true ∨ c = '.' ∨ c = 'e' ∨ c = '+' ∨ c = '-' := by
  have zd : ∀ k, (List.replicate k '0' ++ natText m).all Char.isDigit := by
    intro k
    rw [List.all_append, natText_digits, Bool.and_true, List.all_eq_true]
    intro c hc
    rw [List.eq_of_mem_replicate hc]
    decide
  unfold generalForm at hc
  split at hc
  · split at hc
    · rcases pointed_chars (by decide) (zd _) hc with h | h
      · exact .inl h
      · exact .inr (.inl h)
    · rcases pointed_chars (take_digits _) (drop_digits _) hc with h | h
      · exact .inl h
      · exact .inr (.inl h)
  · rcases List.mem_append.1 hc with hc | hc
    · rcases pointed_chars (take_digits _) (drop_digits _) hc with h | h
      · exact .inl h
      · exact .inr (.inl h)
    · have hp := pad2_digits e.natAbs
      rw [List.all_eq_true] at hp
      simp only [List.mem_cons] at hc
      rcases hc with hc | hc | hc
      · exact .inr (.inr (.inl hc))
      · split at hc
        · exact .inr (.inr (.inr (.inr hc)))
        · exact .inr (.inr (.inr (.inl hc)))
      · exact .inl (hp c hc)

theorem sign_of (x : ℚ) (h0 : x ≠ 0) (precision : Nat) : ∃ (sign : Text) (s : ℚ), Signed sign s ∧ s * |x| = x ∧ |s| = 1 ∧ sign.length ≤ 1 ∧
    generalText precision x = sign ++ generalForm (precision - 1) (sigParts (precision - 1) x).1 (sigParts (precision - 1) x).2 := by
  unfold generalText
  rw [if_neg h0]
  by_cases hn : x < 0
  · exact ⟨['-'], -1, ⟨.inr ⟨rfl, rfl⟩⟩, by rw [abs_of_neg hn]; ring, by norm_num, le_rfl, by rw [if_pos hn]⟩
  · exact ⟨[], 1, ⟨.inl ⟨rfl, rfl⟩⟩, by rw [abs_of_nonneg (not_lt.mp hn)]; ring, by norm_num, Nat.zero_le _, by rw [if_neg hn]⟩

/-- What is read back agrees to as many significant digits as the precision says. -/
theorem generalText_near (precision : Nat) (x : ℚ) :
    ∃ d, readReal (generalText precision x) = some d ∧ |d - x| ≤ |x| / 10 ^ (precision - 1) / 2 := by
  by_cases h0 : x = 0
  · subst h0
    refine ⟨0, ?_, by simp⟩
    unfold generalText
    rw [if_pos rfl]
    decide +kernel
  obtain ⟨sign, s, hs, hx, h1, -, ht⟩ := sign_of x h0 precision
  obtain ⟨a1, a2, -, -, a5⟩ := sigParts_near (precision - 1) h0
  refine ⟨_, by rw [ht, readReal_general a1 a2 hs], ?_⟩
  have e2 : s * ((sigParts (precision - 1) x).1 * 10 ^ ((sigParts (precision - 1) x).2 - ((precision - 1 : Nat) : Int))) - x =
      s * ((sigParts (precision - 1) x).1 * 10 ^ ((sigParts (precision - 1) x).2 - ((precision - 1 : Nat) : Int)) - |x|) := by
    rw [mul_sub, hx]
  rw [e2, abs_mul, h1, one_mul]
  exact a5

/-- A character of a number, with exponent. -/
def RealChar (c : Char) : Prop := c.isDigit = true ∨ c = '.' ∨ c = 'e' ∨ c = '+' ∨ c = '-'

theorem RealChar.plain {c : Char} (h : RealChar c) : isWs c = false := by
  rcases h with h | rfl | rfl | rfl | rfl
  · exact (NumChar.plain (.inr (.inr h))).2
  all_goals decide

theorem generalText_chars {precision : Nat} {x : ℚ} {c : Char} (hc : c ∈ generalText precision x) : RealChar c := by
  by_cases h0 : x = 0
  · unfold generalText at hc
    rw [if_pos h0] at hc
    rw [List.mem_singleton.1 hc]
    exact .inl (by decide)
  · obtain ⟨sign, s, hs, -, -, -, ht⟩ := sign_of x h0 precision
    rw [ht] at hc
    rcases List.mem_append.1 hc with hc | hc
    · exact .inr (.inr (.inr (.inr (hs.chars hc))))
    · exact generalForm_chars hc

theorem pointed_ne {a f : Text} (h : a ≠ []) : pointed a f ≠ [] := by
  unfold pointed
  simp [h]

theorem generalForm_ne (p m : Nat) (e : Int) : generalForm p m e ≠ [] := by
  unfold generalForm
  split
  · split
    · exact pointed_ne (by decide)
    · exact pointed_ne take_ne
  · simp

theorem generalText_ne (precision : Nat) (x : ℚ) : generalText precision x ≠ [] := by
  unfold generalText
  split
  · decide
  · intro h
    exact generalForm_ne _ _ _ (List.append_eq_nil_iff.1 h).2

/-- Four digits of a double take at most eleven characters. -/
theorem generalText_length {x : ℚ} (hx : IsDouble x) : (generalText 4 x).length ≤ 11 := by
  by_cases h0 : x = 0
  · unfold generalText
    rw [if_pos h0]
    decide
  obtain ⟨sign, s, -, -, -, hl, ht⟩ := sign_of x h0 4
  obtain ⟨a1, a2, a3, a4, -⟩ := sigParts_near 3 h0
  obtain ⟨b1, b2⟩ := hx.exponent h0
  rw [ht, List.length_append]
  simp only [Nat.add_one_sub_one, show 4 - 1 = 3 from rfl]
  generalize (sigParts 3 x).1 = m at *
  generalize (sigParts 3 x).2 = e at *
  have hm := natText_length a1 a2
  suffices (generalForm 3 m e).length ≤ 10 by omega
  unfold generalForm
  split
  · split
    · refine (pointed_length _ _).trans ?_
      rw [List.length_append, List.length_replicate, hm]
      simp only [List.length_singleton]
      omega
    · refine (pointed_length _ _).trans ?_
      rw [List.length_take, List.length_drop, hm]
      omega
  · have h2 := pad2_length (n := e.natAbs) (by omega)
    have h3 := pointed_length ((natText m).take 1) ((natText m).drop 1)
    rw [List.length_take, List.length_drop, hm] at h3
    rw [List.length_append, List.length_cons, List.length_cons]
    omega

theorem intText_length {i : Int} (h : IsInt32 i) : (intText i).length ≤ 11 := by
  obtain ⟨h1, h2⟩ := h
  have a : (natText i.natAbs).length ≤ 10 := (Nat.length_toDigits_le_iff (by omega) (by omega)).mpr (by norm_num; omega)
  unfold intText
  rw [List.length_append]
  split <;> simp <;> omega

/-! ## Words -/

/-- A text that is a word after at least one blank. -/
structure ShownWord (t w : Text) : Prop where
  lead : ∃ k, t = List.replicate (k + 1) ' ' ++ w
  ne : w ≠ []
  plain : ∀ c ∈ w, isWs c = false

theorem padLeft_entry {w : Text} (hl : w.length ≤ 11) (hn : w ≠ []) (hp : ∀ c ∈ w, isWs c = false) : ShownWord (padLeft 12 w) w := by
  refine ⟨⟨11 - w.length, ?_⟩, hn, hp⟩
  unfold padLeft
  rw [show 12 - w.length = 11 - w.length + 1 by omega]

theorem wordsFrom_blanks (k : Nat) (t : Text) : wordsFrom [] (List.replicate k ' ' ++ t) = wordsFrom [] t := by
  induction k with
  | zero => rfl
  | succ k ih => rw [List.replicate_succ, List.cons_append, wordsFrom, if_pos (by decide), if_pos rfl, ih]

theorem ShownWord.words {t w : Text} (h : ShownWord t w) (acc r : Text) :
    wordsFrom acc (t ++ r) = (if acc = [] then [] else [acc]) ++ wordsFrom w r := by
  obtain ⟨k, hk⟩ := h.lead
  rw [hk, List.replicate_succ, List.cons_append, List.cons_append, wordsFrom, if_pos (by decide), List.append_assoc]
  rw [wordsFrom_blanks, wordsFrom_append h.plain, List.nil_append]
  split <;> rfl

/-- The words of a row of entries. -/
theorem words_row {α : Type} {f w : α → Text} {xs : List α} (h : ∀ x ∈ xs, ShownWord (f x) (w x)) : words (xs.flatMap f) = xs.map w := by
  have key : ∀ (xs : List α) (acc : Text), (∀ x ∈ xs, ShownWord (f x) (w x)) →
      wordsFrom acc (xs.flatMap f) = (if acc = [] then [] else [acc]) ++ xs.map w := by
    intro xs
    induction xs with
    | nil =>
      intro acc _
      simp [wordsFrom]
    | cons x xs ih =>
      intro acc hx
      rw [List.flatMap_cons, (hx x (by simp)).words, ih _ (fun y hy => hx y (by simp [hy])), if_neg (hx x (by simp)).ne, List.map_cons]
      rfl
  exact (key xs [] h).trans (by simp)

/-! ## Lines -/

theorem pieces_plain {sep : Char} {t : Text} (h : sep ∉ t) (acc r : Text) : pieces sep acc (t ++ r) = pieces sep (acc ++ t) r := by
  induction t generalizing acc with
  | nil => rw [List.nil_append, List.append_nil]
  | cons c t ih =>
    rw [List.cons_append, pieces, if_neg (by rintro rfl; simp at h), ih (by intro hc; exact h (by simp [hc]))]
    rw [List.append_assoc, List.singleton_append]

/-- The first line, and the others. -/
theorem textLines_cons {t : Text} (h : '\n' ∉ t) (r : Text) : textLines (t ++ '\n' :: r) = t :: textLines r := by
  unfold textLines
  rw [pieces_plain h, List.nil_append, pieces, if_pos rfl]

theorem textLines_plain {t : Text} (h : '\n' ∉ t) : textLines t = [t] := by
  have := pieces_plain h [] []
  rw [List.append_nil] at this
  exact this

theorem ShownWord.noLine {t w : Text} (h : ShownWord t w) : '\n' ∉ t := by
  obtain ⟨k, rfl⟩ := h.lead
  intro hc
  rcases List.mem_append.1 hc with hc | hc
  · exact absurd (List.eq_of_mem_replicate hc) (by decide)
  · exact absurd (h.plain _ hc) (by decide)

theorem row_noLine {α : Type} {f w : α → Text} {xs : List α} (h : ∀ x ∈ xs, ShownWord (f x) (w x)) : '\n' ∉ xs.flatMap f := by
  intro hc
  obtain ⟨x, hx, hc⟩ := List.mem_flatMap.1 hc
  exact (h x hx).noLine hc

/-! ## Vectors -/

variable {α : Type}

/-- The text of an entry. -/
def entryText (ty : Printed α) (x : α) : Text := padLeft 12 (if ty.fabs x < tiny then intText 0 else ty.shown 4 x)

theorem printEntry_eq (ty : Printed α) (x : α) (os : OStream) : printEntry ty x os = ⟨os.text ++ entryText ty x, 4⟩ := by
  unfold printEntry entryText OStream.put OStream.setPrecision
  split <;> rfl

/-- The text of the entries of a vector, the first one with number `i`. -/
def entriesText (ty : Printed α) : List α → Nat → Text
  | [], _ => []
  | x :: xs, i => entryText ty x ++ (if i % 8 = 7 then ['\n'] else []) ++ entriesText ty xs (i + 1)

theorem entriesText_append (ty : Printed α) (xs ys : List α) (i : Nat) :
    entriesText ty (xs ++ ys) i = entriesText ty xs i ++ entriesText ty ys (i + xs.length) := by
  induction xs generalizing i with
  | nil => rfl
  | cons x xs ih =>
    rw [List.cons_append, entriesText, entriesText, ih, List.length_cons, show i + 1 + xs.length = i + (xs.length + 1) by omega]
    simp only [List.append_assoc]

theorem entriesText_short (ty : Printed α) (xs : List α) (i : Nat) (h : i % 8 + xs.length < 8) :
    entriesText ty xs i = xs.flatMap (entryText ty) := by
  induction xs generalizing i with
  | nil => rfl
  | cons x xs ih =>
    rw [List.length_cons] at h
    rw [entriesText, if_neg (by omega), List.append_nil, ih _ (by omega), List.flatMap_cons]

theorem entriesText_long (ty : Printed α) (xs : List α) (i : Nat) (hi : i % 8 = 0) (h : 8 ≤ xs.length) :
    entriesText ty xs i = (xs.take 8).flatMap (entryText ty) ++ '\n' :: entriesText ty (xs.drop 8) (i + 8) := by
  obtain ⟨x, hx⟩ : ∃ x, xs[7]? = some x := ⟨xs[7], List.getElem?_eq_getElem (by omega)⟩
  have e8 : xs.take 8 = xs.take 7 ++ [x] := by
    rw [List.take_add_one (i := 7), hx]
    rfl
  have l7 : (xs.take 7).length = 7 := by rw [List.length_take]; omega
  conv_lhs => rw [← List.take_append_drop 8 xs, e8]
  rw [entriesText_append, entriesText_append, entriesText_short ty _ i (by rw [l7]; omega), l7, List.length_append, l7, e8,
    List.flatMap_append]
  have : entriesText ty [x] (i + 7) = entryText ty x ++ ['\n'] := by
    rw [entriesText, if_pos (by omega)]
    simp [entriesText]
  rw [this]
  simp

/-- The lines of a vector: eight entries in each. -/
theorem entriesText_lines (ty : Printed α) {w : α → Text} (xs : List α) (h : ∀ x ∈ xs, ShownWord (entryText ty x) (w x)) (i : Nat)
    (hi : i % 8 = 0) (k : Nat) :
    (textLines (entriesText ty xs i)).getD k [] = ((xs.drop (8 * k)).take 8).flatMap (entryText ty) := by
  induction k generalizing xs i with
  | zero =>
    rw [Nat.mul_zero, List.drop_zero]
    by_cases hl : 8 ≤ xs.length
    · rw [entriesText_long ty xs i hi hl, textLines_cons (row_noLine (fun x hx => h x (List.mem_of_mem_take hx)))]
      rfl
    · rw [entriesText_short ty xs i (by omega), textLines_plain (row_noLine h), List.take_of_length_le (by omega)]
      rfl
  | succ k ih =>
    by_cases hl : 8 ≤ xs.length
    · rw [entriesText_long ty xs i hi hl, textLines_cons (row_noLine (fun x hx => h x (List.mem_of_mem_take hx))), List.getD_cons_succ,
        ih _ (fun x hx => h x (List.mem_of_mem_drop hx)) _ (by omega), List.drop_drop, show 8 + 8 * k = 8 * (k + 1) by ring]
    · rw [entriesText_short ty xs i (by omega), textLines_plain (row_noLine h), List.drop_eq_nil_of_le (by omega)]
      rfl

theorem Vec.print_ok (ty : Printed α) {v : Vec α} (hv : v.WF) (os : OStream) :
    v.print ty os = .ok ⟨os.text ++ ("  [".toList ++ natText v.size ++ "]\n".toList ++ entriesText ty v.data 0),
      if v.size = 0 then os.precision else 4⟩ := by
  unfold Vec.WF at hv
  obtain ⟨hdr, hh⟩ : ∃ hdr, hdr = "  [".toList ++ natText v.size ++ "]\n".toList := ⟨_, rfl⟩
  unfold Vec.print
  rw [← hh]
  have := forN_ok (n := v.size) (body := fun i os => do
    let x ← v.get i
    let os := printEntry ty x os
    pure (if i % 8 = 7 then os.put ['\n'] else os))
    (fun i => (⟨os.text ++ (hdr ++ entriesText ty (v.data.take i) 0), if i = 0 then os.precision else 4⟩ : OStream)) (by
      intro i hi
      have hx : v.data[i]? = some v.data[i] := List.getElem?_eq_getElem (by omega)
      have hg : v.get i = .ok v.data[i] := by
        unfold Vec.get rd
        rw [if_neg (by omega), hx]
      have ht : v.data.take (i + 1) = v.data.take i ++ [v.data[i]] := by
        rw [List.take_add_one, hx]
        rfl
      have hl : (v.data.take i).length = i := by rw [List.length_take]; omega
      simp only [hg, Res.ok_bind]
      rw [printEntry_eq, ht, entriesText_append, hl, if_neg (Nat.succ_ne_zero i)]
      show Res.ok _ = _
      congr 1
      by_cases h7 : i % 8 = 7
      · rw [if_pos h7]
        simp [entriesText, OStream.put, h7]
      · rw [if_neg h7]
        simp [entriesText, h7])
  rw [List.take_zero, List.take_of_length_le (i := v.size) (by omega)] at this
  refine Eq.trans ?_ this
  simp [OStream.put, entriesText]

/-! ## Matrices -/

/-- Row `i` of the entries. -/
def Mat.rowList (A : Mat α) (i : Nat) : List α := (A.data.drop (i * A.ncols)).take A.ncols

/-- The text of the first `n` rows. -/
def rowsText (ty : Printed α) (A : Mat α) (n : Nat) : Text :=
  (List.range n).flatMap (fun i => (A.rowList i).flatMap (entryText ty) ++ ['\n'])

theorem rowsText_succ (ty : Printed α) (A : Mat α) (n : Nat) :
    rowsText ty A (n + 1) = rowsText ty A n ++ ((A.rowList n).flatMap (entryText ty) ++ ['\n']) := by
  unfold rowsText
  rw [List.range_succ, List.flatMap_append]
  simp

theorem Mat.rowList_length {A : Mat α} (hA : A.WF) {i : Nat} (hi : i < A.nrows) : (A.rowList i).length = A.ncols := by
  unfold Mat.WF at hA
  unfold Mat.rowList
  rw [List.length_take, List.length_drop, hA]
  have : (i + 1) * A.ncols ≤ A.nrows * A.ncols := Nat.mul_le_mul_right _ hi
  rw [Nat.succ_mul] at this
  omega

theorem Mat.get_row {A : Mat α} (hA : A.WF) {i j : Nat} (hi : i < A.nrows) (hj : j < A.ncols) :
    ∃ x, A.get i j = .ok x ∧ (A.rowList i)[j]? = some x := by
  have hl := Mat.rowList_length hA hi
  refine ⟨(A.rowList i)[j], ?_, List.getElem?_eq_getElem (by omega)⟩
  unfold Mat.get Mat.flattenIndex
  rw [if_neg (by omega), if_neg (by omega)]
  have hlen : i * A.ncols + j < A.data.length := by
    unfold Mat.WF at hA
    rw [hA]
    have : (i + 1) * A.ncols ≤ A.nrows * A.ncols := Nat.mul_le_mul_right _ hi
    rw [Nat.succ_mul] at this
    omega
  show rd A.data (i * A.ncols + j) = _
  unfold rd
  rw [List.getElem?_eq_getElem hlen]
  simp [Mat.rowList]

theorem Mat.print_ok (ty : Printed α) {A : Mat α} (hA : A.WF) (os : OStream) :
    A.print ty os = .ok ⟨os.text ++ ("  [".toList ++ natText A.nrows ++ " x ".toList ++ natText A.ncols ++ "]  \n".toList ++
      rowsText ty A A.nrows), if A.nrows = 0 ∨ A.ncols = 0 then os.precision else 4⟩ := by
  obtain ⟨hdr, hh⟩ : ∃ hdr, hdr = "  [".toList ++ natText A.nrows ++ " x ".toList ++ natText A.ncols ++ "]  \n".toList := ⟨_, rfl⟩
  have row : ∀ i, i < A.nrows → ∀ os : OStream, forN A.ncols (fun j os => do
      let x ← A.get i j
      pure (printEntry ty x os)) os =
      .ok ⟨os.text ++ (A.rowList i).flatMap (entryText ty), if A.ncols = 0 then os.precision else 4⟩ := by
    intro i hi os
    have hl := Mat.rowList_length hA hi
    have := forN_ok (n := A.ncols) (body := fun j os => do
      let x ← A.get i j
      pure (printEntry ty x os))
      (fun j => (⟨os.text ++ ((A.rowList i).take j).flatMap (entryText ty), if j = 0 then os.precision else 4⟩ : OStream)) (by
        intro j hj
        obtain ⟨x, hg, hx⟩ := Mat.get_row hA hi hj
        simp only [hg, Res.ok_bind]
        rw [printEntry_eq, if_neg (Nat.succ_ne_zero j), List.take_add_one, hx]
        show Res.ok _ = _
        simp)
    rw [List.take_zero, List.take_of_length_le (i := A.ncols) (by omega)] at this
    refine Eq.trans ?_ this
    simp
  unfold Mat.print
  rw [← hh]
  have := forN_ok (n := A.nrows) (body := fun i os => do
    let os ← forN A.ncols (fun j os => do
      let x ← A.get i j
      pure (printEntry ty x os)) os
    pure (os.put ['\n']))
    (fun i => (⟨os.text ++ (hdr ++ rowsText ty A i), if i = 0 ∨ A.ncols = 0 then os.precision else 4⟩ : OStream)) (by
      intro i hi
      simp only [row i hi, Res.ok_bind]
      show Res.ok _ = _
      rw [rowsText_succ]
      by_cases h0 : A.ncols = 0
      · simp [OStream.put, h0]
      · simp [OStream.put, h0])
  refine Eq.trans ?_ this
  simp [OStream.put, rowsText]

theorem rowsText_lines (ty : Printed α) {w : α → Text} {A : Mat α} (h : ∀ x ∈ A.data, ShownWord (entryText ty x) (w x)) (n : Nat) :
    textLines (rowsText ty A n) = (List.range n).map (fun i => (A.rowList i).flatMap (entryText ty)) ++ [[]] := by
  have key : ∀ (l : List Nat), textLines (l.flatMap (fun i => (A.rowList i).flatMap (entryText ty) ++ ['\n'])) =
      l.map (fun i => (A.rowList i).flatMap (entryText ty)) ++ [[]] := by
    intro l
    induction l with
    | nil => rfl
    | cons i l ih =>
      rw [List.flatMap_cons, List.append_assoc, List.singleton_append, textLines_cons (row_noLine (xs := A.rowList i) (w := w)
        (fun x hx => h x (List.mem_of_mem_drop (List.mem_of_mem_take hx)))), ih, List.map_cons, List.cons_append]
  exact key _

/-! ## The types of entries -/

theorem entryText_double {x : ℚ} (hx : IsDouble x) :
    ∃ w, ShownWord (entryText printDouble x) w ∧ FourDigits w x := by
  unfold entryText
  by_cases h : printDouble.fabs x < tiny
  · rw [if_pos h]
    refine ⟨_, padLeft_entry (by decide) (by decide) (by decide), 0, by decide +kernel, .inr ⟨rfl, lt_trans h ?_⟩⟩
    unfold tiny
    norm_num
  · rw [if_neg h]
    refine ⟨_, padLeft_entry (generalText_length hx) (generalText_ne 4 x) (fun c hc => (generalText_chars hc).plain), ?_⟩
    obtain ⟨d, h1, h2⟩ := generalText_near 4 x
    refine ⟨d, h1, .inl (h2.trans (le_of_eq ?_))⟩
    norm_num
    ring

theorem entryText_int {i : Int} (hi : IsInt32 i) : ShownWord (entryText printInt i) (intText i) := by
  have key : ShownWord (padLeft 12 (intText i)) (intText i) :=
    padLeft_entry (intText_length hi) (intText_ne i) (fun c hc => (intText_chars i c hc).plain.2)
  unfold entryText
  by_cases h : printInt.fabs i < tiny
  · rw [if_pos h]
    have : i = 0 := by
      by_contra hn
      have h1 : (1 : ℚ) ≤ |(i : ℚ)| := by exact_mod_cast Int.one_le_abs hn
      have h2 : |(i : ℚ)| < tiny := h
      have h3 : tiny < 1 := by unfold tiny; norm_num
      linarith
    rw [this] at key ⊢
    exact key
  · rw [if_neg h]
    exact key

end EF
