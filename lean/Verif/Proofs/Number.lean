import Verif.Model.Number
import Verif.Spec.Number
import Verif.Spec.VTK
import Mathlib.Tactic.Linarith
import Mathlib.Tactic.FieldSimp
import Mathlib.Tactic.Ring
import Mathlib.Tactic.NormNum
import Mathlib.Tactic.Positivity
import Mathlib.Algebra.Order.Field.Rat
import Mathlib.Algebra.Order.Ring.Abs
import Mathlib.Data.Rat.Cast.Order

/-!
# Numbers as text: lemmas
-/

namespace EF

/-! ## Digits -/

theorem natText_digits (n : Nat) : (natText n).all Char.isDigit := by
  rw [List.all_eq_true]
  intro c hc
  exact Nat.isDigit_of_mem_toDigits (by omega) (by omega) hc

theorem natText_ne (n : Nat) : natText n ≠ [] := Nat.toDigits_ne_nil

theorem readDigits_natText (n : Nat) : readDigits (natText n) = some n := by
  unfold readDigits
  rw [if_pos ⟨natText_ne n, natText_digits n⟩]
  congr 1
  exact (Nat.ofDigitChars_eq_foldl (b := 10)).symm.trans (Nat.ofDigitChars_toDigits (by omega) (by omega))

theorem pad6_digits (n : Nat) : (pad6 n).all Char.isDigit := by
  unfold pad6
  rw [List.all_append, natText_digits, Bool.and_true, List.all_eq_true]
  intro c hc
  rw [List.eq_of_mem_replicate hc]
  decide

theorem pad6_length {n : Nat} (h : n < 10 ^ 6) : (pad6 n).length = 6 := by
  have : (natText n).length ≤ 6 := (Nat.length_toDigits_le_iff (by omega) (by omega)).mpr h
  unfold pad6
  rw [List.length_append, List.length_replicate]
  omega

theorem readDigits_pad6 (n : Nat) : readDigits (pad6 n) = some n := by
  unfold readDigits
  rw [if_pos ⟨by unfold pad6; simp [natText_ne], pad6_digits n⟩]
  congr 1
  refine (Nat.ofDigitChars_eq_foldl (b := 10)).symm.trans ?_
  unfold pad6
  rw [Nat.ofDigitChars_append, Nat.ofDigitChars_replicate_zero, Nat.mul_zero]
  exact Nat.ofDigitChars_toDigits (by omega) (by omega)

/-! ## Reading what was written -/

theorem digit_no_dot {t : Text} (h : t.all Char.isDigit) : ∀ c ∈ t, decide (c ≠ '.') = true := by
  intro c hc
  rw [List.all_eq_true] at h
  have := h c hc
  simp only [ne_eq, decide_not, Bool.not_eq_true', decide_eq_false_iff_not]
  rintro rfl
  exact absurd this (by decide)

theorem digits_minus {t : Text} (h : t.all Char.isDigit) {r s : Text} (ht : t ≠ []) : t ++ s ≠ '-' :: r := by
  cases t with
  | nil => exact absurd rfl ht
  | cons c t =>
    intro he
    rw [List.all_eq_true] at h
    have := h c (by simp)
    rw [(List.cons.inj he).1] at this
    exact absurd this (by decide)

theorem readUnsigned_whole (n : Nat) : readUnsigned (natText n) = some (n : ℚ) := by
  unfold readUnsigned
  have : (natText n).dropWhile (· ≠ '.') = [] := by
    have := List.dropWhile_append_of_pos (l₂ := []) (digit_no_dot (natText_digits n))
    rwa [List.append_nil] at this
  rw [this]
  show (readDigits (natText n)).map _ = _
  rw [readDigits_natText]
  rfl

theorem readUnsigned_decimal (n k : Nat) (hk : k < 10 ^ 6) :
    readUnsigned (natText n ++ '.' :: pad6 k) = some ((n : ℚ) + (k : ℚ) / 10 ^ 6) := by
  unfold readUnsigned
  have hd := digit_no_dot (natText_digits n)
  rw [List.dropWhile_append_of_pos hd, List.takeWhile_append_of_pos hd]
  rw [List.dropWhile_cons_of_neg (by simp), List.takeWhile_cons_of_neg (by simp), List.append_nil]
  show ((readDigits (natText n)).bind _) = _
  rw [readDigits_natText, readDigits_pad6, pad6_length hk]
  rfl

theorem readNumber_unsigned {t : Text} (h : ∀ r, t ≠ '-' :: r) : readNumber t = readUnsigned t := by
  unfold readNumber
  split
  · exact absurd rfl (h _)
  · rfl

/-- The signed number of millionths. -/
def microInt (x : ℚ) : Int := if x < 0 then -(micro x : Int) else micro x

theorem micro_split (x : ℚ) :
    ((micro x / 10 ^ 6 : Nat) : ℚ) + ((micro x % 10 ^ 6 : Nat) : ℚ) / 10 ^ 6 = (micro x : ℚ) / 10 ^ 6 := by
  have h : ((10 ^ 6 * (micro x / 10 ^ 6) + micro x % 10 ^ 6 : Nat) : ℚ) = (micro x : ℚ) := by
    rw [Nat.div_add_mod]
  rw [Nat.cast_add, Nat.cast_mul] at h
  rw [← h]
  push_cast
  ring

theorem readNumber_decimal (x : ℚ) : readNumber (decimalText x) = some ((microInt x : ℚ) / 10 ^ 6) := by
  unfold decimalText microInt
  have hk : micro x % 10 ^ 6 < 10 ^ 6 := Nat.mod_lt _ (by norm_num)
  by_cases hx : x < 0
  · rw [if_pos hx, if_pos hx]
    show (readUnsigned (natText (micro x / 10 ^ 6) ++ '.' :: pad6 (micro x % 10 ^ 6))).map _ = _
    rw [readUnsigned_decimal _ _ hk, micro_split]
    simp only [Option.map_some, Int.cast_neg, Int.cast_natCast, neg_div]
  · rw [if_neg hx, if_neg hx, List.nil_append, readNumber_unsigned (fun r => digits_minus (natText_digits _) (natText_ne _)),
      readUnsigned_decimal _ _ hk, micro_split]
    rfl

theorem readNumber_int (i : Int) : readNumber (intText i) = some (i : ℚ) := by
  unfold intText
  by_cases hi : i < 0
  · rw [if_pos hi]
    show (readUnsigned (natText i.natAbs)).map _ = _
    rw [readUnsigned_whole, Option.map_some]
    congr 1
    have : (i.natAbs : Int) = -i := by omega
    rw [← Int.cast_natCast, this]
    push_cast
    ring
  · rw [if_neg hi, List.nil_append, readNumber_unsigned (fun r => by
      have := digits_minus (s := []) (r := r) (natText_digits i.natAbs) (natText_ne _)
      rwa [List.append_nil] at this), readUnsigned_whole]
    congr 1
    have : (i.natAbs : Int) = i := by omega
    rw [← Int.cast_natCast, this]

/-! ## Rounding -/

theorem abs_eq_div (x : ℚ) : |x| = (x.num.natAbs : ℚ) / x.den := by
  conv_lhs => rw [← Rat.num_div_den x]
  rw [abs_div, Nat.abs_cast]
  congr 1
  rw [← Int.cast_abs, Int.abs_eq_natAbs, Int.cast_natCast]

theorem micro_near (x : ℚ) : |(micro x : ℚ) - |x| * 10 ^ 6| ≤ 1 / 2 := by
  have hd : (0 : ℚ) < x.den := by exact_mod_cast x.den_pos
  rw [abs_eq_div x]
  set a := x.num.natAbs * 10 ^ 6 with ha
  have hx : (x.num.natAbs : ℚ) / x.den * 10 ^ 6 = (a : ℚ) / x.den := by
    rw [ha]; push_cast; ring
  rw [hx]
  have hq : (a : ℚ) = x.den * (a / x.den : Nat) + (a % x.den : Nat) := by
    exact_mod_cast (Nat.div_add_mod a x.den).symm
  have hq' : (a : ℚ) / x.den = (a / x.den : Nat) + ((a % x.den : Nat) : ℚ) / x.den := by
    rw [div_eq_iff hd.ne', add_mul, div_mul_cancel₀ _ hd.ne']
    linarith [hq]
  have hr0 : (0 : ℚ) ≤ ((a % x.den : Nat) : ℚ) / x.den := by positivity
  have hr1 : ((a % x.den : Nat) : ℚ) / x.den < 1 := by
    rw [div_lt_one hd]; exact_mod_cast Nat.mod_lt _ x.den_pos
  have hlow : 2 * (a % x.den) ≤ x.den → ((a % x.den : Nat) : ℚ) / x.den ≤ 1 / 2 := by
    intro h
    rw [div_le_div_iff₀ hd (by norm_num)]
    have : ((2 * (a % x.den) : Nat) : ℚ) ≤ x.den := by exact_mod_cast h
    push_cast at this ⊢
    linarith
  have hhigh : ¬ 2 * (a % x.den) < x.den → 1 / 2 ≤ ((a % x.den : Nat) : ℚ) / x.den := by
    intro h
    rw [div_le_div_iff₀ (by norm_num) hd]
    have : (x.den : ℚ) ≤ ((2 * (a % x.den) : Nat) : ℚ) := by exact_mod_cast not_lt.1 h
    push_cast at this ⊢
    linarith
  have hm : micro x = if 2 * (a % x.den) < x.den then a / x.den
      else if 2 * (a % x.den) = x.den ∧ a / x.den % 2 = 0 then a / x.den else a / x.den + 1 := rfl
  rw [hm, hq', abs_le]
  split
  · rename_i h
    have := hlow h.le
    constructor <;> linarith
  · rename_i h
    split
    · rename_i h2
      have := hlow h2.1.le
      constructor <;> linarith
    · have := hhigh h
      push_cast
      constructor <;> linarith

theorem microInt_near (x : ℚ) : |(microInt x : ℚ) - x * 10 ^ 6| ≤ 1 / 2 := by
  have h := micro_near x
  unfold microInt
  by_cases hx : x < 0
  · rw [if_pos hx]
    rw [abs_of_neg hx] at h
    push_cast
    rw [abs_le] at h ⊢
    constructor <;> linarith [h.1, h.2]
  · rw [if_neg hx]
    rw [abs_of_nonneg (not_lt.1 hx)] at h
    exact h

theorem microInt_int {x : ℚ} {k : Int} (h : x * 10 ^ 6 = k) : microInt x = k := by
  have hn := microInt_near x
  rw [h, ← Int.cast_sub, ← Int.cast_abs] at hn
  have h1 : |microInt x - k| < 1 := by
    by_contra hc
    have : (1 : ℚ) ≤ ((|microInt x - k| : Int) : ℚ) := by exact_mod_cast not_lt.1 hc
    linarith
  have := Int.abs_lt_one_iff.1 h1
  omega

theorem microInt_mono {x y : ℚ} (h : x ≤ y) : microInt x ≤ microInt y := by
  rcases eq_or_lt_of_le h with rfl | h
  · rfl
  by_contra hc
  have h1 := abs_le.1 (microInt_near x)
  have h2 := abs_le.1 (microInt_near y)
  have h3 : ((microInt y + 1 : Int) : ℚ) ≤ (microInt x : ℚ) := by exact_mod_cast (by omega : microInt y + 1 ≤ microInt x)
  push_cast at h3
  linarith [h1.1, h1.2, h2.1, h2.2]

/-! ## Words -/

theorem wordsFrom_append {w : Text} (hw : ∀ c ∈ w, isWs c = false) (acc t : Text) :
    wordsFrom acc (w ++ t) = wordsFrom (acc ++ w) t := by
  induction w generalizing acc with
  | nil => rw [List.nil_append, List.append_nil]
  | cons c w ih =>
    rw [List.cons_append, wordsFrom, if_neg (by simp [hw c (by simp)]), ih (fun d hd => hw d (by simp [hd]))]
    rw [List.append_assoc, List.singleton_append]

theorem words_entry {w : Text} (hw : ∀ c ∈ w, isWs c = false) (hne : w ≠ []) (t : Text) :
    words (w ++ ' ' :: t) = w :: words t := by
  unfold words
  rw [wordsFrom_append hw, List.nil_append, wordsFrom, if_pos (by decide), if_neg hne]

theorem words_entries {K : Type} {f : K → Text} (hw : ∀ x, ∀ c ∈ f x, isWs c = false) (hne : ∀ x, f x ≠ [])
    (xs : List K) : words (xs.foldl (fun s x => s ++ f x ++ [' ']) []) = xs.map f := by
  have key : ∀ (xs : List K) (s : Text), xs.foldl (fun s x => s ++ f x ++ [' ']) s =
      s ++ xs.foldl (fun s x => s ++ f x ++ [' ']) [] := by
    intro xs
    induction xs with
    | nil => intro s; simp
    | cons x xs ih =>
      intro s
      rw [List.foldl_cons, List.foldl_cons, ih, ih ([] ++ f x ++ [' '])]
      simp
  induction xs with
  | nil => rfl
  | cons x xs ih =>
    rw [List.foldl_cons, key, List.nil_append, List.append_assoc, List.singleton_append,
      words_entry (hw x) (hne x), ih, List.map_cons]

theorem wordsFrom_ws {s : Text} (hs : ∀ c ∈ s, isWs c = true) (acc : Text) :
    wordsFrom acc s = wordsFrom acc [] := by
  induction s generalizing acc with
  | nil => rfl
  | cons c s ih =>
    rw [show wordsFrom acc (c :: s) = _ from rfl, wordsFrom.eq_2, if_pos (hs c (by simp)), ih (fun d hd => hs d (by simp [hd]))]
    by_cases ha : acc = []
    · rw [if_pos ha, ha]
    · rw [if_neg ha]
      show acc :: wordsFrom [] [] = if acc = [] then [] else [acc]
      rw [if_neg ha]
      rfl

theorem wordsFrom_trail {s : Text} (hs : ∀ c ∈ s, isWs c = true) (acc t : Text) :
    wordsFrom acc (t ++ s) = wordsFrom acc t := by
  induction t generalizing acc with
  | nil => exact wordsFrom_ws hs acc
  | cons c t ih =>
    rw [List.cons_append, wordsFrom, wordsFrom, ih, ih]

theorem words_lead (t : Text) : words (t.dropWhile isWs) = words t := by
  induction t with
  | nil => rfl
  | cons c t ih =>
    by_cases hc : isWs c
    · rw [List.dropWhile_cons_of_pos hc, ih]
      unfold words
      rw [wordsFrom, if_pos hc, if_pos rfl]
    · rw [List.dropWhile_cons_of_neg hc]

theorem mem_takeWhile' {p : Char → Bool} (l : Text) {c : Char} (h : c ∈ l.takeWhile p) : p c = true := by
  induction l with
  | nil => cases h
  | cons d l ih =>
    by_cases hd : p d
    · rw [List.takeWhile_cons_of_pos hd] at h
      rcases List.mem_cons.1 h with rfl | h
      · exact hd
      · exact ih h
    · rw [List.takeWhile_cons_of_neg hd] at h
      cases h

theorem words_trim (t : Text) : words (trimWs t) = words t := by
  rw [← words_lead t]
  unfold trimWs words
  set u := t.dropWhile isWs
  have h := List.takeWhile_append_dropWhile (p := isWs) (l := u.reverse)
  have h2 : u = (u.reverse.dropWhile isWs).reverse ++ (u.reverse.takeWhile isWs).reverse := by
    rw [← List.reverse_append, h, List.reverse_reverse]
  conv_rhs => rw [h2]
  rw [wordsFrom_trail]
  intro c hc
  exact mem_takeWhile' _ (List.mem_reverse.1 hc)

/-! ## The characters of numbers -/

theorem digit_char {c : Char} (h : c.isDigit) : c.toNat ≥ 48 ∧ c.toNat ≤ 57 := by
  simp only [Char.isDigit, Bool.and_eq_true, decide_eq_true_eq] at h
  exact ⟨h.1, h.2⟩

/-- A character of a number. -/
def NumChar (c : Char) : Prop := c = '-' ∨ c = '.' ∨ c.isDigit

theorem NumChar.plain {c : Char} (h : NumChar c) : (c ≠ '<' ∧ c ≠ '>' ∧ c ≠ '&' ∧ c ≠ '"') ∧ isWs c = false := by
  rcases h with rfl | rfl | h
  · decide
  · decide
  · have := digit_char h
    refine ⟨⟨?_, ?_, ?_, ?_⟩, ?_⟩
    all_goals first
      | (rintro rfl; exact absurd h (by decide))
      | (cases hw : isWs c
         · rfl
         · simp only [isWs, Bool.or_eq_true, decide_eq_true_eq] at hw
           rcases hw with ((rfl | rfl) | rfl) | rfl <;> exact absurd h (by decide))

theorem decimalText_chars (x : ℚ) : ∀ c ∈ decimalText x, NumChar c := by
  intro c hc
  unfold decimalText at hc
  simp only [List.mem_append, List.mem_cons] at hc
  rcases hc with (hc | hc) | rfl | hc
  · split at hc
    · exact Or.inl (List.mem_singleton.1 hc)
    · cases hc
  · exact Or.inr (Or.inr (List.all_eq_true.1 (natText_digits _) c hc))
  · exact Or.inr (Or.inl rfl)
  · exact Or.inr (Or.inr (List.all_eq_true.1 (pad6_digits _) c hc))

theorem intText_chars (i : Int) : ∀ c ∈ intText i, NumChar c := by
  intro c hc
  unfold intText at hc
  rcases List.mem_append.1 hc with hc | hc
  · split at hc
    · exact Or.inl (List.mem_singleton.1 hc)
    · cases hc
  · exact Or.inr (Or.inr (List.all_eq_true.1 (natText_digits _) c hc))

theorem decimalText_ne (x : ℚ) : decimalText x ≠ [] := by
  unfold decimalText
  simp

theorem intText_ne (i : Int) : intText i ≠ [] := by
  unfold intText
  simp [natText_ne]

/-! ## Smallest and largest entries -/

theorem foldl_min_mem {K : Type} [LinearOrder K] (xs : List K) (x : K) : xs.foldl min x ∈ x :: xs := by
  induction xs generalizing x with
  | nil => simp
  | cons y ys ih =>
    rw [List.foldl_cons]
    rcases List.mem_cons.1 (ih (min x y)) with h | h
    · rw [h]
      rcases min_choice x y with h | h <;> simp [h]
    · simp [h]

theorem foldl_min_le {K : Type} [LinearOrder K] (xs : List K) (x : K) : ∀ y ∈ x :: xs, xs.foldl min x ≤ y := by
  induction xs generalizing x with
  | nil => intro y hy; rw [List.mem_singleton.1 hy]; exact le_rfl
  | cons z zs ih =>
    intro y hy
    rw [List.foldl_cons]
    have h0 := ih (min x z) (min x z) (by simp)
    rcases List.mem_cons.1 hy with rfl | hy
    · exact h0.trans (min_le_left _ _)
    · rcases List.mem_cons.1 hy with rfl | hy
      · exact h0.trans (min_le_right _ _)
      · exact ih _ y (by simp [hy])

theorem foldl_max_mem {K : Type} [LinearOrder K] (xs : List K) (x : K) : xs.foldl max x ∈ x :: xs := by
  induction xs generalizing x with
  | nil => simp
  | cons y ys ih =>
    rw [List.foldl_cons]
    rcases List.mem_cons.1 (ih (max x y)) with h | h
    · rw [h]
      rcases max_choice x y with h | h <;> simp [h]
    · simp [h]

theorem le_foldl_max {K : Type} [LinearOrder K] (xs : List K) (x : K) : ∀ y ∈ x :: xs, y ≤ xs.foldl max x := by
  induction xs generalizing x with
  | nil => intro y hy; rw [List.mem_singleton.1 hy]; exact le_rfl
  | cons z zs ih =>
    intro y hy
    rw [List.foldl_cons]
    have h0 := ih (max x z) (max x z) (by simp)
    rcases List.mem_cons.1 hy with rfl | hy
    · exact (le_max_left _ _).trans h0
    · rcases List.mem_cons.1 hy with rfl | hy
      · exact (le_max_right _ _).trans h0
      · exact ih _ y (by simp [hy])

end EF
