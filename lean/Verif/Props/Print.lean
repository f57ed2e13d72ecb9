import Verif.Proofs.Print
import Verif.Proofs.Sound

/-!
# What is shown of vectors, matrices and options (C89, C90, C91)
-/

namespace EF

/-! ## Vectors and matrices -/

theorem shown_choice {α : Type} {f : α → Text} {R : Text → α → Prop} {xs : List α} (h : ∀ x ∈ xs, ∃ w, ShownWord (f x) w ∧ R w x) :
    ∃ g : α → Text, ∀ x ∈ xs, ShownWord (f x) (g x) ∧ R (g x) x := by
  have : ∀ x, ∃ w, x ∈ xs → ShownWord (f x) w ∧ R w x := by
    intro x
    by_cases hx : x ∈ xs
    · obtain ⟨w, hw⟩ := h x hx
      exact ⟨w, fun _ => hw⟩
    · exact ⟨[], fun h => absurd h hx⟩
  exact ⟨fun x => (this x).choose, fun x hx => (this x).choose_spec hx⟩

theorem forall₂_words {α : Type} {f : α → Text} {R : Text → α → Prop} {xs : List α} (h : ∀ x ∈ xs, ∃ w, ShownWord (f x) w ∧ R w x) :
    List.Forall₂ R (words (xs.flatMap f)) xs := by
  obtain ⟨g, hg⟩ := shown_choice h
  rw [words_row (fun x hx => (hg x hx).1)]
  clear h
  induction xs with
  | nil => exact .nil
  | cons x xs ih => exact .cons (hg x (by simp)).2 (ih (fun y hy => hg y (by simp [hy])))

theorem natText_noLine (n : Nat) : '\n' ∉ natText n := fun h => absurd (List.all_eq_true.1 (natText_digits n) _ h) (by decide)

theorem natText_plain_char (n : Nat) : ∀ c ∈ natText n, isWs c = false := fun c hc =>
  (NumChar.plain (.inr (.inr (List.all_eq_true.1 (natText_digits n) c hc)))).2

/-- The line with the size of a vector. -/
theorem words_size (n : Nat) : words ("  [".toList ++ natText n ++ "]".toList) = ['[' :: natText n ++ [']']] := by
  have h : ∀ c ∈ '[' :: natText n ++ [']'], isWs c = false := by
    intro c hc
    rw [List.cons_append, List.mem_cons, List.mem_append, List.mem_singleton] at hc
    rcases hc with rfl | hc | rfl
    · decide
    · exact natText_plain_char n c hc
    · decide
  show words (' ' :: ' ' :: ('[' :: natText n ++ [']'])) = _
  unfold words
  rw [wordsFrom, if_pos (by decide), if_pos rfl, wordsFrom, if_pos (by decide), if_pos rfl]
  have := wordsFrom_append h [] []
  rw [List.append_nil, List.nil_append] at this
  rw [this, wordsFrom, if_neg (by simp)]

/-- The line with the size of a matrix. -/
theorem words_shape (m n : Nat) : words ("  [".toList ++ natText m ++ " x ".toList ++ natText n ++ "]  ".toList) =
    ['[' :: natText m, ['x'], natText n ++ [']']] := by
  have h1 : ∀ c ∈ '[' :: natText m, isWs c = false := by
    intro c hc
    rcases List.mem_cons.1 hc with rfl | hc
    · decide
    · exact natText_plain_char m c hc
  have h2 : ∀ c ∈ natText n ++ [']'], isWs c = false := by
    intro c hc
    rcases List.mem_append.1 hc with hc | hc
    · exact natText_plain_char n c hc
    · rw [List.mem_singleton.1 hc]
      decide
  have e : "  [".toList ++ natText m ++ " x ".toList ++ natText n ++ "]  ".toList =
      ' ' :: ' ' :: (('[' :: natText m) ++ ' ' :: (['x'] ++ ' ' :: ((natText n ++ [']']) ++ ' ' :: [' ']))) := by
    simp
  rw [e]
  have skip : ∀ t, words (' ' :: t) = words t := by
    intro t
    unfold words
    rw [wordsFrom, if_pos (by decide), if_pos rfl]
  rw [skip, skip, words_entry h1 (by simp), words_entry (by decide) (by decide), words_entry h2 (by simp), skip]
  rfl

theorem vector_shown {α : Type} {ty : Printed α} {R : Text → α → Prop} {v : Vec α} (hv : v.WF)
    (h : ∀ x ∈ v.data, ∃ w, ShownWord (entryText ty x) w ∧ R w x) (os : OStream) :
    ∃ os' t, v.print ty os = .ok os' ∧ os'.text = os.text ++ t ∧
      (∃ n, words ((textLines t).getD 0 []) = ['[' :: n ++ [']']] ∧ readDigits n = some v.size) ∧
      ∀ k, List.Forall₂ R (words ((textLines t).getD (k + 1) [])) ((v.data.drop (8 * k)).take 8) := by
  obtain ⟨g, hg⟩ := shown_choice h
  refine ⟨_, _, Vec.print_ok ty hv os, rfl, ?_⟩
  have e : "  [".toList ++ natText v.size ++ "]\n".toList ++ entriesText ty v.data 0 =
      ("  [".toList ++ natText v.size ++ "]".toList) ++ '\n' :: entriesText ty v.data 0 := by simp
  have hn : '\n' ∉ "  [".toList ++ natText v.size ++ "]".toList := by
    simp [natText_noLine]
  rw [e, textLines_cons hn]
  refine ⟨⟨natText v.size, words_size _, readDigits_natText _⟩, fun k => ?_⟩
  rw [List.getD_cons_succ, entriesText_lines ty v.data (fun x hx => (hg x hx).1) 0 rfl k]
  exact forall₂_words (fun x hx => h x (List.mem_of_mem_drop (List.mem_of_mem_take hx)))

theorem matrix_shown {α : Type} {ty : Printed α} {R : Text → α → Prop} {A : Mat α} (hA : A.WF)
    (h : ∀ x ∈ A.data, ∃ w, ShownWord (entryText ty x) w ∧ R w x) (os : OStream) :
    ∃ os' t, A.print ty os = .ok os' ∧ os'.text = os.text ++ t ∧
      (∃ m n, words ((textLines t).getD 0 []) = ['[' :: m, ['x'], n ++ [']']] ∧ readDigits m = some A.nrows ∧ readDigits n = some A.ncols) ∧
      (∀ i, i < A.nrows → List.Forall₂ R (words ((textLines t).getD (i + 1) [])) ((A.data.drop (i * A.ncols)).take A.ncols)) ∧
      (textLines t).drop (A.nrows + 1) = [[]] := by
  obtain ⟨g, hg⟩ := shown_choice h
  refine ⟨_, _, Mat.print_ok ty hA os, rfl, ?_⟩
  have e : "  [".toList ++ natText A.nrows ++ " x ".toList ++ natText A.ncols ++ "]  \n".toList ++ rowsText ty A A.nrows =
      ("  [".toList ++ natText A.nrows ++ " x ".toList ++ natText A.ncols ++ "]  ".toList) ++ '\n' :: rowsText ty A A.nrows := by simp
  have hn : '\n' ∉ "  [".toList ++ natText A.nrows ++ " x ".toList ++ natText A.ncols ++ "]  ".toList := by
    simp [natText_noLine]
  rw [e, textLines_cons hn, rowsText_lines ty (fun x hx => (hg x hx).1)]
  refine ⟨⟨_, _, words_shape _ _, readDigits_natText _, readDigits_natText _⟩, fun i hi => ?_, ?_⟩
  · rw [List.getD_cons_succ, List.getD_eq_getElem?_getD, List.getElem?_append_left (by simpa using hi), List.getElem?_map,
      List.getElem?_range hi]
    exact forall₂_words (xs := A.rowList i) (fun x hx => h x (List.mem_of_mem_drop (List.mem_of_mem_take hx)))
  · rw [List.drop_succ_cons, List.drop_left' (by simp)]

/-- C89, vectors of doubles of any size: after a line with the size, line `k` has the entries from number `8k` on, eight or what is left,
as words of their own that agree with the entries to four significant digits. -/
theorem C89_vector {v : Vec ℚ} (hv : v.WF) (hd : ∀ x ∈ v.data, IsDouble x) (os : OStream) :
    ∃ os' t, v.print printDouble os = .ok os' ∧ os'.text = os.text ++ t ∧
      (∃ n, words ((textLines t).getD 0 []) = ['[' :: n ++ [']']] ∧ readDigits n = some v.size) ∧
      ∀ k, List.Forall₂ FourDigits (words ((textLines t).getD (k + 1) [])) ((v.data.drop (8 * k)).take 8) :=
  vector_shown hv (fun x hx => entryText_double (hd x hx)) os

/-- C89, matrices of doubles of any shape: after a line with the shape, one line for every row, its entries as words of their own that
agree with the entries to four significant digits, and nothing else. -/
theorem C89_matrix {A : Mat ℚ} (hA : A.WF) (hd : ∀ x ∈ A.data, IsDouble x) (os : OStream) :
    ∃ os' t, A.print printDouble os = .ok os' ∧ os'.text = os.text ++ t ∧
      (∃ m n, words ((textLines t).getD 0 []) = ['[' :: m, ['x'], n ++ [']']] ∧ readDigits m = some A.nrows ∧ readDigits n = some A.ncols) ∧
      (∀ i, i < A.nrows → List.Forall₂ FourDigits (words ((textLines t).getD (i + 1) [])) ((A.data.drop (i * A.ncols)).take A.ncols)) ∧
      (textLines t).drop (A.nrows + 1) = [[]] :=
  matrix_shown hA (fun x hx => entryText_double (hd x hx)) os

/-- C89, vectors of type `int`: the entries can be read back exactly. -/
theorem C89_vector_int {v : Vec Int} (hv : v.WF) (hd : ∀ x ∈ v.data, IsInt32 x) (os : OStream) :
    ∃ os' t, v.print printInt os = .ok os' ∧ os'.text = os.text ++ t ∧
      (∃ n, words ((textLines t).getD 0 []) = ['[' :: n ++ [']']] ∧ readDigits n = some v.size) ∧
      ∀ k, List.Forall₂ (fun w (i : Int) => readNumber w = some (i : ℚ)) (words ((textLines t).getD (k + 1) []))
        ((v.data.drop (8 * k)).take 8) :=
  vector_shown hv (fun x hx => ⟨_, entryText_int (hd x hx), readNumber_int x⟩) os

/-- C89, matrices of type `int`: the entries can be read back exactly. -/
theorem C89_matrix_int {A : Mat Int} (hA : A.WF) (hd : ∀ x ∈ A.data, IsInt32 x) (os : OStream) :
    ∃ os' t, A.print printInt os = .ok os' ∧ os'.text = os.text ++ t ∧
      (∃ m n, words ((textLines t).getD 0 []) = ['[' :: m, ['x'], n ++ [']']] ∧ readDigits m = some A.nrows ∧ readDigits n = some A.ncols) ∧
      (∀ i, i < A.nrows → List.Forall₂ (fun w (i : Int) => readNumber w = some (i : ℚ)) (words ((textLines t).getD (i + 1) []))
        ((A.data.drop (i * A.ncols)).take A.ncols)) ∧
      (textLines t).drop (A.nrows + 1) = [[]] :=
  matrix_shown hA (fun x hx => ⟨_, entryText_int (hd x hx), readNumber_int x⟩) os

/-- A number that is not zero can be shown as zero. -/
theorem C89_zero_wrong : ∃ x : ℚ, IsDouble x ∧ x ≠ 0 ∧ ∀ os, (Vec.ofList [x]).print printDouble os = (Vec.ofList [0]).print printDouble os := by
  refine ⟨1 / 2 ^ 47, ⟨1, -47, by norm_num, by norm_num, by norm_num, by norm_num⟩, by norm_num, fun os => ?_⟩
  rw [Vec.print_ok _ (Vec.wf_ofList _), Vec.print_ok _ (Vec.wf_ofList _)]
  have h1 : printDouble.fabs (1 / 2 ^ 47) < tiny := by
    show |(1 / 2 ^ 47 : ℚ)| < tiny
    unfold tiny
    rw [abs_of_pos (by norm_num)]
    norm_num
  have h2 : printDouble.fabs 0 < tiny := by
    show |(0 : ℚ)| < tiny
    unfold tiny
    rw [abs_zero]
    norm_num
  have e : entryText printDouble (1 / 2 ^ 47) = entryText printDouble 0 := by
    unfold entryText
    rw [if_pos h1, if_pos h2]
  have e2 : entriesText printDouble [1 / 2 ^ 47] 0 = entriesText printDouble [0] 0 := by
    rw [entriesText, e]
    rfl
  show Res.ok _ = Res.ok _
  rw [show (Vec.ofList [(1 / 2 ^ 47 : ℚ)]).data = [1 / 2 ^ 47] from rfl, e2]
  rfl

/-- For integers of 64 bits the entries can run into each other: two different vectors are shown alike. -/
theorem C89_wide_wrong : ∃ v w : Vec Int, v.WF ∧ w.WF ∧ (∀ x ∈ v.data ++ w.data, 0 ≤ x ∧ x < 2 ^ 63) ∧ v ≠ w ∧
    ∀ os, v.print printInt os = w.print printInt os := by
  refine ⟨Vec.ofList [111111111111, 1111111111111], Vec.ofList [1111111111111, 111111111111], rfl, rfl, by decide, by decide, fun os => ?_⟩
  rw [Vec.print_ok _ (Vec.wf_ofList _), Vec.print_ok _ (Vec.wf_ofList _)]
  have : entriesText printInt [111111111111, 1111111111111] 0 = entriesText printInt [1111111111111, 111111111111] 0 := by decide +kernel
  simp [Vec.ofList, this]

example : ∃ os, (Vec.ofList [1 / 4, -12345, 0, 100, 1 / 1024, 3, 5, 6, 7]).print printDouble ⟨[], 6⟩ = .ok os ∧ os.text =
    "  [9]\n        0.25  -1.234e+04           0         100   0.0009766           3           5           6\n           7".toList :=
  ⟨_, Vec.print_ok _ (Vec.wf_ofList _) _, by decide +kernel⟩

example : ∃ v : Vec ℚ, v.WF ∧ (∀ x ∈ v.data, IsDouble x) ∧ v.size = 9 ∧ v.data ≠ List.replicate 9 0 :=
  ⟨Vec.ofList [1 / 4, -12345, 0, 100, 1 / 1024, 3, 5, 6, 7], rfl, by
    intro x hx
    simp only [Vec.ofList, List.mem_cons, List.not_mem_nil, or_false] at hx
    rcases hx with rfl | rfl | rfl | rfl | rfl | rfl | rfl | rfl | rfl
    · exact ⟨1, -2, by norm_num, by norm_num, by norm_num, by norm_num⟩
    · exact ⟨-12345, 0, by norm_num, by norm_num, by norm_num, by norm_num⟩
    · exact ⟨0, 0, by norm_num, by norm_num, by norm_num, by norm_num⟩
    · exact ⟨100, 0, by norm_num, by norm_num, by norm_num, by norm_num⟩
    · exact ⟨1, -10, by norm_num, by norm_num, by norm_num, by norm_num⟩
    · exact ⟨3, 0, by norm_num, by norm_num, by norm_num, by norm_num⟩
    · exact ⟨5, 0, by norm_num, by norm_num, by norm_num, by norm_num⟩
    · exact ⟨6, 0, by norm_num, by norm_num, by norm_num, by norm_num⟩
    · exact ⟨7, 0, by norm_num, by norm_num, by norm_num, by norm_num⟩, rfl, by decide +kernel⟩

/-! ## The stream afterwards -/

/-- C90: a number written to a stream of the usual precision after a vector differs from what it is without the vector. -/
theorem C90_wrong : ∃ (v : Vec ℚ) (os os' : OStream) (x : ℚ), os.precision = 6 ∧ v.print printDouble os = .ok os' ∧
    generalText os'.precision x ≠ generalText os.precision x :=
  ⟨Vec.ofList [1], ⟨[], 6⟩, _, 12345, rfl, Vec.print_ok _ (Vec.wf_ofList _) _, by decide +kernel⟩

/-- C90, what happens: the precision is four after a vector or a matrix that has entries, whatever it was. -/
theorem C90_actual {α : Type} (ty : Printed α) (os os' : OStream) :
    (∀ v : Vec α, v.WF → v.size ≠ 0 → v.print ty os = .ok os' → os'.precision = 4) ∧
      ∀ A : Mat α, A.WF → A.nrows ≠ 0 → A.ncols ≠ 0 → A.print ty os = .ok os' → os'.precision = 4 := by
  refine ⟨fun v hv h0 h => ?_, fun A hA h0 h1 h => ?_⟩
  · rw [Vec.print_ok _ hv] at h
    rw [← Res.ok_inj.1 h]
    exact if_neg h0
  · rw [Mat.print_ok _ hA] at h
    rw [← Res.ok_inj.1 h]
    exact if_neg (by tauto)

/-- C90 holds for streams whose precision is four already and for vectors and matrices without entries.  Missing: all others. -/
theorem C90_partial {α : Type} (ty : Printed α) (os os' : OStream) :
    (∀ v : Vec α, v.WF → os.precision = 4 ∨ v.size = 0 → v.print ty os = .ok os' → os'.precision = os.precision) ∧
      ∀ A : Mat α, A.WF → os.precision = 4 ∨ A.nrows = 0 ∨ A.ncols = 0 → A.print ty os = .ok os' → os'.precision = os.precision := by
  refine ⟨fun v hv h0 h => ?_, fun A hA h0 h => ?_⟩
  · rw [Vec.print_ok _ hv] at h
    rw [← Res.ok_inj.1 h]
    rcases h0 with h0 | h0 <;> simp [h0]
  · rw [Mat.print_ok _ hA] at h
    rw [← Res.ok_inj.1 h]
    rcases h0 with h0 | h0 | h0 <;> simp [h0]

/-! ## Options -/

theorem printOptions_text (entries : List (Text × OptVal ℚ)) (os : OStream) :
    printOptions entries os = ⟨os.text ++ entries.flatMap (fun e =>
      "[EllipticForest]   ".toList ++ e.1 ++ " : ".toList ++ e.2.shown os.precision ++ ['\n']), os.precision⟩ := by
  unfold printOptions
  induction entries generalizing os with
  | nil => simp
  | cons e entries ih =>
    rw [List.foldl_cons, ih]
    simp [OStream.put]

theorem OptVal.shown_spec (p : Nat) (v : OptVal ℚ) : ListsValue p (v.shown p) v := by
  cases v with
  | str s => exact rfl
  | bool b => exact rfl
  | int i => exact readNumber_int i
  | real x => exact generalText_near p x

theorem OptVal.shown_noLine (p : Nat) {v : OptVal ℚ} (h : ∀ s, v = .str s → '\n' ∉ s) : '\n' ∉ v.shown p := by
  cases v with
  | str s => exact h s rfl
  | bool b =>
    cases b
    · show '\n' ∉ ['0']
      decide
    · show '\n' ∉ ['1']
      decide
  | int i => exact fun hc => absurd (intText_chars i _ hc).plain.2 (by decide)
  | real x => exact fun hc => absurd (generalText_chars hc).plain (by decide)

/-- C91, for every set of options whose names and texts have no line end: the listing has one line for every option, in ascending order of
the names, with the name and the value, to as many digits as the stream has precision; and the stream keeps its precision.  Missing: names
and texts with line ends, see `C91_lines_wrong`. -/
theorem C91_partial {o : Options ℚ} {entries : List (Text × OptVal ℚ)} (h : Lists entries o) (h1 : ∀ e ∈ entries, OneLine e)
    (os : OStream) :
    ∃ t, (printOptions entries os).text = os.text ++ t ∧ (printOptions entries os).precision = os.precision ∧
      ∃ names vals : List Text, names.Pairwise (· < ·) ∧ (∀ k, k ∈ names ↔ o.exists? k = true) ∧
        List.Forall₂ (fun s k => ∃ v, o k = some v ∧ ListsValue os.precision s v) vals names ∧
        textLines t = List.zipWith (fun s k => "[EllipticForest]   ".toList ++ k ++ " : ".toList ++ s) vals names ++ [[]] := by
  rw [printOptions_text]
  refine ⟨_, rfl, rfl, entries.map Prod.fst, entries.map (fun e => e.2.shown os.precision), ?_, ?_, ?_, ?_⟩
  · rw [List.pairwise_map]
    exact h.sorted
  · intro k
    rw [List.mem_map]
    constructor
    · rintro ⟨⟨k', v⟩, he, rfl⟩
      unfold Options.exists?
      rw [(h.mem _ _).1 he]
      rfl
    · intro hk
      obtain ⟨v, hv⟩ := Option.isSome_iff_exists.1 hk
      exact ⟨(k, v), (h.mem _ _).2 hv, rfl⟩
  · have : ∀ e ∈ entries, o e.1 = some e.2 := fun e he => (h.mem _ _).1 he
    clear h h1
    induction entries with
    | nil => exact .nil
    | cons e entries ih =>
      exact .cons ⟨e.2, this e (by simp), OptVal.shown_spec _ _⟩ (ih (fun d hd => this d (by simp [hd])))
  · clear h
    induction entries with
    | nil => rfl
    | cons e entries ih =>
      have hn : '\n' ∉ "[EllipticForest]   ".toList ++ e.1 ++ " : ".toList ++ e.2.shown os.precision := by
        have := h1 e (by simp)
        have h2 := OptVal.shown_noLine os.precision this.2
        have h3 := this.1
        simp only [List.mem_append, not_or]
        exact ⟨⟨⟨by decide, h3⟩, by decide⟩, h2⟩
      rw [List.flatMap_cons, List.append_assoc, List.singleton_append, textLines_cons hn, ih (fun d hd => h1 d (by simp [hd]))]
      rfl

theorem natText_pow (p : Nat) : natText (10 ^ p) = '1' :: List.replicate p '0' := by
  induction p with
  | zero => rfl
  | succ p ih =>
    have h := Nat.toDigits_append_toDigits (b := 10) (n := 10 ^ p) (d := 0) (by norm_num) (by positivity) (by norm_num)
    unfold natText at ih ⊢
    rw [pow_succ', ← Nat.add_zero (10 * 10 ^ p), ← h, ih, List.cons_append, List.replicate_succ']
    rfl

theorem dropWhile_nil {p : Char → Bool} {t : Text} (h : ∀ c ∈ t, p c = true) : t.dropWhile p = [] := by
  induction t with
  | nil => rfl
  | cons c t ih => rw [List.dropWhile_cons_of_pos (h c (by simp)), ih (fun d hd => h d (by simp [hd]))]

/-- The listing does not tell the type of a value: the truth value, the whole number, the number and the text are listed alike. -/
theorem C91_type_wrong (k : Text) (os : OStream) :
    printOptions [(k, .bool true)] os = printOptions [(k, .int 1)] os ∧ printOptions [(k, .int 1)] os = printOptions [(k, .str ['1'])] os ∧
      (1 ≤ os.precision → printOptions [(k, .str ['1'])] os = printOptions [(k, .real 1)] os) := by
  refine ⟨rfl, rfl, fun hp => ?_⟩
  obtain ⟨p, hp⟩ : ∃ p, os.precision = p + 1 := ⟨os.precision - 1, by omega⟩
  have h1 : sigParts p 1 = (10 ^ p, 0) := by
    have hl : Int.log 10 |(1 : ℚ)| = 0 := by rw [abs_one]; exact Int.log_one_right 10
    have hy : nearestEven (|(1 : ℚ)| * 10 ^ ((p : Int) - 0)) = 10 ^ p := by
      have e : |(1 : ℚ)| * 10 ^ ((p : Int) - 0) = ((10 ^ p : Nat) : ℚ) := by
        rw [abs_one, one_mul, sub_zero, zpow_natCast]
        push_cast
        rfl
      rw [e]
      unfold nearestEven
      rw [Nat.floor_natCast, if_pos (by norm_num)]
    unfold sigParts
    dsimp only
    rw [hl, hy, if_neg (Nat.pow_lt_pow_right (by norm_num) (Nat.lt_succ_self p)).ne]
  have h2 := natText_pow p
  have h3 : generalText (p + 1) 1 = ['1'] := by
    unfold generalText
    rw [if_neg (by norm_num), if_neg (by norm_num), Nat.add_sub_cancel, h1, List.nil_append]
    dsimp only
    unfold generalForm
    rw [if_pos ⟨by omega, by omega⟩, if_neg (by omega), h2]
    have : dropZeros (List.replicate p '0') = [] := by
      unfold dropZeros
      rw [List.reverse_replicate, dropWhile_nil (fun c hc => by simp [List.eq_of_mem_replicate hc]), List.reverse_nil]
    show pointed ['1'] (dropZeros (List.replicate p '0')) = _
    rw [this]
    rfl
  rw [printOptions_text, printOptions_text, hp]
  simp [OptVal.shown, h3]

/-- A text with a line end can look like another option. -/
theorem C91_lines_wrong (os : OStream) :
    printOptions [("a".toList, .str "1\n[EllipticForest]   b : 2".toList)] os = printOptions [("a".toList, .int 1), ("b".toList, .int 2)] os := by
  rw [printOptions_text, printOptions_text]
  congr 2

example : ∃ (o : Options ℚ) (entries : List (Text × OptVal ℚ)), Lists entries o ∧ (∀ e ∈ entries, OneLine e) ∧
    (printOptions entries ⟨[], 6⟩).text = "[EllipticForest]   cache : 1\n[EllipticForest]   tol : 0.3333\n".toList := by
  refine ⟨(Options.empty.set "tol".toList (.real (3333 / 10000))).set "cache".toList (.bool true),
    [("cache".toList, .bool true), ("tol".toList, .real (3333 / 10000))], ⟨?_, by decide⟩, ?_, by decide +kernel⟩
  · intro k v
    rw [List.mem_cons, List.mem_singleton, Prod.mk.injEq, Prod.mk.injEq]
    unfold Options.set Options.empty
    by_cases h1 : k = "cache".toList
    · rw [if_pos h1]
      have h2 : k ≠ "tol".toList := by rw [h1]; decide
      constructor
      · rintro (⟨-, rfl⟩ | ⟨h, -⟩)
        · rfl
        · exact absurd h h2
      · intro h
        exact .inl ⟨h1, (Option.some.inj h).symm⟩
    · rw [if_neg h1]
      by_cases h2 : k = "tol".toList
      · rw [if_pos h2]
        constructor
        · rintro (⟨h, -⟩ | ⟨-, rfl⟩)
          · exact absurd h h1
          · rfl
        · intro h
          exact .inr ⟨h2, (Option.some.inj h).symm⟩
      · rw [if_neg h2]
        constructor
        · rintro (⟨h, -⟩ | ⟨h, -⟩)
          · exact absurd h h1
          · exact absurd h h2
        · intro h
          cases h
  · intro e he
    simp only [List.mem_cons, List.not_mem_nil, or_false] at he
    rcases he with rfl | rfl
    · exact ⟨by decide, fun s h => by cases h⟩
    · exact ⟨by decide, fun s h => by cases h⟩

end EF
