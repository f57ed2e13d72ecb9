import Verif.Spec.Options
import Verif.Proofs.VecLemmas

/-!
# Lemmas about the option parser
-/

namespace EF

variable {K : Type}

namespace Options

theorem isDigit_iff (c : Char) : c.isDigit = true ↔ '0' ≤ c ∧ c ≤ '9' := by
  simp only [Char.isDigit, Bool.and_eq_true, decide_eq_true_eq]
  rfl

theorem Digits.not_mem {t : Text} (h : Digits t) {c : Char} (hc : c.isDigit = false) : c ∉ t := by
  intro hm
  have := (isDigit_iff c).mpr (h c hm)
  rw [hc] at this
  exact Bool.noConfusion this

theorem isInt_iff (t : Text) : isInt t = true ↔ Digits t := by
  unfold isInt Digits
  rw [List.all_eq_true]
  constructor
  · intro h c hc
    exact (isDigit_iff c).mp (h c hc)
  · intro h c hc
    exact (isDigit_iff c).mpr (h c hc)

theorem isDouble_iff (t : Text) : isDouble t = true ↔ '.' ∈ t := by
  unfold isDouble
  exact List.contains_iff_mem

theorem fold_digits (t : Text) :
    t.foldl (fun (a : Nat) c => 10 * a + (c.toNat - 48)) 0 = digitsValue t := by
  induction t using List.reverseRecOn with
  | nil => rfl
  | append_singleton t c ih =>
    rw [List.foldl_append, ih]
    unfold digitsValue
    rw [List.reverse_append, List.map_append, Nat.ofDigits_append]
    simp [Nat.ofDigits]
    omega

theorem checkValue_digits (stod : Text → Res K) {t : Text} (hd : Digits t) (hne : t ≠ []) :
    checkValue stod t =
      if digitsValue t ≤ 2147483647 then .ok (.int (digitsValue t)) else .throw .outOfRange := by
  have h1 : t ≠ "true".toList := by
    rintro rfl
    exact Digits.not_mem hd (c := 't') rfl (by simp)
  have h2 : t ≠ "false".toList := by
    rintro rfl
    exact Digits.not_mem hd (c := 'f') rfl (by simp)
  have h3 : isDouble t ≠ true := by
    rw [Ne, isDouble_iff]
    exact Digits.not_mem hd rfl
  unfold checkValue
  rw [if_neg h1, if_neg h2, if_neg h3, if_pos ((isInt_iff t).mpr hd)]
  unfold stoi
  rw [if_neg hne, fold_digits]
  by_cases hb : digitsValue t ≤ 2147483647
  · simp only [if_pos hb]; rfl
  · simp only [if_neg hb]; rfl

theorem checkValue_point (stod : Text → Res K) {t : Text} (h : '.' ∈ t) :
    checkValue stod t = stod t >>= fun x => pure (.real x) := by
  have h1 : t ≠ "true".toList := by
    rintro rfl
    simp at h
  have h2 : t ≠ "false".toList := by
    rintro rfl
    simp at h
  unfold checkValue
  rw [if_neg h1, if_neg h2, if_pos ((isDouble_iff t).mpr h)]

theorem checkValue_supported [Field K] {stod : Text → Res K} (hs : StodContract stod) {t : Text}
    {v : OptVal K} (h : Supported t v) : checkValue stod t = .ok v := by
  cases h with
  | isTrue => rfl
  | isFalse => rfl
  | nat hd hne hb =>
    rw [checkValue_digits stod hd hne, if_pos (by omega)]
  | dec hx =>
    have hm : '.' ∈ t := by
      obtain ⟨neg, ds, es, _, _, _, rfl, _⟩ := hx
      simp
    rw [checkValue_point stod hm, hs.decimal _ _ hx]
    rfl

/-! ## Trimming and stripping -/

/-- Erase the blanks at the end. -/
def rtrim (t : Text) : Text := (t.reverse.dropWhile isBlank).reverse

theorem isBlank_iff (c : Char) : isBlank c = true ↔ c = ' ' ∨ c = '\t' := by
  unfold isBlank
  simp

theorem isSpace_of_isBlank {c : Char} (h : isBlank c = true) : isSpace c = true := by
  rcases (isBlank_iff c).mp h with rfl | rfl <;> rfl

theorem dropWhile_blanks {l : Text} (hl : Blanks l) (t : Text) :
    (l ++ t).dropWhile isBlank = t.dropWhile isBlank := by
  induction l with
  | nil => rfl
  | cons c l ih =>
    have hc : isBlank c = true := (isBlank_iff c).mpr (hl c (List.mem_cons_self ..))
    rw [List.cons_append, List.dropWhile_cons_of_pos hc]
    exact ih (fun x hx => hl x (List.mem_cons_of_mem _ hx))

theorem rtrim_mid (p : Text) {c : Char} (hc : isBlank c = false) (r : Text) :
    rtrim (p ++ c :: r) = p ++ c :: rtrim r := by
  unfold rtrim
  have : ∀ (a b : Text), (a ++ c :: b).dropWhile isBlank = a.dropWhile isBlank ++ c :: b := by
    intro a b
    induction a with
    | nil => rw [List.nil_append, List.dropWhile_cons_of_neg (by simp [hc])]; rfl
    | cons x a ih =>
      by_cases hx : isBlank x = true
      · rw [List.cons_append, List.dropWhile_cons_of_pos hx, List.dropWhile_cons_of_pos hx, ih]
      · rw [List.cons_append, List.dropWhile_cons_of_neg hx, List.dropWhile_cons_of_neg hx]
        rfl
  have hrev : (p ++ c :: r).reverse = r.reverse ++ c :: p.reverse := by simp
  rw [hrev, this]
  simp

theorem rtrim_blanks {r : Text} (hr : Blanks r) : rtrim r = [] := by
  unfold rtrim
  have : Blanks r.reverse := fun c hc => hr c (List.mem_reverse.mp hc)
  have h := dropWhile_blanks this []
  rw [List.append_nil] at h
  rw [h]
  rfl

theorem trim_blank {l : Text} (hl : Blanks l) : trim l = [] := by
  unfold trim
  have h := dropWhile_blanks hl []
  rw [List.append_nil] at h
  rw [h]
  rfl

theorem trim_cons {l : Text} (hl : Blanks l) {c : Char} (hc : isBlank c = false) (r : Text) :
    trim (l ++ c :: r) = c :: rtrim r := by
  unfold trim
  rw [dropWhile_blanks hl, List.dropWhile_cons_of_neg (by simp [hc])]
  exact rtrim_mid [] hc r

theorem strip_append (a b : Text) : strip (a ++ b) = strip a ++ strip b := by
  unfold strip; exact List.filter_append ..

theorem strip_blanks {a : Text} (ha : Blanks a) : strip a = [] := by
  unfold strip
  rw [List.filter_eq_nil_iff]
  intro c hc
  have := isSpace_of_isBlank ((isBlank_iff c).mpr (ha c hc))
  simp [this]

theorem strip_solid {a : Text} (ha : Solid a) : strip a = a := by
  unfold strip
  rw [List.filter_eq_self]
  intro c hc
  obtain ⟨h1, h2⟩ := ha c hc
  unfold isSpace
  simp [h1]
  omega

theorem strip_rtrim (t : Text) : strip (rtrim t) = strip t := by
  induction t using List.reverseRecOn with
  | nil => rfl
  | append_singleton t c ih =>
    by_cases hc : isBlank c = true
    · have : rtrim (t ++ [c]) = rtrim t := by
        unfold rtrim
        rw [List.reverse_append]
        simp [hc]
      rw [this, ih, strip_append]
      have : strip [c] = [] := by
        unfold strip
        simp [isSpace_of_isBlank hc]
      rw [this, List.append_nil]
    · have hc' : isBlank c = false := by simpa using hc
      rw [rtrim_mid t hc' []]
      rfl

/-! ## Lines -/

theorem getlines_line (l : Text) (hl : '\n' ∉ l) (acc t : Text) :
    getlines acc (l ++ '\n' :: t) = (acc.reverse ++ l) :: getlines [] t := by
  induction l generalizing acc with
  | nil =>
    rw [List.nil_append, List.append_nil]
    rw [getlines.eq_def]
    simp
  | cons c l ih =>
    have hc : c ≠ '\n' := fun h => hl (h ▸ List.mem_cons_self ..)
    have := ih (fun h => hl (List.mem_cons_of_mem _ h)) (c :: acc)
    rw [List.cons_append, getlines.eq_def]
    simp only [if_neg hc]
    rw [this]
    simp

theorem getlines_flatMap {α : Type} (f : α → Text) (rows : List α) (h : ∀ r ∈ rows, '\n' ∉ f r) :
    getlines [] (rows.flatMap (fun r => f r ++ ['\n'])) = rows.map f := by
  induction rows with
  | nil => rfl
  | cons r rs ih =>
    rw [List.flatMap_cons, List.append_assoc, List.singleton_append,
      getlines_line _ (h r (List.mem_cons_self ..)), ih (fun x hx => h x (List.mem_cons_of_mem _ hx))]
    rfl

theorem Blanks.not_nl {a : Text} (ha : Blanks a) : '\n' ∉ a := by
  intro h
  rcases ha _ h with h | h <;> exact absurd h (by decide)

theorem Solid.not_nl {a : Text} (ha : Solid a) : '\n' ∉ a := by
  intro h
  exact (ha _ h).2 (by decide)

theorem row_not_nl {r : IniRow} (h : r.Legal) : '\n' ∉ r.left ++ r.line.text ++ r.right := by
  obtain ⟨h1, h2, h3⟩ := h
  simp only [List.mem_append, not_or]
  refine ⟨⟨Blanks.not_nl h1, ?_⟩, Blanks.not_nl h2⟩
  cases hl : r.line with
  | blank => simp [IniLine.text]
  | comment t =>
    rw [hl] at h3
    simpa [IniLine.text, IniLine.Legal] using h3
  | header n =>
    rw [hl] at h3
    simpa [IniLine.text, IniLine.Legal] using h3
  | entry k b a v =>
    rw [hl] at h3
    obtain ⟨k1, v1, _, b1, a1, _⟩ := h3
    simp [IniLine.text, Solid.not_nl k1, Solid.not_nl v1, Blanks.not_nl b1, Blanks.not_nl a1]

theorem takeWhile_until {a : Text} (ha : '=' ∉ a) (t : Text) :
    splitEq (a ++ '=' :: t) = (a, t) := by
  unfold splitEq
  have h1 : ∀ x ∈ a, decide (x ≠ '=') = true := by
    intro x hx
    simp only [ne_eq, decide_eq_true_eq]
    rintro rfl
    exact ha hx
  rw [List.takeWhile_append_of_pos h1, List.dropWhile_append_of_pos h1]
  simp

theorem Blanks.not_eq {a : Text} (ha : Blanks a) : '=' ∉ a := by
  intro h
  rcases ha _ h with h | h <;> exact absurd h (by decide)

theorem Solid.not_blank {c : Char} {a : Text} (ha : Solid a) (h : c ∈ a) : isBlank c = false := by
  cases hb : isBlank c with
  | false => rfl
  | true =>
    exfalso
    obtain ⟨h1, h2⟩ := ha c h
    rcases (isBlank_iff c).mp hb with rfl | rfl
    · exact h1 rfl
    · exact h2 (by decide)

theorem readLine_row (stod : Text → Res K) (name : Text) (s : Bool × Options K) {r : IniRow}
    (h : r.Legal) :
    readLine stod name s (r.left ++ r.line.text ++ r.right) =
      match r.line with
      | .header n => .ok (decide (n = name), s.2)
      | .entry k _ _ v => if s.1 then checkValue stod v >>= fun x => .ok (s.1, s.2.set k x) else .ok s
      | _ => .ok s := by
  obtain ⟨h1, h2, h3⟩ := h
  cases hl : r.line with
  | blank =>
    have : trim (r.left ++ IniLine.blank.text ++ r.right) = [] := by
      apply trim_blank
      intro c hc
      simp only [IniLine.text, List.append_nil, List.mem_append] at hc
      exact hc.elim (h1 c) (h2 c)
    unfold readLine
    simp only [this, true_or, if_true]
    rfl
  | comment t =>
    have : trim (r.left ++ (IniLine.comment t).text ++ r.right) = ';' :: rtrim (t ++ r.right) := by
      simp only [IniLine.text, List.append_assoc, List.cons_append]
      exact trim_cons h1 rfl _
    unfold readLine
    simp only [this, List.head?_cons, or_true, if_true]
    rfl
  | header n =>
    have : trim (r.left ++ (IniLine.header n).text ++ r.right) = '[' :: (n ++ [']']) := by
      simp only [IniLine.text, List.append_assoc, List.cons_append]
      rw [trim_cons h1 rfl, List.nil_append, rtrim_mid n rfl, rtrim_blanks h2]
    unfold readLine
    simp only [this]
    rw [if_neg (by simp), if_pos (by simp [List.getLast?_cons])]
    simp
  | entry k b a v =>
    rw [hl] at h3
    obtain ⟨hk, hv, hke, hb, ha, c, k', rfl, hc1, hc2⟩ := h3
    have hcb : isBlank c = false := Solid.not_blank hk (List.mem_cons_self ..)
    have : trim (r.left ++ (IniLine.entry (c :: k') b a v).text ++ r.right) =
        (c :: k' ++ b) ++ '=' :: rtrim (a ++ v ++ r.right) := by
      simp only [IniLine.text, List.append_assoc, List.cons_append]
      rw [trim_cons h1 hcb, ← List.append_assoc k' b, rtrim_mid _ rfl, List.append_assoc]
    unfold readLine
    simp only [this]
    have hkey : '=' ∉ c :: k' ++ b := by
      simp only [List.mem_append, not_or]
      exact ⟨hke, Blanks.not_eq hb⟩
    rw [if_neg (by simpa using hc1), if_neg (by simp [hc2]), takeWhile_until hkey]
    have hk2 : strip (c :: k' ++ b) = c :: k' := by
      rw [strip_append, strip_solid hk, strip_blanks hb, List.append_nil]
    have hv2 : strip (rtrim (a ++ v ++ r.right)) = v := by
      rw [strip_rtrim, strip_append, strip_append, strip_blanks ha, strip_solid hv, strip_blanks h2]
      simp
    simp only [hk2, hv2]
    cases hs : s.1 with
    | true => rw [if_pos ⟨rfl, by simp⟩, if_pos rfl]; rfl
    | false => rw [if_neg (by simp), if_neg (by simp)]; rfl

/-- Storing a list of entries one after another. -/
def store (stod : Text → Res K) (o : Options K) (es : List (Text × Text)) : Res (Options K) :=
  es.foldlM (fun o e => checkValue stod e.2 >>= fun x => .ok (o.set e.1 x)) o

theorem fold_rows (stod : Text → Res K) (name : Text) (rows : List IniRow)
    (h : ∀ r ∈ rows, r.Legal) (s : Bool × Options K) :
    ((rows.map (fun r => r.left ++ r.line.text ++ r.right)).foldlM (readLine stod name) s >>=
        fun s => pure s.2) = store stod s.2 (iniEntries name s.1 rows) := by
  induction rows generalizing s with
  | nil => rfl
  | cons r rs ih =>
    have ih' := ih (fun x hx => h x (List.mem_cons_of_mem _ hx))
    rw [List.map_cons, List.foldlM_cons, readLine_row stod name s (h r (List.mem_cons_self ..))]
    cases hl : r.line with
    | blank =>
      simp only [iniEntries, hl]
      exact ih' s
    | comment t =>
      simp only [iniEntries, hl]
      exact ih' s
    | header n =>
      simp only [iniEntries, hl]
      exact ih' _
    | entry k b a v =>
      simp only [iniEntries, hl]
      cases hs : s.1 with
      | false =>
        have := ih' s
        rw [hs] at this
        simpa using this
      | true =>
        simp only [if_true]
        unfold store
        rw [List.foldlM_cons]
        cases hc : checkValue stod v with
        | ok x => exact ih' (true, s.2.set k x)
        | throw e => rfl
        | ub => rfl

theorem readINI_rows (stod : Text → Res K) (files : Text → Option Text) (o : Options K)
    (filename name : Text) (rows : List IniRow) (h : ∀ r ∈ rows, r.Legal)
    (hf : files filename = some (iniText rows)) :
    readINI stod files o filename name = store stod o (iniEntries name false rows) := by
  unfold readINI
  rw [hf, Option.getD_some]
  unfold iniText
  rw [getlines_flatMap (fun r : IniRow => r.left ++ r.line.text ++ r.right) rows
    (fun r hr => row_not_nl (h r hr))]
  exact fold_rows stod name rows h (false, o)

theorem store_ok (stod : Text → Res K) (val : Text → OptVal K) (es : List (Text × Text))
    (h : ∀ e ∈ es, checkValue stod e.2 = .ok (val e.2)) (o : Options K) :
    ∃ o', store stod o es = .ok o' ∧
      ∀ k, o' k = match lastEntry es k with | some t => some (val t) | none => o k := by
  induction es using List.reverseRecOn with
  | nil => exact ⟨o, rfl, fun _ => rfl⟩
  | append_singleton es e ih =>
    obtain ⟨o', h1, h2⟩ := ih (fun x hx => h x (List.mem_append_left _ hx))
    refine ⟨o'.set e.1 (val e.2), ?_, ?_⟩
    · unfold store at h1 ⊢
      rw [List.foldlM_append, h1]
      rw [show ∀ f : Options K → Res (Options K), (Res.ok o' >>= f) = f o' from fun _ => rfl,
        List.foldlM_cons, h e (by simp)]
      rfl
    · intro k
      unfold set lastEntry
      rw [List.reverse_append, List.reverse_singleton, List.singleton_append, List.find?_cons]
      by_cases hk : k = e.1
      · rw [if_pos hk]
        simp [hk]
      · have : ¬ e.1 = k := fun h => hk h.symm
        simp only [if_neg hk, this, decide_false]
        exact h2 k

/-! ## Numerals are unambiguous -/

theorem split_unique {a a' b b' : Text} {c : Char} (ha : c ∉ a) (ha' : c ∉ a')
    (h : a ++ c :: b = a' ++ c :: b') : a = a' ∧ b = b' := by
  induction a generalizing a' with
  | nil =>
    cases a' with
    | nil => exact ⟨rfl, (List.cons.inj h).2⟩
    | cons x a' => exact absurd (List.cons.inj h).1 (fun hx => ha' (hx ▸ List.mem_cons_self ..))
  | cons y a ih =>
    cases a' with
    | nil => exact absurd (List.cons.inj h).1 (fun hx => ha (hx ▸ List.mem_cons_self ..))
    | cons x a' =>
      obtain ⟨h1, h2⟩ := List.cons.inj h
      obtain ⟨h3, h4⟩ := ih (fun hx => ha (List.mem_cons_of_mem _ hx))
        (fun hx => ha' (List.mem_cons_of_mem _ hx)) h2
      exact ⟨by rw [h1, h3], h4⟩

theorem sign_unique {p q : Bool} {a b : Text} (ha : a.head? ≠ some '-') (hb : b.head? ≠ some '-')
    (h : signText p ++ a = signText q ++ b) : p = q ∧ a = b := by
  cases p <;> cases q <;> simp [signText] at h ⊢
  · exact h
  · rw [h] at ha; simp at ha
  · rw [← h] at hb; simp at hb
  · exact h

theorem Digits.head {t : Text} (h : Digits t) : t.head? ≠ some '-' := by
  cases t with
  | nil => simp
  | cons c t =>
    simp only [List.head?_cons, ne_eq, Option.some.injEq]
    rintro rfl
    exact Digits.not_mem h (c := '-') rfl (List.mem_cons_self ..)

theorem Digits.head_point {t : Text} (h : Digits t) (r : Text) : (t ++ '.' :: r).head? ≠ some '-' := by
  cases t with
  | nil => simp
  | cons c t =>
    have := Digits.head h
    simpa using this

theorem _root_.EF.IntNumeral.unique {t : Text} {i j : Int} (hi : IntNumeral t i)
    (hj : IntNumeral t j) : i = j := by
  obtain ⟨p, a, ha, _, rfl, rfl⟩ := hi
  obtain ⟨q, b, hb, _, h, rfl⟩ := hj
  obtain ⟨rfl, rfl⟩ := sign_unique (Digits.head ha) (Digits.head hb) h
  rfl

theorem _root_.EF.DecNumeral.unique [Field K] {t : Text} {x y : K} (hx : DecNumeral t x)
    (hy : DecNumeral t y) : x = y := by
  obtain ⟨p, a, b, ha, _, _, rfl, rfl⟩ := hx
  obtain ⟨q, c, d, hc, _, _, h, rfl⟩ := hy
  rw [List.append_assoc, List.append_assoc] at h
  obtain ⟨rfl, h'⟩ := sign_unique (Digits.head_point ha b) (Digits.head_point hc d) h
  obtain ⟨rfl, rfl⟩ := split_unique (Digits.not_mem ha (c := '.') rfl)
    (Digits.not_mem hc (c := '.') rfl) h'
  rfl

theorem _root_.EF.IntNumeral.no_point {t : Text} {i : Int} (hi : IntNumeral t i) : '.' ∉ t := by
  obtain ⟨p, a, ha, _, rfl, _⟩ := hi
  have := Digits.not_mem ha (c := '.') rfl
  cases p <;> simp [signText, this]

theorem _root_.EF.DecNumeral.point [Field K] {t : Text} {x : K} (hx : DecNumeral t x) : '.' ∈ t := by
  obtain ⟨p, a, b, _, _, _, rfl, _⟩ := hx
  simp

theorem _root_.EF.IntNumeral.no_letter {t : Text} {i : Int} (hi : IntNumeral t i) {c : Char}
    (hc : c.isDigit = false) (hm : c ≠ '-') : c ∉ t := by
  obtain ⟨p, a, ha, _, rfl, _⟩ := hi
  have := Digits.not_mem ha hc
  cases p <;> simp [signText, this, hm]

/-- The specification gives every text one value. -/
theorem _root_.EF.Denotes.unique [Field K] {t : Text} {v w : OptVal K} (hv : Denotes t v)
    (hw : Denotes t w) : v = w := by
  have hti : ∀ i, ¬ IntNumeral ['t', 'r', 'u', 'e'] i := fun i h =>
    h.no_letter (c := 't') rfl (by decide) (by simp)
  have hfi : ∀ i, ¬ IntNumeral ['f', 'a', 'l', 's', 'e'] i := fun i h =>
    h.no_letter (c := 'f') rfl (by decide) (by simp)
  have htd : ∀ x : K, ¬ DecNumeral ['t', 'r', 'u', 'e'] x := fun x h => by simpa using h.point
  have hfd : ∀ x : K, ¬ DecNumeral ['f', 'a', 'l', 's', 'e'] x := fun x h => by simpa using h.point
  cases hv with
  | isTrue =>
    cases hw with
    | isTrue => rfl
    | int h => exact absurd h (hti _)
    | dec h => exact absurd h (htd _)
    | word h _ _ _ => exact absurd rfl h
  | isFalse =>
    cases hw with
    | isFalse => rfl
    | int h => exact absurd h (hfi _)
    | dec h => exact absurd h (hfd _)
    | word _ h _ _ => exact absurd rfl h
  | int h =>
    cases hw with
    | isTrue => exact absurd h (hti _)
    | isFalse => exact absurd h (hfi _)
    | int h' => rw [h.unique h']
    | dec h' => exact absurd h'.point h.no_point
    | word _ _ h' _ => exact absurd h (h' _)
  | dec h =>
    cases hw with
    | isTrue => exact absurd h (htd _)
    | isFalse => exact absurd h (hfd _)
    | int h' => exact absurd h.point h'.no_point
    | dec h' => rw [h.unique h']
    | word _ _ _ h' => exact absurd h (h' _)
  | word h1 h2 h3 h4 =>
    cases hw with
    | isTrue => exact absurd rfl h1
    | isFalse => exact absurd rfl h2
    | int h' => exact absurd h' (h3 _)
    | dec h' => exact absurd h' (h4 _)
    | word _ _ _ _ => rfl

theorem _root_.EF.Supported.denotes [Field K] {t : Text} {v : OptVal K} (h : Supported t v) :
    Denotes t v := by
  cases h with
  | isTrue => exact .isTrue
  | isFalse => exact .isFalse
  | nat hd hne _ => exact .int ⟨false, t, hd, hne, rfl, rfl⟩
  | dec h => exact .dec h

/-- Some function meets the contract of `std::stod`. -/
theorem stod_exists [Field K] : ∃ stod : Text → Res K, StodContract stod := by
  classical
  refine ⟨fun t => if h : ∃ x : K, DecNumeral t x then .ok h.choose else .throw .invalidArgument,
    ⟨?_, ?_⟩⟩
  · intro t x hx
    have h : ∃ x : K, DecNumeral t x := ⟨x, hx⟩
    show (if h : ∃ x : K, DecNumeral t x then Res.ok h.choose else .throw .invalidArgument) = .ok x
    rw [dif_pos h, h.choose_spec.unique hx]
  · intro c t hc _ _ _ _
    have h : ¬ ∃ x : K, DecNumeral (c :: t) x := by
      rintro ⟨x, p, a, b, ha, _, _, h, _⟩
      cases p with
      | true =>
        have : c = '-' := by simpa [signText] using congrArg List.head? h
        rw [this] at hc
        exact absurd hc (by decide)
      | false =>
        cases a with
        | nil =>
          have : c = '.' := by simpa [signText] using congrArg List.head? h
          rw [this] at hc
          exact absurd hc (by decide)
        | cons d a =>
          have : c = d := by simpa [signText] using congrArg List.head? h
          have hd := (isDigit_iff c).mpr (this ▸ ha d (List.mem_cons_self ..))
          have h2 := (isDigit_iff c).mp hd
          simp only [Char.isAlpha, Char.isUpper, Char.isLower, Bool.or_eq_true, Bool.and_eq_true,
            decide_eq_true_eq] at hc
          simp only [Char.le_def, UInt32.le_iff_toNat_le, ge_iff_le] at hc h2
          have e1 : ('9' : Char).val.toNat = 57 := rfl
          rw [e1] at h2
          have e2 : ('A' : Char).val.toNat = 65 := rfl
          have e3 : ('a' : Char).val.toNat = 97 := rfl
          rcases hc with hc | hc
          · have := hc.1
            rw [e2] at this
            omega
          · have := hc.1
            rw [e3] at this
            omega
    show (if h : ∃ x : K, DecNumeral (c :: t) x then Res.ok h.choose else .throw .invalidArgument) = _
    rw [dif_neg h]

end Options

end EF
