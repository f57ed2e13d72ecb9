import Verif.Spec.Logger
import Verif.Props.Number
import Mathlib.Tactic.FinCases

/-!
# Messages in the log

C87.
-/

namespace EF

variable {write : Text → PrintArg → Text}

theorem printfFrom_plain (p m : Text) (as : List PrintArg) (hp : '%' ∉ p) :
    printfFrom write none (p ++ m) as = printfFrom write none m as >>= fun t => pure (p ++ t) := by
  induction p with
  | nil => exact (bind_pure _).symm
  | cons c cs ih =>
    have hc : c ≠ '%' := fun h => hp (by simp [h])
    rw [List.cons_append, printfFrom, if_neg hc, ih (fun h => hp (List.mem_cons_of_mem _ h)), bind_assoc]
    simp

theorem prefix_plain (r : Nat) : '%' ∉ "[EllipticForest ".toList ++ natText r ++ "] ".toList := by
  have h := natText_digits r
  rw [List.all_eq_true] at h
  have h1 : '%' ∉ natText r := fun hm => by
    have := h _ hm
    revert this; decide
  simp only [List.mem_append, not_or]
  exact ⟨⟨by decide, h1⟩, by decide⟩

theorem prefix_eq (r : Nat) (t : Text) : ("[EllipticForest ".toList ++ natText r ++ "] ".toList) ++ (t ++ ['\n']) = logLineOf r t := by
  unfold logLineOf natText
  simp [toString, Nat.repr]

/-- A line of the log is what `printf` makes of the message and a newline. -/
theorem log_eq (r : Nat) (m : Text) (as : List PrintArg) :
    log write r m as = printfFrom write none (m ++ ['\n']) as >>= fun t =>
      pure (("[EllipticForest ".toList ++ natText r ++ "] ".toList) ++ t) := by
  unfold log printf
  rw [List.append_assoc _ m, printfFrom_plain _ _ _ (prefix_plain r)]
  rfl

theorem log_of {r : Nat} {m : Text} {as : List PrintArg} {t : Text} (h : printfFrom write none (m ++ ['\n']) as = .ok (t ++ ['\n'])) :
    log write r m as = .ok (logLineOf r t) := by
  rw [log_eq, h, Res.ok_bind, prefix_eq]
  rfl

theorem printfFrom_some {s : Text} (hs : s ≠ []) (m : Text) : printfFrom write (some s) m [] = .ub := by
  induction m generalizing s with
  | nil => rfl
  | cons c cs ih =>
    rw [printfFrom, if_neg (fun h => hs h.2)]
    split
    · exact ih (by simp)
    · rfl

theorem doubled_cons (c : Char) (t : Text) : doubled (c :: t) = (if c = '%' then ['%', '%'] else [c]) ++ doubled t := rfl

theorem printfFrom_none (m : Text) : (∀ w, printfFrom write none (m ++ ['\n']) [] = .ok w ↔ ∃ u, m = doubled u ∧ w = u ++ ['\n']) ∧
    ∀ w, printfFrom write (some []) (m ++ ['\n']) [] = .ok w ↔ ∃ u, m = '%' :: doubled u ∧ w = '%' :: u ++ ['\n'] := by
  induction m with
  | nil =>
    constructor
    · intro w
      constructor
      · intro h
        refine ⟨[], rfl, ?_⟩
        have : printfFrom write none ([] ++ ['\n']) [] = .ok ['\n'] := rfl
        rw [this] at h
        exact (Res.ok_inj.mp h).symm
      · rintro ⟨u, h1, rfl⟩
        cases u with
        | nil => rfl
        | cons c t =>
          rw [doubled_cons] at h1
          split at h1 <;> simp at h1
    · intro w
      constructor
      · intro h
        have : printfFrom write (some []) ([] ++ ['\n']) [] = .ub := rfl
        rw [this] at h
        cases h
      · rintro ⟨u, h1, _⟩
        simp at h1
  | cons c cs ih =>
    constructor
    · intro w
      rw [List.cons_append, printfFrom]
      by_cases hc : c = '%'
      · rw [if_pos hc, ih.2 w]
        subst hc
        constructor
        · rintro ⟨u, h1, rfl⟩
          exact ⟨'%' :: u, by rw [doubled_cons, if_pos rfl, h1]; rfl, rfl⟩
        · rintro ⟨u, h1, rfl⟩
          cases u with
          | nil => simp [doubled] at h1
          | cons d t =>
            rw [doubled_cons] at h1
            split at h1
            · rename_i hd
              subst hd
              exact ⟨t, by simpa using h1, rfl⟩
            · rename_i hd
              simp only [List.singleton_append, List.cons.injEq] at h1
              exact absurd h1.1.symm hd
      · rw [if_neg hc]
        constructor
        · intro h
          obtain ⟨t, h1, h2⟩ := Res.bind_eq_ok.mp h
          obtain ⟨u, h3, h4⟩ := (ih.1 t).mp h1
          refine ⟨c :: u, by rw [doubled_cons, if_neg hc, h3]; rfl, ?_⟩
          rw [← Res.ok_inj.mp h2, h4]
          rfl
        · rintro ⟨u, h1, rfl⟩
          cases u with
          | nil => simp [doubled] at h1
          | cons d t =>
            rw [doubled_cons] at h1
            split at h1
            · rename_i hd
              simp only [List.cons_append, List.cons.injEq] at h1
              exact absurd h1.1 hc
            · simp only [List.singleton_append, List.cons.injEq] at h1
              rw [(ih.1 (t ++ ['\n'])).mpr ⟨t, h1.2, rfl⟩, h1.1]
              rfl
    · intro w
      rw [List.cons_append, printfFrom]
      by_cases hc : c = '%'
      · rw [if_pos ⟨hc, rfl⟩]
        subst hc
        constructor
        · intro h
          obtain ⟨t, h1, h2⟩ := Res.bind_eq_ok.mp h
          obtain ⟨u, h3, h4⟩ := (ih.1 t).mp h1
          exact ⟨u, by rw [h3], by rw [← Res.ok_inj.mp h2, h4]; rfl⟩
        · rintro ⟨u, h1, rfl⟩
          rw [(ih.1 (u ++ ['\n'])).mpr ⟨u, (List.cons.inj h1).2, rfl⟩]
          rfl
      · rw [if_neg (fun h => hc h.1)]
        constructor
        · intro h
          split at h
          · rw [printfFrom_some (by simp)] at h
            cases h
          · cases h
        · rintro ⟨u, h1, _⟩
          exact absurd (List.cons.inj h1).1 hc

/-- C87, what really happens without arguments: the line shows the text whose doubled form the message is; if there is none, the
behaviour is undefined. -/
theorem C87_plain_actual (r : Nat) (m w : Text) : log write r m [] = .ok w ↔ ∃ u, m = doubled u ∧ w = logLineOf r u := by
  rw [log_eq]
  constructor
  · intro h
    obtain ⟨t, h1, h2⟩ := Res.bind_eq_ok.mp h
    obtain ⟨u, h3, rfl⟩ := ((printfFrom_none m).1 t).mp h1
    refine ⟨u, h3, ?_⟩
    rw [← prefix_eq, ← Res.ok_inj.mp h2]
  · rintro ⟨u, h1, rfl⟩
    rw [((printfFrom_none m).1 (u ++ ['\n'])).mpr ⟨u, h1, rfl⟩, Res.ok_bind, prefix_eq]
    rfl

theorem doubled_plain {m : Text} (h : '%' ∉ m) : doubled m = m := by
  induction m with
  | nil => rfl
  | cons c cs ih =>
    rw [doubled_cons, if_neg (fun hc => h (by simp [hc])), ih (fun hm => h (List.mem_cons_of_mem _ hm))]
    rfl

theorem doubled_length (m : Text) : (doubled m).length = m.length + m.count '%' := by
  induction m with
  | nil => rfl
  | cons c cs ih =>
    rw [doubled_cons, List.length_append, ih, List.count_cons]
    by_cases h : c = '%'
    · simp [h]; omega
    · simp [h]; omega

/-- C87 for messages without percent signs: each is shown as it is. -/
theorem C87_verbatim_partial (r : Nat) {m : Text} (h : '%' ∉ m) : log write r m [] = .ok (logLineOf r m) :=
  (C87_plain_actual r m _).mpr ⟨m, (doubled_plain h).symm, rfl⟩

/-- C87 fails for every message with a percent sign. -/
theorem C87_verbatim_wrong (r : Nat) {m : Text} (h : '%' ∈ m) : log write r m [] ≠ .ok (logLineOf r m) := by
  intro hm
  obtain ⟨u, h1, h2⟩ := (C87_plain_actual r m _).mp hm
  have : m = u := by
    unfold logLineOf at h2
    simpa using h2
  subst this
  have h3 := congrArg List.length h1
  rw [doubled_length] at h3
  have := List.count_pos_iff.mpr h
  omega

/-- C87: a percent sign before a word is undefined behaviour. -/
theorem C87_percent_wrong (r : Nat) : log write r "50% done".toList [] = .ub := by
  rw [log_eq]
  have : printfFrom write none ("50% done".toList ++ ['\n']) [] = .ub := rfl
  rw [this]
  rfl

/-! ## Arguments -/

theorem special_of_flag {c : Char} (h : c ∈ ['-', '+', ' ', '#', '0']) : c ≠ '%' ∧ c ∈ ['-', '+', ' ', '#', '0', '.'] := by
  fin_cases h <;> decide

theorem printfFrom_spec (s z m : Text) (as : List PrintArg)
    (hz : ∀ c ∈ z, c ≠ '%' ∧ (c ∈ ['-', '+', ' ', '#', '0', '.'] ∨ c.isDigit)) :
    printfFrom write (some s) (z ++ m) as = printfFrom write (some (s ++ z)) m as := by
  induction z generalizing s with
  | nil => simp
  | cons c cs ih =>
    have h := hz c (by simp)
    have e : printfFrom write (some s) (c :: (cs ++ m)) as = printfFrom write (some (s ++ [c])) (cs ++ m) as := by
      cases as <;> rw [printfFrom, if_neg (fun e => h.1 e.1), if_pos h.2]
    rw [List.cons_append, e, ih _ (fun d hd => hz d (List.mem_cons_of_mem _ hd))]
    simp

theorem goodSpec_plain {flags width : Text} (hf : ∀ c ∈ flags, c ∈ ['-', '+', ' ', '#', '0']) (hw : ∀ c ∈ width, c.isDigit)
    {z : Text} (hz : z = [] ∨ ∃ d, z = '.' :: d ∧ ∀ c ∈ d, c.isDigit) : goodSpec (flags ++ width ++ z) = true := by
  have h1 : (flags ++ width ++ z).dropWhile (· ∈ ['-', '+', ' ', '#', '0']) =
      (width ++ z).dropWhile (· ∈ ['-', '+', ' ', '#', '0']) := by
    rw [List.append_assoc, List.dropWhile_append_of_pos]
    simpa using hf
  have h2 : ∃ w : Text, (∀ c ∈ w, c.isDigit) ∧ (width ++ z).dropWhile (· ∈ ['-', '+', ' ', '#', '0']) = w ++ z := by
    clear h1
    induction width with
    | nil =>
      refine ⟨[], by simp, ?_⟩
      rcases hz with rfl | ⟨d, rfl, _⟩ <;> simp
    | cons c cs ih =>
      rw [List.cons_append, List.dropWhile_cons]
      split
      · exact ih (fun d hd => hw d (List.mem_cons_of_mem _ hd))
      · exact ⟨c :: cs, hw, rfl⟩
  obtain ⟨w, hw', h3⟩ := h2
  unfold goodSpec
  rw [h1, h3, List.dropWhile_append_of_pos hw']
  rcases hz with rfl | ⟨d, rfl, hd⟩
  · rfl
  · have : ('.' :: d).dropWhile Char.isDigit = '.' :: d := by rw [List.dropWhile_cons_of_neg]; decide
    rw [this]
    simpa using hd

theorem printfFrom_end {s : Text} {c : Char} {a : PrintArg} (hg : goodSpec s = true) (ha : a.takes c = true)
    (hc : c ≠ '%' ∧ ¬ (c ∈ ['-', '+', ' ', '#', '0', '.'] ∨ c.isDigit)) (m : Text) (as : List PrintArg) :
    printfFrom write (some s) ([c] ++ m) (a :: as) = printfFrom write none m as >>= fun t => pure (write ('%' :: s ++ [c]) a ++ t) := by
  rw [List.singleton_append, printfFrom, if_neg (fun e => hc.1 e.1), if_neg hc.2]
  simp [hg, ha]

theorem printfFrom_suits {s : Text} {a : PrintArg} (h : Suits s a) (m : Text) (as : List PrintArg) :
    printfFrom write none (s ++ m) (a :: as) = printfFrom write none m as >>= fun t => pure (write s a ++ t) := by
  have digit : ∀ {c : Char}, c.isDigit → c ≠ '%' := by
    rintro c h rfl
    revert h
    decide
  have flag : ∀ {z : Text}, (∀ c ∈ z, c ∈ ['-', '+', ' ', '#', '0']) →
      ∀ c ∈ z, c ≠ '%' ∧ (c ∈ ['-', '+', ' ', '#', '0', '.'] ∨ c.isDigit) :=
    fun h c hc => ⟨(special_of_flag (h c hc)).1, Or.inl (special_of_flag (h c hc)).2⟩
  have digits : ∀ {z : Text}, (∀ c ∈ z, c.isDigit) → ∀ c ∈ z, c ≠ '%' ∧ (c ∈ ['-', '+', ' ', '#', '0', '.'] ∨ c.isDigit) :=
    fun h c hc => ⟨digit (h c hc), Or.inr (h c hc)⟩
  have key : ∀ (z : Text) {c : Char} {a : PrintArg}, goodSpec z = true → a.takes c = true →
      (c ≠ '%' ∧ ¬ (c ∈ ['-', '+', ' ', '#', '0', '.'] ∨ c.isDigit)) →
      (∀ c ∈ z, c ≠ '%' ∧ (c ∈ ['-', '+', ' ', '#', '0', '.'] ∨ c.isDigit)) →
      printfFrom write none ('%' :: (z ++ [c]) ++ m) (a :: as) =
        printfFrom write none m as >>= fun t => pure (write ('%' :: (z ++ [c])) a ++ t) := by
    intro z c a hg ha hc hz
    rw [List.cons_append, printfFrom, if_pos rfl, List.append_assoc, printfFrom_spec _ _ _ _ hz, List.nil_append,
      printfFrom_end hg ha hc]
    rfl
  cases h with
  | @int flags width i hf hw c hc =>
    refine key (flags ++ width) ?_ ?_ ?_ ?_
    · simpa using goodSpec_plain hf hw (Or.inl rfl)
    · fin_cases hc <;> rfl
    · fin_cases hc <;> decide
    · intro c hc
      rcases List.mem_append.mp hc with h | h
      · exact flag hf c h
      · exact digits hw c h
  | @dbl flags width x hf hw c hc =>
    refine key (flags ++ width) ?_ ?_ ?_ ?_
    · simpa using goodSpec_plain hf hw (Or.inl rfl)
    · fin_cases hc <;> rfl
    · fin_cases hc <;> decide
    · intro c hc
      rcases List.mem_append.mp hc with h | h
      · exact flag hf c h
      · exact digits hw c h
  | @precise flags width d x hf hw hd c hc =>
    refine key (flags ++ width ++ '.' :: d) ?_ ?_ ?_ ?_
    · exact goodSpec_plain hf hw (Or.inr ⟨d, rfl, hd⟩)
    · fin_cases hc <;> rfl
    · fin_cases hc <;> decide
    · intro c hc
      rcases List.mem_append.mp hc with h | h
      · rcases List.mem_append.mp h with h | h
        · exact flag hf c h
        · exact digits hw c h
      · rcases List.mem_cons.mp h with rfl | h
        · decide
        · exact digits hd c h

/-- C87 for messages with arguments: the texts between the arguments are shown as they are, and in between is what the C library makes
of each argument with its specification.  More arguments than specifications do no harm. -/
theorem C87_arguments (r : Nat) (fs : List LogField) (last : Text) (more : List PrintArg) (hs : ∀ f ∈ fs, '%' ∉ f.before ∧ Suits f.spec f.arg)
    (hl : '%' ∉ last) :
    log write r (fs.flatMap (fun f => f.before ++ f.spec) ++ last) (fs.map LogField.arg ++ more) =
      .ok (logLineOf r (fs.flatMap (fun f => f.before ++ write f.spec f.arg) ++ last)) := by
  apply log_of
  induction fs with
  | nil =>
    simp only [List.flatMap_nil, List.nil_append, List.map_nil]
    rw [printfFrom_plain _ _ _ hl]
    rfl
  | cons f fs ih =>
    have h := hs f (by simp)
    have e : (f :: fs).flatMap (fun f => f.before ++ f.spec) ++ last ++ ['\n'] =
        f.before ++ (f.spec ++ (fs.flatMap (fun f => f.before ++ f.spec) ++ last ++ ['\n'])) := by
      simp [List.flatMap_cons]
    rw [e, printfFrom_plain _ _ _ h.1, List.map_cons, List.cons_append, printfFrom_suits h.2,
      ih (fun g hg => hs g (List.mem_cons_of_mem _ hg))]
    simp [List.flatMap_cons]

/-- C87: one rank shows the line of `logHead`, the others nothing. -/
theorem C87_head (size : Nat) (h0 : 0 < size) (m : Text) (as : List PrintArg) {w : Text} (h : log write 0 m as = .ok w) :
    (List.range size).mapM (fun r => logHead write r m as) = .ok (w :: List.replicate (size - 1) []) := by
  obtain ⟨n, rfl⟩ : ∃ n, size = n + 1 := ⟨size - 1, by omega⟩
  have key : ∀ (l : List Nat), (∀ r ∈ l, r ≠ 0) → l.mapM (fun r => logHead write r m as) = .ok (List.replicate l.length []) := by
    intro l hl
    induction l with
    | nil => rfl
    | cons r l ih =>
      rw [List.mapM_cons, ih (fun q hq => hl q (List.mem_cons_of_mem _ hq))]
      unfold logHead
      rw [if_neg (hl r (by simp))]
      rfl
  rw [List.range_succ_eq_map, List.mapM_cons, key _ (by simp)]
  unfold logHead
  rw [if_pos rfl, h]
  simp

theorem plain_nat (n : Nat) : '%' ∉ natText n := by
  have h := natText_digits n
  rw [List.all_eq_true] at h
  intro hm
  have := h _ hm
  revert this
  decide

theorem plain_int (i : Int) : '%' ∉ intText i := by
  unfold intText
  rw [List.mem_append, not_or]
  refine ⟨?_, plain_nat _⟩
  split <;> decide

theorem plain_decimal (x : ℚ) : '%' ∉ decimalText x := by
  unfold decimalText pad6
  simp only [List.mem_append, List.mem_cons, List.mem_replicate, not_or]
  refine ⟨⟨?_, plain_nat _⟩, by decide, fun h => absurd h.2 (by decide), plain_nat _⟩
  split <;> decide

/-- C87 for the messages of the stages, the results and headers of a convergence study, and the names of communicators. -/
theorem C87_shipped :
    (∀ m ∈ stageMessages, '%' ∉ m) ∧ '%' ∉ resultHeaders ∧ (∀ d : ResultsData ℚ, '%' ∉ d.mode → '%' ∉ d.str) ∧
      ∀ (s : Text) (a b : Nat), '%' ∉ s → '%' ∉ rangeName s a b := by
  refine ⟨by decide, by decide, ?_, ?_⟩
  · intro d hd
    have h2 : '%' ∉ "  ".toList := by decide
    unfold ResultsData.str
    simp only [List.mem_append, not_or]
    simp only [plain_int, plain_decimal, hd, h2, not_false_eq_true, and_self]
  · intro s a b hs
    unfold rangeName
    simp only [List.mem_append, not_or]
    exact ⟨⟨⟨⟨⟨hs, by decide⟩, plain_nat _⟩, by decide⟩, plain_nat _⟩, by decide⟩

/-- C87: the convergence study shows its headers and one line for each run, on one rank. -/
theorem C87_results (results : List (ResultsData ℚ)) (hr : ∀ d ∈ results, '%' ∉ d.mode) (r : Nat) :
    logResults write r results = .ok (if r = 0 then logLineOf 0 resultHeaders ++ results.flatMap (fun d => logLineOf 0 d.str) else []) := by
  unfold logResults
  by_cases h0 : r = 0
  · subst h0
    have key : ∀ (l : List (ResultsData ℚ)) (t : Text), (∀ d ∈ l, '%' ∉ d.mode) →
        l.foldlM (fun t d => logHead write 0 d.str [] >>= fun u => pure (t ++ u)) t = .ok (t ++ l.flatMap (fun d => logLineOf 0 d.str)) := by
      intro l
      induction l with
      | nil => intro t _; simp
      | cons d l ih =>
        intro t hl
        rw [List.foldlM_cons]
        have : logHead write 0 d.str [] = .ok (logLineOf 0 d.str) := C87_verbatim_partial 0 (C87_shipped.2.2.1 d (hl d (by simp)))
        rw [this, Res.ok_bind]
        show (l.foldlM _ (t ++ logLineOf 0 d.str) : Res Text) = _
        rw [ih _ (fun e he => hl e (List.mem_cons_of_mem _ he))]
        simp [List.flatMap_cons]
    have : logHead write 0 resultHeaders [] = .ok (logLineOf 0 resultHeaders) := C87_verbatim_partial 0 C87_shipped.2.1
    rw [this, Res.ok_bind, key _ _ hr, if_pos rfl]
  · rw [if_neg h0]
    have hh : ∀ m as, logHead write r m as = .ok [] := fun m as => by unfold logHead; rw [if_neg h0]; rfl
    rw [hh, Res.ok_bind]
    clear hr
    induction results with
    | nil => rfl
    | cons d l ih =>
      rw [List.foldlM_cons, hh, Res.ok_bind]
      exact ih

/-- C87, what can be read from the line of a run: its words are the mode, the integers, and the other numbers within half a millionth,
in this order. -/
theorem C87_fields (d : ResultsData ℚ) (hm : d.mode ≠ []) (hw : ∀ c ∈ d.mode, isWs c = false) :
    ∃ is xs, words d.str = d.mode :: is ++ xs ∧
      is.map readNumber = [d.minLevel, d.maxLevel, d.nx, d.ny, d.resolution, d.nDOFs].map (fun i : Int => some (i : ℚ)) ∧
      List.Forall₂ Near (xs.map readNumber) [d.lI, d.l1, d.l2, d.buildTime, d.upwardsTime, d.solveTime, d.sizeMB] := by
  have hb : "  ".toList = [' ', ' '] := rfl
  have skip : ∀ t, words (' ' :: t) = words t := fun t => by
    unfold words
    rw [wordsFrom, if_pos (by decide), if_pos rfl]
  have ent : ∀ {w : Text} (_ : ∀ c ∈ w, isWs c = false) (_ : w ≠ []) (t : Text), words (w ++ ([' ', ' '] ++ t)) = w :: words t := by
    intro w h1 h2 t
    exact (words_entry h1 h2 (' ' :: t)).trans (by rw [skip])
  have int : ∀ i t, words (intText i ++ ([' ', ' '] ++ t)) = intText i :: words t :=
    fun i t => ent (fun c hc => (intText_chars i c hc).plain.2) (intText_ne i) t
  have dec : ∀ x t, words (decimalText x ++ ([' ', ' '] ++ t)) = decimalText x :: words t :=
    fun x t => ent (fun c hc => (decimalText_chars x c hc).plain.2) (decimalText_ne x) t
  refine ⟨[d.minLevel, d.maxLevel, d.nx, d.ny, d.resolution, d.nDOFs].map intText,
    [d.lI, d.l1, d.l2, d.buildTime, d.upwardsTime, d.solveTime, d.sizeMB].map decimalText, ?_, ?_, forall₂_map_near _⟩
  · unfold ResultsData.str
    rw [hb]
    have e : ∀ t : Text, t ++ [' ', ' '] = t ++ ([' ', ' '] ++ []) := fun t => by simp
    rw [e]
    simp only [List.append_assoc]
    rw [ent hw hm, int, int, int, int, int, int, dec, dec, dec, dec, dec, dec, dec]
    rfl
  · rw [List.map_map]
    exact List.map_congr_left (fun i _ => readNumber_int i)

/-- C87: an argument of the other type, or none, is undefined behaviour. -/
theorem C87_type_wrong (r : Nat) {before spec last : Text} (hb : '%' ∉ before) {i : Int} {x : ℚ} (as : List PrintArg) :
    (Suits spec (.int i) → log write r (before ++ spec ++ last) (.dbl x :: as) = .ub ∧ log write r (before ++ spec ++ last) [] = .ub) ∧
      (Suits spec (.dbl x) → log write r (before ++ spec ++ last) (.int i :: as) = .ub ∧ log write r (before ++ spec ++ last) [] = .ub) := by
  have key : ∀ {z : Text} {c : Char} {bs : List PrintArg},
      (c ≠ '%' ∧ ¬ (c ∈ ['-', '+', ' ', '#', '0', '.'] ∨ c.isDigit)) →
      (∀ c ∈ z, c ≠ '%' ∧ (c ∈ ['-', '+', ' ', '#', '0', '.'] ∨ c.isDigit)) → (∀ a ∈ bs.head?, a.takes c = false) →
      log write r (before ++ '%' :: (z ++ [c]) ++ last) bs = .ub := by
    intro z c bs hc hz ha
    have e : before ++ '%' :: (z ++ [c]) ++ last ++ ['\n'] = before ++ ('%' :: (z ++ (c :: (last ++ ['\n'])))) := by simp
    have u : printfFrom write (some z) (c :: (last ++ ['\n'])) bs = .ub := by
      cases bs with
      | nil => rw [printfFrom, if_neg (fun e => hc.1 e.1), if_neg hc.2]
      | cons a bs =>
        rw [printfFrom, if_neg (fun e => hc.1 e.1), if_neg hc.2]
        have := ha a rfl
        simp [this]
    rw [log_eq, e, printfFrom_plain _ _ _ hb, printfFrom, if_pos rfl, printfFrom_spec _ _ _ _ hz, List.nil_append, u]
    rfl
  have digit : ∀ {c : Char}, c.isDigit → c ≠ '%' := by
    rintro c h rfl
    revert h
    decide
  have two : ∀ {f w : Text}, (∀ c ∈ f, c ∈ ['-', '+', ' ', '#', '0']) → (∀ c ∈ w, c.isDigit) →
      ∀ c ∈ f ++ w, c ≠ '%' ∧ (c ∈ ['-', '+', ' ', '#', '0', '.'] ∨ c.isDigit) := by
    intro f w hf hw c hc
    rcases List.mem_append.mp hc with h | h
    · exact ⟨(special_of_flag (hf c h)).1, Or.inl (special_of_flag (hf c h)).2⟩
    · exact ⟨digit (hw c h), Or.inr (hw c h)⟩
  have three : ∀ {f w d : Text}, (∀ c ∈ f, c ∈ ['-', '+', ' ', '#', '0']) → (∀ c ∈ w, c.isDigit) → (∀ c ∈ d, c.isDigit) →
      ∀ c ∈ f ++ w ++ '.' :: d, c ≠ '%' ∧ (c ∈ ['-', '+', ' ', '#', '0', '.'] ∨ c.isDigit) := by
    intro f w d hf hw hd c hc
    rcases List.mem_append.mp hc with h | h
    · exact two hf hw c h
    · rcases List.mem_cons.mp h with rfl | h
      · decide
      · exact ⟨digit (hd c h), Or.inr (hd c h)⟩
  constructor
  · intro h
    cases h with
    | @int flags width i hf hw c hc =>
      constructor
      · refine key (by fin_cases hc <;> decide) (two hf hw) ?_
        simp only [List.head?_cons, Option.mem_some_iff, forall_eq']
        fin_cases hc <;> rfl
      · exact key (by fin_cases hc <;> decide) (two hf hw) (by simp)
  · intro h
    cases h with
    | @dbl flags width x hf hw c hc =>
      constructor
      · refine key (by fin_cases hc <;> decide) (two hf hw) ?_
        simp only [List.head?_cons, Option.mem_some_iff, forall_eq']
        fin_cases hc <;> rfl
      · exact key (by fin_cases hc <;> decide) (two hf hw) (by simp)
    | @precise flags width d x hf hw hd c hc =>
      constructor
      · refine key (by fin_cases hc <;> decide) (three hf hw hd) ?_
        simp only [List.head?_cons, Option.mem_some_iff, forall_eq']
        fin_cases hc <;> rfl
      · exact key (by fin_cases hc <;> decide) (three hf hw hd) (by simp)

/-- C87 for the messages with arguments in the example programs.  examples/elliptic-multiple/main.cpp:472, 523,
examples/patch-solver/main.cpp:142, 154, examples/thermal/main.cpp:291, 362. -/
theorem C87_examples (r : Nat) (i j k : Int) (x : ℚ) :
    log write r "UNIFORM: M = %i, l = %i, DOFs = %i".toList [.int i, .int j, .int k] = .ok (logLineOf r ("UNIFORM: M = ".toList ++
      write "%i".toList (.int i) ++ ", l = ".toList ++ write "%i".toList (.int j) ++ ", DOFs = ".toList ++ write "%i".toList (.int k))) ∧
    log write r "ADAPTIVE: M = %i, l = %i, DOFs = %i".toList [.int i, .int j, .int k] = .ok (logLineOf r ("ADAPTIVE: M = ".toList ++
      write "%i".toList (.int i) ++ ", l = ".toList ++ write "%i".toList (.int j) ++ ", DOFs = ".toList ++ write "%i".toList (.int k))) ∧
    log write r "N = %4i, Error = %.8e".toList [.int i, .dbl x] = .ok (logLineOf r ("N = ".toList ++ write "%4i".toList (.int i) ++
      ", Error = ".toList ++ write "%.8e".toList (.dbl x))) ∧
    log write r "Convergence Order = %.4f".toList [.dbl x] = .ok (logLineOf r ("Convergence Order = ".toList ++
      write "%.4f".toList (.dbl x))) ∧
    log write r "n = %4i, time = %f".toList [.int i, .dbl x] = .ok (logLineOf r ("n = ".toList ++ write "%4i".toList (.int i) ++
      ", time = ".toList ++ write "%f".toList (.dbl x))) ∧
    log write r "Output mesh: %04i".toList [.int i] = .ok (logLineOf r ("Output mesh: ".toList ++ write "%04i".toList (.int i))) := by
  have hi : ∀ i, Suits "%i".toList (.int i) := fun i => .int [] [] i (by simp) (by simp) (c := 'i') (by simp)
  have h4 : ∀ i, Suits "%4i".toList (.int i) := fun i => .int [] ['4'] i (by simp) (by simp) (c := 'i') (by simp)
  have h04 : ∀ i, Suits "%04i".toList (.int i) := fun i => .int ['0'] ['4'] i (by simp) (by simp) (c := 'i') (by simp)
  have hf : Suits "%f".toList (.dbl x) := .dbl [] [] x (by simp) (by simp) (c := 'f') (by simp)
  have h4f : Suits "%.4f".toList (.dbl x) := .precise [] [] ['4'] x (by simp) (by simp) (by simp) (c := 'f') (by simp)
  have h8e : Suits "%.8e".toList (.dbl x) := .precise [] [] ['8'] x (by simp) (by simp) (by simp) (c := 'e') (by simp)
  have two : ∀ {a b s t m : Text} {u v : PrintArg}, m = a ++ s ++ b ++ t → '%' ∉ a → '%' ∉ b → Suits s u → Suits t v →
      log write r m [u, v] = .ok (logLineOf r (a ++ write s u ++ b ++ write t v)) := by
    intro a b s t m u v hm ha hb hs ht
    have := C87_arguments (write := write) r [⟨a, s, u⟩, ⟨b, t, v⟩] [] [] (by simp [ha, hb, hs, ht]) (by simp)
    simpa [hm] using this
  have one : ∀ {a s m : Text} {u : PrintArg}, m = a ++ s → '%' ∉ a → Suits s u → log write r m [u] = .ok (logLineOf r (a ++ write s u)) := by
    intro a s m u hm ha hs
    have := C87_arguments (write := write) r [⟨a, s, u⟩] [] [] (by simp [ha, hs]) (by simp)
    simpa [hm] using this
  have three : ∀ {a b c m : Text}, m = a ++ "%i".toList ++ b ++ "%i".toList ++ c ++ "%i".toList → '%' ∉ a → '%' ∉ b → '%' ∉ c →
      log write r m [.int i, .int j, .int k] = .ok (logLineOf r (a ++ write "%i".toList (.int i) ++ b ++ write "%i".toList (.int j) ++ c ++
        write "%i".toList (.int k))) := by
    intro a b c m hm ha hb hc
    have := C87_arguments (write := write) r [⟨a, "%i".toList, .int i⟩, ⟨b, "%i".toList, .int j⟩, ⟨c, "%i".toList, .int k⟩] [] []
      (fun f hf => by
        simp only [List.mem_cons, List.not_mem_nil, or_false] at hf
        rcases hf with rfl | rfl | rfl
        · exact ⟨ha, hi i⟩
        · exact ⟨hb, hi j⟩
        · exact ⟨hc, hi k⟩) (by simp)
    simpa [hm] using this
  exact ⟨three (by decide) (by decide) (by decide) (by decide), three (by decide) (by decide) (by decide) (by decide),
    two (by decide) (by decide) (by decide) (h4 i) h8e, one (by decide) (by decide) h4f,
    two (by decide) (by decide) (by decide) (h4 i) hf, one (by decide) (by decide) (h04 i)⟩

/-- Three lines: a message as it is, one with two arguments, and one with a doubled percent sign. -/
example (n : Nat) : log write n "Begin HPS Build Stage".toList [] = .ok (logLineOf n "Begin HPS Build Stage".toList) ∧
    log write n "50%% done".toList [] = .ok (logLineOf n "50% done".toList) ∧
    log write n "%i of %i".toList [.int 3] = .ub := by
  refine ⟨C87_verbatim_partial n (by decide), (C87_plain_actual n _ _).mpr ⟨"50% done".toList, by decide, rfl⟩, ?_⟩
  rw [log_eq]
  have : printfFrom write none ("%i of %i".toList ++ ['\n']) [.int 3] = .ub := rfl
  rw [this]
  rfl

end EF
