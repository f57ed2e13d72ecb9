import Verif.Proofs.Options
import Mathlib.Data.Rat.Defs
import Mathlib.Algebra.Field.Rat

/-!
# C45: options are stored and read back with their type
-/

namespace EF

open Options

variable {K : Type}

/-! ## Through the API -/

/-- A call on an options object: store a value, read one with `operator[]`, or ask whether a key is there. -/
inductive OptionCall (K : Type) where
  | set (key : Text) (v : OptVal K)
  | read (key : Text)
  | ask (key : Text)

/-- The map after one call. -/
def OptionCall.run (o : Options K) : OptionCall K → Options K
  | .set k v => o.set k v
  | .read k => (o.read k).1
  | .ask _ => o

/-- The value most recently stored under a key in a list of calls. -/
def lastSet (key : Text) : List (OptionCall K) → Option (OptVal K)
  | [] => none
  | c :: cs =>
    match lastSet key cs, c with
    | some v, _ => some v
    | none, .set k v => if k = key then some v else none
    | none, _ => none

/-- Whatever calls were made, reading a key gives the value most recently stored under it; a key never
stored gives the value it had before, or the empty string if it had none. -/
theorem C45_api (o : Options K) (calls : List (OptionCall K)) (key : Text) :
    ((calls.foldl OptionCall.run o).read key).2 =
      match lastSet key calls with
      | some v => v
      | none => (o key).getD (.str []) := by
  induction calls generalizing o with
  | nil =>
    show (o.read key).2 = (o key).getD (.str [])
    unfold Options.read
    cases h : o key <;> rfl
  | cons c cs ih =>
    rw [List.foldl_cons, ih (OptionCall.run o c)]
    cases hl : lastSet key cs with
    | some v => simp only [lastSet, hl]
    | none =>
      cases c with
      | set k v =>
        simp only [lastSet, hl, OptionCall.run, Options.set]
        by_cases hk : k = key
        · simp [hk]
        · have : ¬ key = k := fun h => hk h.symm
          simp [hk, this]
      | read k =>
        simp only [lastSet, hl, OptionCall.run, Options.read]
        cases hk : o k with
        | some v => rfl
        | none =>
          by_cases h : key = k
          · subst h
            simp [Options.set, hk]
          · simp [Options.set, h]
      | ask k => simp only [lastSet, hl, OptionCall.run]

/-- `optionExists` says yes for a key exactly when it was there, was stored, or was read: reading a
missing key creates it. -/
theorem C45_exists_actual (o : Options K) (calls : List (OptionCall K)) (key : Text) :
    ((calls.foldl OptionCall.run o).exists? key = true) ↔
      (o key).isSome = true ∨ (∃ v, OptionCall.set key v ∈ calls) ∨ OptionCall.read key ∈ calls := by
  induction calls generalizing o with
  | nil => simp [Options.exists?]
  | cons c cs ih =>
    rw [List.foldl_cons, ih (OptionCall.run o c)]
    cases c with
    | set k v =>
      by_cases hk : key = k
      · subst hk
        simp [OptionCall.run, Options.set]
      · simp [OptionCall.run, Options.set, hk]
    | read k =>
      by_cases hk : key = k
      · subst hk
        simp only [OptionCall.run, Options.read]
        cases h : o key <;> simp [Options.set, h]
      · simp only [OptionCall.run, Options.read]
        cases h : o k <;> simp [Options.set, hk]
    | ask k => simp [OptionCall.run]

/-! ## Through an ini file -/

/-- The claim of C45 for ini files: every legal file is read, and each key then has the value that its
last entry in the section denotes. -/
def IniFaithful [Field K] (stod : Text → Res K) : Prop :=
  ∀ (files : Text → Option Text) (o : Options K) (stem : Text) (rows : List IniRow),
    (∀ r ∈ rows, r.Legal) → files (stem ++ ['i', 'n', 'i']) = some (iniText rows) →
    ∃ o', setFromFile stod files o (stem ++ ['i', 'n', 'i']) = .ok o' ∧
      ∀ k, match lastEntry (iniEntries "EllipticForest".toList false rows) k with
        | some t => ∃ v, o' k = some v ∧ Denotes t v
        | none => o' k = o k

theorem setFromFile_ini (stod : Text → Res K) (files : Text → Option Text) (o : Options K)
    (stem : Text) :
    setFromFile stod files o (stem ++ ['i', 'n', 'i']) =
      readINI stod files o (stem ++ ['i', 'n', 'i']) "EllipticForest".toList := by
  unfold setFromFile
  rw [if_neg (by simp), if_pos (by simp)]

/-- Files whose values are booleans, integers without a sign that fit, and decimals are read as C45
promises: with any blanks, comments, other sections, repeated keys.  Missing from C45: negative integers
and texts (`C45_ini_wrong`). -/
theorem C45_ini_partial [Field K] {stod : Text → Res K} (hs : StodContract stod)
    (files : Text → Option Text) (o : Options K) (stem : Text) (rows : List IniRow)
    (hl : ∀ r ∈ rows, r.Legal) (hf : files (stem ++ ['i', 'n', 'i']) = some (iniText rows))
    (hv : ∀ e ∈ iniEntries "EllipticForest".toList false rows, ∃ v : OptVal K, Supported e.2 v) :
    ∃ o', setFromFile stod files o (stem ++ ['i', 'n', 'i']) = .ok o' ∧
      ∀ k, match lastEntry (iniEntries "EllipticForest".toList false rows) k with
        | some t => ∃ v, o' k = some v ∧ Denotes t v
        | none => o' k = o k := by
  classical
  rw [setFromFile_ini, readINI_rows stod files o _ _ rows hl hf]
  let val : Text → OptVal K := fun t =>
    if h : ∃ v : OptVal K, Supported t v then h.choose else .str []
  have hval : ∀ e ∈ iniEntries "EllipticForest".toList false rows, Supported e.2 (val e.2) := by
    intro e he
    have h := hv e he
    show Supported e.2 (if h : ∃ v : OptVal K, Supported e.2 v then h.choose else .str [])
    rw [dif_pos h]
    exact h.choose_spec
  obtain ⟨o', h1, h2⟩ := store_ok stod val (iniEntries "EllipticForest".toList false rows)
    (fun e he => checkValue_supported hs (hval e he)) o
  refine ⟨o', h1, fun k => ?_⟩
  have h3 := h2 k
  cases h : lastEntry (iniEntries "EllipticForest".toList false rows) k with
  | none => rw [h] at h3; exact h3
  | some t =>
    rw [h] at h3
    refine ⟨val t, h3, ?_⟩
    unfold lastEntry at h
    obtain ⟨e, he, rfl⟩ := Option.map_eq_some_iff.mp h
    exact (hval e (List.mem_reverse.mp (List.mem_of_find?_eq_some he))).denotes

/-- A file with one entry in the section. -/
def oneEntry (key value : Text) : List IniRow :=
  [⟨[], .header "EllipticForest".toList, []⟩, ⟨[], .entry key [' '] [' '] value, []⟩]

theorem oneEntry_legal {key value : Text} (hk : Solid key) (hv : Solid value) (he : '=' ∉ key)
    (hc : ∃ c k', key = c :: k' ∧ c ≠ ';' ∧ c ≠ '[') : ∀ r ∈ oneEntry key value, r.Legal := by
  have hb : Blanks [] := fun c hc => by simp at hc
  have hb1 : Blanks [' '] := fun c hc => by simp at hc; exact Or.inl hc
  intro r hr
  rcases List.mem_cons.mp hr with rfl | hr
  · exact ⟨hb, hb, by simp [IniLine.Legal]⟩
  · rcases List.mem_cons.mp hr with rfl | hr
    · exact ⟨hb, hb, hk, hv, he, hb1, hb1, hc⟩
    · simp at hr

/-- What a file with one entry does, in terms of `checkValue`. -/
theorem oneEntry_read (stod : Text → Res K) (files : Text → Option Text) (o : Options K)
    (stem : Text) {key value : Text} (hl : ∀ r ∈ oneEntry key value, r.Legal)
    (hf : files (stem ++ ['i', 'n', 'i']) = some (iniText (oneEntry key value))) :
    setFromFile stod files o (stem ++ ['i', 'n', 'i']) =
      checkValue stod value >>= fun x => .ok (o.set key x) := by
  rw [setFromFile_ini, readINI_rows stod files o _ _ _ hl hf]
  show store stod o [(key, value)] = _
  unfold store
  rw [List.foldlM_cons]
  cases checkValue stod value <;> rfl

/-- A text without a point that is not a boolean and not made of digits is stored as the empty string. -/
theorem checkValue_other (stod : Text → Res K) {t : Text} (h1 : t ≠ ['t', 'r', 'u', 'e'])
    (h2 : t ≠ ['f', 'a', 'l', 's', 'e']) (h3 : '.' ∉ t) (h4 : ¬ Digits t) :
    checkValue stod t = .ok (.str []) := by
  have h1' : t ≠ "true".toList := h1
  have h2' : t ≠ "false".toList := h2
  unfold checkValue
  rw [if_neg h1', if_neg h2', if_neg (by rw [isDouble_iff]; exact h3), if_neg (by rw [isInt_iff]; exact h4)]
  rfl

/-- Words and negative integers written in an ini file lose their value: the option becomes the empty
string. -/
theorem C45_lost_actual (stod : Text → Res K) (files : Text → Option Text) (o : Options K)
    (stem key value : Text) (hk : Solid key) (hv : Solid value) (he : '=' ∉ key)
    (hc : ∃ c k', key = c :: k' ∧ c ≠ ';' ∧ c ≠ '[')
    (h1 : value ≠ ['t', 'r', 'u', 'e']) (h2 : value ≠ ['f', 'a', 'l', 's', 'e']) (h3 : '.' ∉ value)
    (h4 : ¬ Digits value)
    (hf : files (stem ++ ['i', 'n', 'i']) = some (iniText (oneEntry key value))) :
    setFromFile stod files o (stem ++ ['i', 'n', 'i']) = .ok (o.set key (.str [])) := by
  rw [oneEntry_read stod files o stem (oneEntry_legal hk hv he hc) hf,
    checkValue_other stod h1 h2 h3 h4]
  rfl

/-- A word with a point in it, such as a file name, makes the read throw; so does an empty value, and so
does an integer too large for an `int`. -/
theorem C45_throws_actual [Field K] {stod : Text → Res K} (hs : StodContract stod)
    (files : Text → Option Text) (o : Options K) (stem key value : Text) (hk : Solid key)
    (hv : Solid value) (he : '=' ∉ key) (hc : ∃ c k', key = c :: k' ∧ c ≠ ';' ∧ c ≠ '[')
    (hf : files (stem ++ ['i', 'n', 'i']) = some (iniText (oneEntry key value))) :
    (value = [] ∨ (∃ c t, value = c :: t ∧ c.isAlpha = true ∧ c ∉ ['i', 'I', 'n', 'N'] ∧ '.' ∈ value) →
      setFromFile stod files o (stem ++ ['i', 'n', 'i']) = .throw .invalidArgument) ∧
    (Digits value → 2 ^ 31 ≤ digitsValue value →
      setFromFile stod files o (stem ++ ['i', 'n', 'i']) = .throw .outOfRange) := by
  rw [oneEntry_read stod files o stem (oneEntry_legal hk hv he hc) hf]
  constructor
  · rintro (rfl | ⟨c, t, rfl, hc1, hc2, hp⟩)
    · rfl
    · simp only [List.mem_cons, List.not_mem_nil, or_false, not_or] at hc2
      rw [checkValue_point stod hp, hs.letter c t hc1 hc2.1 hc2.2.1 hc2.2.2.1 hc2.2.2.2]
      rfl
  · intro hd hb
    have hne : value ≠ [] := by
      rintro rfl
      exact absurd hb (by decide)
    rw [checkValue_digits stod hd hne, if_neg (by omega)]
    rfl

/-- C45 is false for ini files, whatever `std::stod` does: `-5` is not read as the integer. -/
theorem C45_ini_wrong [Field K] (stod : Text → Res K) : ¬ IniFaithful stod := by
  intro h
  have hk : Solid ['n'] := by unfold Solid; decide
  have hv : Solid ['-', '5'] := by unfold Solid; decide
  have he : '=' ∉ ['n'] := by decide
  have hc : ∃ c k', ['n'] = c :: k' ∧ c ≠ ';' ∧ c ≠ '[' := ⟨'n', [], rfl, by decide, by decide⟩
  let files : Text → Option Text := fun _ => some (iniText (oneEntry ['n'] ['-', '5']))
  obtain ⟨o', h1, h2⟩ := h files Options.empty ['.'] _ (oneEntry_legal hk hv he hc) rfl
  have h3 : setFromFile stod files Options.empty (['.'] ++ ['i', 'n', 'i']) =
      .ok ((Options.empty : Options K).set ['n'] (.str [])) :=
    C45_lost_actual stod files Options.empty ['.'] ['n'] ['-', '5'] hk hv he hc (by decide) (by decide)
      (by decide) (by unfold Digits; decide) rfl
  have h4 : o' = (Options.empty : Options K).set ['n'] (.str []) := by
    rw [h1] at h3
    exact Res.ok.inj h3
  have h5 := h2 ['n']
  have hle : lastEntry (iniEntries "EllipticForest".toList false (oneEntry ['n'] ['-', '5'])) ['n'] =
      some ['-', '5'] := by decide
  rw [hle] at h5
  obtain ⟨v, hv1, hv2⟩ := h5
  have hd : Denotes (K := K) ['-', '5'] (.int (-5)) :=
    .int ⟨true, ['5'], by unfold Digits; decide, by decide, rfl, by decide⟩
  rw [hv2.unique hd, h4] at hv1
  simp [Options.set] at hv1

/-- A file that does not exist is read without complaint, and nothing changes. -/
theorem C45_missing_file_actual (stod : Text → Res K) (files : Text → Option Text) (o : Options K)
    (stem : Text) (hf : files (stem ++ ['i', 'n', 'i']) = none) :
    setFromFile stod files o (stem ++ ['i', 'n', 'i']) = .ok o := by
  rw [setFromFile_ini]
  unfold readINI
  rw [hf]
  rfl

/-! ## On the command line -/

theorem parse_one (stod : Text → Res K) (o : Options K) (arg : Text) :
    parse stod o [arg] = parseArg stod o arg := by
  unfold parse
  rw [List.foldlM_cons]
  cases parseArg stod o arg <;> rfl

/-- `--key=value` stores the value with its type under the same restriction as in a file. -/
theorem C45_long_option_partial [Field K] {stod : Text → Res K} (hs : StodContract stod)
    (o : Options K) (key value : Text) (v : OptVal K) (hk : '=' ∉ key) (hv : Supported value v) :
    parse stod o ['-' :: '-' :: (key ++ '=' :: value)] = .ok (o.set key v) ∧ Denotes value v := by
  refine ⟨?_, hv.denotes⟩
  rw [parse_one]
  unfold parseArg
  rw [if_pos (by simp), if_pos (by simp), if_pos (by simp)]
  simp only [List.drop_succ_cons, List.drop_zero]
  rw [takeWhile_until hk, checkValue_supported hs hv]
  rfl

/-- `-key=value` always stores the text itself, also for numbers and booleans: the same option given in
short and in long form has different types. -/
theorem C45_short_option_actual (stod : Text → Res K) (o : Options K) (key value : Text)
    (hk : '=' ∉ key) (hd : key.head? ≠ some '-') :
    parse stod o ['-' :: (key ++ '=' :: value)] = .ok (o.set key (.str value)) := by
  rw [parse_one]
  unfold parseArg
  have h2 : ((('-' : Char) :: (key ++ '=' :: value)).drop 1).head? ≠ some '-' := by
    cases key with
    | nil => simp
    | cons c k => simpa using hd
  rw [if_pos (by simp), if_neg h2, if_pos (by simp)]
  simp only [List.drop_succ_cons, List.drop_zero]
  rw [takeWhile_until hk]
  rfl

/-- An option that steers the solver must be set before it is used: a missing one, one given without a
value, and one given in short form all make the solver throw. -/
theorem C45_switch_actual (stod : Text → Res K) (o : Options K) (key : Text) (hk : '=' ∉ key)
    (hd : key.head? ≠ some '-') (b : Bool) :
    (o key = none → o.getBool key = .throw .badVariant) ∧
    (∀ o', parse stod o ['-' :: '-' :: key] = .ok o' → o'.getBool key = .throw .badVariant) ∧
    (∀ o' value, parse stod o ['-' :: (key ++ '=' :: value)] = .ok o' →
      o'.getBool key = .throw .badVariant) ∧
    (∀ o', parse stod o ['-' :: '-' :: (key ++ '=' :: (toString b).toList)] = .ok o' →
      o'.getBool key = .ok b) := by
  refine ⟨?_, ?_, ?_, ?_⟩
  · intro h
    unfold getBool Options.read
    rw [h]
  · intro o' h
    rw [parse_one] at h
    unfold parseArg at h
    rw [if_pos (by simp), if_pos (by simp), if_neg (by simpa using hk)] at h
    obtain rfl := Res.ok.inj h
    unfold getBool Options.read
    simp [Options.set]
  · intro o' value h
    rw [C45_short_option_actual stod o key value hk hd] at h
    obtain rfl := Res.ok.inj h
    unfold getBool Options.read
    simp [Options.set]
  · intro o' h
    rw [parse_one] at h
    unfold parseArg at h
    rw [if_pos (by simp), if_pos (by simp), if_pos (by simp)] at h
    simp only [List.drop_succ_cons, List.drop_zero] at h
    rw [takeWhile_until hk] at h
    have hc : checkValue stod (toString b).toList = .ok (.bool b) := by cases b <;> rfl
    rw [hc] at h
    obtain rfl := Res.ok.inj h
    unfold getBool Options.read
    simp [Options.set]

/-! ## The hypotheses are met -/

/-- A file with a comment, another section, blanks around things, and a repeated key. -/
def exRows : List IniRow :=
  [⟨[], .comment " settings".toList, []⟩,
   ⟨[], .header "Other".toList, []⟩,
   ⟨[' '], .entry "n".toList [] [] "7".toList, []⟩,
   ⟨['\t'], .header "EllipticForest".toList, [' ']⟩,
   ⟨[' ', ' '], .entry "n".toList [' '] [' '] "12".toList, [' ']⟩,
   ⟨[], .blank, []⟩,
   ⟨[], .entry "tol".toList [] [] "-0.5".toList, []⟩,
   ⟨[], .entry "n".toList [] [] "16".toList, []⟩,
   ⟨[], .entry "cache-operators".toList [' '] [' '] "true".toList, []⟩]

example : ∃ stod : Text → Res ℚ, StodContract stod ∧
    (∀ r ∈ exRows, r.Legal) ∧
    (∀ e ∈ iniEntries "EllipticForest".toList false exRows, ∃ v : OptVal ℚ, Supported e.2 v) ∧
    lastEntry (iniEntries "EllipticForest".toList false exRows) "n".toList = some "16".toList := by
  obtain ⟨stod, hs⟩ := stod_exists (K := ℚ)
  refine ⟨stod, hs, ?_, ?_, by decide⟩
  · have hcons : ∀ (c : Char) (k : Text), c ≠ ';' → c ≠ '[' →
        ∃ c' k', c :: k = c' :: k' ∧ c' ≠ ';' ∧ c' ≠ '[' := fun c k h1 h2 => ⟨c, k, rfl, h1, h2⟩
    intro r hr
    simp only [exRows, List.mem_cons, List.not_mem_nil, or_false] at hr
    rcases hr with rfl | rfl | rfl | rfl | rfl | rfl | rfl | rfl | rfl <;>
      refine ⟨by unfold Blanks; decide, by unfold Blanks; decide, ?_⟩ <;>
      first
        | exact trivial
        | (show _ ∉ _; decide)
        | (refine ⟨by unfold Solid; decide, by unfold Solid; decide, by decide, by unfold Blanks; decide,
            by unfold Blanks; decide, hcons _ _ (by decide) (by decide)⟩)
  · have hes : iniEntries "EllipticForest".toList false exRows =
        [("n".toList, "12".toList), ("tol".toList, "-0.5".toList), ("n".toList, "16".toList),
         ("cache-operators".toList, "true".toList)] := by decide
    rw [hes]
    intro e he
    simp only [List.mem_cons, List.not_mem_nil, or_false] at he
    rcases he with rfl | rfl | rfl | rfl
    · exact ⟨_, .nat (by unfold Digits; decide) (by decide) (by decide)⟩
    · exact ⟨_, .dec ⟨true, ['0'], ['5'], by unfold Digits; decide, by unfold Digits; decide, by decide,
        by decide, rfl⟩⟩
    · exact ⟨_, .nat (by unfold Digits; decide) (by decide) (by decide)⟩
    · exact ⟨_, .isTrue⟩

end EF
