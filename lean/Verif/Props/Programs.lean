import Verif.Model.Programs
import Verif.Props.Options

/-!
# C81: options on the command line of the example programs
-/

namespace EF

open Options

variable {K : Type}

/-! ## What is claimed -/

/-- The argument `--key=value`. -/
def longOption (e : Text × Text) : Text := '-' :: '-' :: (e.1 ++ '=' :: e.2)

/-- The claim for a program: a command line of long options, each with a boolean, an unsigned integer or a decimal, is accepted,
and every option then has the value given last for it. -/
def Example.CommandLineCounts [Field K] (p : Example) (pi : K) (stod : Text → Res K) : Prop :=
  ∀ given : List (Text × Text), (∀ e ∈ given, '=' ∉ e.1 ∧ ∃ v : OptVal K, Supported e.2 v) →
    ∃ o, p.start pi stod (given.map longOption) = .ok o ∧
      ∀ key t v, lastEntry given key = some t → Denotes t v → o key = some v

/-- The value a list of assignments leaves under a key. -/
def assigned (s : List (Text × OptVal K)) (key : Text) : Option (OptVal K) := (s.reverse.find? (fun e => e.1 = key)).map Prod.snd

/-! ## Lemmas -/

theorem setAll_eq (o : Options K) (s : List (Text × OptVal K)) (key : Text) :
    o.setAll s key = match assigned s key with | some v => some v | none => o key := by
  induction s using List.reverseRecOn with
  | nil => rfl
  | append_singleton s e ih =>
    unfold setAll at ih ⊢
    rw [List.foldl_append]
    show Options.set _ e.1 e.2 key = _
    unfold Options.set assigned
    rw [List.reverse_append, List.reverse_singleton, List.singleton_append, List.find?_cons]
    by_cases h : key = e.1
    · rw [if_pos h]
      simp [h]
    · have h' : ¬ e.1 = key := fun h' => h h'.symm
      simp only [if_neg h, h', decide_false]
      exact ih

theorem parseArg_long (stod : Text → Res K) (o : Options K) {e : Text × Text} (h : '=' ∉ e.1) :
    parseArg stod o (longOption e) = checkValue stod e.2 >>= fun x => .ok (o.set e.1 x) := by
  unfold parseArg longOption
  rw [if_pos (by simp), if_pos (by simp), if_pos (by simp)]
  simp only [List.drop_succ_cons, List.drop_zero]
  rw [takeWhile_until h]
  rfl

theorem parse_long (stod : Text → Res K) (given : List (Text × Text)) (h : ∀ e ∈ given, '=' ∉ e.1) (o : Options K) :
    parse stod o (given.map longOption) = store stod o given := by
  induction given generalizing o with
  | nil => rfl
  | cons e es ih =>
    unfold parse store
    rw [List.map_cons, List.foldlM_cons, List.foldlM_cons, parseArg_long stod o (h e (List.mem_cons_self ..))]
    cases checkValue stod e.2 with
    | ok x => exact ih (fun e he => h e (List.mem_cons_of_mem _ he)) _
    | throw _ => rfl
    | ub => rfl

section

variable [Field K]

theorem construct_long {stod : Text → Res K} (hs : StodContract stod) (given : List (Text × Text))
    (h : ∀ e ∈ given, '=' ∉ e.1 ∧ ∃ v : OptVal K, Supported e.2 v) :
    ∃ o, Options.construct stod (given.map longOption) = .ok o ∧
      ∀ key, match lastEntry given key with
        | some t => ∃ v, o key = some v ∧ Denotes t v
        | none => o key = none := by
  classical
  unfold Options.construct
  rw [parse_long stod given (fun e he => (h e he).1)]
  let val : Text → OptVal K := fun t => if h : ∃ v : OptVal K, Supported t v then h.choose else .str []
  have hval : ∀ e ∈ given, Supported e.2 (val e.2) := by
    intro e he
    have h := (h e he).2
    show Supported e.2 (if h : ∃ v : OptVal K, Supported e.2 v then h.choose else .str [])
    rw [dif_pos h]
    exact h.choose_spec
  obtain ⟨o, h1, h2⟩ := store_ok stod val given (fun e he => checkValue_supported hs (hval e he)) Options.empty
  refine ⟨o, h1, fun key => ?_⟩
  have h3 := h2 key
  cases hk : lastEntry given key with
  | none => rw [hk] at h3; exact h3
  | some t =>
    rw [hk] at h3
    refine ⟨val t, h3, ?_⟩
    unfold lastEntry at hk
    obtain ⟨e, he, rfl⟩ := Option.map_eq_some_iff.mp hk
    exact (hval e (List.mem_reverse.mp (List.mem_of_find?_eq_some he))).denotes

/-! ## What the programs do -/

/-- For every command line: the program starts exactly when the command line can be parsed; the options its `main` stores then have
the values written there, all others are as parsed. -/
theorem C81_start_actual (p : Example) (pi : K) (stod : Text → Res K) (args : List Text) :
    (∀ o, Options.construct stod args = .ok o → ∃ o', p.start pi stod args = .ok o' ∧
      ∀ key, o' key = match assigned (p.settings pi) key with | some v => some v | none => o key) ∧
    (∀ e, Options.construct stod args = .throw e → p.start pi stod args = .throw e) := by
  constructor
  · intro o ho
    refine ⟨_, ?_, fun key => setAll_eq o _ key⟩
    unfold Example.start
    rw [ho]
    rfl
  · intro e he
    unfold Example.start
    rw [he]
    rfl

theorem start_key {p : Example} {pi : K} {stod : Text → Res K} {args : List Text} {o : Options K}
    (h : p.start pi stod args = .ok o) (key : Text) {v : OptVal K} (hv : assigned (p.settings pi) key = some v) : o key = some v := by
  unfold Example.start at h
  cases hc : Options.construct stod args with
  | ok o1 =>
    rw [hc] at h
    obtain rfl := Res.ok.inj h
    rw [setAll_eq, hv]
  | throw e => rw [hc] at h; cases h
  | ub => rw [hc] at h; cases h

theorem getBool_some {o : Options K} {key : Text} {b : Bool} (h : o key = some (.bool b)) : o.getBool key = .ok b := by
  unfold getBool Options.read
  rw [h]
  rfl

theorem getInt_some {o : Options K} {key : Text} {i : Int} (h : o key = some (.int i)) : o.getInt key = .ok i := by
  unfold getInt Options.read
  rw [h]
  rfl

theorem getReal_some {o : Options K} {key : Text} {x : K} (h : o key = some (.real x)) : o.getReal key = .ok x := by
  unfold getReal Options.read
  rw [h]
  rfl

/-- Whatever the command line, the library reads the two options it asks for without an error, and both are off: giving
`--cache-operators=true` or `--homogeneous-rhs=true` changes nothing. -/
theorem C81_library_actual (p : Example) (pi : K) (stod : Text → Res K) (args : List Text) (o : Options K)
    (h : p.start pi stod args = .ok o) : o.library = .ok (false, false) := by
  have h1 : o "cache-operators".toList = some (.bool false) := start_key h _ (by cases p <;> rfl)
  have h2 : o "homogeneous-rhs".toList = some (.bool false) := start_key h _ (by cases p <;> rfl)
  unfold library
  rw [getBool_some h1, getBool_some h2]
  rfl

/-- The options the convergence study reads in each of its runs, whatever the command line: no read fails, and the values are
those written in the program. -/
theorem C81_study_actual (pi : K) (stod : Text → Res K) (args : List Text) (o : Options K)
    (h : Example.multiple.start pi stod args = .ok o) (runs : List (Nat × Nat × Nat)) :
    o.study runs = .ok (runs.map (fun r =>
      (⟨1, r.1, r.2.1, r.2.2, r.2.2, 12 / 10, 0, pi, 0, pi, false⟩, false, false))) := by
  suffices H : ∀ (o : Options K), (∀ key v, assigned (Example.multiple.settings pi) key = some v → o key = some v) →
      o.study runs = .ok (runs.map (fun r =>
        (⟨1, r.1, r.2.1, r.2.2, r.2.2, 12 / 10, 0, pi, 0, pi, false⟩, false, false))) from
    H o (fun key v hv => start_key h key hv)
  clear h
  induction runs with
  | nil => intro o _; rfl
  | cons r rs ih =>
    intro o ho
    obtain ⟨lo, hi, n⟩ := r
    have hset : ∀ key, o.setAll [("min-level".toList, .int lo), ("max-level".toList, .int hi), ("nx".toList, .int n),
        ("ny".toList, .int n)] key = match assigned (K := K) [("min-level".toList, .int lo), ("max-level".toList, .int hi),
        ("nx".toList, .int n), ("ny".toList, .int n)] key with | some v => some v | none => o key := fun key => setAll_eq o _ key
    unfold study
    generalize o.setAll [("min-level".toList, .int lo), ("max-level".toList, .int hi), ("nx".toList, .int n),
        ("ny".toList, .int n)] = o1 at hset
    have old : ∀ key v, assigned (Example.multiple.settings pi) key = some v → o1 key = some v := by
      intro key v hv
      rw [hset key, ← ho key v hv]
      cases ha : assigned (K := K) [("min-level".toList, .int lo), ("max-level".toList, .int hi), ("nx".toList, .int n),
        ("ny".toList, .int n)] key with
      | none => rfl
      | some w =>
        exfalso
        unfold assigned at ha hv
        obtain ⟨e, he, -⟩ := Option.map_eq_some_iff.mp ha
        obtain ⟨e', he', -⟩ := Option.map_eq_some_iff.mp hv
        have m1 := List.mem_reverse.mp (List.mem_of_find?_eq_some he)
        have m2 := List.mem_reverse.mp (List.mem_of_find?_eq_some he')
        have k1 : e.1 = key := by simpa using List.find?_some he
        have k2 : e'.1 = key := by simpa using List.find?_some he'
        have hk : e.1 ∈ ["min-level".toList, "max-level".toList, "nx".toList, "ny".toList] :=
          List.mem_map_of_mem (f := Prod.fst) m1
        have hk' : e'.1 ∈ ["cache-operators".toList, "homogeneous-rhs".toList, "refinement-threshold".toList, "n-solves".toList,
          "x-lower".toList, "x-upper".toList, "y-lower".toList, "y-upper".toList, "vtk-flag".toList] :=
          List.mem_map_of_mem (f := Prod.fst) m2
        rw [k1] at hk
        rw [k2] at hk'
        have hdisj : ∀ k ∈ ["min-level".toList, "max-level".toList, "nx".toList, "ny".toList],
          k ∉ ["cache-operators".toList, "homogeneous-rhs".toList, "refinement-threshold".toList, "n-solves".toList,
          "x-lower".toList, "x-upper".toList, "y-lower".toList, "y-upper".toList, "vtk-flag".toList] := by decide
        exact hdisj key hk hk'
    have hrun : o1.run = .ok ⟨1, lo, hi, n, n, 12 / 10, 0, pi, 0, pi, false⟩ := by
      unfold Options.run
      rw [getInt_some (old "n-solves".toList _ rfl), getInt_some (hset "min-level".toList), getInt_some (hset "max-level".toList),
        getInt_some (hset "nx".toList), getInt_some (hset "ny".toList), getReal_some (old "refinement-threshold".toList _ rfl),
        getReal_some (old "x-lower".toList _ rfl), getReal_some (old "x-upper".toList _ rfl),
        getReal_some (old "y-lower".toList _ rfl), getReal_some (old "y-upper".toList _ rfl),
        getBool_some (old "vtk-flag".toList _ rfl)]
      rfl
    have hlib : o1.library = .ok (false, false) := by
      unfold library
      rw [getBool_some (old "cache-operators".toList _ rfl), getBool_some (old "homogeneous-rhs".toList _ rfl)]
      rfl
    dsimp only
    rw [hrun, hlib, ih o1 old]
    rfl

/-! ## The claim is false, and what remains of it -/

/-- C81 is false for each of the three programs: with `--cache-operators=true` as the only argument the option is `false`. -/
theorem C81_command_line_wrong (p : Example) (pi : K) (stod : Text → Res K) : ¬ p.CommandLineCounts pi stod := by
  intro h
  obtain ⟨o, h1, h2⟩ := h [("cache-operators".toList, ['t', 'r', 'u', 'e'])] (by
    intro e he
    rw [List.mem_singleton.mp he]
    exact ⟨by decide, _, .isTrue⟩)
  have h3 := h2 "cache-operators".toList _ _ rfl .isTrue
  rw [start_key h1 "cache-operators".toList (v := .bool false) (by cases p <;> rfl)] at h3
  simp at h3

/-- No option the program stores depends on the command line: after any two command lines it has the same value. -/
theorem C81_ignored_actual (p : Example) (pi : K) (stod : Text → Res K) (args args' : List Text) (o o' : Options K)
    (h : p.start pi stod args = .ok o) (h' : p.start pi stod args' = .ok o') (key : Text) (hk : ∃ e ∈ p.settings pi, e.1 = key) :
    o key = o' key ∧ ∃ v, (key, v) ∈ p.settings pi ∧ o key = some v := by
  obtain ⟨e, he, rfl⟩ := hk
  have h1 : ∃ e', (p.settings pi).reverse.find? (fun x => x.1 = e.1) = some e' := by
    rw [← Option.isSome_iff_exists, List.find?_isSome]
    exact ⟨e, List.mem_reverse.mpr he, by simp⟩
  obtain ⟨e', he'⟩ := h1
  have h2 : assigned (p.settings pi) e.1 = some e'.2 := by
    unfold assigned
    rw [he']
    rfl
  have h3 : e'.1 = e.1 := by simpa using List.find?_some he'
  rw [start_key h _ h2, start_key h' _ h2]
  refine ⟨rfl, e'.2, ?_, rfl⟩
  rw [← h3]
  exact List.mem_reverse.mp (List.mem_of_find?_eq_some he')

/-- Options the program does not store itself have the value given last on the command line, and none if none was given.  Missing
from C81: the options the program stores. -/
theorem C81_other_options_partial (p : Example) (pi : K) {stod : Text → Res K} (hs : StodContract stod)
    (given : List (Text × Text)) (h : ∀ e ∈ given, '=' ∉ e.1 ∧ ∃ v : OptVal K, Supported e.2 v) :
    ∃ o, p.start pi stod (given.map longOption) = .ok o ∧
      ∀ key, (∀ e ∈ p.settings pi, e.1 ≠ key) →
        match lastEntry given key with
        | some t => ∃ v, o key = some v ∧ Denotes t v
        | none => o key = none := by
  obtain ⟨o, h1, h2⟩ := construct_long hs given h
  obtain ⟨o', h3, h4⟩ := (C81_start_actual p pi stod _).1 o h1
  refine ⟨o', h3, fun key hk => ?_⟩
  have h5 : assigned (p.settings pi) key = none := by
    unfold assigned
    rw [List.find?_eq_none.mpr (fun e he => by simpa using hk e (List.mem_reverse.mp he))]
    rfl
  have h6 := h4 key
  rw [h5] at h6
  rw [h6]
  exact h2 key

/-- An argument `--key=` without a value ends each of the programs with an exception, also if they do not use the option. -/
theorem C81_empty_value_actual (p : Example) (pi : K) (stod : Text → Res K) (before after : List Text) (key : Text) (o : Options K)
    (hb : Options.construct stod before = .ok o) (hk : '=' ∉ key) :
    p.start pi stod (before ++ longOption (key, []) :: after) = .throw .invalidArgument := by
  refine (C81_start_actual p pi stod _).2 _ ?_
  unfold Options.construct parse at hb ⊢
  rw [List.foldlM_append, hb]
  show (List.foldlM (parseArg stod) o (longOption (key, []) :: after)) = _
  rw [List.foldlM_cons, parseArg_long stod o hk]
  rfl

end

/-! ## The hypotheses are met -/

/-- A command line with an option the programs store, one they do not, and one given twice. -/
example : ∃ stod : Text → Res ℚ, StodContract stod ∧
    (∀ e ∈ [("nx".toList, "64".toList), ("my-tolerance".toList, "0.5".toList), ("my-tolerance".toList, "0.25".toList)],
      '=' ∉ e.1 ∧ ∃ v : OptVal ℚ, Supported e.2 v) ∧
    (∀ e ∈ Example.thermal.settings (3 : ℚ), e.1 ≠ "my-tolerance".toList) ∧
    lastEntry [("nx".toList, "64".toList), ("my-tolerance".toList, "0.5".toList), ("my-tolerance".toList, "0.25".toList)]
      "my-tolerance".toList = some "0.25".toList ∧
    assigned (Example.thermal.settings (3 : ℚ)) "nx".toList = some (.int 16) := by
  obtain ⟨stod, hs⟩ := stod_exists (K := ℚ)
  refine ⟨stod, hs, ?_, ?_, by decide, rfl⟩
  · intro e he
    simp only [List.mem_cons, List.not_mem_nil, or_false] at he
    rcases he with rfl | rfl | rfl
    · exact ⟨by decide, _, .nat (by unfold Digits; decide) (by decide) (by decide)⟩
    · exact ⟨by decide, _, .dec ⟨false, ['0'], ['5'], by unfold Digits; decide, by unfold Digits; decide, by decide, by decide, rfl⟩⟩
    · exact ⟨by decide, _, .dec ⟨false, ['0'], ['2', '5'], by unfold Digits; decide, by unfold Digits; decide, by decide, by decide,
        rfl⟩⟩
  · intro e he
    have h1 : e.1 ∈ (Example.thermal.settings (3 : ℚ)).map Prod.fst := List.mem_map_of_mem he
    have h2 : (Example.thermal.settings (3 : ℚ)).map Prod.fst = ["cache-operators".toList, "homogeneous-rhs".toList,
      "vtk-flag".toList, "refinement-threshold".toList, "min-level".toList, "max-level".toList, "x-lower".toList, "x-upper".toList,
      "y-lower".toList, "y-upper".toList, "nx".toList, "ny".toList, "t-start".toList, "t-end".toList, "nt".toList, "dt".toList,
      "n-vtk".toList, "T-left".toList, "T-right".toList] := rfl
    rw [h2] at h1
    rintro h3
    rw [h3] at h1
    exact absurd h1 (by decide)

/-- The options of a program start without arguments. -/
example (pi : ℚ) (stod : Text → Res ℚ) : ∃ o, Example.multiple.start pi stod [] = .ok o ∧ Options.construct stod [] = .ok Options.empty :=
  ⟨_, rfl, rfl⟩

end EF
