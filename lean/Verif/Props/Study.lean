import Verif.Proofs.Study

/-!
# The results file of the convergence study (C80)
-/

namespace EF

open Finset FV HPS

/-! ## Digits -/

/-- C80, the numbers: what is written for a double is nearer to it than to any other double, for all doubles, so that a reader that
rounds to the nearest gets the double back. -/
theorem C80_digits {x : ℚ} (hx : IsDouble x) : ReadsBack (number2string x) x := by
  by_cases h0 : x = 0
  · subst h0
    refine ⟨0, by decide +kernel, fun y hy hne => ?_⟩
    rw [sub_zero, abs_zero, zero_sub, abs_neg]
    exact abs_pos.mpr hne
  obtain ⟨a1, a2, a3, a4, a5⟩ := sciParts_near h0
  obtain ⟨b1, b2⟩ := hx.exponent h0
  have ha : 0 < |x| := abs_pos.mpr h0
  obtain ⟨sign, s, hs, ht, hsx, hl⟩ : ∃ (sign : Text) (s : ℚ), (sign = [] ∧ s = 1 ∨ sign = ['-'] ∧ s = -1) ∧
      sciText x = sign ++ sciForm (sciParts x).1 (sciParts x).2 ∧ s * |x| = x ∧ sign.length ≤ 1 := by
    unfold sciText
    rw [if_neg h0]
    by_cases hn : x < 0
    · exact ⟨['-'], -1, .inr ⟨rfl, rfl⟩, by rw [if_pos hn], by rw [abs_of_neg hn]; ring, le_rfl⟩
    · exact ⟨[], 1, .inl ⟨rfl, rfl⟩, by rw [if_neg hn], by rw [abs_of_nonneg (not_lt.mp hn)]; ring, Nat.zero_le _⟩
  have hlen : (sciText x).length ≤ 31 := by
    have := sciForm_length (m := (sciParts x).1) (e := (sciParts x).2) a1 a2 (by omega)
    rw [ht, List.length_append]
    omega
  obtain ⟨d, hd⟩ : ∃ d, d = s * ((sciParts x).1 * 10 ^ ((sciParts x).2 - 16)) := ⟨_, rfl⟩
  refine ⟨d, ?_, fun y hy hne => ?_⟩
  · unfold number2string
    rw [List.take_of_length_le hlen, ht, readScientific_form a1 a2 sign s hs, hd]
  · have e1 : |d - x| ≤ |x| / 10 ^ 16 / 2 := by
      have e2 : d - x = s * ((sciParts x).1 * 10 ^ ((sciParts x).2 - 16) - |x|) := by
        rw [mul_sub, hsx, hd]
      have e3 : |s| = 1 := by rcases hs with ⟨-, rfl⟩ | ⟨-, rfl⟩ <;> norm_num
      rw [e2, abs_mul, e3, one_mul]
      exact a5
    have e2 := hx.apart hy hne
    have e3 : |x - y| ≤ |d - x| + |d - y| := by
      have := abs_sub_le x d y
      rwa [abs_sub_comm x d] at this
    linarith

/-- The text of a double has no separator. -/
theorem number2string_plain (x : ℚ) : ',' ∉ number2string x ∧ '\n' ∉ number2string x := by
  constructor <;>
  · intro hc
    have := sciText_chars (List.mem_of_mem_take hc)
    revert this
    decide

/-! ## The file -/

section
variable {K : Type} [Field K] [LinearOrder K] [IsStrictOrderedRing K]

/-- C80, the file of every rank, for every family of meshes, every number of ranks and every list of patch sizes and levels: the study
ends on all ranks, no rank waiting forever.  Rank `r` writes the file named after it; read as a table, it has the names of the columns and
then one row for every run, first those of the uniform and then those of the adaptive analysis, without the runs of more than `1024`
cells per side; all lines end with a comma, hence an empty last field.  A row has what the run reports (C70, C79) and the times of the
build stage and of the last upwards and solve stages of that run alone. -/
theorem C80_file_actual {c : StudyCase K} (h0 : c.opt.homogeneousRhs = false) (h1 : c.opt.cacheOperators = false) (hx : c.xl < c.xu)
    (hy : c.yl < c.yu) (hq : IsSqrt c.sqrt) {n : Nat} (hn : c.solves = n + 1) {M size : Nat} {F : Nat → Nat → Nat → Forest}
    {sizes levels : List Nat}
    (h : ∀ j ∈ studyRuns true sizes levels ++ studyRuns false sizes levels, c.Fine M size j (F j.minLevel j.maxLevel j.N))
    (clock : Nat → Nat → K) {tell : K → Text} (ht : ∀ x, ',' ∉ tell x ∧ '\n' ∉ tell x) (s : AppClock K) :
    ∃ (E : StudyRun → Nat → ErrorReport K) (Z : StudyRun → Nat → ℚ) (file : Nat → Text × Text),
      (∀ j ∈ studyRuns true sizes levels ++ studyRuns false sizes levels,
        AlwaysEnds (studyOn M size (F j.minLevel j.maxLevel j.N) c.lap c.ps c.opt (c.root j.N) c.f c.bc c.solves c.sqrt c.exact j.maxLevel)
          (E j) ∧
        AlwaysEnds (memoryOn M size (F j.minLevel j.maxLevel j.N) c.lap c.ps c.opt (c.root j.N) c.f c.bc c.solves) (Z j)) ∧
      AlwaysEnds (c.on M size F clock tell sizes levels s) file ∧
      ∀ r, r < size → (file r).1 = "elliptic_results_".toList ++ natText r ++ ".csv".toList ∧
        readTable (file r).2 = (resultColumns :: studyRows tell (clock r) n (fun j => E j r) (fun j => Z j r) s.ticks
          (studyRuns true sizes levels ++ studyRuns false sizes levels)).map (fun l => l ++ [[]]) ++ [[[]]] := by
  set js := studyRuns true sizes levels ++ studyRuns false sizes levels with hjs
  have key : ∀ j, ∃ (E : Nat → ErrorReport K) (Z : Nat → ℚ), j ∈ js →
      AlwaysEnds (studyOn M size (F j.minLevel j.maxLevel j.N) c.lap c.ps c.opt (c.root j.N) c.f c.bc c.solves c.sqrt c.exact j.maxLevel) E ∧
      AlwaysEnds (memoryOn M size (F j.minLevel j.maxLevel j.N) c.lap c.ps c.opt (c.root j.N) c.f c.bc c.solves) Z ∧
      ∀ s : Nat → AppClock K, Runs (fun r => r < size)
        (fun r => c.run ⟨M, size, r, F j.minLevel j.maxLevel j.N⟩ (clock r) j.minLevel j.maxLevel j.N (s r))
        (fun r => (c.result (clock r) j (E r) (Z r) (s r), (s r).stages (clock r) c.solves)) := by
    intro j
    by_cases hj : j ∈ js
    · obtain ⟨E, Z, k⟩ := StudyCase.run_runs h0 h1 hx hy hq hn (h j hj) clock
      exact ⟨E, Z, fun _ => k⟩
    · exact ⟨fun _ => ⟨0, 0, 0, 0, 0⟩, fun _ => 0, fun h => absurd h hj⟩
  choose E Z hk using key
  let step : Nat → StudyState K → StudyRun → StudyState K := fun r s j =>
    ⟨(s.clock.stages (clock r) c.solves).restart, s.results ++ [c.result (clock r) j (E j r) (Z j r) s.clock]⟩
  have r1 : Runs (fun r => r < size) (fun r => js.foldlM (c.job (fun a b N => ⟨M, size, r, F a b N⟩) (clock r)) ⟨s, []⟩)
      (fun r => js.foldl (step r) ⟨s, []⟩) := by
    refine Runs.fold (job := fun r => c.job (fun a b N => ⟨M, size, r, F a b N⟩) (clock r)) (step := step) (fun j hj st => ?_)
      (fun _ => ⟨s, []⟩)
    have k := (hk j hj).2.2 (fun r => (st r).clock)
    refine (Runs.bind k (q := fun r x => (pure ⟨x.2.restart, (st r).results ++ [x.1]⟩ : Prog (Patch K) (StudyState K)))
      (w := fun r => step r (st r) j) (Runs.pure fun r _ => rfl)).congr (fun r _ => rfl) (fun r _ => rfl)
  have r2 := Runs.bind r1 (q := fun r x => (pure (studyFile tell r x.results) : Prog (Patch K) (Text × Text)))
    (w := fun r => studyFile tell r (js.foldl (step r) ⟨s, []⟩).results) (Runs.pure fun r _ => rfl)
  have r3 : Runs (fun r => r < size) (fun r => c.program (fun a b N => ⟨M, size, r, F a b N⟩) (clock r) tell r sizes levels s)
      (fun r => studyFile tell r (js.foldl (step r) ⟨s, []⟩).results) := by
    refine r2.congr (fun r _ => ?_) (fun r _ => rfl)
    unfold StudyCase.program
    rw [hjs, List.foldlM_append, bind_assoc, StudyCase.analysis_jobs]
    simp only [StudyCase.analysis_jobs]
  refine ⟨E, Z, _, fun j hj => ⟨(hk j hj).1, (hk j hj).2.1⟩, Runs.ends r3 ([], []), fun r hr => ?_⟩
  beta_reduce
  rw [if_pos hr]
  have e1 := c.results_fold (clock r) (fun j => E j r) (fun j => Z j r) hn tell js ⟨s, []⟩
  rw [List.map_nil, List.nil_append] at e1
  exact ⟨studyFile_name tell r _, studyFile_table tell r _ e1 (studyRows_plain ht _ _ _ _ _ _)⟩

/-- C80, what can be read from the file, for every way `fl` of storing the numbers as doubles: the eight fields with numbers that are
not integers read back as the stored doubles, in every row of every rank's file. -/
theorem C80_fields (fl : K → ℚ) (hf : ∀ x, IsDouble (fl x)) (clock : Nat → K) (n : Nat) (j : StudyRun) (b : Nat) (e : ErrorReport K) (z : ℚ) :
    ((studyRow (fun x => number2string (fl x)) clock n j b e z).take 7).map readDigits =
      [none, some j.minLevel, some j.maxLevel, some j.N, some j.N, some e.resolution, some e.nDOFs] ∧
    List.Forall₂ (fun t x => ReadsBack t (fl x)) ((studyRow (fun x => number2string (fl x)) clock n j b e z).drop 7)
      [e.lI, e.l1, e.l2, clock (b + 3) - clock (b + 2), clock (b + 4 * n + 5) - clock (b + 4 * n + 4),
        clock (b + 4 * n + 7) - clock (b + 4 * n + 6), (z : K)] := by
  constructor
  · unfold studyRow
    simp only [List.take_succ_cons, List.take_zero, List.map_cons, List.map_nil, readDigits_natText]
    congr 1
    split <;> decide
  · unfold studyRow
    simp only [List.drop_succ_cons, List.drop_zero]
    refine .cons (C80_digits (hf _)) (.cons (C80_digits (hf _)) (.cons (C80_digits (hf _)) (.cons (C80_digits (hf _))
      (.cons (C80_digits (hf _)) (.cons (C80_digits (hf _)) (.cons (C80_digits (hf _)) .nil))))))

/-- C80 on one rank, for every family of meshes and every list of sizes and levels: the numbers in the rows are the errors over all cells
of the mesh of the run and the size of all its data.
Missing: several ranks (`C80_ranks_wrong`); rounding before the numbers are written; how long the stages take. -/
theorem C80_one_rank_partial {c : StudyCase K} (h0 : c.opt.homogeneousRhs = false) (h1 : c.opt.cacheOperators = false) (hx : c.xl < c.xu)
    (hy : c.yl < c.yu) (hq : IsSqrt c.sqrt) {n : Nat} (hn : c.solves = n + 1) {M : Nat} {F : Nat → Nat → Nat → Forest}
    {sizes levels : List Nat}
    (h : ∀ j ∈ studyRuns true sizes levels ++ studyRuns false sizes levels, c.Fine M 1 j (F j.minLevel j.maxLevel j.N))
    (clock : Nat → Nat → K) {tell : K → Text} (ht : ∀ x, ',' ∉ tell x ∧ '\n' ∉ tell x) (s : AppClock K) :
    ∃ (E : StudyRun → ErrorReport K) (Z : StudyRun → ℚ) (file : Nat → Text × Text),
      AlwaysEnds (c.on M 1 F clock tell sizes levels s) file ∧ (file 0).1 = "elliptic_results_0.csv".toList ∧
      readTable (file 0).2 = (resultColumns :: studyRows tell (clock 0) n E Z s.ticks
          (studyRuns true sizes levels ++ studyRuns false sizes levels)).map (fun l => l ++ [[]]) ++ [[[]]] ∧
      ∀ j ∈ studyRuns true sizes levels ++ studyRuns false sizes levels,
        (∃ (t1 : Tree (Patch K)) (c1 : Option (Mat K)) (t3 : Tree (Patch K)),
          HPS.buildStage c.lap c.ps { c.opt with cacheOperators := false } (startTree (c.root j.N) (F j.minLevel j.maxLevel j.N) []) none =
            .ok (t1, c1) ∧
          (Request.functions c.f c.bc).run c.lap c.ps c.opt t1 = .ok t3 ∧
          (E j).Measures ((c.xu - c.xl) * (c.yu - c.yl)) (t3.leaves.flatMap (cellErrors c.exact))) ∧
        (E j).l1 ≤ (E j).l2 ∧ (E j).l2 ≤ (E j).lI ∧ (E j).resolution = 2 ^ j.maxLevel * j.N ∧
        Z j = (F j.minLevel j.maxLevel j.N).megabytes j.N (fun _ => True) := by
  obtain ⟨E, Z, file, a1, a2, a3⟩ := C80_file_actual h0 h1 hx hy hq hn h clock ht s
  refine ⟨fun j => E j 0, fun j => Z j 0, file, a2, ?_, (a3 0 one_pos).2, fun j hj => ?_⟩
  · rw [(a3 0 one_pos).1]
    decide
  · obtain ⟨b1, b2, b3, b4, b5⟩ := h j hj
    have hc : c.opt.cacheOperators = true → ∃ B, ∀ p ∈ (startTree (c.root j.N) (F j.minLevel j.maxLevel j.N) []).leaves,
        c.ps.buildD2N p.grid = .ok B := fun h => by rw [h1] at h; cases h
    obtain ⟨t1, c1, t3, Y, k1, k2, k3, k4, k5, k6, k7⟩ := C70_one_rank_partial c.lap (by omega : 0 < j.N) b2 h0 b3 b4 b5 (root := c.root j.N)
      (R := ⟨c.xl, c.xu, c.yl, c.yu⟩) ⟨hx, hy⟩ rfl rfl (.inl b1) hc c.f c.bc n hq c.exact j.maxLevel
    obtain ⟨W, w1, w2, -⟩ := C79_one_rank_partial c.lap (by omega : 0 < j.N) b2 h0 b3 b4 b5 ⟨c.xl, c.xu, c.yl, c.yu⟩ (.inl b1) hc c.f c.bc n
    obtain ⟨a4, a5⟩ := a1 j hj
    rw [hn] at a4 a5
    obtain rfl := k3.unique a4
    have hW := w1.unique a5
    exact ⟨⟨t1, c1, t3, k1, k2, k4⟩, k5, k6, k7, (congrFun hW 0).symm.trans w2⟩

/-- C80 is false on several ranks: in every row of every rank's file, the number of unknowns is less than that of the mesh (the sum over
the ranks), and the size is less than that of its data. -/
theorem C80_ranks_wrong {c : StudyCase K} (h0 : c.opt.homogeneousRhs = false) (h1 : c.opt.cacheOperators = false) (hx : c.xl < c.xu)
    (hy : c.yl < c.yu) (hq : IsSqrt c.sqrt) {n : Nat} (hn : c.solves = n + 1) {M size : Nat} (h2 : 2 ≤ size) {F : Nat → Nat → Nat → Forest}
    {sizes levels : List Nat}
    (h : ∀ j ∈ studyRuns true sizes levels ++ studyRuns false sizes levels, c.Fine M size j (F j.minLevel j.maxLevel j.N))
    (clock : Nat → Nat → K) {tell : K → Text} (ht : ∀ x, ',' ∉ tell x ∧ '\n' ∉ tell x) (s : AppClock K) :
    ∃ (E : StudyRun → Nat → ErrorReport K) (Z : StudyRun → Nat → ℚ) (file : Nat → Text × Text),
      AlwaysEnds (c.on M size F clock tell sizes levels s) file ∧
      (∀ r, r < size → readTable (file r).2 = (resultColumns :: studyRows tell (clock r) n (fun j => E j r) (fun j => Z j r) s.ticks
          (studyRuns true sizes levels ++ studyRuns false sizes levels)).map (fun l => l ++ [[]]) ++ [[[]]]) ∧
      ∀ j ∈ studyRuns true sizes levels ++ studyRuns false sizes levels, ∀ r, r < size →
        (E j r).nDOFs < ∑ k ∈ range size, (E j k).nDOFs ∧
        Z j r < (F j.minLevel j.maxLevel j.N).megabytes j.N (fun _ => True) := by
  obtain ⟨E, Z, file, a1, a2, a3⟩ := C80_file_actual h0 h1 hx hy hq hn h clock ht s
  refine ⟨E, Z, file, a2, fun r hr => (a3 r hr).2, fun j hj r hr => ?_⟩
  obtain ⟨b1, b2, b3, b4, b5⟩ := h j hj
  have hc : c.opt.cacheOperators = true → ∀ k, ∃ B, ∀ p ∈ leavesOf k (F j.minLevel j.maxLevel j.N)
      (startTree (c.root j.N) (F j.minLevel j.maxLevel j.N) []), c.ps.buildD2N p.grid = .ok B := fun h => by rw [h1] at h; cases h
  obtain ⟨W, w1, w2, -⟩ := C79_ranks_wrong c.lap (by omega : 0 < j.N) b2 h0 b3 b4 b5 h2 ⟨c.xl, c.xu, c.yl, c.yu⟩ (.inl b1) hc c.f c.bc n
  obtain ⟨t1, c1, t3, Y, k1, k2, k3, k4, -, k5, -⟩ := C70_ranks_wrong c.lap (by omega : 0 < j.N) b2 h0 b3 b4 b5 h2 (root := c.root j.N)
    (R := ⟨c.xl, c.xu, c.yl, c.yu⟩) ⟨hx, hy⟩ rfl rfl (.inl b1) hc c.f c.bc n hq c.exact j.maxLevel
  obtain ⟨a4, a5⟩ := a1 j hj
  rw [hn] at a4 a5
  obtain rfl := k3.unique a4
  have hW := w1.unique a5
  exact ⟨by rw [k5]; exact k4 r hr, by rw [← hW]; exact w2 r hr⟩

end

/-- Second order in the rows for every leaf solver that gives the same values as the finite volume solver. -/
theorem study_second_order {s : FVSolver ℝ} {R : Rect ℝ} (hR : Proper R) (hE : EllipticOn s R) {Bx By : Nat → ℝ → ℝ → ℝ} {B : ℝ}
    (hβ : Derivs R s.beta Bx By B) {u : ℝ → ℝ → ℝ} {Dx Dy : Nat → ℝ → ℝ → ℝ} {D : ℝ} (hu : Derivs R u Dx Dy D) {f : ℝ → ℝ → ℝ}
    (hf : Classical s R u Dx Dy Bx By f) :
    ∃ C, 0 ≤ C ∧ ∀ (lap : Lapack ℝ) (lu : PetscLU ℝ) (ps : PatchSolver ℝ) (M size n : Nat) (F : Nat → Nat → Nat → Forest) (sizes levels : List Nat)
      (clock : Nat → Nat → ℝ) (tell : ℝ → Text) (a : AppClock ℝ), (∀ x, ',' ∉ tell x ∧ '\n' ∉ tell x) → (∀ N ∈ sizes, 3 ≤ N) →
      (∀ N, 3 ≤ N → SolverShapes N ps ∧ SameOn N R (s.toPatchSolver lu) ps) →
      (∀ j ∈ studyRuns true sizes levels ++ studyRuns false sizes levels, (F j.minLevel j.maxLevel j.N).depth ≤ M ∧
        (F j.minLevel j.maxLevel j.N).Sorted ∧ EveryRank (F j.minLevel j.maxLevel j.N) size) →
      (∀ N l, (F l l N).shape = .uniform l) →
      ∃ (E : StudyRun → Nat → ErrorReport ℝ) (Z : StudyRun → Nat → ℚ) (file : Nat → Text × Text),
        AlwaysEnds (StudyCase.on ⟨lap, ps, ⟨false, false⟩, R.xl, R.xu, R.yl, R.yu, f, fun _ x y => (u x y, 1, 0), n + 1,
          Real.sqrt, u⟩ M size F clock tell sizes levels a) file ∧
        (∀ r, r < size → readTable (file r).2 = (resultColumns :: studyRows tell (clock r) n (fun j => E j r) (fun j => Z j r) a.ticks
          (studyRuns true sizes levels ++ studyRuns false sizes levels)).map (fun l => l ++ [[]]) ++ [[[]]]) ∧
        ∀ j ∈ studyRuns true sizes levels, ∀ r, r < size → (E j r).resolution = 2 ^ j.maxLevel * j.N ∧ 0 ≤ (E j r).l1 ∧
          (E j r).l1 ≤ (E j r).l2 ∧ (E j r).l2 ≤ (E j r).lI ∧ (E j r).lI ≤ C / ((E j r).resolution : ℝ) ^ 2 := by
  obtain ⟨C, C0, hC⟩ := second_order_same hR hE hβ hu hf
  refine ⟨C, C0, ?_⟩
  intro lap lu ps M size n F sizes levels clock tell a ht h3 hps hF hU
  let c : StudyCase ℝ := ⟨lap, ps, ⟨false, false⟩, R.xl, R.xu, R.yl, R.yu, f, fun _ x y => (u x y, 1, 0), n + 1, Real.sqrt, u⟩
  have hm : ∀ v, ∀ j ∈ studyRuns v sizes levels, 3 ≤ j.N ∧ (v = true → j.minLevel = j.maxLevel) := by
    intro v j hj
    obtain ⟨N, hN, hj⟩ := List.mem_flatMap.mp hj
    obtain ⟨l, hl, rfl⟩ := List.mem_map.mp hj
    exact ⟨h3 N hN, fun hv => by rw [hv]; rfl⟩
  have h : ∀ j ∈ studyRuns true sizes levels ++ studyRuns false sizes levels, c.Fine M size j (F j.minLevel j.maxLevel j.N) := by
    intro j hj
    have h3' : 3 ≤ j.N := (List.mem_append.mp hj).elim (fun h => (hm _ j h).1) (fun h => (hm _ j h).1)
    exact ⟨h3', (hps j.N h3').1, (hF j hj).1, (hF j hj).2.1, (hF j hj).2.2⟩
  obtain ⟨E, Z, file, a1, a2, a3⟩ := C80_file_actual (c := c) rfl rfl hR.1 hR.2 realSqrt rfl h clock ht a
  refine ⟨E, Z, file, a2, fun r hr => (a3 r hr).2, fun j hj r hr => ?_⟩
  have hj' := List.mem_append_left (studyRuns false sizes levels) hj
  obtain ⟨b1, b2, b3, b4, b5⟩ := h j hj'
  have e := (hm true j hj).2 rfl
  obtain ⟨Y, y1, y2⟩ := hC lap lu ps j.N M size j.maxLevel (F j.minLevel j.maxLevel j.N) ⟨false, false⟩ (c.root j.N) n j.maxLevel (by omega)
    (hps j.N b1).1 (hps j.N b1).2 rfl rfl b3 b4 b5 (by rw [e]; exact hU _ _) rfl rfl
  obtain ⟨_, _, _, X, _, _, _, _, _, x1, x2⟩ := C70_each_rank_actual lap (by omega : 0 < j.N) b2 (opt := ⟨false, false⟩) rfl b3 b4 b5 (root := c.root j.N)
    (R := R) hR rfl rfl (.inl b1) (fun h => by cases h) f (fun _ x y => (u x y, 1, 0)) n realSqrt u j.maxLevel
  obtain rfl := y1.unique (a1 j hj').1
  obtain rfl := x1.unique y1
  obtain ⟨z1, z2, z3, z4⟩ := y2 r hr
  refine ⟨(x2 r hr).2, z1, z2, z3, z4.trans (le_of_eq ?_)⟩
  rw [(x2 r hr).2, mul_comm (2 ^ j.maxLevel)]
  push_cast
  rfl

/-- C80, what the study is for: with the finite volume solver on a smooth problem there is a constant such that in every uniform row of
every rank's file, whatever the sizes, levels and number of ranks, the three errors are at most the constant over the square of the
effective resolution.
Missing: the adaptive rows; rounding.  With FISHPACK90, which the program uses: `C80_fishpack_partial`. -/
theorem C80_second_order_partial {s : FVSolver ℝ} {R : Rect ℝ} (hR : Proper R) (hE : EllipticOn s R) {Bx By : Nat → ℝ → ℝ → ℝ} {B : ℝ}
    (hβ : Derivs R s.beta Bx By B) {u : ℝ → ℝ → ℝ} {Dx Dy : Nat → ℝ → ℝ → ℝ} {D : ℝ} (hu : Derivs R u Dx Dy D) {f : ℝ → ℝ → ℝ}
    (hf : Classical s R u Dx Dy Bx By f) :
    ∃ C, 0 ≤ C ∧ ∀ (lap : Lapack ℝ) (lu : PetscLU ℝ) (M size n : Nat) (F : Nat → Nat → Nat → Forest) (sizes levels : List Nat)
      (clock : Nat → Nat → ℝ) (tell : ℝ → Text) (a : AppClock ℝ), (∀ x, ',' ∉ tell x ∧ '\n' ∉ tell x) → (∀ N ∈ sizes, 3 ≤ N) →
      (∀ j ∈ studyRuns true sizes levels ++ studyRuns false sizes levels, (F j.minLevel j.maxLevel j.N).depth ≤ M ∧
        (F j.minLevel j.maxLevel j.N).Sorted ∧ EveryRank (F j.minLevel j.maxLevel j.N) size) →
      (∀ N l, (F l l N).shape = .uniform l) →
      ∃ (E : StudyRun → Nat → ErrorReport ℝ) (Z : StudyRun → Nat → ℚ) (file : Nat → Text × Text),
        AlwaysEnds (StudyCase.on ⟨lap, s.toPatchSolver lu, ⟨false, false⟩, R.xl, R.xu, R.yl, R.yu, f, fun _ x y => (u x y, 1, 0), n + 1,
          Real.sqrt, u⟩ M size F clock tell sizes levels a) file ∧
        (∀ r, r < size → readTable (file r).2 = (resultColumns :: studyRows tell (clock r) n (fun j => E j r) (fun j => Z j r) a.ticks
          (studyRuns true sizes levels ++ studyRuns false sizes levels)).map (fun l => l ++ [[]]) ++ [[[]]]) ∧
        ∀ j ∈ studyRuns true sizes levels, ∀ r, r < size → (E j r).resolution = 2 ^ j.maxLevel * j.N ∧ 0 ≤ (E j r).l1 ∧
          (E j r).l1 ≤ (E j r).l2 ∧ (E j r).l2 ≤ (E j r).lI ∧ (E j r).lI ≤ C / ((E j r).resolution : ℝ) ^ 2 := by
  obtain ⟨C, C0, hC⟩ := study_second_order hR hE hβ hu hf
  exact ⟨C, C0, fun lap lu M size n F sizes levels clock tell a ht h3 => hC lap lu (s.toPatchSolver lu) M size n F sizes levels clock tell a ht
    h3 fun N hN => ⟨FVSolver.shapes lu s (by omega), ⟨fun _ _ _ _ => rfl, fun _ _ _ _ _ _ _ => rfl, fun _ _ _ _ _ _ _ _ _ _ => rfl⟩⟩⟩

/-! ## Examples -/

/-- A tenth as a double. -/
example : IsDouble (3602879701896397 / 2 ^ 55) ∧ number2string (3602879701896397 / 2 ^ 55) = "1.0000000000000001e-01".toList := by
  refine ⟨⟨3602879701896397, -55, by norm_num, by norm_num, by norm_num, by norm_num⟩, ?_⟩
  decide +kernel

/-- Two sizes and two levels; the run with `2048` cells per side is skipped. -/
example : (studyRuns true [4, 1024] [0, 1] ++ studyRuns false [4, 1024] [0, 1]).map (fun j => (j.minLevel, j.maxLevel, j.N)) =
    [(0, 0, 4), (1, 1, 4), (0, 0, 1024), (0, 0, 4), (0, 1, 4), (0, 0, 1024)] := by decide

/-- The study on four leaves on two ranks. -/
noncomputable example (lap : Lapack ℝ) (lu : PetscLU ℝ) (f u : ℝ → ℝ → ℝ) (clock : Nat → Nat → ℝ) (fl : ℝ → ℚ) :=
  C80_ranks_wrong (c := ⟨lap, expPde.toPatchSolver lu, ⟨false, false⟩, 0, 1, 0, 1, f, fun _ x y => (u x y, 1, 0), 3, Real.sqrt, u⟩)
    rfl rfl one_pos one_pos realSqrt (n := 2) rfl (M := 30) (size := 2) le_rfl (F := fun _ _ _ => exTwoRanks) (sizes := [4, 8]) (levels := [1])
    (by
      intro j hj
      have h : 3 ≤ j.N := by
        simp [studyRuns] at hj
        rcases hj with rfl | rfl | rfl | rfl <;> decide
      exact ⟨h, FVSolver.shapes lu expPde (by omega), by decide, by unfold Forest.Sorted; decide, by intro r; simp [exTwoRanks, Forest.ranks]; omega⟩)
    clock (tell := fun x => number2string (fl x)) (fun x => number2string_plain (fl x)) ⟨fun _ => none, 0⟩

/-- A uniform mesh of one rank. -/
def exLevel : Nat → Forest
  | 0 => .leaf 0
  | l + 1 => .node (exLevel l) (exLevel l) (exLevel l) (exLevel l)

theorem exLevel_facts (l : Nat) : (exLevel l).shape = .uniform l ∧ (exLevel l).depth = l ∧ ∀ k, k ∈ (exLevel l).ranks ↔ k = 0 := by
  induction l with
  | zero => exact ⟨rfl, rfl, fun k => by simp [exLevel, Forest.ranks]⟩
  | succ l ih =>
    obtain ⟨a, b, c⟩ := ih
    refine ⟨?_, ?_, fun k => ?_⟩
    · simp only [exLevel, Forest.shape, a]
      rfl
    · simp only [exLevel, Forest.depth, b]
      omega
    · simp only [exLevel, Forest.ranks, List.mem_append, c]
      tauto

/-- The sizes and levels of the program, on one rank and uniform meshes. -/
example (lap : Lapack ℝ) (lu : PetscLU ℝ) (clock : Nat → Nat → ℝ) (fl : ℝ → ℚ) :
    (∀ x, ',' ∉ number2string (fl x) ∧ '\n' ∉ number2string (fl x)) ∧ (∀ N ∈ [4, 8, 16, 32], 3 ≤ N) ∧
    (∀ j ∈ studyRuns true [4, 8, 16, 32] [1, 2, 3, 4, 5, 6, 7] ++ studyRuns false [4, 8, 16, 32] [1, 2, 3, 4, 5, 6, 7],
      (exLevel j.maxLevel).depth ≤ 7 ∧ (exLevel j.maxLevel).Sorted ∧ EveryRank (exLevel j.maxLevel) 1) ∧
    ∀ N l : Nat, (exLevel l).shape = .uniform l := by
  refine ⟨fun x => number2string_plain _, by decide, fun j hj => ⟨?_, ?_, fun r => ?_⟩, fun _ l => (exLevel_facts l).1⟩
  · rw [(exLevel_facts _).2.1]
    revert j
    have : ∀ j ∈ (studyRuns true [4, 8, 16, 32] [1, 2, 3, 4, 5, 6, 7] ++ studyRuns false [4, 8, 16, 32] [1, 2, 3, 4, 5, 6, 7]).map (·.maxLevel),
        j ≤ 7 := by decide
    exact fun j hj => this _ (List.mem_map.mpr ⟨j, hj, rfl⟩)
  · unfold Forest.Sorted
    have h := (exLevel_facts j.maxLevel).2.2
    exact List.pairwise_of_forall_mem_list fun a ha b hb => by
      rw [(h a).mp ha, (h b).mp hb]
  · rw [(exLevel_facts _).2.2]
    omega

end EF
