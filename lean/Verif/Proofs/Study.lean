import Verif.Proofs.Scientific
import Verif.Props.Memory

/-!
# The convergence study as a program: lemmas
-/

namespace EF

open FV HPS

/-! ## Tables -/

theorem pieces_sep {sep : Char} {l : Text} (h : sep ∉ l) (acc t : Text) : pieces sep acc (l ++ sep :: t) = (acc ++ l) :: pieces sep [] t := by
  induction l generalizing acc with
  | nil => simp [pieces]
  | cons c l ih =>
    rw [List.mem_cons, not_or] at h
    show pieces sep acc (c :: (l ++ sep :: t)) = _
    rw [pieces, if_neg (Ne.symm h.1), ih h.2, List.append_assoc]
    rfl

/-- Pieces that all end with a separator. -/
theorem pieces_flatMap {sep : Char} {ls : List Text} (h : ∀ l ∈ ls, sep ∉ l) :
    pieces sep [] (ls.flatMap (fun l => l ++ [sep])) = ls ++ [[]] := by
  induction ls with
  | nil => rfl
  | cons l ls ih =>
    rw [List.flatMap_cons, List.append_assoc]
    show pieces sep [] (l ++ sep :: (ls.flatMap fun l => l ++ [sep])) = _
    rw [pieces_sep (h l (by simp)), ih fun l' hl => h l' (by simp [hl])]
    rfl

/-- The fields of a result. -/
def ResultsData.fields {K : Type} (tell : K → Text) (d : ResultsData K) : List Text :=
  [d.mode, intText d.minLevel, intText d.maxLevel, intText d.nx, intText d.ny, intText d.resolution, intText d.nDOFs, tell d.lI, tell d.l1,
    tell d.l2, tell d.buildTime, tell d.upwardsTime, tell d.solveTime, tell d.sizeMB]

theorem csv_fields {K : Type} (tell : K → Text) (d : ResultsData K) : d.csv tell = (d.fields tell).flatMap (fun l => l ++ [',']) := by
  unfold ResultsData.csv ResultsData.fields
  simp only [List.flatMap_cons, List.flatMap_nil, List.append_nil, List.append_assoc]

theorem headers_fields : resultHeaders = resultColumns.flatMap (fun l => l ++ [',']) := by decide

theorem readTable_rows {rows : List (List Text)} (h : ∀ l ∈ rows, ∀ w ∈ l, ',' ∉ w ∧ '\n' ∉ w) :
    readTable (rows.flatMap fun l => l.flatMap (fun w => w ++ [',']) ++ ['\n']) = rows.map (fun l => l ++ [[]]) ++ [[[]]] := by
  have h1 : rows.flatMap (fun l => l.flatMap (fun w => w ++ [',']) ++ ['\n']) =
      (rows.map fun l => l.flatMap fun w => w ++ [',']).flatMap (fun t => t ++ ['\n']) := by
    rw [List.flatMap_map]
  unfold readTable
  rw [h1, pieces_flatMap (by
    intro t ht
    obtain ⟨l, hl, rfl⟩ := List.mem_map.mp ht
    intro hc
    obtain ⟨w, hw, hc⟩ := List.mem_flatMap.mp hc
    rw [List.mem_append, List.mem_singleton] at hc
    rcases hc with hc | hc
    · exact (h l hl w hw).2 hc
    · exact absurd hc (by decide)), List.map_append, List.map_map]
  congr 1
  refine List.map_congr_left fun l hl => ?_
  exact pieces_flatMap fun w hw => (h l hl w hw).1

theorem intText_nat (n : Nat) : intText (n : Int) = natText n := by
  unfold intText
  rw [if_neg (by omega)]
  simp

theorem natText_plain (n : Nat) : ',' ∉ natText n ∧ '\n' ∉ natText n := by
  have h := natText_digits n
  rw [List.all_eq_true] at h
  exact ⟨fun hc => absurd (h _ hc) (by decide), fun hc => absurd (h _ hc) (by decide)⟩

/-! ## Timers -/

section timers
variable {K : Type} [AddGroup K]

theorem AppClock.stage_self (clock : Nat → K) (name : Text) (s : AppClock K) :
    (s.stage clock name).time name = clock (s.ticks + 1) - clock s.ticks := by
  simp [AppClock.stage, AppClock.time, AppCall.run, TimerCall.run, Timer.start, Timer.stop, Timer.time, Timer.new]

theorem AppClock.stage_other (clock : Nat → K) {name name' : Text} (h : name' ≠ name) (s : AppClock K) :
    (s.stage clock name).time name' = s.time name' := by
  simp [AppClock.stage, AppClock.time, AppCall.run, h]

theorem AppClock.solves_spec (clock : Nat → K) (n : Nat) (s : AppClock K) :
    (AppClock.solves clock (n + 1) s).ticks = s.ticks + 4 * (n + 1) ∧
      (AppClock.solves clock (n + 1) s).time "build-stage".toList = s.time "build-stage".toList ∧
      (AppClock.solves clock (n + 1) s).time "upwards-stage".toList = clock (s.ticks + 4 * n + 1) - clock (s.ticks + 4 * n) ∧
      (AppClock.solves clock (n + 1) s).time "solve-stage".toList = clock (s.ticks + 4 * n + 3) - clock (s.ticks + 4 * n + 2) := by
  induction n generalizing s with
  | zero =>
    show ((s.stage clock _).stage clock _).ticks = _ ∧ ((s.stage clock _).stage clock _).time _ = _ ∧
      ((s.stage clock _).stage clock _).time _ = _ ∧ ((s.stage clock _).stage clock _).time _ = _
    refine ⟨rfl, ?_, ?_, ?_⟩
    · rw [AppClock.stage_other _ (by decide), AppClock.stage_other _ (by decide)]
    · rw [AppClock.stage_other _ (by decide), AppClock.stage_self]
      rfl
    · rw [AppClock.stage_self]
      rfl
  | succ n ih =>
    obtain ⟨a, b, c, d⟩ := ih ((s.stage clock "upwards-stage".toList).stage clock "solve-stage".toList)
    have ht : ((s.stage clock "upwards-stage".toList).stage clock "solve-stage".toList).ticks = s.ticks + 4 := rfl
    rw [ht] at a c d
    refine ⟨?_, ?_, ?_, ?_⟩
    · show (AppClock.solves clock (n + 1) _).ticks = _
      rw [a]
      ring
    · show (AppClock.solves clock (n + 1) _).time _ = _
      rw [b, AppClock.stage_other _ (by decide), AppClock.stage_other _ (by decide)]
    · show (AppClock.solves clock (n + 1) _).time _ = _
      rw [c, show s.ticks + 4 + 4 * n = s.ticks + 4 * (n + 1) by ring]
    · show (AppClock.solves clock (n + 1) _).time _ = _
      rw [d, show s.ticks + 4 + 4 * n = s.ticks + 4 * (n + 1) by ring]

theorem AppClock.stages_spec (clock : Nat → K) (n : Nat) (s : AppClock K) :
    (s.stages clock (n + 1)).ticks = s.ticks + 4 * (n + 2) ∧
      (s.stages clock (n + 1)).time "build-stage".toList = clock (s.ticks + 3) - clock (s.ticks + 2) ∧
      (s.stages clock (n + 1)).time "upwards-stage".toList = clock (s.ticks + 4 * n + 5) - clock (s.ticks + 4 * n + 4) ∧
      (s.stages clock (n + 1)).time "solve-stage".toList = clock (s.ticks + 4 * n + 7) - clock (s.ticks + 4 * n + 6) := by
  obtain ⟨a, b, c, d⟩ := AppClock.solves_spec clock n ((s.stage clock "setup-stage".toList).stage clock "build-stage".toList)
  have ht : ((s.stage clock "setup-stage".toList).stage clock "build-stage".toList).ticks = s.ticks + 4 := rfl
  rw [ht] at a c d
  rw [AppClock.stage_self] at b
  unfold AppClock.stages
  refine ⟨?_, b, ?_, ?_⟩
  · rw [a]
    ring
  · rw [c, show s.ticks + 4 + 4 * n = s.ticks + 4 * n + 4 by ring]
  · rw [d, show s.ticks + 4 + 4 * n = s.ticks + 4 * n + 4 by ring]

end timers

/-! ## One run -/

section
variable {K : Type} [Field K] [LinearOrder K] [IsStrictOrderedRing K]

/-- What a run leaves in `results_vector`. -/
def StudyCase.result (c : StudyCase K) (clock : Nat → K) (j : StudyRun) (e : ErrorReport K) (z : ℚ) (s : AppClock K) : ResultsData K :=
  { mode := if j.minLevel = j.maxLevel then "uniform".toList else "adaptive".toList
    minLevel := j.minLevel
    maxLevel := j.maxLevel
    nx := j.N
    ny := j.N
    resolution := e.resolution
    nDOFs := e.nDOFs
    lI := e.lI
    l1 := e.l1
    l2 := e.l2
    buildTime := (s.stages clock c.solves).time "build-stage".toList
    upwardsTime := (s.stages clock c.solves).time "upwards-stage".toList
    solveTime := (s.stages clock c.solves).time "solve-stage".toList
    sizeMB := (z : K) }

/-- What is needed of a run. -/
structure StudyCase.Fine (c : StudyCase K) (M size : Nat) (j : StudyRun) (F : Forest) : Prop where
  cells : 3 ≤ j.N
  shapes : SolverShapes j.N c.ps
  deep : F.depth ≤ M
  sorted : F.Sorted
  ranks : EveryRank F size

/-- One run on all ranks: it reports what the programs of C70 and C79 report. -/
theorem StudyCase.run_runs {c : StudyCase K} (h0 : c.opt.homogeneousRhs = false) (h1 : c.opt.cacheOperators = false) (hx : c.xl < c.xu)
    (hy : c.yl < c.yu) (hq : IsSqrt c.sqrt) {n : Nat} (hn : c.solves = n + 1) {M size : Nat} {j : StudyRun} {F : Forest}
    (h : c.Fine M size j F) (clock : Nat → Nat → K) :
    ∃ (E : Nat → ErrorReport K) (Z : Nat → ℚ),
      AlwaysEnds (studyOn M size F c.lap c.ps c.opt (c.root j.N) c.f c.bc c.solves c.sqrt c.exact j.maxLevel) E ∧
      AlwaysEnds (memoryOn M size F c.lap c.ps c.opt (c.root j.N) c.f c.bc c.solves) Z ∧
      ∀ s : Nat → AppClock K, Runs (fun r => r < size)
        (fun r => c.run ⟨M, size, r, F⟩ (clock r) j.minLevel j.maxLevel j.N (s r))
        (fun r => (c.result (clock r) j (E r) (Z r) (s r), (s r).stages (clock r) c.solves)) := by
  obtain ⟨h3, hs, hM, hF, hr⟩ := h
  have hN : 0 < j.N := by omega
  let R : Rect K := ⟨c.xl, c.xu, c.yl, c.yu⟩
  have hR : Proper R := ⟨hx, hy⟩
  have hg : (c.root j.N).grid = ⟨j.N, j.N, R.xl, R.xu, R.yl, R.yu⟩ := rfl
  have hI := startTree_init (R := R) hg rfl F []
  obtain ⟨t1, c1, t3, e1, e2, e3, e4, e5, e6⟩ := serial_kept c.lap hN hs (opt := { c.opt with cacheOperators := false }) h0 hI (.inl h3)
    (startTree_fresh _ F []) c.f c.bc
  obtain ⟨t1', c1', t3', e1', e2', e3', e4', -⟩ := serial_fields c.lap hN hs (opt := { c.opt with cacheOperators := false }) h0 hI (.inl h3)
    c.f c.bc
  have pl := (C20_leaves_in_place c.lap hN hs (opt := { c.opt with cacheOperators := false }) h0 hI (.inl h3) c.f c.bc e1' e2').1
  rw [e1] at e1'
  obtain ⟨rfl, rfl⟩ := Prod.mk.inj (Res.ok.inj e1')
  rw [e2] at e2'
  obtain rfl := Res.ok.inj e2'
  rw [Request.run_cache] at e2
  choose m1 a1 a2 a3 a4 a5 using refine_first hM hF (c.root j.N)
  let A0 : Nat → HPSRank K := fun r => ⟨m1 r, none⟩
  have hA0 : HoldsOn size F (startTree (c.root j.N) F []) (fun r => (A0 r).mesh.quadtree) := fun r _ => ⟨a3 r, a4 r⟩
  have hc : c.opt.cacheOperators = true → ∀ k, ∃ B, ∀ p ∈ leavesOf k F (startTree (c.root j.N) F []), c.ps.buildD2N p.grid = .ok B :=
    fun h => by rw [h1] at h; cases h
  obtain ⟨s', b1⟩ := mergeBy_build c.lap c.ps c.opt hc (a3 0) e1
  obtain ⟨A1, b2, -, b3⟩ := build_runs hM hF hr c.lap c.ps c.opt hA0 b1
  obtain ⟨A2, b4, b5⟩ := solves_runs hM hF hr c.lap c.ps c.opt c.f c.bc e2 n b2.holds
  rw [← hn] at b5
  have hA : 0 < ((c.root j.N).grid.xu - (c.root j.N).grid.xl) * ((c.root j.N).grid.yu - (c.root j.N).grid.yl) := hR.area
  have b6 : ∀ r, ∃ e : ErrorReport K, r < size →
      errorReport ⟨M, size, r, F⟩ c.sqrt c.exact j.maxLevel (c.root j.N).grid (A2 r).mesh.quadtree = .ok e := by
    intro r
    by_cases hr' : r < size
    · obtain ⟨e, k1, -⟩ := errorReport_ok (size := size) hM hF hq c.exact j.maxLevel (root := (c.root j.N).grid) (N := j.N) rfl rfl hA
        (b4 r hr').1 (b4 r hr').2.1 (fun p hp => by
          have hp' := leavesOf_sub hp
          obtain ⟨a, b, c⟩ := pl.leaves hR p hp'
          exact ⟨(e4' p hp').1, (e4' p hp').2, a, b, (mul_pos (hx_pos c (by omega)) (hy_pos c (by omega))).le⟩)
      exact ⟨e, fun _ => k1⟩
    · exact ⟨⟨0, 0, 0, 0, 0⟩, fun h' => absurd h' hr'⟩
  choose E b7 using b6
  have b8 : ∀ r, r < size → sizeReport ⟨M, size, r, F⟩ (A2 r).mesh.quadtree = .ok (F.megabytes j.N (fun G => r ∈ G.ranks)) := fun r h => by
    rw [sizeReport_ok hM hF (b4 r h).1 (b4 r h).2.1, kept_megabytes e5 (b4 r h).1.fits e4 e6]
  have c3 : Runs (fun r => r < size) (fun r => HPSRank.setupStage ⟨M, size, r, F⟩ (A0 r) >>= fun A =>
      A.buildStage ⟨M, size, r, F⟩ c.lap c.ps c.opt >>= fun A => A.solves ⟨M, size, r, F⟩ c.lap c.ps c.opt c.f c.bc c.solves) A2 := by
    have c1 := setup_runs (M := M) hr A0
    have c2 := Runs.bind c1 (q := fun r A => A.buildStage ⟨M, size, r, F⟩ c.lap c.ps c.opt) (w := A1) b3
    have c3 := Runs.bind c2 (q := fun r A => A.solves ⟨M, size, r, F⟩ c.lap c.ps c.opt c.f c.bc c.solves) (w := A2) b5
    exact c3.congr (fun r h => by simp only [bind_assoc]) (fun r h => rfl)
  refine ⟨fun r => if r < size then E r else ⟨0, 0, 0, 0, 0⟩, fun r => if r < size then F.megabytes j.N (fun G => r ∈ G.ranks) else 0,
    ?_, ?_, ?_⟩
  · refine Runs.ends (p := fun r => studyMain ⟨M, size, r, F⟩ c.lap c.ps c.opt (c.root j.N) c.f c.bc c.solves c.sqrt c.exact j.maxLevel)
      ?_ ⟨0, 0, 0, 0, 0⟩
    have c4 := Runs.bind c3 (q := fun r A => Prog.fin (errorReport ⟨M, size, r, F⟩ c.sqrt c.exact j.maxLevel (c.root j.N).grid A.mesh.quadtree))
      (w := E) (Runs.pure fun r h => by
        beta_reduce
        rw [b7 r h]
        rfl)
    refine c4.congr (fun r h => ?_) (fun r h => rfl)
    unfold studyMain
    dsimp only
    rw [a1 r]
    simp only [bind_assoc]
    rfl
  · refine Runs.ends (p := fun r => memoryMain ⟨M, size, r, F⟩ c.lap c.ps c.opt (c.root j.N) c.f c.bc c.solves) ?_ 0
    have c4 := Runs.bind c3 (q := fun r A => Prog.fin (sizeReport ⟨M, size, r, F⟩ A.mesh.quadtree))
      (w := fun r => F.megabytes j.N (fun G => r ∈ G.ranks)) (Runs.pure fun r h => by
        beta_reduce
        rw [b8 r h]
        rfl)
    refine c4.congr (fun r h => ?_) (fun r h => rfl)
    unfold memoryMain
    dsimp only
    rw [a1 r]
    simp only [bind_assoc]
    rfl
  · intro s
    have c4 := Runs.bind c3 (q := fun r A => do
        let e ← Prog.fin (errorReport ⟨M, size, r, F⟩ c.sqrt c.exact j.maxLevel (c.root j.N).grid A.mesh.quadtree)
        let z ← Prog.fin (sizeReport ⟨M, size, r, F⟩ A.mesh.quadtree)
        pure (c.result (clock r) j e z (s r), (s r).stages (clock r) c.solves))
      (w := fun r => (c.result (clock r) j (E r) (F.megabytes j.N (fun G => r ∈ G.ranks)) (s r), (s r).stages (clock r) c.solves))
      (Runs.pure fun r h => by
        beta_reduce
        rw [b7 r h, b8 r h]
        rfl)
    refine c4.congr (fun r h => ?_) (fun r h => by
      beta_reduce
      rw [if_pos h, if_pos h])
    unfold StudyCase.run
    dsimp only
    rw [a1 r]
    simp only [bind_assoc]
    rfl

/-! ## The loops -/

/-- Runs one after the other. -/
theorem Runs.fold {S : Nat → Prop} {T σ J : Type} {job : Nat → σ → J → Prog T σ} {step : Nat → σ → J → σ} {js : List J}
    (h : ∀ j ∈ js, ∀ st : Nat → σ, Runs S (fun r => job r (st r) j) (fun r => step r (st r) j)) (st : Nat → σ) :
    Runs S (fun r => js.foldlM (job r) (st r)) (fun r => js.foldl (step r) (st r)) := by
  induction js generalizing st with
  | nil => exact Runs.pure fun r _ => rfl
  | cons j js ih =>
    have h1 := h j (by simp) st
    have h2 := ih (fun j' hj => h j' (by simp [hj])) (fun r => step r (st r) j)
    exact (Runs.bind h1 (q := fun r x => js.foldlM (job r) x) h2).congr (fun r _ => List.foldlM_cons) (fun r _ => rfl)

/-- A run and what the loop does after it. -/
def StudyCase.job (c : StudyCase K) (P : Nat → Nat → Nat → Place) (clock : Nat → K) (s : StudyState K) (j : StudyRun) :
    Prog (Patch K) (StudyState K) := do
  let x ← c.run (P j.minLevel j.maxLevel j.N) clock j.minLevel j.maxLevel j.N s.clock
  pure ⟨x.2.restart, s.results ++ [x.1]⟩

theorem small_iff (N l : Nat) : ¬ N ^ 2 * 2 ^ (2 * l) > maxResolution ↔ N * 2 ^ l ≤ 1024 := by
  have e : N ^ 2 * 2 ^ (2 * l) = (N * 2 ^ l) ^ 2 := by rw [mul_pow, ← pow_mul, Nat.mul_comm l 2]
  have e2 : maxResolution = 1024 ^ 2 := by decide
  rw [e, e2, gt_iff_lt, not_lt]
  exact Nat.pow_le_pow_iff_left (by omega)

theorem StudyCase.analysis_jobs (c : StudyCase K) (P : Nat → Nat → Nat → Place) (clock : Nat → K) (u : Bool) (sizes levels : List Nat)
    (s : StudyState K) : c.analysis P clock u sizes levels s = (studyRuns u sizes levels).foldlM (c.job P clock) s := by
  unfold StudyCase.analysis studyRuns
  induction sizes generalizing s with
  | nil => rfl
  | cons N sizes ih =>
    rw [List.foldlM_cons, List.flatMap_cons, List.foldlM_append]
    congr 1
    · clear ih
      induction levels generalizing s with
      | nil => rfl
      | cons l levels ih =>
        rw [List.foldlM_cons, List.filter_cons]
        have hl := small_iff N l
        by_cases h : N * 2 ^ l ≤ 1024
        · rw [if_pos (by simpa using h), List.map_cons, List.foldlM_cons]
          have e : c.level P clock u N l s = c.job P clock s ⟨if u then l else 0, l, N⟩ := by
            unfold StudyCase.level
            rw [if_neg (hl.mpr h)]
            rfl
          rw [e]
          congr 1
          funext s'
          exact ih s'
        · rw [if_neg (by simpa using h)]
          have e : c.level P clock u N l s = pure s := by
            unfold StudyCase.level
            rw [if_pos (by
              by_contra h'
              exact h (hl.mp h'))]
          rw [e, pure_bind]
          exact ih s
    · funext s'
      exact ih s'

theorem StudyCase.results_fold (c : StudyCase K) (clock : Nat → K) (E : StudyRun → ErrorReport K) (Z : StudyRun → ℚ) {n : Nat}
    (hn : c.solves = n + 1) (tell : K → Text) (js : List StudyRun) (s : StudyState K) :
    ((js.foldl (fun s j => (⟨((s.clock.stages clock c.solves)).restart, s.results ++ [c.result clock j (E j) (Z j) s.clock]⟩ : StudyState K))
        s).results).map (ResultsData.fields tell) =
      s.results.map (ResultsData.fields tell) ++ studyRows tell clock n E Z s.clock.ticks js := by
  induction js generalizing s with
  | nil => simp [studyRows]
  | cons j js ih =>
    obtain ⟨a1, a2, a3, a4⟩ := AppClock.stages_spec clock n s.clock
    rw [List.foldl_cons, ih, studyRows, List.map_append, List.append_assoc]
    congr 1
    rw [List.map_singleton, List.singleton_append]
    have ht : ((s.clock.stages clock c.solves).restart).ticks = s.clock.ticks + 4 * (n + 2) := by
      rw [hn]
      exact a1
    rw [ht]
    congr 1
    unfold ResultsData.fields StudyCase.result studyRow
    rw [hn]
    dsimp only
    rw [a2, a3, a4]
    simp only [intText_nat]

theorem studyRows_plain {tell : K → Text} (ht : ∀ x, ',' ∉ tell x ∧ '\n' ∉ tell x) (clock : Nat → K) (n : Nat) (E : StudyRun → ErrorReport K)
    (Z : StudyRun → ℚ) (b : Nat) (js : List StudyRun) : ∀ l ∈ studyRows tell clock n E Z b js, ∀ w ∈ l, ',' ∉ w ∧ '\n' ∉ w := by
  induction js generalizing b with
  | nil => simp [studyRows]
  | cons j js ih =>
    intro l hl
    rw [studyRows, List.mem_cons] at hl
    rcases hl with rfl | hl
    · intro w hw
      unfold studyRow at hw
      rw [List.mem_cons] at hw
      rcases hw with rfl | hw
      · split <;> decide
      · simp only [List.mem_cons, List.not_mem_nil, or_false] at hw
        rcases hw with rfl | rfl | rfl | rfl | rfl | rfl | rfl | rfl | rfl | rfl | rfl | rfl | rfl
        all_goals first | exact natText_plain _ | exact ht _
    · exact ih _ l hl

theorem studyRows_length (tell : K → Text) (clock : Nat → K) (n : Nat) (E : StudyRun → ErrorReport K) (Z : StudyRun → ℚ) (b : Nat)
    (js : List StudyRun) : (studyRows tell clock n E Z b js).length = js.length := by
  induction js generalizing b with
  | nil => rfl
  | cons j js ih => rw [studyRows, List.length_cons, List.length_cons, ih]

theorem studyFile_name (tell : K → Text) (r : Nat) (results : List (ResultsData K)) :
    (studyFile tell r results).1 = "elliptic_results_".toList ++ natText r ++ ".csv".toList := by
  unfold studyFile
  rw [intText_nat]

theorem columns_plain : ∀ w ∈ resultColumns, ',' ∉ w ∧ '\n' ∉ w := by decide

theorem studyFile_text (tell : K → Text) (r : Nat) (results : List (ResultsData K)) :
    (studyFile tell r results).2 = resultHeaders ++ ['\n'] ++ results.flatMap (fun d => d.csv tell ++ ['\n']) := rfl

theorem studyFile_table (tell : K → Text) (r : Nat) (results : List (ResultsData K)) {rows : List (List Text)}
    (e : results.map (ResultsData.fields tell) = rows) (h : ∀ l ∈ rows, ∀ w ∈ l, ',' ∉ w ∧ '\n' ∉ w) :
    readTable (studyFile tell r results).2 = (resultColumns :: rows).map (fun l => l ++ [[]]) ++ [[[]]] := by
  have h2 : ∀ l ∈ resultColumns :: rows, ∀ w ∈ l, ',' ∉ w ∧ '\n' ∉ w := by
    intro l hl
    rcases List.mem_cons.mp hl with hl | hl
    · rw [hl]
      exact columns_plain
    · exact h l hl
  have h3 : (studyFile tell r results).2 = (resultColumns :: rows).flatMap (fun l => l.flatMap (fun w => w ++ [',']) ++ ['\n']) := by
    rw [studyFile_text, List.flatMap_cons, ← headers_fields, ← e, List.flatMap_map]
    simp only [← csv_fields]
  rw [h3, readTable_rows h2]

end

end EF
