import Verif.Proofs.StudyPlots
import Verif.Props.Report

/-!
# The plots of the convergence study (C110)
-/

namespace EF

open Finset FV HPS

section
variable {K : Type} [Field K] [LinearOrder K] [IsStrictOrderedRing K]

/-- The runs of both analyses and the points they add, on all ranks. -/
theorem plots_run {c : StudyCase K} (h0 : c.opt.homogeneousRhs = false) (h1 : c.opt.cacheOperators = false) (hx : c.xl < c.xu)
    (hy : c.yl < c.yu) (hq : IsSqrt c.sqrt) {n : Nat} (hn : c.solves = n + 1) {M size : Nat} {F : Nat → Nat → Nat → Forest}
    {sizes levels : List Nat}
    (h : ∀ j ∈ studyRuns true sizes levels ++ studyRuns false sizes levels, c.Fine M size j (F j.minLevel j.maxLevel j.N))
    (clock : Nat → Nat → K) (s : AppClock K) :
    ∃ (E : StudyRun → Nat → ErrorReport K) (A B : Nat → AppClock K × Three (List (PlotPair K))),
      (∀ j ∈ studyRuns true sizes levels ++ studyRuns false sizes levels,
        AlwaysEnds (studyOn M size (F j.minLevel j.maxLevel j.N) c.lap c.ps c.opt (c.root j.N) c.f c.bc c.solves c.sqrt c.exact j.maxLevel)
          (E j)) ∧
      Runs (fun r => r < size) (fun r => c.analysisPlots (fun a b N => ⟨M, size, r, F a b N⟩) (clock r) true sizes levels s) A ∧
      Runs (fun r => r < size) (fun r => c.analysisPlots (fun a b N => ⟨M, size, r, F a b N⟩) (clock r) false sizes levels (A r).1) B ∧
      ∀ r, (A r).2 = ⟨curvesOf (fun _ => meanCurve fun j => E j r) n true levels s.ticks sizes,
          curvesOf (buildCurve (clock r) n fun j => E j r) n true levels s.ticks sizes,
          curvesOf (solveCurve (clock r) n fun j => E j r) n true levels s.ticks sizes⟩ ∧
        (B r).2 = ⟨curvesOf (fun _ => meanCurve fun j => E j r) n false levels (s.ticks + 4 * (n + 2) * (studyRuns true sizes levels).length) sizes,
          curvesOf (buildCurve (clock r) n fun j => E j r) n false levels (s.ticks + 4 * (n + 2) * (studyRuns true sizes levels).length) sizes,
          curvesOf (solveCurve (clock r) n fun j => E j r) n false levels (s.ticks + 4 * (n + 2) * (studyRuns true sizes levels).length) sizes⟩ := by
  set js := studyRuns true sizes levels ++ studyRuns false sizes levels with hjs
  have key : ∀ j, ∃ (E : Nat → ErrorReport K) (Z : Nat → ℚ), j ∈ js →
      AlwaysEnds (studyOn M size (F j.minLevel j.maxLevel j.N) c.lap c.ps c.opt (c.root j.N) c.f c.bc c.solves c.sqrt c.exact j.maxLevel) E ∧
      ∀ s : Nat → AppClock K, Runs (fun r => r < size)
        (fun r => c.run ⟨M, size, r, F j.minLevel j.maxLevel j.N⟩ (clock r) j.minLevel j.maxLevel j.N (s r))
        (fun r => (c.result (clock r) j (E r) (Z r) (s r), (s r).stages (clock r) c.solves)) := by
    intro j
    by_cases hj : j ∈ js
    · obtain ⟨E, Z, k1, -, k2⟩ := StudyCase.run_runs h0 h1 hx hy hq hn (h j hj) clock
      exact ⟨E, Z, fun _ => ⟨k1, k2⟩⟩
    · exact ⟨fun _ => ⟨0, 0, 0, 0, 0⟩, fun _ => 0, fun h => absurd h hj⟩
  choose E Z hk using key
  have step : ∀ u : Bool, (∀ j ∈ studyRuns u sizes levels, j ∈ js) → ∀ S : Nat → AppClock K,
      Runs (fun r => r < size) (fun r => c.analysisPlots (fun a b N => ⟨M, size, r, F a b N⟩) (clock r) u sizes levels (S r))
        (fun r => sizes.foldl (c.stepSize (clock r) (fun j => E j r) u levels) (S r, ⟨[], [], []⟩)) := by
    intro u hu S
    refine Runs.fold (job := fun r => c.sizePlots (fun a b N => ⟨M, size, r, F a b N⟩) (clock r) u levels)
      (step := fun r => c.stepSize (clock r) (fun j => E j r) u levels) (fun N hN st => ?_) (fun r => (S r, ⟨[], [], []⟩))
    have r1 : Runs (fun r => r < size)
        (fun r => (studyRuns u [N] levels).foldlM (c.jobPlots (fun a b N => ⟨M, size, r, F a b N⟩) (clock r))
          ((st r).1, ⟨([], []), ([], []), ([], [])⟩))
        (fun r => (studyRuns u [N] levels).foldl (c.stepPlots (clock r) (fun j => E j r)) ((st r).1, ⟨([], []), ([], []), ([], [])⟩)) := by
      refine Runs.fold (job := fun r => c.jobPlots (fun a b N => ⟨M, size, r, F a b N⟩) (clock r))
        (step := fun r => c.stepPlots (clock r) (fun j => E j r)) (fun j hj st' => ?_) (fun r => ((st r).1, ⟨([], []), ([], []), ([], [])⟩))
      have k := (hk j (hu j (studyRuns_mem hN hj))).2 (fun r => (st' r).1)
      exact (Runs.bind k (q := fun r x => (pure (x.2.restart, ⟨(st' r).2.error.push x.1.resolution x.1.l1,
          (st' r).2.build.push x.1.resolution (x.2.time "build-stage".toList),
          (st' r).2.solve.push x.1.resolution (x.2.time "solve-stage".toList)⟩) : Prog (Patch K) (AppClock K × Three (PlotPair K))))
        (w := fun r => c.stepPlots (clock r) (fun j => E j r) (st' r) j) (Runs.pure fun r _ => rfl)).congr (fun r _ => rfl) (fun r _ => rfl)
    refine (Runs.bind r1 (q := fun r x => (pure (x.1, ⟨(st r).2.error ++ [x.2.error], (st r).2.build ++ [x.2.build],
        (st r).2.solve ++ [x.2.solve]⟩) : Prog (Patch K) (AppClock K × Three (List (PlotPair K)))))
      (w := fun r => c.stepSize (clock r) (fun j => E j r) u levels (st r) N) (Runs.pure fun r _ => rfl)).congr (fun r _ => ?_) (fun r _ => rfl)
    unfold StudyCase.sizePlots
    rw [StudyCase.levels_jobs]
  refine ⟨E, _, _, fun j hj => (hk j hj).1, step true (fun j hj => List.mem_append_left _ hj) (fun _ => s),
    step false (fun j hj => List.mem_append_right _ hj) _, fun r => ⟨?_, ?_⟩⟩
  · obtain ⟨-, a⟩ := c.sizes_fold (clock r) (fun j => E j r) hn true levels sizes s [] [] []
    simpa only [List.nil_append] using a
  · obtain ⟨b, -⟩ := c.sizes_fold (clock r) (fun j => E j r) hn true levels sizes s [] [] []
    obtain ⟨-, a⟩ := c.sizes_fold (clock r) (fun j => E j r) hn false levels sizes
      (sizes.foldl (c.stepSize (clock r) (fun j => E j r) true levels) (s, ⟨[], [], []⟩)).1 [] [] []
    rw [b] at a
    simpa only [List.nil_append] using a

/-- C110, what the figures show, for every family of meshes, every number of ranks and every list of levels and of at most six patch
sizes: the program ends on all ranks; rank `0` makes three figures and the others none.  Each has one curve for every size and analysis,
in the order of the sizes, with the size in its name and a colour of its own; its points are the runs of that size in the order of the
levels, at the effective resolution of the run.  The ordinates are the mean errors rank `0` reports for its own leaves (C70), the times
of the build stages and the times of the last solve stages of these runs.  The axis of the first figure says that it is the maximum. -/
theorem C110_actual {c : StudyCase K} (h0 : c.opt.homogeneousRhs = false) (h1 : c.opt.cacheOperators = false) (hx : c.xl < c.xu)
    (hy : c.yl < c.yu) (hq : IsSqrt c.sqrt) {n : Nat} (hn : c.solves = n + 1) {M size : Nat} (hpos : 0 < size)
    {F : Nat → Nat → Nat → Forest} {sizes levels : List Nat}
    (h : ∀ j ∈ studyRuns true sizes levels ++ studyRuns false sizes levels, c.Fine M size j (F j.minLevel j.maxLevel j.N))
    (h6 : sizes.length ≤ 6) (clock : Nat → Nat → K) (s : AppClock K) :
    ∃ (E : StudyRun → Nat → ErrorReport K) (figs : Nat → List (Figure K)),
      (∀ j ∈ studyRuns true sizes levels ++ studyRuns false sizes levels,
        AlwaysEnds (studyOn M size (F j.minLevel j.maxLevel j.N) c.lap c.ps c.opt (c.root j.N) c.f c.bc c.solves c.sqrt c.exact j.maxLevel)
          (E j)) ∧
      AlwaysEnds (c.plotsOn M size F clock sizes levels s) figs ∧ (∀ r, r ≠ 0 → figs r = []) ∧
      figs 0 =
        [⟨bothCurves "-v".toList "--o".toList (fun _ => meanCurve fun j => E j 0) n s.ticks sizes levels, "Effective Resolution".toList,
            "Inf-Norm Error".toList, "Convergence Study - Uniform vs. Adaptive Mesh".toList, "plot_elliptic_error_no_title.pdf".toList,
            "plot_elliptic_error.pdf".toList⟩,
          ⟨bothCurves "--s".toList "-o".toList (buildCurve (clock 0) n fun j => E j 0) n s.ticks sizes levels, "Effective Resolution".toList,
            "Time [sec]".toList, "Timing Study - Uniform vs. Adaptive Mesh - Build Stage".toList,
            "plot_elliptic_build_time_no_title.pdf".toList, "plot_elliptic_build_time.pdf".toList⟩,
          ⟨bothCurves "--s".toList "-o".toList (solveCurve (clock 0) n fun j => E j 0) n s.ticks sizes levels, "Effective Resolution".toList,
            "Time [sec]".toList, "Timing Study - Uniform vs. Adaptive Mesh - Solve Stage".toList,
            "plot_elliptic_solve_time_no_title.pdf".toList, "plot_elliptic_solve_time.pdf".toList⟩] := by
  obtain ⟨E, A, B, e1, e2, e3, e4⟩ := plots_run h0 h1 hx hy hq hn h clock s
  have hlen : ∀ (curve : Nat → List StudyRun → PlotPair K) u b, (curvesOf curve n u levels b sizes).length = sizes.length :=
    fun curve u b => curvesOf_length curve n u levels b sizes
  have hd : ∃ fs, drawFigures sizes (A 0).2 (B 0).2 = .ok fs ∧ fs = _ := ⟨_, by
    rw [(e4 0).1, (e4 0).2]
    unfold drawFigures drawFigure
    simp only [drawCurves_ok _ _ (hlen _ _ _) h6, Res.ok_bind]
    rfl, rfl⟩
  obtain ⟨fs, d1, d2⟩ := hd
  have r3 : Runs (fun r => r < size) (fun r => c.plots (fun a b N => ⟨M, size, r, F a b N⟩) (clock r) r sizes levels s)
      (fun r => if r = 0 then fs else []) := by
    refine (Runs.bind e2 (q := fun r u => c.analysisPlots (fun a b N => ⟨M, size, r, F a b N⟩) (clock r) false sizes levels u.1 >>= fun a =>
        if r = 0 then Prog.fin (drawFigures sizes u.2 a.2) else pure [])
      (w := fun r => if r = 0 then fs else [])
      (Runs.bind e3 (q := fun r a => if r = 0 then Prog.fin (drawFigures sizes (A r).2 a.2) else pure [])
        (w := fun r => if r = 0 then fs else []) (Runs.pure fun r _ => ?_))).congr (fun r _ => rfl) (fun r _ => rfl)
    by_cases hr : r = 0
    · subst hr
      simp only [if_true]
      rw [d1]
      rfl
    · simp only [if_neg hr]
  refine ⟨E, _, e1, Runs.ends r3 [], fun r hr => ?_, ?_⟩
  · simp only [if_neg hr, ite_self]
  · simp only [if_pos hpos, if_true]
    rw [d2]
    rfl

/-- C110 needs at most six patch sizes: with more, all runs are done and written and then rank `0` reads behind the end of the list of
colours. -/
theorem C110_colours_wrong {c : StudyCase K} (h0 : c.opt.homogeneousRhs = false) (h1 : c.opt.cacheOperators = false) (hx : c.xl < c.xu)
    (hy : c.yl < c.yu) (hq : IsSqrt c.sqrt) {n : Nat} (hn : c.solves = n + 1) {M size : Nat} (hpos : 0 < size)
    {F : Nat → Nat → Nat → Forest} {sizes levels : List Nat}
    (h : ∀ j ∈ studyRuns true sizes levels ++ studyRuns false sizes levels, c.Fine M size j (F j.minLevel j.maxLevel j.N))
    (h6 : 6 < sizes.length) (clock : Nat → Nat → K) (s : AppClock K) :
    AlwaysFails size (c.plotsOn M size F clock sizes levels s) none := by
  obtain ⟨E, A, B, e1, e2, e3, e4⟩ := plots_run h0 h1 hx hy hq hn h clock s
  have r3 : Breaks (fun r => r < size) (fun r => c.plots (fun a b N => ⟨M, size, r, F a b N⟩) (clock r) r sizes levels s) none := by
    refine (Runs.breaks e2 (q := fun r u => c.analysisPlots (fun a b N => ⟨M, size, r, F a b N⟩) (clock r) false sizes levels u.1 >>= fun a =>
        if r = 0 then Prog.fin (drawFigures sizes u.2 a.2) else pure [])
      (Runs.breaks e3 (q := fun r a => if r = 0 then Prog.fin (drawFigures sizes (A r).2 a.2) else pure [])
        (Breaks.now (r := 0) hpos ?_))).congr (fun r _ => rfl)
    simp only [if_true]
    rw [(e4 0).1, (e4 0).2]
    unfold drawFigures drawFigure
    dsimp only
    rw [drawCurves_ub _ _ (by rw [curvesOf_length]; exact h6)]
    rfl
  exact r3.always fun r hr => by
    unfold StudyCase.plotsOn
    rw [if_pos hr]

/-- The area of the leaves of a rank is at most that of the domain. -/
theorem rank_area {N size : Nat} (hN : 0 < N) {F : Forest} (hr : EveryRank F size) {t : Tree (Patch K)} {R : Rect K} (hR : Proper R)
    (pl : Placed N t R) {m : NodeMap (Patch K)} (hm : Rep 0 F t [] m) (exact : K → K → K) {r : Nat} (h : r < size) :
    (((leavesOf r F t).flatMap (cellErrors exact)).map Prod.fst).sum ≤ R.area := by
  have e := pl.area hN exact
  rw [flatMap_sum, ← leavesOf_sum _ hm (fun k hk => (hr k).mpr hk)] at e
  rw [flatMap_sum]
  show _ ≤ (R.xu - R.xl) * (R.yu - R.yl)
  rw [← e]
  refine Finset.single_le_sum (f := fun r => ((leavesOf r F t).map fun p => ((cellErrors exact p).map Prod.fst).sum).sum)
    (fun k _ => ?_) (Finset.mem_range.mpr h)
  refine List.sum_nonneg fun x hx => ?_
  obtain ⟨p, hp, rfl⟩ := List.mem_map.mp hx
  refine List.sum_nonneg fun y hy => ?_
  obtain ⟨d, hd, rfl⟩ := List.mem_map.mp hy
  exact (cellErrors_nonneg exact (pl.leaves hR p (leavesOf_sub hp)).2.2 d hd).1

/-- C110 is false: the axis of the errors says maximum, the points are means.  For every case, mesh, number of ranks and run there is a
function to compare with for which the point of the run lies strictly below the maximum of the errors the run reports, and which differs
from the given function in no more than one point. -/
theorem C110_axis_wrong {c : StudyCase K} (h0 : c.opt.homogeneousRhs = false) (h1 : c.opt.cacheOperators = false) (hx : c.xl < c.xu)
    (hy : c.yl < c.yu) (hq : IsSqrt c.sqrt) {n : Nat} (hn : c.solves = n + 1) {M size : Nat} (hpos : 0 < size)
    {F : Nat → Nat → Nat → Forest} {sizes levels : List Nat}
    (h : ∀ j ∈ studyRuns true sizes levels ++ studyRuns false sizes levels, c.Fine M size j (F j.minLevel j.maxLevel j.N))
    (h6 : sizes.length ≤ 6) (clock : Nat → Nat → K) (s : AppClock K) {j : StudyRun}
    (hj : j ∈ studyRuns true sizes levels ++ studyRuns false sizes levels) :
    ∃ (v : K → K → K) (x0 y0 : K) (E : StudyRun → Nat → ErrorReport K) (figs : Nat → List (Figure K)) (fig : Figure K),
      (∀ x y, (x ≠ x0 ∨ y ≠ y0) → v x y = c.exact x y) ∧
      AlwaysEnds (studyOn M size (F j.minLevel j.maxLevel j.N) c.lap c.ps c.opt (c.root j.N) c.f c.bc c.solves c.sqrt v j.maxLevel) (E j) ∧
      AlwaysEnds (StudyCase.plotsOn { c with exact := v } M size F clock sizes levels s) figs ∧ (figs 0).head? = some fig ∧
      fig.ylabel = "Inf-Norm Error".toList ∧
      fig.curves = bothCurves "-v".toList "--o".toList (fun _ => meanCurve fun j => E j 0) n s.ticks sizes levels ∧
      (E j 0).l1 < (E j 0).lI := by
  obtain ⟨b1, b2, b3, b4, b5⟩ := h j hj
  have hN : 0 < j.N := by omega
  have hR : Proper (⟨c.xl, c.xu, c.yl, c.yu⟩ : Rect K) := ⟨hx, hy⟩
  have hc : c.opt.cacheOperators = true → ∀ k, ∃ B, ∀ p ∈ leavesOf k (F j.minLevel j.maxLevel j.N)
      (startTree (c.root j.N) (F j.minLevel j.maxLevel j.N) []), c.ps.buildD2N p.grid = .ok B := fun h => by rw [h1] at h; cases h
  have each := fun v => C70_each_rank_actual c.lap hN b2 h0 b3 b4 b5 (root := c.root j.N) hR rfl rfl (.inl b1) hc c.f c.bc n hq v j.maxLevel
  obtain ⟨t1, c1, t3, Z, k1, k2, pl, -, ⟨m, hm⟩, -, -⟩ := each c.exact
  obtain ⟨p, L, hp⟩ := List.exists_cons_of_ne_nil (leavesOf_ne_nil hm ((b5 0).mp hpos))
  have hpm : p ∈ leavesOf 0 (F j.minLevel j.maxLevel j.N) t3 := by rw [hp]; simp
  obtain ⟨g1, g2, g3⟩ := pl.leaves hR p (leavesOf_sub hpm)
  set x0 := cx (rect p.grid) p.grid.nx 0 with hx0
  set y0 := cy (rect p.grid) p.grid.ny 0 with hy0
  set x1 := cx (rect p.grid) p.grid.nx 1 with hx1
  have hne : x1 ≠ x0 := by
    have hp := hx_pos g3 (nx := p.grid.nx) (by omega)
    rw [hx0, hx1]
    unfold cx
    push_cast
    intro h
    nlinarith
  let u0 := p.u.data.getD (0 + 0 * p.grid.ny) 0
  let d1 := |p.u.data.getD (0 + 1 * p.grid.ny) 0 - c.exact x1 y0|
  let v : K → K → K := fun x y => if x = x0 ∧ y = y0 then u0 - (d1 + 1) else c.exact x y
  obtain ⟨t1', c1', t3', Z', k1', k2', -, -, -, k3, k4⟩ := each v
  rw [k1] at k1'
  obtain ⟨rfl, rfl⟩ := Prod.mk.inj (Res.ok_inj.mp k1')
  rw [k2] at k2'
  obtain rfl := Res.ok_inj.mp k2'
  obtain ⟨E, figs, a1, a2, -, a3⟩ := C110_actual (c := { c with exact := v }) h0 h1 hx hy hq hn hpos
    (fun j hj => let ⟨q1, q2, q3, q4, q5⟩ := h j hj; ⟨q1, q2, q3, q4, q5⟩) h6 clock s
  refine ⟨v, x0, y0, E, figs, _, fun x y hxy => ?_, a1 j hj, a2, by rw [a3]; rfl, rfl, rfl, ?_⟩
  · show (if x = x0 ∧ y = y0 then _ else _) = _
    rw [if_neg]
    rintro ⟨e1, e2⟩
    rcases hxy with h | h
    · exact h e1
    · exact h e2
  · have a4 := a1 j hj
    dsimp only at a4
    rw [hn] at a4
    have hZ : Z' 0 = E j 0 := congrFun (k3.unique a4) 0
    have k5 := (k4 0 hpos).1
    rw [hZ] at k5
    have mem : ∀ i k, i < p.grid.nx → k < p.grid.ny →
        (FV.hx (rect p.grid) p.grid.nx * FV.hy (rect p.grid) p.grid.ny, |p.u.data.getD (k + i * p.grid.ny) 0 - v (cx (rect p.grid) p.grid.nx i) (cy (rect p.grid) p.grid.ny k)|) ∈
          (leavesOf 0 (F j.minLevel j.maxLevel j.N) t3).flatMap (cellErrors v) := by
      intro i k hi hk
      exact List.mem_flatMap.mpr ⟨p, hpm, List.mem_map.mpr ⟨(i, k), by simp [cellIndices, hi, hk], rfl⟩⟩
    refine k5.strict hR.area (fun d hd => ?_) (rank_area hN b5 hR pl hm v hpos) (mem 0 0 (by omega) (by omega))
      (mem 1 0 (by omega) (by omega)) ?_
    · obtain ⟨q, hq', hd'⟩ := List.mem_flatMap.mp hd
      obtain ⟨a, b, hp'⟩ := pl.leaves hR q (leavesOf_sub hq')
      refine ⟨?_, (cellErrors_nonneg v hp' d hd').2⟩
      obtain ⟨ij, -, rfl⟩ := List.mem_map.mp hd'
      exact mul_pos (hx_pos hp' (by omega)) (hy_pos hp' (by omega))
    · have v0 : v x0 y0 = u0 - (d1 + 1) := if_pos ⟨rfl, rfl⟩
      have v1 : v x1 y0 = c.exact x1 y0 := if_neg fun h => hne h.1
      show |u0 - v x0 y0| ≠ |p.u.data.getD (0 + 1 * p.grid.ny) 0 - v x1 y0|
      rw [v0, v1, sub_sub_cancel]
      have hd : 0 ≤ d1 := abs_nonneg _
      rw [abs_of_nonneg (by linarith)]
      show d1 + 1 ≠ d1
      linarith

/-- C110 on one rank, for every family of meshes: the points of the first figure are the means of the errors over all cells of the mesh of
the run, at the effective resolution of the run; the maximum the axis announces is not less.
Missing: the maximum itself (`C110_axis_wrong`); several ranks, where the mean leaves out the cells of the other ranks; more than six sizes
(`C110_colours_wrong`); rounding; what matplotlib makes of the figures. -/
theorem C110_one_rank_partial {c : StudyCase K} (h0 : c.opt.homogeneousRhs = false) (h1 : c.opt.cacheOperators = false) (hx : c.xl < c.xu)
    (hy : c.yl < c.yu) (hq : IsSqrt c.sqrt) {n : Nat} (hn : c.solves = n + 1) {M : Nat}
    {F : Nat → Nat → Nat → Forest} {sizes levels : List Nat}
    (h : ∀ j ∈ studyRuns true sizes levels ++ studyRuns false sizes levels, c.Fine M 1 j (F j.minLevel j.maxLevel j.N))
    (h6 : sizes.length ≤ 6) (clock : Nat → Nat → K) (s : AppClock K) :
    ∃ (E : StudyRun → ErrorReport K) (figs : Nat → List (Figure K)),
      AlwaysEnds (c.plotsOn M 1 F clock sizes levels s) figs ∧
      (figs 0).map Figure.curves = [bothCurves "-v".toList "--o".toList (fun _ => meanCurve E) n s.ticks sizes levels,
        bothCurves "--s".toList "-o".toList (buildCurve (clock 0) n E) n s.ticks sizes levels,
        bothCurves "--s".toList "-o".toList (solveCurve (clock 0) n E) n s.ticks sizes levels] ∧
      ∀ j ∈ studyRuns true sizes levels ++ studyRuns false sizes levels,
        (∃ (t1 : Tree (Patch K)) (c1 : Option (Mat K)) (t3 : Tree (Patch K)),
          HPS.buildStage c.lap c.ps { c.opt with cacheOperators := false } (startTree (c.root j.N) (F j.minLevel j.maxLevel j.N) []) none =
            .ok (t1, c1) ∧
          (Request.functions c.f c.bc).run c.lap c.ps c.opt t1 = .ok t3 ∧
          (E j).Measures ((c.xu - c.xl) * (c.yu - c.yl)) (t3.leaves.flatMap (cellErrors c.exact))) ∧
        (E j).l1 ≤ (E j).lI ∧ (E j).resolution = 2 ^ j.maxLevel * j.N := by
  obtain ⟨E, figs, a1, a2, -, a3⟩ := C110_actual h0 h1 hx hy hq hn one_pos h h6 clock s
  refine ⟨fun j => E j 0, figs, a2, by rw [a3]; rfl, fun j hj => ?_⟩
  obtain ⟨b1, b2, b3, b4, b5⟩ := h j hj
  obtain ⟨t1, c1, t3, Y, k1, k2, k3, k4, k5, k6, k7⟩ := C70_one_rank_partial c.lap (by omega : 0 < j.N) b2 h0 b3 b4 b5 (root := c.root j.N)
    (R := ⟨c.xl, c.xu, c.yl, c.yu⟩) ⟨hx, hy⟩ rfl rfl (.inl b1) (fun h => by rw [h1] at h; cases h) c.f c.bc n hq c.exact j.maxLevel
  have a4 := a1 j hj
  rw [hn] at a4
  obtain rfl := k3.unique a4
  exact ⟨⟨t1, c1, t3, k1, k2, k4⟩, k5.trans k6, k7⟩

end

/-! ## Examples -/

/-- Two sizes and two levels with one solve, every run with error one over its resolution, the clock showing its number squared: names,
points and styles of the build times.  The second size has no run of level two. -/
example : (bothCurves "--s".toList "-o".toList (buildCurve (fun k => ((k : ℚ)) ^ 2) 0
      (fun j => ⟨1 / (j.N * 2 ^ j.maxLevel), 0, 0, 0, 2 ^ j.maxLevel * j.N⟩)) 0 0 [4, 512] [1, 2]).map
      (fun c => (String.ofList c.label, c.points, String.ofList c.style)) =
    [("Uniform: N = 4", ([8, 16], [5, 21]), "--sr"), ("Uniform: N = 512", ([1024], [37]), "--sg"),
      ("Adaptive: N = 4", ([8, 16], [53, 69]), "-or"), ("Adaptive: N = 512", ([1024], [85]), "-og")] := by decide +kernel

/-- The figures of four leaves on two ranks. -/
noncomputable example (lap : Lapack ℝ) (lu : PetscLU ℝ) (f u : ℝ → ℝ → ℝ) (clock : Nat → Nat → ℝ) :=
  C110_axis_wrong (c := ⟨lap, expPde.toPatchSolver lu, ⟨false, false⟩, 0, 1, 0, 1, f, fun _ x y => (u x y, 1, 0), 3, Real.sqrt, u⟩)
    rfl rfl one_pos one_pos realSqrt (n := 2) rfl (M := 30) (size := 2) two_pos (F := fun _ _ _ => exTwoRanks) (sizes := [4, 8]) (levels := [1])
    (by
      intro j hj
      have h : 3 ≤ j.N := by
        simp [studyRuns] at hj
        rcases hj with rfl | rfl | rfl | rfl <;> decide
      exact ⟨h, FVSolver.shapes lu expPde (by omega), by decide, by unfold Forest.Sorted; decide, by intro r; simp [exTwoRanks, Forest.ranks]; omega⟩)
    (by decide) clock ⟨fun _ => none, 0⟩ (j := ⟨0, 1, 8⟩) (by simp [studyRuns])

/-- Seven sizes. -/
noncomputable example (lap : Lapack ℝ) (lu : PetscLU ℝ) (f u : ℝ → ℝ → ℝ) (clock : Nat → Nat → ℝ) :=
  C110_colours_wrong (c := ⟨lap, expPde.toPatchSolver lu, ⟨false, false⟩, 0, 1, 0, 1, f, fun _ x y => (u x y, 1, 0), 1, Real.sqrt, u⟩)
    rfl rfl one_pos one_pos realSqrt (n := 0) rfl (M := 30) (size := 2) two_pos (F := fun _ _ _ => exTwoRanks)
    (sizes := [4, 8, 16, 32, 64, 128, 256]) (levels := [1])
    (by
      intro j hj
      have h : 3 ≤ j.N := by
        simp [studyRuns] at hj
        rcases hj with rfl | rfl | rfl | rfl | rfl | rfl | rfl | rfl | rfl | rfl | rfl | rfl | rfl | rfl <;> decide
      exact ⟨h, FVSolver.shapes lu expPde (by omega), by decide, by unfold Forest.Sorted; decide, by intro r; simp [exTwoRanks, Forest.ranks]; omega⟩)
    (by decide) clock ⟨fun _ => none, 0⟩

end EF
