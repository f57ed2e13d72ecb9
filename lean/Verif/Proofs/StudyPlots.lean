import Verif.Spec.StudyPlots
import Verif.Proofs.Study
import Verif.Proofs.Failure

/-!
# Lemmas on the plots of the convergence study
-/

namespace EF

open HPS

/-! ## Drawing -/

section
variable {K : Type}

theorem drawCurves_ok (name style : Text) {sizes : List Nat} {plots : List (PlotPair K)} (h : plots.length = sizes.length)
    (h6 : sizes.length ≤ 6) [Field K] : drawCurves name style sizes plots = .ok (legend name style plotColors sizes plots) := by
  have key : ∀ (plots : List (PlotPair K)) (acc : List (Curve K)) (k : Nat), k + plots.length ≤ sizes.length →
      plots.foldlM (fun (x : List (Curve K) × Nat) p => do
        let N ← rd sizes x.2
        let color ← rd plotColors x.2
        pure (x.1 ++ [⟨name ++ intText N, p, style ++ color⟩], x.2 + 1)) (acc, k) =
      Res.ok (acc ++ legend name style (plotColors.drop k) (sizes.drop k) plots, k + plots.length) := by
    intro plots
    induction plots with
    | nil =>
      intro acc k _
      cases plotColors.drop k <;> cases sizes.drop k <;> simp [legend] <;> rfl
    | cons p plots ih =>
      intro acc k hk
      rw [List.length_cons] at hk
      have h1 : k < sizes.length := by omega
      have h2 : k < plotColors.length := by simp only [plotColors, List.length_cons, List.length_nil]; omega
      rw [List.foldlM_cons]
      dsimp only
      have e1 : rd sizes k = .ok sizes[k] := by rw [rd, List.getElem?_eq_getElem h1]
      have e2 : rd plotColors k = .ok plotColors[k] := by rw [rd, List.getElem?_eq_getElem h2]
      rw [e1, Res.ok_bind, e2, Res.ok_bind]
      show (_ : Res (List (Curve K) × Nat)) = _
      erw [Res.ok_bind]
      rw [ih _ _ (by omega), List.drop_eq_getElem_cons h1, List.drop_eq_getElem_cons h2]
      simp only [legend, List.length_cons, List.append_assoc, List.cons_append, List.nil_append]
      rw [show k + 1 + plots.length = k + (plots.length + 1) by omega]
      rfl
  unfold drawCurves
  rw [key plots [] 0 (by omega)]
  rfl

theorem drawCurves_ub (name style : Text) {sizes : List Nat} {plots : List (PlotPair K)} (h : 6 < plots.length) :
    drawCurves name style sizes plots = .ub := by
  have key : ∀ (plots : List (PlotPair K)) (acc : List (Curve K)) (k : Nat), k ≤ 6 → 6 < k + plots.length →
      plots.foldlM (fun (x : List (Curve K) × Nat) p => do
        let N ← rd sizes x.2
        let color ← rd plotColors x.2
        pure (x.1 ++ [⟨name ++ intText N, p, style ++ color⟩], x.2 + 1)) (acc, k) = (Res.ub : Res (List (Curve K) × Nat)) := by
    intro plots
    induction plots with
    | nil => intro acc k h1 h2; simp at h2; omega
    | cons p plots ih =>
      intro acc k h1 h2
      rw [List.length_cons] at h2
      rw [List.foldlM_cons]
      dsimp only
      cases e1 : rd sizes k with
      | ub => rfl
      | throw e => unfold rd at e1; split at e1 <;> cases e1
      | ok N =>
        rw [Res.ok_bind]
        by_cases hk : k = 6
        · subst hk
          rfl
        · have h3 : k < plotColors.length := by simp only [plotColors, List.length_cons, List.length_nil]; omega
          have e2 : rd plotColors k = .ok plotColors[k] := by rw [rd, List.getElem?_eq_getElem h3]
          rw [e2, Res.ok_bind]
          erw [Res.ok_bind]
          exact ih _ _ (by omega) (by omega)
  unfold drawCurves
  rw [key plots [] 0 (by omega) (by omega)]
  rfl

end

/-! ## The loops -/

section
variable {K : Type} [Field K] [LinearOrder K] [IsStrictOrderedRing K]

theorem curvesOf_length (curve : Nat → List StudyRun → PlotPair K) (n : Nat) (u : Bool) (levels : List Nat) (b : Nat) (sizes : List Nat) :
    (curvesOf curve n u levels b sizes).length = sizes.length := by
  induction sizes generalizing b with
  | nil => rfl
  | cons N sizes ih => simp [curvesOf, ih]

theorem studyRuns_mem {u : Bool} {N : Nat} {sizes levels : List Nat} (hN : N ∈ sizes) {j : StudyRun} (hj : j ∈ studyRuns u [N] levels) :
    j ∈ studyRuns u sizes levels := by
  simp only [studyRuns, List.flatMap_cons, List.flatMap_nil, List.append_nil] at hj
  exact List.mem_flatMap.mpr ⟨N, hN, hj⟩

theorem studyRuns_cons (u : Bool) (N : Nat) (sizes levels : List Nat) :
    studyRuns u (N :: sizes) levels = studyRuns u [N] levels ++ studyRuns u sizes levels := by
  simp [studyRuns]

/-- A run and the points it adds. -/
def StudyCase.jobPlots (c : StudyCase K) (P : Nat → Nat → Nat → Place) (clock : Nat → K) (s : AppClock K × Three (PlotPair K))
    (j : StudyRun) : Prog (Patch K) (AppClock K × Three (PlotPair K)) := do
  let x ← c.run (P j.minLevel j.maxLevel j.N) clock j.minLevel j.maxLevel j.N s.1
  pure (x.2.restart, ⟨s.2.error.push x.1.resolution x.1.l1, s.2.build.push x.1.resolution (x.2.time "build-stage".toList),
    s.2.solve.push x.1.resolution (x.2.time "solve-stage".toList)⟩)

theorem StudyCase.levels_jobs (c : StudyCase K) (P : Nat → Nat → Nat → Place) (clock : Nat → K) (u : Bool) (N : Nat) (levels : List Nat)
    (s : AppClock K × Three (PlotPair K)) : levels.foldlM (fun s l => c.levelPlots P clock u N l s) s =
      (studyRuns u [N] levels).foldlM (c.jobPlots P clock) s := by
  simp only [studyRuns, List.flatMap_cons, List.flatMap_nil, List.append_nil]
  induction levels generalizing s with
  | nil => rfl
  | cons l levels ih =>
    rw [List.foldlM_cons, List.filter_cons]
    have hl := small_iff N l
    by_cases h : N * 2 ^ l ≤ 1024
    · rw [if_pos (by simpa using h), List.map_cons, List.foldlM_cons]
      have e : c.levelPlots P clock u N l s = c.jobPlots P clock s ⟨if u then l else 0, l, N⟩ := by
        unfold StudyCase.levelPlots
        rw [if_neg (hl.mpr h)]
        rfl
      rw [e]
      congr 1
      funext s'
      exact ih s'
    · rw [if_neg (by simpa using h)]
      have e : c.levelPlots P clock u N l s = pure s := by
        unfold StudyCase.levelPlots
        rw [if_pos (by
          by_contra h'
          exact h (hl.mp h'))]
      rw [e, pure_bind]
      exact ih s

/-- What a run does to the timers and the points. -/
def StudyCase.stepPlots (c : StudyCase K) (clock : Nat → K) (E : StudyRun → ErrorReport K) (s : AppClock K × Three (PlotPair K))
    (j : StudyRun) : AppClock K × Three (PlotPair K) :=
  ((s.1.stages clock c.solves).restart, ⟨s.2.error.push (E j).resolution (E j).l1,
    s.2.build.push (E j).resolution ((s.1.stages clock c.solves).time "build-stage".toList),
    s.2.solve.push (E j).resolution ((s.1.stages clock c.solves).time "solve-stage".toList)⟩)

/-- What the runs of a size do. -/
def StudyCase.stepSize (c : StudyCase K) (clock : Nat → K) (E : StudyRun → ErrorReport K) (u : Bool) (levels : List Nat)
    (s : AppClock K × Three (List (PlotPair K))) (N : Nat) : AppClock K × Three (List (PlotPair K)) :=
  let x := (studyRuns u [N] levels).foldl (c.stepPlots clock E) (s.1, ⟨([], []), ([], []), ([], [])⟩)
  (x.1, ⟨s.2.error ++ [x.2.error], s.2.build ++ [x.2.build], s.2.solve ++ [x.2.solve]⟩)

omit [LinearOrder K] [IsStrictOrderedRing K] in
/-- Appending curves point by point. -/
theorem shift_range (m b : Nat) (f : Nat → K) (k : Nat) :
    f (b + k * 0) :: (List.range m).map (fun i => f (b + k + k * i)) = (List.range (m + 1)).map fun i => f (b + k * i) := by
  rw [List.range_succ_eq_map, List.map_cons, List.map_map]
  congr 1
  refine List.map_congr_left fun i _ => ?_
  show f _ = f _
  congr 1
  rw [Nat.succ_eq_add_one]
  ring

theorem StudyCase.points_fold (c : StudyCase K) (clock : Nat → K) (E : StudyRun → ErrorReport K) {n : Nat} (hn : c.solves = n + 1)
    (js : List StudyRun) (s : AppClock K) (p q w : PlotPair K) :
    (js.foldl (c.stepPlots clock E) (s, ⟨p, q, w⟩)).1.ticks = s.ticks + 4 * (n + 2) * js.length ∧
    (js.foldl (c.stepPlots clock E) (s, ⟨p, q, w⟩)).2 =
      ⟨(p.1 ++ (meanCurve E js).1, p.2 ++ (meanCurve E js).2),
        (q.1 ++ (buildCurve clock n E s.ticks js).1, q.2 ++ (buildCurve clock n E s.ticks js).2),
        (w.1 ++ (solveCurve clock n E s.ticks js).1, w.2 ++ (solveCurve clock n E s.ticks js).2)⟩ := by
  induction js generalizing s p q w with
  | nil => simp [meanCurve, buildCurve, solveCurve, resolutions]
  | cons j js ih =>
    obtain ⟨a1, a2, -, a4⟩ := AppClock.stages_spec clock n s
    rw [← hn] at a1 a2 a4
    have hr : ((s.stages clock c.solves).restart).ticks = s.ticks + 4 * (n + 2) := a1
    rw [List.foldl_cons]
    obtain ⟨b1, b2⟩ := ih (s.stages clock c.solves).restart (p.push (E j).resolution (E j).l1)
      (q.push (E j).resolution ((s.stages clock c.solves).time "build-stage".toList))
      (w.push (E j).resolution ((s.stages clock c.solves).time "solve-stage".toList))
    refine ⟨?_, ?_⟩
    · refine Eq.trans b1 ?_
      rw [hr, List.length_cons]
      ring
    · refine Eq.trans b2 ?_
      rw [hr, a2, a4]
      have e1 := shift_range js.length s.ticks (fun b => clock (b + 3) - clock (b + 2)) (4 * (n + 2))
      have e2 := shift_range js.length s.ticks (fun b => clock (b + 4 * n + 7) - clock (b + 4 * n + 6)) (4 * (n + 2))
      simp only [Nat.mul_zero, Nat.add_zero] at e1 e2
      simp only [meanCurve, buildCurve, solveCurve, resolutions, PlotPair.push, List.append_assoc, List.cons_append, List.nil_append,
        List.map_cons, List.length_cons, ← e1, ← e2]

theorem StudyCase.sizes_fold (c : StudyCase K) (clock : Nat → K) (E : StudyRun → ErrorReport K) {n : Nat} (hn : c.solves = n + 1)
    (u : Bool) (levels sizes : List Nat) (s : AppClock K) (P Q W : List (PlotPair K)) :
    (sizes.foldl (c.stepSize clock E u levels) (s, ⟨P, Q, W⟩)).1.ticks = s.ticks + 4 * (n + 2) * (studyRuns u sizes levels).length ∧
    (sizes.foldl (c.stepSize clock E u levels) (s, ⟨P, Q, W⟩)).2 =
      ⟨P ++ curvesOf (fun _ => meanCurve E) n u levels s.ticks sizes, Q ++ curvesOf (buildCurve clock n E) n u levels s.ticks sizes,
        W ++ curvesOf (solveCurve clock n E) n u levels s.ticks sizes⟩ := by
  induction sizes generalizing s P Q W with
  | nil => simp [curvesOf, studyRuns]
  | cons N sizes ih =>
    rw [List.foldl_cons]
    obtain ⟨a1, a2⟩ := c.points_fold clock E hn (studyRuns u [N] levels) s ([], []) ([], []) ([], [])
    obtain ⟨b1, b2⟩ := ih (c.stepSize clock E u levels (s, ⟨P, Q, W⟩) N).1 (c.stepSize clock E u levels (s, ⟨P, Q, W⟩) N).2.error
      (c.stepSize clock E u levels (s, ⟨P, Q, W⟩) N).2.build (c.stepSize clock E u levels (s, ⟨P, Q, W⟩) N).2.solve
    have ht : (c.stepSize clock E u levels (s, ⟨P, Q, W⟩) N).1.ticks = s.ticks + 4 * (n + 2) * (studyRuns u [N] levels).length := a1
    refine ⟨?_, ?_⟩
    · refine Eq.trans b1 ?_
      rw [ht, studyRuns_cons u N sizes, List.length_append]
      ring
    · refine Eq.trans b2 ?_
      rw [ht]
      simp only [StudyCase.stepSize, a2, curvesOf, List.append_assoc, List.cons_append, List.nil_append]

end

/-! ## The mean and the maximum -/

section
variable {K : Type} [Field K] [LinearOrder K] [IsStrictOrderedRing K]

/-- The mean error is less than the maximum as soon as two cells have different errors. -/
theorem ErrorReport.Measures.strict {e : ErrorReport K} {A : K} {cs : List (K × K)} (h : e.Measures A cs) (hA : 0 < A)
    (h0 : ∀ c ∈ cs, 0 < c.1 ∧ 0 ≤ c.2) (ha : (cs.map Prod.fst).sum ≤ A) {a b : K × K} (hm : a ∈ cs) (hm' : b ∈ cs) (hab : a.2 ≠ b.2) :
    e.l1 < e.lI := by
  obtain ⟨h1, -, ⟨h4, h5, -⟩, -⟩ := h
  obtain ⟨d, hd, hlt⟩ : ∃ d ∈ cs, d.2 < e.lI := by
    rcases lt_or_gt_of_ne hab with h | h
    · exact ⟨a, hm, lt_of_lt_of_le h (h5 b hm')⟩
    · exact ⟨b, hm', lt_of_lt_of_le h (h5 a hm)⟩
  have k : (cs.map fun c => c.1 * c.2).sum < (cs.map fun c => c.1 * e.lI).sum := by
    refine List.sum_lt_sum _ _ (fun c hc => mul_le_mul_of_nonneg_left (h5 c hc) (h0 c hc).1.le) ⟨d, hd, ?_⟩
    exact mul_lt_mul_of_pos_left hlt (h0 d hd).1
  rw [← h1, List.sum_map_mul_right] at k
  have k2 : (cs.map Prod.fst).sum * e.lI ≤ A * e.lI := mul_le_mul_of_nonneg_right ha h4
  have k3 : e.l1 * A < e.lI * A := by
    calc e.l1 * A < (cs.map Prod.fst).sum * e.lI := k
      _ ≤ A * e.lI := k2
      _ = e.lI * A := mul_comm _ _
  exact lt_of_mul_lt_mul_right k3 hA.le

end

end EF
