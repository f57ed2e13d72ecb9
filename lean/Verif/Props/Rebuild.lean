import Verif.Proofs.Rebuild
import Verif.Props.Global

/-!
# Building again (C22)
-/

namespace EF

open Finset FV HPS

variable {K : Type} [Field K] {N : Nat}

/-! ### C22 -/

/-- C22 for uniformly refined trees, any leaf solver, options and cache.  A second `buildStage` returns exactly the tree
and the cache of the first one. -/
theorem C22_rebuild_uniform_partial [NeZero (2 : K)] (lap : Lapack K) {ps : PatchSolver K} (hN : 0 < N)
    (hs : SolverShapes N ps) (opt : HPSOptions) {t : Tree (Patch K)} {R : Rect K} (ht : Init N t R) {d : Nat}
    (hd : Uniform d t) :
    ∃ t1 c1, buildStage lap ps opt t none = .ok (t1, c1) ∧ buildStage lap ps opt t1 c1 = .ok (t1, c1) := by
  obtain ⟨t1, c1, m, T, e1, b1, _, s1, _⟩ := buildStage_any lap hs opt hN ht (Or.inr ⟨d, hd⟩) no_cache
  exact ⟨t1, c1, e1, build_again e1 (b1.no_coarse rfl (uniform_shape.mp (by rw [s1]; exact uniform_shape.mpr hd)))⟩

/-- C22 after use: wherever the first build had to coarsen no patch, a second build after any history of requests
succeeds, and every later request returns — in every field of every patch — what it returns without the second build.
Missing for C22: trees on which patches are coarsened, where it is false (`C22_rebuild_adaptive_wrong`). -/
theorem C22_rebuild_partial (lap : Lapack K) (ps : PatchSolver K) (opt : HPSOptions) {t t1 t2 : Tree (Patch K)}
    {c0 c1 : Option (Mat K)} (h1 : buildStage lap ps opt t c0 = .ok (t1, c1)) (hn : All (fun p => p.nCoarsens = 0) t1)
    (rs : List (Request K)) (h2 : runAll lap ps opt rs t1 = .ok t2) :
    ∃ t3, buildStage lap ps opt t2 c1 = .ok (t3, c1) ∧ ∀ r : Request K, r.run lap ps opt t3 = r.run lap ps opt t1 := by
  obtain ⟨t3, h3, w⟩ := build_congr (runAll_keeps lap ps opt rs h2) (build_again h1 hn)
  exact ⟨t3, h3, fun r => by rw [← r.run_wipe, w, r.run_wipe]⟩

/-- The shape whose lower left quarter is refined. -/
def exCorner : Tree Unit := .node () (.node () (.leaf ()) (.leaf ()) (.leaf ()) (.leaf ())) (.leaf ()) (.leaf ()) (.leaf ())

theorem shape_corner {P : Type} {t : Tree P} (h : t.shape = exCorner) : ∃ p p0 l0 l1 l2 l3 l4 l5 l6,
    t = .node p (.node p0 (.leaf l0) (.leaf l1) (.leaf l2) (.leaf l3)) (.leaf l4) (.leaf l5) (.leaf l6) := by
  cases t with
  | leaf p => cases h
  | node p a b c d =>
    cases a with
    | leaf p => cases h
    | node p0 a0 a1 a2 a3 =>
      cases a0 <;> cases a1 <;> cases a2 <;> cases a3 <;> cases b <;> cases c <;> cases d <;>
        first | exact ⟨_, _, _, _, _, _, _, _, _, rfl⟩ | cases h

/-- C22 is false of the code.  On the mesh whose lower left quarter is refined once, with any leaf solver and any even or
odd number of cells per side (three or more), the first build succeeds and the second one reads outside a matrix.  The
coarsening count of the refined quarter is still that of the first build while its operator is on the fine side again. -/
theorem C22_rebuild_adaptive_wrong [NeZero (2 : K)] (lap : Lapack K) {ps : PatchSolver K} (hN : 3 ≤ N)
    (hs : SolverShapes N ps) {opt : HPSOptions} (hc : opt.cacheOperators = false) {t : Tree (Patch K)} {R : Rect K}
    (ht : Init N t R) (he : t.shape = exCorner) (c0 : Option (Mat K)) :
    ∃ t1, buildStage lap ps opt t c0 = .ok (t1, c0) ∧ ∀ c, buildStage lap ps opt t1 c = .ub := by
  obtain ⟨t1, m, T, e1, b1, s1, _⟩ := buildStage_ok lap hs hc (by omega) ht (Or.inl hN) c0
  refine ⟨t1, e1, fun c => ?_⟩
  obtain ⟨p, p0, l0, l1, l2, l3, l4, l5, l6, rfl⟩ := shape_corner (s1.trans he)
  exact rebuild_corner_ub (by omega) lap hc b1 c

/-! ### Instances -/

/-- Sixteen leaves of four cells per side: the second build changes nothing, also with cached operators. -/
example (lap : Lapack ℚ) (lu : PetscLU ℚ) (b : Bool) :
    ∃ t1 c1, buildStage lap (exPde.toPatchSolver lu) ⟨b, false⟩ (freshTree 4 exUniform unitSquare) none = .ok (t1, c1) ∧
      buildStage lap (exPde.toPatchSolver lu) ⟨b, false⟩ t1 c1 = .ok (t1, c1) :=
  C22_rebuild_uniform_partial lap (by omega) (FVSolver.shapes lu exPde (n := 4) (by omega)) ⟨b, false⟩
    (freshTree_init 4 exUniform unitSquare) (exUniform_uniform 4)

/-- The same tree after one solve: the hypotheses of `C22_rebuild_partial` hold. -/
example (lap : Lapack ℚ) (lu : PetscLU ℚ) : ∃ t1 c1 t2,
    buildStage lap (exPde.toPatchSolver lu) ⟨false, false⟩ (freshTree 4 exUniform unitSquare) none = .ok (t1, c1) ∧
      All (fun p => p.nCoarsens = 0) t1 ∧
      runAll lap (exPde.toPatchSolver lu) ⟨false, false⟩ [.functions (fun x y => x * y) (fun _ x _ => (x, 1, 0))] t1 = .ok t2 := by
  have hs := FVSolver.shapes lu exPde (n := 4) (by omega)
  obtain ⟨t1, c1, t3, h1, h2, _⟩ := C20_stages_succeed_functions lap (by omega) hs (opt := ⟨false, false⟩) rfl
      (freshTree_init 4 exUniform unitSquare) (Or.inr ⟨2, exUniform_uniform 4⟩) (fun x y => x * y) (fun _ x _ => (x, 1, 0))
  obtain ⟨t1', c1', m, T, e1, b1, _, s1, _⟩ := buildStage_any lap hs ⟨false, false⟩ (by omega)
    (freshTree_init 4 exUniform unitSquare) (Or.inr ⟨2, exUniform_uniform 4⟩) no_cache
  obtain ⟨rfl, rfl⟩ := Prod.mk.inj (Res.ok_inj.mp (e1.symm.trans h1))
  refine ⟨_, _, t3, h1, b1.no_coarse rfl (uniform_shape.mp (by rw [s1]; exact uniform_shape.mpr (exUniform_uniform 4))), ?_⟩
  unfold runAll
  rw [h2]
  rfl

/-- The refined corner with four cells per side on the unit square. -/
example (lap : Lapack ℚ) (lu : PetscLU ℚ) : ∃ t1,
    buildStage lap (exPde.toPatchSolver lu) ⟨false, false⟩ (freshTree 4 exCorner unitSquare) none = .ok (t1, none) ∧
      buildStage lap (exPde.toPatchSolver lu) ⟨false, false⟩ t1 none = .ub := by
  obtain ⟨t1, h1, h2⟩ := C22_rebuild_adaptive_wrong lap (by omega) (FVSolver.shapes lu exPde (n := 4) (by omega))
    (opt := ⟨false, false⟩) rfl (freshTree_init 4 exCorner unitSquare) rfl none
  exact ⟨t1, h1, h2 none⟩

end EF
