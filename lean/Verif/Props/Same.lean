import Verif.Proofs.Same
import Verif.Props.Stages

/-!
# The leaf solver matters only through what it returns on the leaf grids (C59)
-/

namespace EF

open Finset FV HPS

variable {K : Type} [Field K] {N : Nat}

/-- C59.  Two leaf solvers that return the same operators, fluxes and solutions on the `N × N` grids of the parts of the
root rectangle give the same built tree, the same cached operator and, for every load and boundary callback, the same solved
tree. -/
theorem C59_interchangeable_leaf_solvers [NeZero (2 : K)] (lap : Lapack K) {ps ps' : PatchSolver K} (hN : 0 < N)
    (hs : SolverShapes N ps) {R : Rect K} (hsame : SameOn N R ps ps') (opt : HPSOptions) {t : Tree (Patch K)}
    (ht : Init N t R) (h3 : 3 ≤ N ∨ ∃ d, Uniform d t) {d : Data K} (hd : d.Sized) :
    ∃ t1 c1 t3, buildStage lap ps opt t none = .ok (t1, c1) ∧ run lap ps opt d t1 = .ok t3 ∧
      buildStage lap ps' opt t none = .ok (t1, c1) ∧ run lap ps' opt d t1 = .ok t3 := by
  obtain ⟨t1, c1, m, T, e1, b1, _, s1, _⟩ := buildStage_any lap hs opt hN ht h3 no_cache
  obtain ⟨t2, h, e2, u2, _, _, s2⟩ := upwardsStage_ok (HP := HP0 N) lap hs opt (Data.setsLoad hd)
    (fun grid f h a b _ => ⟨a, b⟩) b1
  obtain ⟨t3, e3, v3, s3⟩ := solveStage_ok hs opt (Data.setsBoundary hd m) (HP := HP0 N) (fun _ _ _ h => h)
    (fun _ _ _ _ => ⟨rfl, by simp [Vec.WF, Vec.fill]⟩) u2
  refine ⟨t1, c1, t3, e1, ?_, ?_, ?_⟩
  · unfold run; rw [e2, Res.ok_bind, e3]
  · rw [hsame.buildStage lap opt ht.leafGrids, e1]
  · unfold run
    rw [hsame.upwardsStage lap opt b1.leafGrids (Data.setsLoad hd), e2, Res.ok_bind, hsame.solveStage opt e3 v3]

/-- C59 for loads and boundary conditions given as functions, without homogeneous-rhs (see C24). -/
theorem C59_interchangeable_leaf_solvers_functions [NeZero (2 : K)] (lap : Lapack K) {ps ps' : PatchSolver K} (hN : 0 < N)
    (hs : SolverShapes N ps) {R : Rect K} (hsame : SameOn N R ps ps') {opt : HPSOptions} (ho : opt.homogeneousRhs = false)
    {t : Tree (Patch K)} (ht : Init N t R) (h3 : 3 ≤ N ∨ ∃ d, Uniform d t) (f : K → K → K) (bc : BoundaryFn K) :
    ∃ t1 c1 t3, buildStage lap ps opt t none = .ok (t1, c1) ∧ (Request.functions f bc).run lap ps opt t1 = .ok t3 ∧
      buildStage lap ps' opt t none = .ok (t1, c1) ∧ (Request.functions f bc).run lap ps' opt t1 = .ok t3 := by
  obtain ⟨t1, c1, m, T, e1, b1, _, s1, _⟩ := buildStage_any lap hs opt hN ht h3 no_cache
  obtain ⟨φ, f1, f2⟩ := sampleLoad_fn f
  have hφ : SetsLoad N (fun p => .ok { p with f := φ p.grid }) φ :=
    ⟨fun _ => rfl, fun grid hx hy => by have := f2 grid; rwa [hx, hy] at this⟩
  obtain ⟨t2, h, e2, u2, v2, _, s2⟩ := upwardsStage_ok (HP := HP0 N) lap hs opt hφ (fun grid f h a b _ => ⟨a, b⟩) b1
  have hr := u2.built.root
  simp only [pow_zero, mul_one, crsN] at hr
  have hm : 0 < m := by
    obtain ⟨j, hj⟩ := hr.2.2.2.2.2
    rw [hj]; positivity
  have hv := v2 ho
  simp only [pow_zero, mul_one] at hv
  obtain ⟨γ, g1, _⟩ := rootDirichlet_ok lap bc hm hr.2.1 hr.2.2.2.2.1 hv
  obtain ⟨t3, e3, v3, s3⟩ := solveStage_ok hs opt (m := m) (bdry := fun p => .ok { p with g := Vec.ofFn (4 * m) γ })
    (γ := fun _ => Vec.ofFn (4 * m) γ) ⟨fun _ => rfl, fun _ _ _ => ⟨rfl, (Vec.has_ofFn _ _).2.1⟩⟩ (HP := HP0 N)
    (fun _ _ _ h => h) (fun _ _ _ _ => ⟨rfl, by simp [Vec.WF, Vec.fill]⟩) u2
  refine ⟨t1, c1, t3, e1, ?_, ?_, ?_⟩
  · show (upwardsStageAnalytic lap ps opt f t1 >>= fun t2 => solveStageAnalytic lap ps opt bc t2) = _
    rw [upwardsStageAnalytic_eq lap ps opt f1, e2, Res.ok_bind, solveStageAnalytic_eq g1, e3]
  · rw [hsame.buildStage lap opt ht.leafGrids, e1]
  · show (upwardsStageAnalytic lap ps' opt f t1 >>= fun t2 => solveStageAnalytic lap ps' opt bc t2) = _
    rw [upwardsStageAnalytic_eq lap ps' opt f1, hsame.upwardsStage lap opt b1.leafGrids hφ, e2, Res.ok_bind,
      solveStageAnalytic_eq g1, hsame.solveStage opt e3 v3]

/-- A leaf solver that refuses every grid but those with 4 × 4 cells. -/
def onlyFour (ps : PatchSolver K) : PatchSolver K where
  buildD2N grid := if grid.nx = 4 ∧ grid.ny = 4 then ps.buildD2N grid else .ub
  particularNeumannData grid f := if grid.nx = 4 ∧ grid.ny = 4 then ps.particularNeumannData grid f else .ub
  solve grid g f := if grid.nx = 4 ∧ grid.ny = 4 then ps.solve grid g f else .ub

theorem onlyFour_same (ps : PatchSolver K) (R : Rect K) : SameOn 4 R ps (onlyFour ps) :=
  ⟨fun _ hx hy _ => if_pos ⟨hx, hy⟩, fun _ _ hx hy _ _ _ => if_pos ⟨hx, hy⟩, fun _ _ _ hx hy _ _ _ _ _ => if_pos ⟨hx, hy⟩⟩

/-- The hypotheses of C59 hold for the finite volume solver and a different solver on an adaptive tree. -/
example (lap : Lapack ℚ) (lu : PetscLU ℚ) (opt : HPSOptions) :=
  C59_interchangeable_leaf_solvers lap (by omega) (FVSolver.shapes lu exPde (n := 4) (by omega))
    (onlyFour_same (exPde.toPatchSolver lu) unitSquare) opt (freshTree_init 4 exShape unitSquare) (Or.inl (by omega)) exData_sized

end EF
