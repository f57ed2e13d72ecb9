import Verif.Props.HeatOutput
import Verif.Props.Calls

/-!
# The programs on adaptive meshes (C65, C66, C73)

With a dominating reaction term the result of a run is the one and only solution of the discretised equation on the mesh.
-/

namespace EF

open Finset FV HPS MPI

section
variable {K : Type} [Field K] [LinearOrder K] [IsStrictOrderedRing K] {N M size : Nat} {F : Forest}

omit [LinearOrder K] [IsStrictOrderedRing K] in
/-- Entries of leaf vectors, cell by cell. -/
theorem values_leaves {r : Nat} {t : Tree (Patch K)} {v : Patch K → Vec K} {P : Rect K → K → Prop}
    (hg : ∀ p ∈ t.leaves, p.grid.nx = N ∧ p.grid.ny = N) (hv : ∀ p ∈ t.leaves, (v p).size = N * N ∧ (v p).WF)
    (hP : ∀ p ∈ t.leaves, ∀ i, i < N → ∀ j, j < N → P (cellRect p.grid.rect N N i j) ((v p).data.getD (j + i * N) 0)) :
    List.Forall₂ P (meshCells r F t) ((leavesOf r F t).flatMap fun p => (v p).data) := by
  unfold meshCells
  refine forall₂_flatMap fun p hp => ?_
  have hp' := leavesOf_sub hp
  obtain ⟨hx, hy⟩ := hg p hp'
  rw [data_listFn (hv p hp'), range_cells]
  unfold gridCells
  rw [hx, hy, List.forall₂_map_left_iff, List.forall₂_map_right_iff, List.forall₂_same]
  rintro ⟨i, j⟩ hij
  simp only [cellIndices, List.mem_flatMap, List.mem_map, List.mem_range, Prod.mk.injEq] at hij
  obtain ⟨i', hi, j', hj, rfl, rfl⟩ := hij
  exact hP p hp' i' hi j' hj

omit [LinearOrder K] [IsStrictOrderedRing K] in
theorem vector_entries {C : List (Rect K)} {L : List (Patch K)} {v : Patch K → Vec K} {P : Rect K → K → Prop}
    (hL : ∀ q ∈ L, (v q).WF) (h : List.Forall₂ P C (L.flatMap fun q => (v q).data)) :
    (⟨(L.map fun q => (v q).size).sum, L.flatMap fun q => (v q).data⟩ : Vec K).size = C.length ∧
      (⟨(L.map fun q => (v q).size).sum, L.flatMap fun q => (v q).data⟩ : Vec K).WF ∧
      ∀ (k : Nat) (hk : k < C.length), ∃ x, P C[k] x ∧
        (⟨(L.map fun q => (v q).size).sum, L.flatMap fun q => (v q).data⟩ : Vec K).get k = .ok x := by
  have hwf : (L.flatMap fun q => (v q).data).length = (L.map fun q => (v q).size).sum := by
    rw [List.length_flatMap]
    congr 1
    exact List.map_congr_left fun q hq => hL q hq
  have hlen := h.length_eq
  refine ⟨by dsimp only; rw [← hwf, hlen], hwf, ?_⟩
  intro k hk
  have h1 := (List.forall₂_iff_get.mp h).2 k hk (by omega)
  refine ⟨_, by simpa using h1, ?_⟩
  unfold Vec.get rd
  dsimp only
  rw [if_neg (by rw [← hwf]; omega), List.getElem?_eq_getElem (by omega)]

/-- A serial run, with what it leaves in the leaves. -/
theorem serial_leaves (lap : Lapack K) {ps : PatchSolver K} (hN : 0 < N) (hs : SolverShapes N ps) {opt : HPSOptions}
    (ho : opt.homogeneousRhs = false) {t : Tree (Patch K)} {R : Rect K} (ht : Init N t R) (h3 : 3 ≤ N ∨ ∃ d, Uniform d t)
    (f : K → K → K) (bc : BoundaryFn K) :
    ∃ t1 c1 t3, HPS.buildStage lap ps opt t none = .ok (t1, c1) ∧ (Request.functions f bc).run lap ps opt t1 = .ok t3 ∧
      t3.shape = t.shape ∧ Placed N t3 R ∧ (∀ p ∈ t3.leaves, p.grid.nx = N ∧ p.grid.ny = N) ∧ (∀ p ∈ t3.leaves, p.u.size = N * N ∧ p.u.WF) ∧
        (∀ p ∈ t3.leaves, p.f.size = N * N ∧ p.f.WF) ∧ ∀ p ∈ t3.leaves, ∀ i, i < N → ∀ j, j < N →
          p.f.data.getD (j + i * N) 0 = f (cellRect p.grid.rect N N i j).centre.1 (cellRect p.grid.rect N N i j).centre.2 := by
  obtain ⟨t1, c1, _, _, e1, _⟩ := buildStage_any lap hs opt hN ht h3 no_cache
  obtain ⟨φ, f1, f2⟩ := sampleLoad_fn f
  obtain ⟨t2, t3, a1, a2, a3, a4, a5⟩ := mixed_ok lap hN hs ho ht h3 e1 (φ := φ)
    (fun grid hx hy => by have := f2 grid; rwa [hx, hy] at this) bc
  refine ⟨t1, c1, t3, e1, ?_, a3, a4, fun p hp => ⟨(a5 p hp).1, (a5 p hp).2.1⟩, fun p hp => ⟨(a5 p hp).2.2.1, (a5 p hp).2.2.2.1⟩, fun p hp => ?_,
    fun p hp i hi j hj => ?_⟩
  · show (upwardsStageAnalytic lap ps opt f t1 >>= fun t2 => solveStageAnalytic lap ps opt bc t2) = _
    rw [upwardsStageAnalytic_eq lap ps opt f1, a1, Res.ok_bind, a2]
  · obtain ⟨b1, b2, b3, b4, b5⟩ := a5 p hp
    have := f2 p.grid
    rw [b1, b2] at this
    rw [b5]
    exact this
  · obtain ⟨b1, b2, b3, b4, b5⟩ := a5 p hp
    obtain ⟨F, h1, χ, h2, h3⟩ := C33_load_sampled f p.grid
    rw [f1] at h1
    obtain rfl := Res.ok_inj.mp h1
    have cc := centre_cell p.grid i j
    rw [b1, b2] at h2 h3 cc
    have hv : (φ p.grid).data.getD (j + i * N) 0 = χ (j + i * N) := by
      rw [Vec.has_iff.mp h2]
      exact getD_listFn (FVSolver.idx_lt hi hj) 0
    rw [b5, hv, h3 i hi j hj, cc, FVSolver.x_eq, FVSolver.y_eq, b1, b2]

/-- C65 on adaptive meshes with a dominating reaction term, with the finite volume leaf solver and any proper boundary conditions: the program
ends on all ranks, and the vectors it adds to the mesh hold, in the order of the cells of the mesh arrays of the rank, the one and only
solution of the discretised equation on the whole mesh, and the load.

Missing: adaptive meshes without a large reaction term (the result is then that of a serial run, `C65_as_serial_partial`), floating point. -/
theorem C65_adaptive_partial (lap : Lapack K) (lu : PetscLU K) {s : FVSolver K} (hN : 3 ≤ N) {opt : HPSOptions}
    (ho : opt.homogeneousRhs = false) (hc : opt.cacheOperators = false) (hM : F.depth ≤ M) (hF : F.Sorted)
    (hr : EveryRank F size) {root : Patch K} {R : Rect K} (hg : root.grid = ⟨N, N, R.xl, R.xu, R.yl, R.yu⟩) (h0 : root.nCoarsens = 0)
    (hR : Proper R) (hE : EllipticOn s R) (hd : Dominated N s R (startTree root F [])) (f : K → K → K) {bc : BoundaryFn K}
    (hb : BoundaryProper bc) (n : Nat) :
    ∃ (W : Pieces (Nat → Nat → K)) (Z : Nat → Mesh K), OnlySolution s f bc N (startTree root F []).cuts R W ∧
      AlwaysEnds (exampleOn M size F lap (s.toPatchSolver lu) opt root f bc (n + 1)) Z ∧
      ∀ r, r < size → (Z r).arrays.Describes (meshCells r F (startTree root F [])) ∧
        ∃ u fv, (Z r).functions = [u, fv] ∧ MeshValues N W R (meshCells r F (startTree root F [])) u ∧
          CentreValues f (meshCells r F (startTree root F [])) fv := by
  have hI := startTree_init hg h0 F []
  have hs := FVSolver.shapes lu s (show 2 ≤ N by omega)
  obtain ⟨t1, c1, t3, e1, e2, e3, e4, e5, e6, e7, e8⟩ := serial_leaves lap (by omega) hs (opt := { opt with cacheOperators := false }) ho hI
    (Or.inl hN) f bc
  have hW := C100_mixed_damped lap lu hN (opt := { opt with cacheOperators := false }) rfl ho hI hR hE hd f hb e1 e2
  obtain ⟨Z, z1, z2⟩ := example_runs hM hF hr lap _ opt root f bc n (fun h => by rw [hc] at h; cases h) e1 e2
  have ec : t3.cuts = (startTree root F []).cuts := by rw [← t3.cuts_shape, e3, (startTree root F []).cuts_shape]
  refine ⟨treeCells N t3, Z, ⟨by rw [← ec]; exact treeCells_self t3, hW⟩, z1, fun r hr' => ?_⟩
  obtain ⟨w1, w2, u, fv, w3, rfl, rfl⟩ := z2 r hr'
  have hcells := meshCells_placed (r := r) (F := F) e4 hI.placed e3
  have vu := values_leaves (r := r) (F := F) (v := (·.u)) (P := inMesh N (treeCells N t3) R) e5 e6
    (fun p hp i hi j hj => leaf_inMesh e4 hp hi hj)
  have vf := values_leaves (r := r) (F := F) (v := (·.f)) (P := fun c x => x = f c.centre.1 c.centre.2) e5 e7 e8
  rw [hcells] at vu vf
  refine ⟨w1, _, _, w3, vector_entries (fun q hq => (e6 q (leavesOf_sub hq)).2) vu, ?_⟩
  obtain ⟨a, b, c⟩ := vector_entries (fun q hq => (e7 q (leavesOf_sub hq)).2) vf
  refine ⟨a, b, fun k hk => ?_⟩
  obtain ⟨x, rfl, e⟩ := c k hk
  exact e

/-- C66 on adaptive meshes with a dominating reaction term: the MPI calls of the ranks match in every order, the program ends on all ranks, and
the vectors in the meshes hold the one and only solution of the discretised equation on the whole mesh and the load. -/
theorem C66_adaptive_partial {D : Dialect} (hD : D.emptyFront = true ∧ D.behind.isSome = true ∨ size = 1) (lap : Lapack K) (lu : PetscLU K)
    {s : FVSolver K} (hN : 3 ≤ N) {opt : HPSOptions} (ho : opt.homogeneousRhs = false) (hc : opt.cacheOperators = false) (hM : F.depth ≤ M)
    (hF : F.Sorted) (hr : EveryRank F size) {root : Patch K} (hp : SoundPatch root) {R : Rect K}
    (hg : root.grid = ⟨N, N, R.xl, R.xu, R.yl, R.yu⟩) (h0 : root.nCoarsens = 0) (hR : Proper R) (hE : EllipticOn s R)
    (hd : Dominated N s R (startTree root F [])) (f : K → K → K) {bc : BoundaryFn K} (hb : BoundaryProper bc) (n : Nat) :
    ∃ (W : Pieces (Nat → Nat → K)) (Z : Nat → Mesh K), OnlySolution s f bc N (startTree root F []).cuts R W ∧
      CallsEnd (exampleCalls D M size F lap (s.toPatchSolver lu) opt root f bc (n + 1)) Z ∧
      ∀ r, r < size → (Z r).arrays.Describes (meshCells r F (startTree root F [])) ∧
        ∃ u fv, (Z r).functions = [u, fv] ∧ MeshValues N W R (meshCells r F (startTree root F [])) u ∧
          CentreValues f (meshCells r F (startTree root F [])) fv := by
  obtain ⟨W, Z, h1, h2, h3⟩ := C65_adaptive_partial lap lu hN ho hc hM hF hr hg h0 hR hE hd f hb n
  exact ⟨W, Z, h1, example_ends hD hr lap (FVSolver.toPatchSolver_sound lu s) hp h2, h3⟩

end

variable {N M size : Nat} {F : Forest}

/-- C73 on adaptive meshes with a dominating reaction term, with the finite volume leaf solver and any proper boundary conditions: the files
show, in every cell, the one and only solution of the discretised equation on the whole mesh within half a millionth.

Missing: as in `C73_as_serial_partial`, and adaptive meshes without a large reaction term. -/
theorem C73_adaptive_partial (lap : Lapack ℚ) (lu : PetscLU ℚ) {s : FVSolver ℚ} (hN : 3 ≤ N) {opt : HPSOptions}
    (ho : opt.homogeneousRhs = false) (hc : opt.cacheOperators = false) (hM : F.depth ≤ M) (hF : F.Sorted)
    (hr : EveryRank F size) (hz : size ≤ 10 ^ 10) {root : Patch ℚ} {R : Rect ℚ}
    (hg : root.grid = ⟨N, N, R.xl, R.xu, R.yl, R.yu⟩) (h0 : root.nCoarsens = 0) (hR : Proper R) (hE : EllipticOn s R)
    (hd : Dominated N s R (startTree root F [])) (f : ℚ → ℚ → ℚ) {bc : BoundaryFn ℚ} (hb : BoundaryProper bc) (exact : ℚ → ℚ → ℚ) (n : Nat)
    {stack : Nat} (hk : 5 ≤ stack) (h : Nat → Heap) :
    ∃ (W : Pieces (Nat → Nat → ℚ)) (Z : Nat → List (Text × Text)), OnlySolution s f bc N (startTree root F []).cuts R W ∧
      AlwaysEnds (filesOn M size F lap (s.toPatchSolver lu) s opt root f bc exact (n + 1) stack h) Z ∧
      ∀ r, r < size → ∃ doc, FilesOf "elliptic-mesh".toList r size (Z r) doc ∧
        ShowsCells doc (meshCells r F (startTree root F [])) ∧
        fieldNames doc = ["u_soln", "f_rhs", "alpha_fn", "beta_fn", "lambda_fn", "u_exact"].map (fun n => some n.toList) ∧
        ShowsField doc "u_soln".toList (meshCells r F (startTree root F [])) (inMesh N W R) ∧
        ShowsField doc "f_rhs".toList (meshCells r F (startTree root F [])) (atCentre f) ∧
        ShowsField doc "alpha_fn".toList (meshCells r F (startTree root F [])) (atCentre s.alpha) ∧
        ShowsField doc "beta_fn".toList (meshCells r F (startTree root F [])) (atCentre s.beta) ∧
        ShowsField doc "lambda_fn".toList (meshCells r F (startTree root F [])) (atCentre s.lambda) ∧
        ShowsField doc "u_exact".toList (meshCells r F (startTree root F [])) (atCentre exact) := by
  have hI := startTree_init hg h0 F []
  have hs := FVSolver.shapes lu s (show 2 ≤ N by omega)
  obtain ⟨t1, c1, t3, e1, e2, e3, e4, e5⟩ := serial_placed lap (by omega) hs (opt := { opt with cacheOperators := false }) ho hI
    (Or.inl hN) f bc
  have hW := C100_mixed_damped lap lu hN (opt := { opt with cacheOperators := false }) rfl ho hI hR hE hd f hb e1 e2
  obtain ⟨Z, z1, z2⟩ := files_run lap s (by omega) hM hF hr hz hI (fun h => by rw [hc] at h; cases h) f bc exact n hk h e1 e2 e4 e3
    (fun p hp => (e5 p hp).2.2.1) (fun p hp => (e5 p hp).2.2.2.1)
  have ec : t3.cuts = (startTree root F []).cuts := by rw [← t3.cuts_shape, e3, (startTree root F []).cuts_shape]
  refine ⟨treeCells N t3, Z, ⟨by rw [← ec]; exact treeCells_self t3, hW⟩, z1, fun r hr' => ?_⟩
  obtain ⟨doc, d1, d2, d3, d4, d5, d6⟩ := z2 r hr'
  have hg' : ∀ p ∈ t3.leaves, p.grid.nx = N ∧ p.grid.ny = N := fun p hp => ⟨(e5 p hp).1, (e5 p hp).2.1⟩
  have hcells := meshCells_placed (r := r) (F := F) e4 hI.placed e3
  have vu := values_inLeaf (r := r) (F := F) (v := (·.u)) hg' (fun p hp => (e5 p hp).2.2.1)
  have vf := values_inLeaf (r := r) (F := F) (v := (·.f)) hg' (fun p hp => (e5 p hp).2.2.2.1)
  rw [hcells] at vu vf
  refine ⟨doc, d1, d2, d3.trans exampleNames_eq, ⟨_, d4, forall₂_shown (vu.imp fun c x hx => ?_)⟩,
    ⟨_, d5, forall₂_shown (vf.imp fun c x hx => ?_)⟩, d6⟩
  · exact inLeaf_inMesh e4 hg' (fun p hp => (e5 p hp).2.2.1) hx
  · exact inLeaf_sampled (fun p hp => (e5 p (leavesOf_sub hp)).2.2.2.2) hx

/-! ## Examples -/

/-- Values on three sides, a derivative along the outward normal on the South side. -/
def exSouth : BoundaryFn ℚ := fun a x y => if a = 2 then (x, 0, -1) else (x * y, 1, 0)

theorem exSouth_proper : BoundaryProper exSouth := by
  intro a ha x y
  have h4 : a = 0 ∨ a = 1 ∨ a = 2 ∨ a = 3 := by omega
  rcases h4 with rfl | rfl | rfl | rfl <;> simp [exSouth]

theorem exDeep_dominated : Dominated 4 exThreePde unitSquare (startTree (Patch.fresh (⟨4, 4, 0, 1, 0, 1⟩ : Grid ℚ)) exDeepRanks []) := by
  obtain ⟨⟨B, L, b1, b2⟩, b3⟩ := exThree_dominated
  exact ⟨⟨B, L, b1, b2⟩, b3⟩

/-- The hypotheses of `C65_adaptive_partial` hold on two ranks with leaves on three levels. -/
example (lap : Lapack ℚ) (lu : PetscLU ℚ) : ∃ Z : Nat → Mesh ℚ,
    AlwaysEnds (exampleOn 30 2 exDeepRanks lap (exThreePde.toPatchSolver lu) ⟨false, false⟩ (Patch.fresh ⟨4, 4, 0, 1, 0, 1⟩) (fun x y => x * y) exSouth 1) Z := by
  obtain ⟨W, Z, -, h2, -⟩ := C65_adaptive_partial (N := 4) (M := 30) (size := 2) (F := exDeepRanks) lap lu (s := exThreePde) (by omega)
    (opt := ⟨false, false⟩) rfl rfl (by decide) (by unfold Forest.Sorted; decide) (by intro r; simp [exDeepRanks, Forest.ranks]; omega)
    (root := Patch.fresh ⟨4, 4, 0, 1, 0, 1⟩) (R := unitSquare) rfl rfl exPde_elliptic_unit.1 exThree_elliptic exDeep_dominated
    (fun x y => x * y) exSouth_proper 0
  exact ⟨Z, h2⟩

/-- Those of `C66_adaptive_partial`. -/
example (lap : Lapack ℚ) (lu : PetscLU ℚ) : ∃ Z : Nat → Mesh ℚ,
    CallsEnd (exampleCalls exDialect 30 2 exDeepRanks lap (exThreePde.toPatchSolver lu) ⟨false, false⟩ (Patch.fresh ⟨4, 4, 0, 1, 0, 1⟩)
      (fun x y => x * y) exSouth 1) Z := by
  obtain ⟨W, Z, -, h2, -⟩ := C66_adaptive_partial (D := exDialect) (N := 4) (M := 30) (size := 2) (F := exDeepRanks) (Or.inl ⟨rfl, rfl⟩) lap lu
    (s := exThreePde) (by omega) (opt := ⟨false, false⟩) rfl rfl (by decide) (by unfold Forest.Sorted; decide)
    (by intro r; simp [exDeepRanks, Forest.ranks]; omega) (root := Patch.fresh ⟨4, 4, 0, 1, 0, 1⟩) exRoot_sound (R := unitSquare) rfl rfl
    exPde_elliptic_unit.1 exThree_elliptic exDeep_dominated (fun x y => x * y) exSouth_proper 0
  exact ⟨Z, h2⟩

/-- Those of `C73_adaptive_partial`. -/
example (lap : Lapack ℚ) (lu : PetscLU ℚ) (h : Nat → Heap) : ∃ Z : Nat → List (Text × Text),
    AlwaysEnds (filesOn 30 2 exDeepRanks lap (exThreePde.toPatchSolver lu) exThreePde ⟨false, false⟩ (Patch.fresh ⟨4, 4, 0, 1, 0, 1⟩) (fun x y => x * y)
      exSouth (fun x _ => x) 1 5 h) Z := by
  obtain ⟨W, Z, -, h2, -⟩ := C73_adaptive_partial (N := 4) (M := 30) (size := 2) (F := exDeepRanks) lap lu (s := exThreePde) (by omega)
    (opt := ⟨false, false⟩) rfl rfl (by decide) (by unfold Forest.Sorted; decide) (by intro r; simp [exDeepRanks, Forest.ranks]; omega) (by norm_num)
    (root := Patch.fresh ⟨4, 4, 0, 1, 0, 1⟩) (R := unitSquare) rfl rfl exPde_elliptic_unit.1 exThree_elliptic exDeep_dominated
    (fun x y => x * y) exSouth_proper (fun x _ => x) 0 (stack := 5) (by omega) h
  exact ⟨Z, h2⟩

end EF
