import Verif.Proofs.ParallelRun

/-!
# The example program on several ranks (C65)
-/

namespace EF

open Finset FV HPS

variable {K : Type}

/-- The example program on the ranks below `size`; there are no others. -/
def exampleOn [Field K] (M size : Nat) (F : Forest) (lap : Lapack K) (ps : PatchSolver K) (opt : HPSOptions) (root : Patch K)
    (f : K → K → K) (bc : BoundaryFn K) (n : Nat) : Config (Patch K) (Mesh K) :=
  fun r => if r < size then exampleMain ⟨M, size, r, F⟩ lap ps opt root f bc n else .fin (.ok Mesh.blank)

section
variable [Field K] {N M size : Nat} {F : Forest}

/-- The serial run with functions, and what it leaves on the leaves. -/
theorem serial_fields [NeZero (2 : K)] (lap : Lapack K) {ps : PatchSolver K} (hN : 0 < N)
    (hs : SolverShapes N ps) {opt : HPSOptions} (ho : opt.homogeneousRhs = false) {t : Tree (Patch K)} {R : Rect K}
    (ht : Init N t R) (h3 : 3 ≤ N ∨ ∃ d, Uniform d t) (f : K → K → K) (bc : BoundaryFn K) :
    ∃ t1 c1 t3, buildStage lap ps opt t none = .ok (t1, c1) ∧ (Request.functions f bc).run lap ps opt t1 = .ok t3 ∧
      t3.shape = t.shape ∧ (∀ p ∈ t3.leaves, p.u.size = N * N ∧ p.u.WF) ∧ (∀ p ∈ t3.leaves, p.f.size = N * N ∧ p.f.WF) ∧
      ∀ φ : Grid K → Vec K, (∀ grid, sampleLoad f grid = .ok (φ grid)) → gridFn N (·.f) t3 = gridFn N (fun p => φ p.grid) t := by
  obtain ⟨t1, c1, m, T, e1, b1, _, s1, _⟩ := buildStage_any lap hs opt hN ht h3 no_cache
  obtain ⟨φ, f1, f2⟩ := sampleLoad_fn f
  obtain ⟨t2, h, e2, u2, v2, _, s2⟩ := upwardsStage_ok' (HP := fun grid f h => f = φ grid ∧ HP0 N grid f h) lap hs opt
    (rhs := fun p => .ok { p with f := φ p.grid }) (φ := φ)
    ⟨fun _ => rfl, fun grid hx hy => by have := f2 grid; rwa [hx, hy] at this⟩ (fun grid f h e a b _ => ⟨e, a, b⟩) b1
  have hr := u2.built.root
  simp only [pow_zero, mul_one, crsN] at hr
  have hm : 0 < m := by
    obtain ⟨j, hj⟩ := hr.2.2.2.2.2
    rw [hj]; positivity
  have hv := v2 ho
  simp only [pow_zero, mul_one] at hv
  obtain ⟨γ, g1, _⟩ := rootDirichlet_ok lap bc hm hr.2.1 hr.2.2.2.2.1 hv
  obtain ⟨t3, e3, v3, s3⟩ := solveStage_ok hs opt (m := m) (bdry := fun p => .ok { p with g := Vec.ofFn (4 * m) γ })
    (γ := fun _ => Vec.ofFn (4 * m) γ) ⟨fun _ => rfl, fun _ _ _ => ⟨rfl, (Vec.has_ofFn _ _).2.1⟩⟩
    (fun _ _ _ h => h.2) (fun h => by rw [ho] at h; cases h) u2
  have hsh : t3.shape = t.shape := by rw [s3, s2, s1]
  have hl := v3.leaves
  refine ⟨t1, c1, t3, e1, ?_, hsh, ?_, ?_, ?_⟩
  · show (upwardsStageAnalytic lap ps opt f t1 >>= fun t2 => solveStageAnalytic lap ps opt bc t2) = _
    rw [upwardsStageAnalytic_eq lap ps opt f1, e2, Res.ok_bind, solveStageAnalytic_eq g1, e3]
  · intro p hp
    obtain ⟨hx, hy, T, h, g, _, hh, hg, hu⟩ := hl p hp
    obtain ⟨u, hu', h1, h2⟩ := hs.solve p.grid (bv N 4 g) p.f hx hy rfl
      ((bv_has N 4 g).2.1.trans (bv_has N 4 g).1.symm) hh.2.1 hh.2.2
    unfold UPs at hu
    rw [hu] at hu'
    rw [Res.ok_inj.mp hu']
    exact ⟨h1, h2⟩
  · intro p hp
    obtain ⟨hx, hy, T, h, g, _, hh, hg, hu⟩ := hl p hp
    exact hh.2
  · intro φ' hφ'
    have : φ' = φ := by
      funext grid
      have := hφ' grid
      rw [f1] at this
      exact (Res.ok_inj.mp this).symm
    rw [this]
    exact v3.load ht hsh

theorem Request.run_cache (lap : Lapack K) (ps : PatchSolver K) (opt : HPSOptions) (f : K → K → K) (bc : BoundaryFn K)
    (t : Tree (Patch K)) : (Request.functions f bc).run lap ps { opt with cacheOperators := false } t
      = (Request.functions f bc).run lap ps opt t := rfl

theorem refine_first (hM : F.depth ≤ M) (hs : F.Sorted) (root : Patch K) (r : Nat) :
    ∃ m' : Mesh K, Mesh.refineByFunction M r F root FVFactory.factory Mesh.blank = .ok m' ∧
      m'.arrays.Describes (meshCells r F (startTree root F [])) ∧ Rep r F (startTree root F []) [] m'.quadtree.map ∧
      m'.quadtree.userPointer = .this ∧ m'.functions = [] := by
  obtain ⟨m1, h1, h2, h3⟩ := C43_first_refinement_partial (r := r) hM hs root (⟨fun _ => none, .null⟩ : Quadtree (Patch K)) []
  refine ⟨m1, h1, h2, h3, ?_⟩
  unfold Mesh.refineByFunction at h1
  obtain ⟨q, k1, k2⟩ := Res.bind_eq_ok.mp h1
  obtain ⟨m0, e1, e2⟩ := construct_ok (M := M) r root hM hs
  unfold Quadtree.new at k1
  rw [e1, Res.ok_bind, Res.pure_def, Res.ok_inj] at k1
  subst k1
  obtain ⟨q', e3, -, e4⟩ := setMesh_eq hM hs (m := ⟨⟨m0, .other⟩, MeshArrays.new, ([] : List (Vec K))⟩) e2.rep
  have e5 := k2.symm.trans e3
  rw [Res.ok_inj.mp e5]
  exact ⟨e4, rfl⟩

/-- The example program on the ranks of the communicator, given the serial run. -/
theorem example_program (hM : F.depth ≤ M) (hs : F.Sorted) (hr : EveryRank F size) (lap : Lapack K) (ps : PatchSolver K)
    (opt : HPSOptions) (root : Patch K) (f : K → K → K) (bc : BoundaryFn K) (n : Nat)
    (hc : opt.cacheOperators = true → ∀ k, ∃ B, ∀ p ∈ leavesOf k F (startTree root F []), ps.buildD2N p.grid = .ok B)
    {t1 t3 : Tree (Patch K)} {c1 : Option (Mat K)}
    (h1 : HPS.buildStage lap ps { opt with cacheOperators := false } (startTree root F []) none = .ok (t1, c1))
    (h2 : (Request.functions f bc).run lap ps opt t1 = .ok t3) :
    ∃ Z : Nat → Mesh K, Runs (fun r => r < size) (fun r => exampleMain ⟨M, size, r, F⟩ lap ps opt root f bc (n + 1)) Z ∧
      ∀ r, r < size → (Z r).arrays.Describes (meshCells r F (startTree root F [])) ∧ Rep r F t3 [] (Z r).quadtree.map ∧
        ∃ u fv, (Z r).functions = [u, fv] ∧
          u = ⟨((leavesOf r F t3).map fun p => p.u.size).sum, (leavesOf r F t3).flatMap fun p => p.u.data⟩ ∧
          fv = ⟨((leavesOf r F t3).map fun p => p.f.size).sum, (leavesOf r F t3).flatMap fun p => p.f.data⟩ := by
  choose m1 a1 a2 a3 a4 a5 using refine_first hM hs root
  let A0 : Nat → HPSRank K := fun r => ⟨m1 r, none⟩
  have hA0 : HoldsOn size F (startTree root F []) (fun r => (A0 r).mesh.quadtree) := fun r _ => ⟨a3 r, a4 r⟩
  obtain ⟨s', b1⟩ := mergeBy_build lap ps opt hc (a3 0) h1
  obtain ⟨A1, b2, -, b3⟩ := build_runs hM hs hr lap ps opt hA0 b1
  obtain ⟨A2, b4, b5⟩ := solves_runs hM hs hr lap ps opt f bc h2 n b2.holds
  have b6 : ∀ r, ∃ x : Quadtree (Patch K) × Vec K × Vec K, r < size → (A2 r).mesh.quadtree.traversePreOrder M r F
      (leafVisit fun p (s : Vec K × Vec K) => pure (p, (s.1.append p.u, s.2.append p.f))) (Vec.empty, Vec.empty) = .ok x ∧
      x.2.1 = ⟨((leavesOf r F t3).map fun p => p.u.size).sum, (leavesOf r F t3).flatMap fun p => p.u.data⟩ ∧
      x.2.2 = ⟨((leavesOf r F t3).map fun p => p.f.size).sum, (leavesOf r F t3).flatMap fun p => p.f.data⟩ ∧
      Rep r F t3 [] x.1.map := by
    intro r
    by_cases h : r < size
    · obtain ⟨q, u, fv, k1, k2, k3, k4⟩ := collect_eq (m := (A2 r).mesh) hM hs (b4 r h).1
      exact ⟨(q, u, fv), fun _ => ⟨k1, k2, k3, k4⟩⟩
    · exact ⟨((A2 r).mesh.quadtree, Vec.empty, Vec.empty), fun h' => absurd h' h⟩
  choose x b7 using b6
  let Z : Nat → Mesh K := fun r => ({ (A2 r).mesh with quadtree := (x r).1 }.addMeshVector (x r).2.1).addMeshVector (x r).2.2
  have hrun : Runs (fun r => r < size) (fun r => exampleMain ⟨M, size, r, F⟩ lap ps opt root f bc (n + 1)) Z := by
    have c1 := setup_runs (M := M) hr A0
    have c2 := Runs.bind c1 (q := fun r A => A.buildStage ⟨M, size, r, F⟩ lap ps opt) (w := A1) b3
    have c3 := Runs.bind c2 (q := fun r A => A.solves ⟨M, size, r, F⟩ lap ps opt f bc (n + 1)) (w := A2) b5
    have c4 := Runs.bind c3 (q := fun r A => do
      let x ← Prog.fin (A.mesh.quadtree.traversePreOrder M r F
        (leafVisit fun p (s : Vec K × Vec K) => pure (p, (s.1.append p.u, s.2.append p.f))) (Vec.empty, Vec.empty))
      pure (({ A.mesh with quadtree := x.1 }.addMeshVector x.2.1).addMeshVector x.2.2)) (w := Z)
      (Runs.pure fun r h => by
        beta_reduce
        rw [(b7 r h).1]
        rfl)
    refine c4.congr (fun r h => ?_) (fun r h => rfl)
    unfold exampleMain
    dsimp only
    rw [a1 r]
    simp only [bind_assoc]
    rfl
  refine ⟨Z, hrun, ?_⟩
  intro r h
  obtain ⟨k1, k2, k3, k4⟩ := b7 r h
  have w1 := (b2.trans b4) r h
  refine ⟨?_, k4, (x r).2.1, (x r).2.2, ?_, k2, k3⟩
  · show (A2 r).mesh.arrays.Describes _
    rw [w1.2.2.1]
    exact a2 r
  · show ((A2 r).mesh.functions ++ [(x r).2.1]) ++ [(x r).2.2] = _
    rw [w1.2.2.2]
    show (m1 r).functions ++ _ ++ _ = _
    rw [a5 r]
    rfl

/-- The example program on all ranks, given the serial run. -/
theorem example_runs (hM : F.depth ≤ M) (hs : F.Sorted) (hr : EveryRank F size) (lap : Lapack K) (ps : PatchSolver K)
    (opt : HPSOptions) (root : Patch K) (f : K → K → K) (bc : BoundaryFn K) (n : Nat)
    (hc : opt.cacheOperators = true → ∀ k, ∃ B, ∀ p ∈ leavesOf k F (startTree root F []), ps.buildD2N p.grid = .ok B)
    {t1 t3 : Tree (Patch K)} {c1 : Option (Mat K)}
    (h1 : HPS.buildStage lap ps { opt with cacheOperators := false } (startTree root F []) none = .ok (t1, c1))
    (h2 : (Request.functions f bc).run lap ps opt t1 = .ok t3) :
    ∃ Z : Nat → Mesh K, AlwaysEnds (exampleOn M size F lap ps opt root f bc (n + 1)) Z ∧
      ∀ r, r < size → (Z r).arrays.Describes (meshCells r F (startTree root F [])) ∧ Rep r F t3 [] (Z r).quadtree.map ∧
        ∃ u fv, (Z r).functions = [u, fv] ∧
          u = ⟨((leavesOf r F t3).map fun p => p.u.size).sum, (leavesOf r F t3).flatMap fun p => p.u.data⟩ ∧
          fv = ⟨((leavesOf r F t3).map fun p => p.f.size).sum, (leavesOf r F t3).flatMap fun p => p.f.data⟩ := by
  obtain ⟨Z, z1, z2⟩ := example_program hM hs hr lap ps opt root f bc n hc h1 h2
  refine ⟨fun r => if r < size then Z r else Mesh.blank, Runs.ends z1 Mesh.blank, fun r h => ?_⟩
  simp only [if_pos h]
  exact z2 r h

/-- C65 for every mesh, adaptively refined or not, every leaf solver with operators of the right sizes, and at least one solve: the
program ends on all ranks, whatever the order of the collective operations; the mesh arrays of a rank describe the cells of its
leaves; and the mesh functions of the rank hold, leaf by leaf in the order of these cells, the solution and the load of a serial
run without operator cache.  With the cache this is shown if the leaves of a rank have the same operator; see
`C65_cache_depends_on_ranks_wrong`.  Every rank of the communicator has to own a leaf; see `C65_no_leaf_wrong`. -/
theorem C65_as_serial_partial [NeZero (2 : K)] (lap : Lapack K) {ps : PatchSolver K} (hN : 0 < N) (hs : SolverShapes N ps)
    {opt : HPSOptions} (ho : opt.homogeneousRhs = false) (hM : F.depth ≤ M) (hF : F.Sorted) (hr : EveryRank F size)
    {root : Patch K} {R : Rect K} (hg : root.grid = ⟨N, N, R.xl, R.xu, R.yl, R.yu⟩) (h0 : root.nCoarsens = 0)
    (h3 : 3 ≤ N ∨ ∃ d, Uniform d (startTree root F []))
    (hc : opt.cacheOperators = true → ∀ k, ∃ B, ∀ p ∈ leavesOf k F (startTree root F []), ps.buildD2N p.grid = .ok B)
    (f : K → K → K) (bc : BoundaryFn K) (n : Nat) :
    ∃ (t1 : Tree (Patch K)) (c1 : Option (Mat K)) (t3 : Tree (Patch K)) (Z : Nat → Mesh K),
      HPS.buildStage lap ps { opt with cacheOperators := false } (startTree root F []) none = .ok (t1, c1) ∧
      (Request.functions f bc).run lap ps opt t1 = .ok t3 ∧
      AlwaysEnds (exampleOn M size F lap ps opt root f bc (n + 1)) Z ∧
      ∀ r, r < size → (Z r).arrays.Describes (meshCells r F (startTree root F [])) ∧ Rep r F t3 [] (Z r).quadtree.map ∧
        ∃ u fv, (Z r).functions = [u, fv] ∧ u.WF ∧ fv.WF ∧ u.size = (meshCells r F (startTree root F [])).length ∧
          u.data = (leavesOf r F t3).flatMap (fun p => p.u.data) ∧ fv.data = (leavesOf r F t3).flatMap (fun p => p.f.data) := by
  have hI := startTree_init hg h0 F []
  obtain ⟨t1, c1, t3, e1, e2, e3, e4, e5, -⟩ := serial_fields lap hN hs (opt := { opt with cacheOperators := false }) ho hI h3 f bc
  obtain ⟨Z, z1, z2⟩ := example_runs hM hF hr lap ps opt root f bc n hc e1 e2
  refine ⟨t1, c1, t3, Z, e1, e2, z1, ?_⟩
  intro r hr'
  obtain ⟨w1, w2, u, fv, w3, w4, w5⟩ := z2 r hr'
  have hl : ∀ q ∈ leavesOf r F t3, q ∈ t3.leaves := fun q hq => leavesOf_sub hq
  have hwf : ∀ (v : Patch K → Vec K), (∀ q ∈ t3.leaves, (v q).size = N * N ∧ (v q).WF) →
      Vec.WF (⟨((leavesOf r F t3).map fun p => (v p).size).sum, (leavesOf r F t3).flatMap fun p => (v p).data⟩ : Vec K) := by
    intro v hv
    show List.length _ = _
    rw [List.length_flatMap]
    congr 1
    exact List.map_congr_left fun q hq => (hv q (hl q hq)).2
  refine ⟨w1, w2, u, fv, w3, by rw [w4]; exact hwf _ e4, by rw [w5]; exact hwf _ e5, ?_, by rw [w4], by rw [w5]⟩
  rw [w4, ← hwf _ e4]
  exact (leavesOf_cells hI e3 e4 r).symm

end

section
variable [Field K] [LinearOrder K] [IsStrictOrderedRing K] {N M size d : Nat} {F : Forest}

/-- On a uniform mesh with constant coefficients all leaves have the same operator. -/
theorem uniform_cache (lu : PetscLU K) {s : FVSolver K} (hs : SolverShapes N (s.toPatchSolver lu)) (hc : s.Constant) {root : Patch K}
    {R : Rect K} (hI : Init N (startTree root F []) R) (hu : Uniform d (startTree root F [])) (k : Nat) :
    ∃ B, ∀ p ∈ leavesOf k F (startTree root F []), (s.toPatchSolver lu).buildD2N p.grid = .ok B := by
  obtain ⟨p, l, hp⟩ := List.exists_cons_of_ne_nil (startTree root F []).leaves_ne_nil
  have hpm : p ∈ (startTree root F []).leaves := by rw [hp]; simp
  obtain ⟨px, py⟩ := hI.leaves p hpm
  obtain ⟨A, hA, -⟩ := hs.d2n p.grid px py
  refine ⟨A, fun q hq => ?_⟩
  have hq := leavesOf_sub hq
  obtain ⟨qx, qy⟩ := hI.leaves q hq
  rw [← hA]
  exact FVSolver.buildD2N_congr lu hc (by rw [px, qx]) (by rw [py, qy])
    (by rw [(uniform_sizes hI hu q hq).1, (uniform_sizes hI hu p hpm).1])
    (by rw [(uniform_sizes hI hu q hq).2, (uniform_sizes hI hu p hpm).2])

/-- C65 on a mesh refined the same number of times everywhere, with the finite volume leaf solver: the program ends on all ranks, and
the vectors it adds to the mesh hold, in the order of the cells of the mesh arrays of the rank, the solution of the finite
volume problem of the whole grid with the given load and Dirichlet values, and the load; every cell of the grid is among the cells
of some rank.  Missing: adaptive meshes (for those `C65_as_serial_partial` with the results on serial runs), floating point, the
leaf solver of the example's default (see C57 and C59). -/
theorem C65_finite_volume_partial (lap : Lapack K) (lu : PetscLU K) {s : FVSolver K} (hN : 2 ≤ N) {opt : HPSOptions}
    (ho : opt.homogeneousRhs = false) (hc : opt.cacheOperators = true → s.Constant) (hM : F.depth ≤ M) (hF : F.Sorted)
    (hr : EveryRank F size) (hd : F.shape = .uniform d) {root : Patch K} {R : Rect K}
    (hg : root.grid = ⟨N, N, R.xl, R.xu, R.yl, R.yu⟩) (h0 : root.nCoarsens = 0) (hR : Proper R) (hE : EllipticOn s R)
    (f : K → K → K) (b : Nat → K → K → K) (n : Nat) :
    ∃ (W : Nat → Nat → K) (Z : Nat → Mesh K),
      Solves s R (N * 2 ^ d) (N * 2 ^ d) (dirichletAt R (N * 2 ^ d) b)
        (fun i j => f (cx R (N * 2 ^ d) i) (cy R (N * 2 ^ d) j)) W ∧
      AlwaysEnds (exampleOn M size F lap (s.toPatchSolver lu) opt root f (fun q x y => (b q x y, 1, 0)) (n + 1)) Z ∧
      Covered R (N * 2 ^ d) size (fun r => meshCells r F (startTree root F [])) ∧
      ∀ r, r < size → (Z r).arrays.Describes (meshCells r F (startTree root F [])) ∧
        ∃ u fv, (Z r).functions = [u, fv] ∧ CellValues R (N * 2 ^ d) W (meshCells r F (startTree root F [])) u ∧
          CellValues R (N * 2 ^ d) (fun i j => f (cx R (N * 2 ^ d) i) (cy R (N * 2 ^ d) j))
            (meshCells r F (startTree root F [])) fv := by
  have hI := startTree_init hg h0 F []
  have hu := startTree_uniform root hd []
  have hs := FVSolver.shapes lu s hN
  obtain ⟨t1, c1, t3, e1, e2, e3, e4, e5, e6⟩ := serial_fields lap (by omega) hs (opt := { opt with cacheOperators := false }) ho hI
    (Or.inr ⟨d, hu⟩) f (fun q x y => (b q x y, 1, 0))
  have hW := C18_global_finite_volume_functions lap lu hN (opt := { opt with cacheOperators := false }) rfl ho hI hu hR hE f b e1 e2
  obtain ⟨Z, z1, z2⟩ := example_runs hM hF hr lap _ opt root f _ n (fun h k => uniform_cache lu hs (hc h) hI hu k) e1 e2
  refine ⟨gridFn N (·.u) t3, Z, hW, z1, ?_, ?_⟩
  · intro I J hI' hJ
    obtain ⟨r, h1, h2⟩ := cells_covered (by omega) F hI hu hI' hJ
    exact ⟨r, (hr r).mpr h1, h2⟩
  · intro r hr'
    obtain ⟨w1, w2, u, fv, w3, rfl, rfl⟩ := z2 r hr'
    refine ⟨w1, _, _, w3, ?_, ?_⟩
    · exact cellValues_of (fun q hq => (e4 q (leavesOf_sub hq)).2) (values_match (·.u) (by omega) r F hI hu e3 e4)
    · obtain ⟨φ, f1, -⟩ := sampleLoad_fn f
      refine cellValues_of (fun q hq => (e5 q (leavesOf_sub hq)).2)
        ((values_match (·.f) (by omega) r F hI hu e3 e5).imp ?_)
      rintro c v ⟨I, J, hI', hJ, h1, h2⟩
      refine ⟨I, J, hI', hJ, h1, ?_⟩
      rw [h2, e6 φ f1]
      exact gridFn_sampled (by omega) f1 hI hu I hI' J hJ

end

/-! ## Sequences of requests -/

section
variable [Field K] {M size : Nat} {F : Forest}

/-- What a client does on every rank for a request: an upwards stage and a solve stage. -/
def HPSRank.request (P : Place) (lap : Lapack K) (ps : PatchSolver K) (opt : HPSOptions) (A : HPSRank K) :
    Request K → Prog (Patch K) (HPSRank K)
  | .callbacks load bdry => do
    let A ← A.upwardsStage P lap ps opt (fun p => .ok { p with f := load p.grid })
    A.solveStage P ps opt (fun p => do
      let g ← bdry p.grid p.nCoarsens p.T p.h
      pure { p with g := g })
  | .functions f bc => do
    let A ← A.upwardsStageAnalytic P lap ps opt f
    A.solveStageAnalytic P lap ps opt bc

/-- A sequence of requests on one rank. -/
def HPSRank.requests (P : Place) (lap : Lapack K) (ps : PatchSolver K) (opt : HPSOptions) :
    List (Request K) → HPSRank K → Prog (Patch K) (HPSRank K)
  | [], A => pure A
  | q :: rs, A => do
    let A ← A.request P lap ps opt q
    requests P lap ps opt rs A

/-- C65 for sequences of requests, with callbacks or functions: if the solver objects of the ranks hold the parts of a tree on which a
serial run of the requests ends, then every parallel run of them ends (the ranks that are not in the communicator do nothing), the
ranks hold the parts of the tree the serial run ends with, and mesh arrays and mesh functions are untouched.  Missing: a serial run
that throws; ranks without leaves. -/
theorem C65_requests_partial (hM : F.depth ≤ M) (hF : F.Sorted) (hr : EveryRank F size) (lap : Lapack K) (ps : PatchSolver K)
    (opt : HPSOptions) (rs : List (Request K)) {t t' : Tree (Patch K)} {A : Nat → HPSRank K}
    (hA : HoldsOn size F t (fun r => (A r).mesh.quadtree)) (ht : runAll lap ps opt rs t = .ok t') (idle : HPSRank K) :
    ∃ A' : Nat → HPSRank K,
      AlwaysEnds (fun r => if r < size then (A r).requests ⟨M, size, r, F⟩ lap ps opt rs else .fin (.ok idle)) A' ∧
      HoldsOn size F t' (fun r => (A' r).mesh.quadtree) ∧
      ∀ r, r < size → (A' r).mesh.arrays = (A r).mesh.arrays ∧ (A' r).mesh.functions = (A r).mesh.functions := by
  have key : ∃ A' : Nat → HPSRank K, Follows size F t' A A' ∧
      Runs (fun r => r < size) (fun r => (A r).requests ⟨M, size, r, F⟩ lap ps opt rs) A' := by
    induction rs generalizing t A with
    | nil =>
      rw [runAll, Res.ok_inj] at ht
      subst ht
      exact ⟨A, fun r h => ⟨(hA r h).1, (hA r h).2, rfl, rfl⟩, Runs.pure fun r _ => rfl⟩
    | cons q rs ih =>
      rw [runAll] at ht
      obtain ⟨t1, e1, e2⟩ := Res.bind_eq_ok.mp ht
      have h1 : ∃ A1 : Nat → HPSRank K, Follows size F t1 A A1 ∧
          Runs (fun r => r < size) (fun r => (A r).request ⟨M, size, r, F⟩ lap ps opt q) A1 := by
        cases q with
        | callbacks load bdry =>
          obtain ⟨t2, k1, k2⟩ := Res.bind_eq_ok.mp e1
          obtain ⟨A1, h1, h2⟩ := upwards_runs hM hF hr lap ps opt _ hA k1
          obtain ⟨A2, h3, h4⟩ := solve_runs hM hF hr ps opt _ h1.holds k2
          exact ⟨A2, h1.trans h3, Runs.bind h2 h4⟩
        | functions f bc => exact request_runs hM hF hr lap ps opt f bc hA e1
      obtain ⟨A1, h1, h2⟩ := h1
      obtain ⟨A2, h3, h4⟩ := ih h1.holds e2
      exact ⟨A2, h1.trans h3, (Runs.bind h2 (q := fun r A => A.requests ⟨M, size, r, F⟩ lap ps opt rs) (w := A2) h4).congr
        (fun r _ => rfl) (fun r _ => rfl)⟩
  obtain ⟨A', h1, h2⟩ := key
  refine ⟨fun r => if r < size then A' r else idle, Runs.ends h2 idle, fun r h => ?_, fun r h => ?_⟩
  · simp only [if_pos h]; exact h1.holds r h
  · simp only [if_pos h]; exact (h1 r h).2.2

end

/-! ## Where it fails -/

/-- C65 is false when some rank owns no leaf: a rank above or below those that own leaves runs into undefined behaviour in its
first solve stage, for every problem and whatever the other ranks do. -/
theorem C65_no_leaf_actual [Field K] {M size r : Nat} {F : Forest} (hM : F.depth ≤ M) (hs : F.Sorted) (hr : ¬ F.Spans r)
    (hsize : r < size) (lap : Lapack K) (ps : PatchSolver K) (opt : HPSOptions) (root : Patch K) (f : K → K → K)
    (bc : BoundaryFn K) (n k : Nat) {c : Config (Patch K) (Mesh K)}
    (hrun : Run k (exampleOn M size F lap ps opt root f bc (n + 1)) c) : ∀ x, c r ≠ .fin (.ok x) := by
  intro x hx
  have h : Doomed (exampleOn M size F lap ps opt root f bc (n + 1) r) := by
    unfold exampleOn
    rw [if_pos hsize]
    exact example_doomed hM hs hr lap ps opt root f bc n
  have := h.run hrun
  rw [hx] at this
  cases this

/-- A mesh with one refined quarter, on one rank. -/
def exOneRank : Forest := .node (.node (.leaf 0) (.leaf 0) (.leaf 0) (.leaf 0)) (.leaf 0) (.leaf 0) (.leaf 0)

/-- The same mesh on two ranks: the small leaves on rank 0, the large ones on rank 1. -/
def exTwoRanks : Forest := .node (.node (.leaf 0) (.leaf 0) (.leaf 0) (.leaf 0)) (.leaf 1) (.leaf 1) (.leaf 1)

/-- The operators a build leaves on the ranks depend on how the leaves are dealt to the ranks if the operator cache is on: on the
same mesh, for the Laplace equation, one rank and two ranks build different trees. -/
theorem C65_cache_depends_on_ranks_wrong (lap : Lapack ℚ) (lu : PetscLU ℚ) :
    ∃ (s : FVSolver ℚ) (root : Patch ℚ) (t1 t2 : Tree (Patch ℚ)), EllipticOn s unitSquare ∧
      startTree root exOneRank [] = startTree root exTwoRanks [] ∧ t1 ≠ t2 ∧
      (∀ A : Nat → HPSRank ℚ, HoldsOn 1 exOneRank (startTree root exOneRank []) (fun r => (A r).mesh.quadtree) →
        (∀ r, (A r).cache = none) → ∃ A' : Nat → HPSRank ℚ, HoldsOn 1 exOneRank t1 (fun r => (A' r).mesh.quadtree) ∧
          Runs (fun r => r < 1) (fun r => (A r).buildStage ⟨30, 1, r, exOneRank⟩ lap (s.toPatchSolver lu) ⟨true, false⟩) A') ∧
      (∀ A : Nat → HPSRank ℚ, HoldsOn 2 exTwoRanks (startTree root exTwoRanks []) (fun r => (A r).mesh.quadtree) →
        (∀ r, (A r).cache = none) → ∃ A' : Nat → HPSRank ℚ, HoldsOn 2 exTwoRanks t2 (fun r => (A' r).mesh.quadtree) ∧
          Runs (fun r => r < 2) (fun r => (A r).buildStage ⟨30, 2, r, exTwoRanks⟩ lap (s.toPatchSolver lu) ⟨true, false⟩) A') := by
  let s : FVSolver ℚ := ⟨fun _ _ => 1, fun _ _ => 1, fun _ _ => 0⟩
  let root : Patch ℚ := Patch.fresh ⟨4, 4, 0, 1, 0, 1⟩
  have hE : EllipticOn s unitSquare := by
    intro x y _; norm_num [s]
  have hsame : startTree root exOneRank [] = startTree root exTwoRanks [] := rfl
  have hI : Init 4 (startTree root exOneRank []) unitSquare := startTree_init (R := unitSquare) rfl rfl _ []
  have hs := FVSolver.shapes lu s (n := 4) (by omega)
  have hF1 : exOneRank.Sorted := by unfold Forest.Sorted; decide
  have hF2 : exTwoRanks.Sorted := by unfold Forest.Sorted; decide
  have hR1 : EveryRank exOneRank 1 := by
    intro r
    simp [exOneRank, Forest.ranks]
  have hR2 : EveryRank exTwoRanks 2 := by
    intro r
    simp [exTwoRanks, Forest.ranks]
    omega
  obtain ⟨t1, c1, _, _, e1, _⟩ := buildStage_any lap hs ⟨true, false⟩ (by omega) hI (Or.inl (by omega)) no_cache
  obtain ⟨t2, c2, _, _, e2, _⟩ := buildStage_any lap hs ⟨false, false⟩ (by omega) hI (Or.inl (by omega)) no_cache
  have hB : ∀ k, ∃ B, ∀ p ∈ leavesOf k exTwoRanks (startTree root exTwoRanks []), (s.toPatchSolver lu).buildD2N p.grid = .ok B := by
    have key : ∀ L : List (Patch ℚ), (∀ p ∈ L, ∀ q ∈ L, p.grid.nx = 4 ∧ p.grid.ny = 4 ∧ p.grid.dx = q.grid.dx ∧ p.grid.dy = q.grid.dy) →
        ∃ B, ∀ p ∈ L, (s.toPatchSolver lu).buildD2N p.grid = .ok B := by
      intro L hL
      cases L with
      | nil => exact ⟨⟨0, 0, []⟩, fun p hp => by cases hp⟩
      | cons p L =>
        obtain ⟨px, py, -⟩ := hL p (by simp) p (by simp)
        obtain ⟨B, hB, -⟩ := hs.d2n p.grid px py
        refine ⟨B, fun q hq => ?_⟩
        obtain ⟨qx, qy, h1, h2⟩ := hL q hq p (by simp)
        rw [← hB]
        exact FVSolver.buildD2N_congr lu ⟨1, 1, 0, rfl⟩ (by rw [px, qx]) (by rw [py, qy]) h1 h2
    intro k
    apply key
    match k with
    | 0 => decide +kernel
    | 1 => decide +kernel
    | k + 2 =>
      intro p hp
      simp [leavesOf, exTwoRanks, startTree] at hp
  refine ⟨s, root, t1, t2, hE, hsame, ?_, ?_, ?_⟩
  · rintro rfl
    have h := (C25_laplace_iff_uniform lap lu (s := s) ⟨1, 1, 0, rfl⟩ (fun _ _ => rfl) (by omega) false hI exPde_elliptic_unit.1 hE).mp
      (by unfold SameTree; rw [e1, e2]; rfl)
    obtain ⟨d, hd⟩ := h
    simp only [startTree, exOneRank] at hd
    cases hd with
    | node _ h0 h1 _ _ =>
      cases h1
      cases h0
  · intro A hA hc
    have h1 : Tree.mergeBy (buildLeaf (s.toPatchSolver lu) ⟨true, false⟩) (merge4to1 lap) exOneRank (startTree root exOneRank [])
        (fun r => (A r).cache) = .ok (t1, Function.update (fun _ => none) 0 c1) := by
      rw [funext hc, mergeBy_one (k := 0) (by simp [exOneRank, Forest.ranks]) (hA 0 (by omega)).1]
      unfold HPS.buildStage at e1
      rw [e1]
      rfl
    obtain ⟨A', k1, -, k2⟩ := build_runs (M := 30) (by decide) hF1 hR1 lap (s.toPatchSolver lu) ⟨true, false⟩ hA h1
    exact ⟨A', k1.holds, k2⟩
  · intro A hA hc
    obtain ⟨s', h1⟩ := mergeBy_build lap (s.toPatchSolver lu) ⟨true, false⟩ (F := exTwoRanks) (t := startTree root exTwoRanks [])
      (fun _ k => hB k) (hA 0 (by omega)).1 e2
    rw [← funext hc] at h1
    obtain ⟨A', k1, -, k2⟩ := build_runs (M := 30) (by decide) hF2 hR2 lap (s.toPatchSolver lu) ⟨true, false⟩ hA h1
    exact ⟨A', k1.holds, k2⟩

/-! ## A concrete run -/

/-- A mesh refined once on two ranks. -/
def exHalves : Forest := .node (.leaf 0) (.leaf 0) (.leaf 1) (.leaf 1)

/-- The hypotheses of the two theorems hold for a variable coefficient problem on the unit square, on two ranks, with three solves. -/
example (lap : Lapack ℚ) (lu : PetscLU ℚ) : ∃ (W : Nat → Nat → ℚ) (Z : Nat → Mesh ℚ),
    Solves exPde unitSquare 8 8 (dirichletAt unitSquare 8 (fun _ x y => x + y * y)) (fun i j => cx unitSquare 8 i * cy unitSquare 8 j) W ∧
    AlwaysEnds (exampleOn 30 2 exHalves lap (exPde.toPatchSolver lu) ⟨false, false⟩ (Patch.fresh ⟨4, 4, 0, 1, 0, 1⟩) (fun x y => x * y)
      (fun _ x y => (x + y * y, 1, 0)) 3) Z ∧
    ∀ r, r < 2 → ∃ u fv, (Z r).functions = [u, fv] ∧
      CellValues unitSquare 8 W (meshCells r exHalves (startTree (Patch.fresh ⟨4, 4, 0, 1, 0, 1⟩) exHalves [])) u := by
  obtain ⟨W, Z, h1, h2, -, h3⟩ := C65_finite_volume_partial (N := 4) (M := 30) (size := 2) (d := 1) (F := exHalves) lap lu (s := exPde)
    (by omega) (opt := ⟨false, false⟩) rfl (fun h => by cases h) (by decide) (by unfold Forest.Sorted; decide)
    (by intro r; simp [exHalves, Forest.ranks]; omega) rfl (root := Patch.fresh ⟨4, 4, 0, 1, 0, 1⟩) (R := unitSquare) rfl rfl
    exPde_elliptic_unit.1 exPde_elliptic_unit.2 (fun x y => x * y) (fun _ x y => x + y * y) 2
  refine ⟨W, Z, h1, h2, fun r hr => ?_⟩
  obtain ⟨-, u, fv, k1, k2, -⟩ := h3 r hr
  exact ⟨u, fv, k1, k2⟩

/-- Rank 1 of that mesh has 32 cells. -/
example : (meshCells 1 exHalves (startTree (Patch.fresh (⟨4, 4, 0, 1, 0, 1⟩ : Grid ℚ)) exHalves [])).length = 32 := by decide +kernel

/-- An adaptive mesh on two ranks meets the hypotheses of `C65_as_serial_partial`. -/
example (lap : Lapack ℚ) (lu : PetscLU ℚ) (f : ℚ → ℚ → ℚ) (bc : BoundaryFn ℚ) :
    ∃ Z : Nat → Mesh ℚ, AlwaysEnds (exampleOn 30 2 exTwoRanks lap (exPde.toPatchSolver lu) ⟨false, false⟩
      (Patch.fresh ⟨4, 4, 0, 1, 0, 1⟩) f bc 1) Z := by
  obtain ⟨_, _, _, Z, -, -, h, -⟩ := C65_as_serial_partial (N := 4) (M := 30) (size := 2) (F := exTwoRanks) lap (by omega)
    (FVSolver.shapes lu exPde (n := 4) (by omega)) (opt := ⟨false, false⟩) rfl (by decide) (by unfold Forest.Sorted; decide)
    (by intro r; simp [exTwoRanks, Forest.ranks]; omega) (root := Patch.fresh ⟨4, 4, 0, 1, 0, 1⟩) (R := unitSquare) rfl rfl
    (Or.inl (by omega)) (fun h => by cases h) f bc 0
  exact ⟨Z, h⟩

/-- Rank 1 of a mesh with one leaf on rank 0 meets the hypotheses of `C65_no_leaf_actual`. -/
example : (Forest.leaf 0).depth ≤ 30 ∧ (Forest.leaf 0).Sorted ∧ ¬ (Forest.leaf 0).Spans 1 :=
  ⟨by decide, by unfold Forest.Sorted; decide, by unfold Forest.Spans; decide⟩

end EF
