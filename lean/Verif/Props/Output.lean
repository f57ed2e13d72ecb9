import Verif.Proofs.Output

/-!
# The files of the example programs (C73, C74)
-/

namespace EF

open Finset FV HPS

variable {N M size d : Nat} {F : Forest}

/-- `examples/elliptic-single` on the ranks below `size`; there are no others. -/
def filesOn (M size : Nat) (F : Forest) (lap : Lapack ℚ) (ps : PatchSolver ℚ) (s : FVSolver ℚ) (opt : HPSOptions) (root : Patch ℚ)
    (f : ℚ → ℚ → ℚ) (bc : BoundaryFn ℚ) (exact : ℚ → ℚ → ℚ) (n stack : Nat) (h : Nat → Heap) :
    Config (Patch ℚ) (List (Text × Text)) :=
  fun r => if r < size then exampleFiles ⟨M, size, r, F⟩ lap ps s opt root f bc exact n stack (h r) else .fin (.ok [])

theorem exampleNames_nodup : exampleNames.Nodup := by decide

theorem exampleNames_plain : ∀ n ∈ exampleNames, Plain n := by unfold Plain; decide

/-- The end of the program, from the mesh with solution and load on. -/
def finish (P : Place) (s : FVSolver ℚ) (exact : ℚ → ℚ → ℚ) (stack : Nat) (h : Heap) (mesh : Mesh ℚ) :
    Prog (Patch ℚ) (List (Text × Text)) := do
  let mesh ← Prog.fin (mesh.addMeshFunction P.M P.rank P.forest s.alpha)
  let mesh ← Prog.fin (mesh.addMeshFunction P.M P.rank P.forest s.beta)
  let mesh ← Prog.fin (mesh.addMeshFunction P.M P.rank P.forest s.lambda)
  let mesh ← Prog.fin (mesh.addMeshFunction P.M P.rank P.forest exact)
  let x ← Prog.fin (mesh.toVTK exampleNames P stack "elliptic".toList none h)
  pure x.2

/-- The program, given the serial run. -/
theorem files_run (lap : Lapack ℚ) {ps : PatchSolver ℚ} (s : FVSolver ℚ) (hN : 0 < N) {opt : HPSOptions} (hM : F.depth ≤ M)
    (hF : F.Sorted) (hr : EveryRank F size) (hz : size ≤ 10 ^ 10) {root : Patch ℚ} {R : Rect ℚ} (hI : Init N (startTree root F []) R)
    (hc : opt.cacheOperators = true → ∀ k, ∃ B, ∀ p ∈ leavesOf k F (startTree root F []), ps.buildD2N p.grid = .ok B)
    (f : ℚ → ℚ → ℚ) (bc : BoundaryFn ℚ) (exact : ℚ → ℚ → ℚ) (n : Nat) {stack : Nat} (hk : 5 ≤ stack) (h : Nat → Heap)
    {t1 t3 : Tree (Patch ℚ)} {c1 : Option (Mat ℚ)}
    (e1 : HPS.buildStage lap ps { opt with cacheOperators := false } (startTree root F []) none = .ok (t1, c1))
    (e2 : (Request.functions f bc).run lap ps opt t1 = .ok t3) (hp : Placed N t3 R) (hsh : t3.shape = (startTree root F []).shape)
    (hU : ∀ p ∈ t3.leaves, p.u.size = N * N ∧ p.u.WF) (hFv : ∀ p ∈ t3.leaves, p.f.size = N * N ∧ p.f.WF) :
    ∃ Z : Nat → List (Text × Text), AlwaysEnds (filesOn M size F lap ps s opt root f bc exact (n + 1) stack h) Z ∧
      ∀ r, r < size → ∃ doc, FilesOf "elliptic-mesh".toList r size (Z r) doc ∧
        ShowsCells doc (meshCells r F (startTree root F [])) ∧ fieldNames doc = exampleNames.map some ∧
        numbersOf doc "CellData".toList "u_soln".toList =
          some (((leavesOf r F t3).flatMap fun p => p.u.data).map fun x => readNumber (decimalText x)) ∧
        numbersOf doc "CellData".toList "f_rhs".toList =
          some (((leavesOf r F t3).flatMap fun p => p.f.data).map fun x => readNumber (decimalText x)) ∧
        ShowsField doc "alpha_fn".toList (meshCells r F (startTree root F [])) (atCentre s.alpha) ∧
        ShowsField doc "beta_fn".toList (meshCells r F (startTree root F [])) (atCentre s.beta) ∧
        ShowsField doc "lambda_fn".toList (meshCells r F (startTree root F [])) (atCentre s.lambda) ∧
        ShowsField doc "u_exact".toList (meshCells r F (startTree root F [])) (atCentre exact) := by
  obtain ⟨Y, y1, y2⟩ := example_program hM hF hr lap ps opt root f bc n hc e1 e2
  let L : List (Text × (ℚ → ℚ → ℚ)) := [("alpha_fn".toList, s.alpha), ("beta_fn".toList, s.beta), ("lambda_fn".toList, s.lambda),
    ("u_exact".toList, exact)]
  have w : ∀ r, ∃ files : List (Text × Text), r < size → finish ⟨M, size, r, F⟩ s exact stack (h r) (Y r) = pure files ∧
      ∃ doc, FilesOf "elliptic-mesh".toList r size files doc ∧
        ShowsCells doc (meshCells r F (startTree root F [])) ∧ fieldNames doc = exampleNames.map some ∧
        numbersOf doc "CellData".toList "u_soln".toList =
          some (((leavesOf r F t3).flatMap fun p => p.u.data).map fun x => readNumber (decimalText x)) ∧
        numbersOf doc "CellData".toList "f_rhs".toList =
          some (((leavesOf r F t3).flatMap fun p => p.f.data).map fun x => readNumber (decimalText x)) ∧
        ∀ q ∈ L, ShowsField doc q.1 (meshCells r F (startTree root F [])) (atCentre q.2) := by
    intro r
    by_cases hr' : r < size
    · obtain ⟨a1, a2, u, fv, a3, a4, a5⟩ := y2 r hr'
      obtain ⟨m', h', files, doc, b1, b2, -, -, -, b3, b4, b5, b6, b7, b8⟩ := output_ok hN hM hF hI ((hr r).mp hr') hr' hz hp hsh hU hFv
        a2 a1 (by rw [a3, a4, a5]) (L := L) (by simp [L]) (nu := "u_soln".toList) (nf := "f_rhs".toList) exampleNames_nodup
        exampleNames_plain hk (base := "elliptic".toList) (by decide) none (by unfold Plain; decide) (by decide) (h r)
      refine ⟨files, fun _ => ⟨?_, doc, b3, b4, b5, b6, b7, b8⟩⟩
      simp only [L, List.map_cons, List.map_nil, List.foldlM_cons, List.foldlM_nil] at b1
      obtain ⟨m1, d1, b1⟩ := Res.bind_eq_ok.mp b1
      obtain ⟨m2, d2, b1⟩ := Res.bind_eq_ok.mp b1
      obtain ⟨m3, d3, b1⟩ := Res.bind_eq_ok.mp b1
      obtain ⟨m4, d4, b1⟩ := Res.bind_eq_ok.mp b1
      obtain rfl := Res.ok_inj.mp b1
      have b2' : m4.toVTK exampleNames ⟨M, size, r, F⟩ stack "elliptic".toList none (h r) = .ok (h', files) := b2
      unfold finish
      dsimp only
      rw [d1]
      show (Prog.fin (m1.addMeshFunction M r F s.beta) >>= fun mesh => _) = _
      rw [d2]
      show (Prog.fin (m2.addMeshFunction M r F s.lambda) >>= fun mesh => _) = _
      rw [d3]
      show (Prog.fin (m3.addMeshFunction M r F exact) >>= fun mesh => _) = _
      rw [d4]
      show (Prog.fin (m4.toVTK exampleNames ⟨M, size, r, F⟩ stack "elliptic".toList none (h r)) >>= fun x => _) = _
      rw [b2']
      rfl
    · exact ⟨[], fun h => absurd h hr'⟩
  choose Z z using w
  have hrun : Runs (fun r => r < size) (fun r => exampleFiles ⟨M, size, r, F⟩ lap ps s opt root f bc exact (n + 1) stack (h r)) Z :=
    Runs.bind y1 (q := fun r mesh => finish ⟨M, size, r, F⟩ s exact stack (h r) mesh) (Runs.pure fun r hr' => (z r hr').1)
  refine ⟨fun r => if r < size then Z r else [], Runs.ends hrun [], fun r hr' => ?_⟩
  obtain ⟨-, doc, d1, d2, d3, d4, d5, d6⟩ := z r hr'
  refine ⟨doc, by beta_reduce; rw [if_pos hr']; exact d1, d2, d3, d4, d5, d6 (_, s.alpha) List.mem_cons_self,
    d6 (_, s.beta) (List.mem_cons_of_mem _ List.mem_cons_self),
    d6 (_, s.lambda) (List.mem_cons_of_mem _ (List.mem_cons_of_mem _ List.mem_cons_self)),
    d6 (_, exact) (List.mem_cons_of_mem _ (List.mem_cons_of_mem _ (List.mem_cons_of_mem _ List.mem_cons_self)))⟩

theorem exampleNames_eq : exampleNames.map some =
    ["u_soln", "f_rhs", "alpha_fn", "beta_fn", "lambda_fn", "u_exact"].map (fun n => some n.toList) := rfl

/-! ### C73 -/

/-- C73 on every mesh, adaptively refined or not, with every leaf solver whose operators have the right sizes: the program ends on all
ranks.  Every rank writes its piece, and rank 0 the header with the names of the pieces of all ranks.  The piece of a rank shows the
cells of the leaves of the rank and six fields in the order of the program: in every cell a number within half a millionth of the
solution that a serial run without operator cache leaves in the cell, of the load, of the coefficients and of the exact solution at
the centre of the cell.

Missing: a rank without leaves (see C65), the operator cache on leaves with different operators, floating point, names of more than
240 characters, the file p4est writes. -/
theorem C73_as_serial_partial (lap : Lapack ℚ) {ps : PatchSolver ℚ} (s : FVSolver ℚ) (hN : 0 < N) (hs : SolverShapes N ps)
    {opt : HPSOptions} (ho : opt.homogeneousRhs = false) (hM : F.depth ≤ M) (hF : F.Sorted) (hr : EveryRank F size)
    (hz : size ≤ 10 ^ 10) {root : Patch ℚ} {R : Rect ℚ} (hg : root.grid = ⟨N, N, R.xl, R.xu, R.yl, R.yu⟩) (h0 : root.nCoarsens = 0)
    (h3 : 3 ≤ N ∨ ∃ d, Uniform d (startTree root F []))
    (hc : opt.cacheOperators = true → ∀ k, ∃ B, ∀ p ∈ leavesOf k F (startTree root F []), ps.buildD2N p.grid = .ok B)
    (f : ℚ → ℚ → ℚ) (bc : BoundaryFn ℚ) (exact : ℚ → ℚ → ℚ) (n : Nat) {stack : Nat} (hk : 5 ≤ stack) (h : Nat → Heap) :
    ∃ (t1 : Tree (Patch ℚ)) (c1 : Option (Mat ℚ)) (t3 : Tree (Patch ℚ)) (Z : Nat → List (Text × Text)),
      HPS.buildStage lap ps { opt with cacheOperators := false } (startTree root F []) none = .ok (t1, c1) ∧
      (Request.functions f bc).run lap ps opt t1 = .ok t3 ∧
      AlwaysEnds (filesOn M size F lap ps s opt root f bc exact (n + 1) stack h) Z ∧
      ∀ r, r < size → ∃ doc, FilesOf "elliptic-mesh".toList r size (Z r) doc ∧
        ShowsCells doc (meshCells r F (startTree root F [])) ∧
        fieldNames doc = ["u_soln", "f_rhs", "alpha_fn", "beta_fn", "lambda_fn", "u_exact"].map (fun n => some n.toList) ∧
        ShowsField doc "u_soln".toList (meshCells r F (startTree root F [])) (inLeaf (leavesOf r F t3) (·.u)) ∧
        ShowsField doc "f_rhs".toList (meshCells r F (startTree root F [])) (atCentre f) ∧
        ShowsField doc "alpha_fn".toList (meshCells r F (startTree root F [])) (atCentre s.alpha) ∧
        ShowsField doc "beta_fn".toList (meshCells r F (startTree root F [])) (atCentre s.beta) ∧
        ShowsField doc "lambda_fn".toList (meshCells r F (startTree root F [])) (atCentre s.lambda) ∧
        ShowsField doc "u_exact".toList (meshCells r F (startTree root F [])) (atCentre exact) := by
  have hI := startTree_init hg h0 F []
  obtain ⟨t1, c1, t3, e1, e2, e3, e4, e5⟩ := serial_placed lap hN hs (opt := { opt with cacheOperators := false }) ho hI h3 f bc
  obtain ⟨Z, z1, z2⟩ := files_run lap s hN hM hF hr hz hI hc f bc exact n hk h e1 e2 e4 e3 (fun p hp => (e5 p hp).2.2.1)
    (fun p hp => (e5 p hp).2.2.2.1)
  refine ⟨t1, c1, t3, Z, e1, e2, z1, fun r hr' => ?_⟩
  obtain ⟨doc, d1, d2, d3, d4, d5, d6⟩ := z2 r hr'
  have hg' : ∀ p ∈ t3.leaves, p.grid.nx = N ∧ p.grid.ny = N := fun p hp => ⟨(e5 p hp).1, (e5 p hp).2.1⟩
  have hcells := meshCells_placed (r := r) (F := F) e4 hI.placed e3
  have vu := values_inLeaf (r := r) (F := F) (v := (·.u)) hg' (fun p hp => (e5 p hp).2.2.1)
  have vf := values_inLeaf (r := r) (F := F) (v := (·.f)) hg' (fun p hp => (e5 p hp).2.2.2.1)
  rw [hcells] at vu vf
  refine ⟨doc, d1, d2, d3.trans exampleNames_eq, ⟨_, d4, forall₂_shown vu⟩, ⟨_, d5, forall₂_shown (vf.imp fun c x hx => ?_)⟩, d6⟩
  exact inLeaf_sampled (fun p hp => (e5 p (leavesOf_sub hp)).2.2.2.2) hx

/-- C73 on a mesh refined the same number of times everywhere, with the finite volume leaf solver: the files show, in every cell, the
solution of the finite volume problem of the whole grid within half a millionth; every cell of the grid is in the file of some rank.

Missing: as in `C73_as_serial_partial`; for adaptive meshes see `C73_adaptive_partial`. -/
theorem C73_finite_volume_partial (lap : Lapack ℚ) (lu : PetscLU ℚ) {s : FVSolver ℚ} (hN : 2 ≤ N) {opt : HPSOptions}
    (ho : opt.homogeneousRhs = false) (hc : opt.cacheOperators = true → s.Constant) (hM : F.depth ≤ M) (hF : F.Sorted)
    (hr : EveryRank F size) (hz : size ≤ 10 ^ 10) (hd : F.shape = .uniform d) {root : Patch ℚ} {R : Rect ℚ}
    (hg : root.grid = ⟨N, N, R.xl, R.xu, R.yl, R.yu⟩) (h0 : root.nCoarsens = 0) (hR : Proper R) (hE : EllipticOn s R)
    (f : ℚ → ℚ → ℚ) (b : Nat → ℚ → ℚ → ℚ) (exact : ℚ → ℚ → ℚ) (n : Nat) {stack : Nat} (hk : 5 ≤ stack) (h : Nat → Heap) :
    ∃ (W : Nat → Nat → ℚ) (Z : Nat → List (Text × Text)),
      Solves s R (N * 2 ^ d) (N * 2 ^ d) (dirichletAt R (N * 2 ^ d) b)
        (fun i j => f (cx R (N * 2 ^ d) i) (cy R (N * 2 ^ d) j)) W ∧
      AlwaysEnds (filesOn M size F lap (s.toPatchSolver lu) s opt root f (fun q x y => (b q x y, 1, 0)) exact (n + 1) stack h) Z ∧
      Covered R (N * 2 ^ d) size (fun r => meshCells r F (startTree root F [])) ∧
      ∀ r, r < size → ∃ doc, FilesOf "elliptic-mesh".toList r size (Z r) doc ∧
        ShowsCells doc (meshCells r F (startTree root F [])) ∧
        fieldNames doc = ["u_soln", "f_rhs", "alpha_fn", "beta_fn", "lambda_fn", "u_exact"].map (fun n => some n.toList) ∧
        ShowsField doc "u_soln".toList (meshCells r F (startTree root F [])) (atCell R (N * 2 ^ d) W) ∧
        ShowsField doc "f_rhs".toList (meshCells r F (startTree root F [])) (atCentre f) ∧
        ShowsField doc "alpha_fn".toList (meshCells r F (startTree root F [])) (atCentre s.alpha) ∧
        ShowsField doc "beta_fn".toList (meshCells r F (startTree root F [])) (atCentre s.beta) ∧
        ShowsField doc "lambda_fn".toList (meshCells r F (startTree root F [])) (atCentre s.lambda) ∧
        ShowsField doc "u_exact".toList (meshCells r F (startTree root F [])) (atCentre exact) := by
  have hI := startTree_init hg h0 F []
  have hu := startTree_uniform root hd []
  have hs := FVSolver.shapes lu s hN
  obtain ⟨t1, c1, t3, e1, e2, e3, e4, e5⟩ := serial_placed lap (by omega) hs (opt := { opt with cacheOperators := false }) ho hI
    (Or.inr ⟨d, hu⟩) f (fun q x y => (b q x y, 1, 0))
  have hW := C18_global_finite_volume_functions lap lu hN (opt := { opt with cacheOperators := false }) rfl ho hI hu hR hE f b e1 e2
  have hcache := fun h k => uniform_cache lu hs (hc h) hI hu k
  obtain ⟨Z, z1, z2⟩ := files_run lap s (by omega) hM hF hr hz hI hcache f (fun q x y => (b q x y, 1, 0)) exact n hk h e1 e2 e4 e3
    (fun p hp => (e5 p hp).2.2.1) (fun p hp => (e5 p hp).2.2.2.1)
  refine ⟨gridFn N (·.u) t3, Z, hW, z1, ?_, fun r hr' => ?_⟩
  · intro I J hI' hJ
    obtain ⟨r, h1, h2⟩ := cells_covered (by omega) F hI hu hI' hJ
    exact ⟨r, (hr r).mpr h1, h2⟩
  obtain ⟨doc, d1, d2, d3, d4, d5, d6⟩ := z2 r hr'
  have hg' : ∀ p ∈ t3.leaves, p.grid.nx = N ∧ p.grid.ny = N := fun p hp => ⟨(e5 p hp).1, (e5 p hp).2.1⟩
  have vf := values_inLeaf (r := r) (F := F) (v := (·.f)) hg' (fun p hp => (e5 p hp).2.2.2.1)
  rw [meshCells_placed (r := r) (F := F) e4 hI.placed e3] at vf
  refine ⟨doc, d1, d2, d3.trans exampleNames_eq,
    ⟨_, d4, forall₂_shown (values_match (·.u) (by omega) r F hI hu e3 (fun p hp => (e5 p hp).2.2.1))⟩,
    ⟨_, d5, forall₂_shown (vf.imp fun c x hx => ?_)⟩, d6⟩
  exact inLeaf_sampled (fun p hp => (e5 p (leavesOf_sub hp)).2.2.2.2) hx

/-! ### C74 -/

namespace Thermal

/-- `examples/thermal` on the ranks below `size`; there are no others. -/
def mainOn (M size : Nat) (F : Forest) (lap : Lapack ℚ) (ps : PatchSolver ℚ) (s : FVSolver ℚ) (opt : HPSOptions) (root : Patch ℚ)
    (c : Thermal ℚ) (nt : Nat) (vtk : Bool) (nVtk : Int) (stack : Nat) (h : Nat → Heap) :
    Config (Patch ℚ) (List (List (Text × Text))) :=
  fun r => if r < size then main ⟨M, size, r, F⟩ lap ps s opt root c nt vtk nVtk stack (h r) else .fin (.ok [])

/-- The program, given the trees of the serial loop. -/
theorem main_run (hN : 0 < N) (hM : F.depth ≤ M) (hF : F.Sorted) (hr : EveryRank F size) (hz : size ≤ 10 ^ 10) {root : Patch ℚ}
    {R : Rect ℚ} (hI : Init N (startTree root F []) R) (lap : Lapack ℚ) (ps : PatchSolver ℚ) (s : FVSolver ℚ) (opt : HPSOptions)
    (hc : opt.cacheOperators = true → ∀ k, ∃ B, ∀ p ∈ leavesOf k F (startTree root F []), ps.buildD2N p.grid = .ok B)
    (c : Thermal ℚ) {vtk : Bool} {nVtk : Int} (hv : vtk = true → nVtk ≠ 0) {stack : Nat} (hs : 5 ≤ stack)
    {T : Nat → Tree (Patch ℚ)} {c1 : Option (Mat ℚ)}
    (e1 : HPS.buildStage lap ps { opt with cacheOperators := false } (startTree root F []) none = .ok (T 0, c1))
    (hT : ∀ k, step lap ps opt c k (T k) = .ok (T (k + 1)))
    (hp : ∀ k, Placed N (T (k + 1)) R) (hsh : ∀ k, (T (k + 1)).shape = (startTree root F []).shape)
    (hU : ∀ k, ∀ p ∈ (T (k + 1)).leaves, p.u.size = N * N ∧ p.u.WF)
    (hFv : ∀ k, ∀ p ∈ (T (k + 1)).leaves, p.f.size = N * N ∧ p.f.WF) (h : Nat → Heap) {nt : Nat} (hnt : nt < 10 ^ 10) :
    ∃ Z : Nat → List (List (Text × Text)), AlwaysEnds (mainOn M size F lap ps s opt root c nt vtk nVtk stack h) Z ∧
      ∀ r, r < size → (Z r).length = (shown vtk nVtk (nt + 1)).length ∧
        ∀ i n, (shown vtk nVtk (nt + 1))[i]? = some n → ∃ files, (Z r)[i]? = some files ∧
          Raw s r size F (meshCells r F (startTree root F [])) (T (n + 1)) i files := by
  choose m1 a1 a2 a3 a4 a5 using refine_first hM hF root
  let A0 : Nat → HPSRank ℚ := fun r => ⟨m1 r, none⟩
  have hA0 : HoldsOn size F (startTree root F []) (fun r => (A0 r).mesh.quadtree) := fun r _ => ⟨a3 r, a4 r⟩
  obtain ⟨s', b1⟩ := mergeBy_build lap ps opt hc (a3 0) e1
  obtain ⟨A1, b2, -, b3⟩ := build_runs hM hF hr lap ps opt hA0 b1
  obtain ⟨Z, z1, z2⟩ := passes_run hN hM hF hr hz hI lap ps s opt c hv hs hT hp hsh hU hFv (A := A1) h b2.holds
    (fun r hr' => by rw [(b2 r hr').2.2.1]; exact a2 r) (k := nt + 1) (by omega)
  have hrun : Runs (fun r => r < size) (fun r => main ⟨M, size, r, F⟩ lap ps s opt root c nt vtk nVtk stack (h r))
      (fun r => (Z r).files) := by
    have c1 := setup_runs (M := M) hr A0
    have c2 := Runs.bind c1 (q := fun r A => A.buildStage ⟨M, size, r, F⟩ lap ps opt) (w := A1) b3
    have c3 := Runs.bind c2 (q := fun r A => passes ⟨M, size, r, F⟩ lap ps s opt c vtk nVtk stack (nt + 1) ⟨A, 0, h r, []⟩) (w := Z) z1
    have c4 := Runs.bind c3 (q := fun r (st : State) => (pure st.files : Prog (Patch ℚ) (List (List (Text × Text)))))
      (w := fun r => (Z r).files) (Runs.pure fun r _ => rfl)
    refine c4.congr (fun r h => ?_) (fun r h => rfl)
    unfold main
    dsimp only
    rw [a1 r]
    simp only [bind_assoc]
    rfl
  refine ⟨fun r => if r < size then (Z r).files else [], Runs.ends hrun [], fun r hr' => ?_⟩
  simp only [if_pos hr']
  exact ⟨(z2 r hr').2.2.2.2.1, (z2 r hr').2.2.2.2.2⟩

theorem steps_cache (lap : Lapack ℚ) (ps : PatchSolver ℚ) (opt : HPSOptions) (c : Thermal ℚ) (k : Nat) (t : Tree (Patch ℚ)) :
    steps lap ps { opt with cacheOperators := false } c k t = steps lap ps opt c k t := by
  induction k with
  | zero => rfl
  | succ k ih =>
    rw [steps, steps, ih]
    rfl

/-- The trees of the serial loop. -/
theorem serial_trees (lap : Lapack ℚ) {ps : PatchSolver ℚ} (hN : 0 < N) (hs : SolverShapes N ps) {opt : HPSOptions}
    (ho : opt.homogeneousRhs = false) {t : Tree (Patch ℚ)} {R : Rect ℚ} (ht : Init N t R) (h3 : 3 ≤ N ∨ ∃ d, Uniform d t)
    (hR : Proper R) (c : Thermal ℚ) :
    ∃ (T : Nat → Tree (Patch ℚ)) (c1 : Option (Mat ℚ)), buildStage lap ps opt t none = .ok (T 0, c1) ∧
      (∀ k, steps lap ps opt c k (T 0) = .ok (T k)) ∧ (∀ k, step lap ps opt c k (T k) = .ok (T (k + 1))) ∧
      (∀ k, Good N opt R t (T 0) k (T k)) ∧ ∀ k, ∀ p ∈ (T (k + 1)).leaves, p.f.size = N * N ∧ p.f.WF := by
  obtain ⟨t1, c1, _, _, e1, _⟩ := buildStage_any lap hs opt hN ht h3 no_cache
  choose T t2 t3 using steps_ok lap hN hs ho ht h3 hR e1 c
  have hT0 : T 0 = t1 := (Res.ok_inj.mp (t2 0)).symm
  have hst : ∀ k, step lap ps opt c k (T k) = .ok (T (k + 1)) := by
    intro k
    have := t2 (k + 1)
    rwa [steps, t2 k, Res.ok_bind] at this
  refine ⟨T, c1, by rw [hT0]; exact e1, fun k => by rw [hT0]; exact t2 k, hst, fun k => by rw [hT0]; exact t3 k, ?_⟩
  intro k p hp
  obtain ⟨φ, _, t', _, p2, _, _, p3, p4, p5⟩ := step_ok lap hN hs ho ht h3 hR e1 c (t3 k)
  rw [hst k] at p3
  obtain rfl := Res.ok_inj.mp p3
  rw [p5 p hp]
  exact p2 _ (p4.cells p hp).1 (p4.cells p hp).2.1

end Thermal

open Thermal

/-- C74 on every mesh, adaptively refined or not, with every leaf solver whose operators have the right sizes: the program ends on all
ranks, after any number of passes.  Without the output flag it writes nothing; with it, every rank writes one output per pass whose
number is a multiple of `n-vtk`, numbered from zero: its piece, and on rank 0 the header with the names of the pieces of all ranks.
The piece shows the cells of the leaves of the rank and five fields: in every cell a number within half a millionth of the solution
and of the load that the serial loop has in the cell after this pass, and of the coefficients at the centre of the cell.

Missing: a rank without leaves (see C65), the operator cache on leaves with different operators, floating point, the file p4est
writes, `nt` that is not an integer. -/
theorem C74_as_serial_partial (lap : Lapack ℚ) {ps : PatchSolver ℚ} (s : FVSolver ℚ) (hN : 0 < N) (hs : SolverShapes N ps)
    {opt : HPSOptions} (ho : opt.homogeneousRhs = false) (hM : F.depth ≤ M) (hF : F.Sorted) (hr : EveryRank F size)
    (hz : size ≤ 10 ^ 10) {root : Patch ℚ} {R : Rect ℚ} (hg : root.grid = ⟨N, N, R.xl, R.xu, R.yl, R.yu⟩) (h0 : root.nCoarsens = 0)
    (hR : Proper R) (h3 : 3 ≤ N ∨ ∃ d, Uniform d (startTree root F []))
    (hc : opt.cacheOperators = true → ∀ k, ∃ B, ∀ p ∈ leavesOf k F (startTree root F []), ps.buildD2N p.grid = .ok B)
    (c : Thermal ℚ) {nt : Nat} (hnt : nt < 10 ^ 10) {vtk : Bool} {nVtk : Int} (hv : vtk = true → nVtk ≠ 0) {stack : Nat}
    (hk : 5 ≤ stack) (h : Nat → Heap) :
    ∃ (T : Nat → Tree (Patch ℚ)) (c1 : Option (Mat ℚ)) (Z : Nat → List (List (Text × Text))),
      HPS.buildStage lap ps { opt with cacheOperators := false } (startTree root F []) none = .ok (T 0, c1) ∧
      (∀ k, steps lap ps opt c k (T 0) = .ok (T k)) ∧
      AlwaysEnds (mainOn M size F lap ps s opt root c nt vtk nVtk stack h) Z ∧
      ∀ r, r < size → (Z r).length = (if vtk then everyNth nVtk (nt + 1) else []).length ∧
        ∀ i n, (if vtk then everyNth nVtk (nt + 1) else [])[i]? = some n → ∃ files doc, (Z r)[i]? = some files ∧
          FilesOf ("thermal-mesh-".toList ++ fourDigits i) r size files doc ∧
          ShowsCells doc (meshCells r F (startTree root F [])) ∧
          fieldNames doc = ["u_soln", "f_rhs", "alpha_fn", "beta_fn", "lambda_fn"].map (fun n => some n.toList) ∧
          ShowsField doc "u_soln".toList (meshCells r F (startTree root F [])) (inLeaf (leavesOf r F (T (n + 1))) (·.u)) ∧
          ShowsField doc "f_rhs".toList (meshCells r F (startTree root F [])) (inLeaf (leavesOf r F (T (n + 1))) (·.f)) ∧
          ShowsField doc "alpha_fn".toList (meshCells r F (startTree root F [])) (atCentre s.alpha) ∧
          ShowsField doc "beta_fn".toList (meshCells r F (startTree root F [])) (atCentre s.beta) ∧
          ShowsField doc "lambda_fn".toList (meshCells r F (startTree root F [])) (atCentre s.lambda) := by
  have hI := startTree_init hg h0 F []
  obtain ⟨T, c1, e1, e2, e3, e4, e5⟩ := serial_trees lap hN hs (opt := { opt with cacheOperators := false }) ho hI h3 hR c
  have hU : ∀ k, ∀ p ∈ (T (k + 1)).leaves, p.u.size = N * N ∧ p.u.WF := fun k p hp =>
    ((e4 (k + 1)).cells p hp).2.2.resolve_left (by omega)
  obtain ⟨Z, z1, z2⟩ := main_run hN hM hF hr hz hI lap ps s opt hc c hv hk e1 e3 (fun k => (e4 (k + 1)).placed)
    (fun k => (e4 (k + 1)).shape) hU e5 h hnt
  refine ⟨T, c1, Z, e1, fun k => (steps_cache lap ps opt c k (T 0)).symm.trans (e2 k), z1, fun r hr' => ⟨(z2 r hr').1, fun i n hi => ?_⟩⟩
  obtain ⟨files, f1, doc, d1, d2, d3, d4, d5, d6, d7, d8⟩ := (z2 r hr').2 i n hi
  have hg' : ∀ p ∈ (T (n + 1)).leaves, p.grid.nx = N ∧ p.grid.ny = N := fun p hp =>
    ⟨((e4 (n + 1)).cells p hp).1, ((e4 (n + 1)).cells p hp).2.1⟩
  have hcells := meshCells_placed (r := r) (F := F) (e4 (n + 1)).placed hI.placed (e4 (n + 1)).shape
  have vu := values_inLeaf (r := r) (F := F) (v := (·.u)) hg' (hU n)
  have vf := values_inLeaf (r := r) (F := F) (v := (·.f)) hg' (e5 n)
  rw [hcells] at vu vf
  exact ⟨files, doc, f1, d1, d2, d3, ⟨_, d4, forall₂_shown vu⟩, ⟨_, d5, forall₂_shown vf⟩, d6, d7, d8⟩

/-- C74 on a mesh refined the same number of times everywhere, with the finite volume leaf solver: there are arrays, the first one
zero, each the result of an implicit Euler step for the heat equation from the one before (with the boundary data of the time of the
pass, the sources of that time except in pass 0, and on the South side the negative of the flux asked for, see C68), such that the
output of pass `n` shows in every cell of the grid the array of the step `n` ends with, within half a millionth, and the load of the
pass.  Every cell of the grid is in the file of some rank.

Missing: as in `C74_as_serial_partial`; for adaptive meshes see `C74_adaptive_partial`. -/
theorem C74_implicit_euler_partial (lap : Lapack ℚ) (lu : PetscLU ℚ) (c : Thermal ℚ) {beta : ℚ → ℚ → ℚ} (hN : 2 ≤ N)
    {opt : HPSOptions} (hc : opt.cacheOperators = false) (ho : opt.homogeneousRhs = false) (hM : F.depth ≤ M) (hF : F.Sorted)
    (hr : EveryRank F size) (hz : size ≤ 10 ^ 10) (hd : F.shape = .uniform d) {root : Patch ℚ} {R : Rect ℚ}
    (hg : root.grid = ⟨N, N, R.xl, R.xu, R.yl, R.yu⟩) (h0 : root.nCoarsens = 0) (hR : Proper R)
    (hb : ∀ x y, Inside R x y → 0 < beta x y) (hdt : 0 < c.dt) {nt : Nat} (hnt : nt < 10 ^ 10) {vtk : Bool} {nVtk : Int}
    (hv : vtk = true → nVtk ≠ 0) {stack : Nat} (hk : 5 ≤ stack) (h : Nat → Heap) :
    ∃ (W : Nat → Nat → Nat → ℚ) (g : Nat → Bdry ℚ) (Z : Nat → List (List (Text × Text))),
      (∀ i j, W 0 i j = 0) ∧
      (∀ k, HeatStep beta R (N * 2 ^ d) c.dt (fun i => c.uWest R.xl (cy R (N * 2 ^ d) i) (c.time k))
        (fun i => c.uEast R.xu (cy R (N * 2 ^ d) i) (c.time k)) (fun i => -c.dudnSouth (cx R (N * 2 ^ d) i) R.yl (c.time k))
        (fun i => c.dudnNorth (cx R (N * 2 ^ d) i) R.yu (c.time k))
        (fun i j => if k = 0 then 0 else c.sources (cx R (N * 2 ^ d) i) (cy R (N * 2 ^ d) j) (c.time k)) (W k) (W (k + 1)) (g k)) ∧
      AlwaysEnds (mainOn M size F lap ((c.solver beta).toPatchSolver lu) (c.solver beta) opt root c nt vtk nVtk stack h) Z ∧
      Covered R (N * 2 ^ d) size (fun r => meshCells r F (startTree root F [])) ∧
      ∀ r, r < size → (Z r).length = (if vtk then everyNth nVtk (nt + 1) else []).length ∧
        ∀ i n, (if vtk then everyNth nVtk (nt + 1) else [])[i]? = some n → ∃ files doc, (Z r)[i]? = some files ∧
          FilesOf ("thermal-mesh-".toList ++ fourDigits i) r size files doc ∧
          ShowsCells doc (meshCells r F (startTree root F [])) ∧
          fieldNames doc = ["u_soln", "f_rhs", "alpha_fn", "beta_fn", "lambda_fn"].map (fun n => some n.toList) ∧
          ShowsField doc "u_soln".toList (meshCells r F (startTree root F [])) (atCell R (N * 2 ^ d) (W (n + 1))) ∧
          ShowsField doc "f_rhs".toList (meshCells r F (startTree root F [])) (atCell R (N * 2 ^ d) fun i j => if n = 0 then 0 else
            -(1 / c.dt) * W n i j - c.sources (cx R (N * 2 ^ d) i) (cy R (N * 2 ^ d) j) (c.time n)) ∧
          ShowsField doc "alpha_fn".toList (meshCells r F (startTree root F [])) (atCentre fun _ _ => 1) ∧
          ShowsField doc "beta_fn".toList (meshCells r F (startTree root F [])) (atCentre beta) ∧
          ShowsField doc "lambda_fn".toList (meshCells r F (startTree root F [])) (atCentre fun _ _ => -1 / c.dt) := by
  have hI := startTree_init hg h0 F []
  have hu := startTree_uniform root hd []
  have hs := FVSolver.shapes lu (c.solver beta) hN
  obtain ⟨T, c1, e1, e2, e3, e4, e5⟩ := serial_trees lap (by omega) hs (opt := { opt with cacheOperators := false }) ho hI
    (Or.inr ⟨d, hu⟩) hR c
  have hU : ∀ k, ∀ p ∈ (T (k + 1)).leaves, p.u.size = N * N ∧ p.u.WF := fun k p hp =>
    ((e4 (k + 1)).cells p hp).2.2.resolve_left (by omega)
  obtain ⟨Z, z1, z2⟩ := main_run (by omega) hM hF hr hz hI lap _ (c.solver beta) opt (fun h => by rw [hc] at h; cases h) c hv hk e1 e3
    (fun k => (e4 (k + 1)).placed) (fun k => (e4 (k + 1)).shape) hU e5 h hnt
  have hh : ∀ k, ∃ g, (∀ i, i < N * 2 ^ d → ∀ j, j < N * 2 ^ d → gridFn N (·.f) (T (k + 1)) i j = if k = 0 then 0 else
        -(1 / c.dt) * gridFn N (·.u) (T k) i j - c.sources (cx R (N * 2 ^ d) i) (cy R (N * 2 ^ d) j) (c.time k)) ∧
      HeatStep beta R (N * 2 ^ d) c.dt (fun i => c.uWest R.xl (cy R (N * 2 ^ d) i) (c.time k))
        (fun i => c.uEast R.xu (cy R (N * 2 ^ d) i) (c.time k)) (fun i => -c.dudnSouth (cx R (N * 2 ^ d) i) R.yl (c.time k))
        (fun i => c.dudnNorth (cx R (N * 2 ^ d) i) R.yu (c.time k)) (c.sourceAt R (N * 2 ^ d) k) (field N k (T k))
        (field N (k + 1) (T (k + 1))) g := by
    intro k
    obtain ⟨t3, g, a1, -, a2, a3⟩ := step_heat lap lu c hN (opt := { opt with cacheOperators := false }) rfl ho hI hu hR hb hdt e1 (e4 k)
    rw [e3 k] at a1
    obtain rfl := Res.ok_inj.mp a1
    exact ⟨g, a2, a3⟩
  choose g hload hstep using hh
  refine ⟨fun k => field N k (T k), g, Z, fun _ _ => rfl, hstep, z1, ?_, fun r hr' => ⟨(z2 r hr').1, fun i n hi => ?_⟩⟩
  · intro I J hI' hJ
    obtain ⟨r, h1, h2⟩ := cells_covered (by omega) F hI hu hI' hJ
    exact ⟨r, (hr r).mpr h1, h2⟩
  obtain ⟨files, f1, doc, d1, d2, d3, d4, d5, d6, d7, d8⟩ := (z2 r hr').2 i n hi
  have vu := values_match (·.u) (by omega) r F hI hu (e4 (n + 1)).shape (hU n)
  have vf := values_match (·.f) (by omega) r F hI hu (e4 (n + 1)).shape (e5 n)
  refine ⟨files, doc, f1, d1, d2, d3, ⟨_, d4, forall₂_shown (vu.imp ?_)⟩, ⟨_, d5, forall₂_shown (vf.imp ?_)⟩, d6, d7, d8⟩
  · rintro q x ⟨I, J, hI', hJ, h1, h2⟩
    exact ⟨I, J, hI', hJ, h1, h2⟩
  · rintro q x ⟨I, J, hI', hJ, h1, h2⟩
    refine ⟨I, J, hI', hJ, h1, ?_⟩
    rw [h2, hload n I hI' J hJ]
    beta_reduce
    by_cases hn : n = 0
    · rw [if_pos hn, if_pos hn]
    · rw [if_neg hn, if_neg hn]
      simp only [field, if_neg hn]

/-- C74 is false if `n-vtk` is zero: with the output flag on, no rank gets to its end, whatever the problem and the other ranks. -/
theorem C74_no_interval_actual (lap : Lapack ℚ) (ps : PatchSolver ℚ) (s : FVSolver ℚ) (opt : HPSOptions) (root : Patch ℚ) (c : Thermal ℚ)
    (nt stack : Nat) (h : Nat → Heap) {r k : Nat} (hr : r < size) {e : Config (Patch ℚ) (List (List (Text × Text)))}
    (hrun : Run k (mainOn M size F lap ps s opt root c nt true 0 stack h) e) : ∀ x, e r ≠ .fin (.ok x) := by
  intro x hx
  have hn : Never (mainOn M size F lap ps s opt root c nt true 0 stack h r) := by
    unfold mainOn
    rw [if_pos hr]
    unfold main
    refine Never.after _ fun mesh => Never.after _ fun A => Never.after _ fun A => Never.bind ?_ _
    exact Never.after _ fun st => Never.after _ fun A => .ub
  have := hn.run hrun
  rw [hx] at this
  cases this

/-! ## Concrete cases -/

/-- The hypotheses of `C73_finite_volume_partial` hold for a variable coefficient problem on two ranks. -/
example (lap : Lapack ℚ) (lu : PetscLU ℚ) (h : Nat → Heap) : ∃ Z : Nat → List (Text × Text),
    AlwaysEnds (filesOn 30 2 exHalves lap (exPde.toPatchSolver lu) exPde ⟨false, false⟩ (Patch.fresh ⟨4, 4, 0, 1, 0, 1⟩) (fun x y => x * y)
      (fun _ x y => (x + y * y, 1, 0)) (fun x _ => x) 1 5 h) Z ∧
    ∀ r, r < 2 → ∃ doc, FilesOf "elliptic-mesh".toList r 2 (Z r) doc := by
  obtain ⟨W, Z, -, h2, -, h3⟩ := C73_finite_volume_partial (N := 4) (M := 30) (size := 2) (d := 1) (F := exHalves) lap lu (s := exPde)
    (by omega) (opt := ⟨false, false⟩) rfl (fun h => by cases h) (by decide) (by unfold Forest.Sorted; decide)
    (by intro r; simp [exHalves, Forest.ranks]; omega) (by norm_num) rfl (root := Patch.fresh ⟨4, 4, 0, 1, 0, 1⟩) (R := unitSquare) rfl rfl
    exPde_elliptic_unit.1 exPde_elliptic_unit.2 (fun x y => x * y) (fun _ x y => x + y * y) (fun x _ => x) 0 (stack := 5) (by omega) h
  exact ⟨Z, h2, fun r hr => let ⟨doc, hd, _⟩ := h3 r hr; ⟨doc, hd⟩⟩

/-- Those of `C73_as_serial_partial` on an adaptive mesh. -/
example (lap : Lapack ℚ) (lu : PetscLU ℚ) (f exact : ℚ → ℚ → ℚ) (bc : BoundaryFn ℚ) (h : Nat → Heap) : ∃ Z : Nat → List (Text × Text),
    AlwaysEnds (filesOn 30 2 exTwoRanks lap (exPde.toPatchSolver lu) exPde ⟨false, false⟩ (Patch.fresh ⟨4, 4, 0, 1, 0, 1⟩) f bc exact 1
      5 h) Z := by
  obtain ⟨_, _, _, Z, -, -, h, -⟩ := C73_as_serial_partial (N := 4) (M := 30) (size := 2) (F := exTwoRanks) lap exPde (by omega)
    (FVSolver.shapes lu exPde (n := 4) (by omega)) (opt := ⟨false, false⟩) rfl (by decide) (by unfold Forest.Sorted; decide)
    (by intro r; simp [exTwoRanks, Forest.ranks]; omega) (by norm_num) (root := Patch.fresh ⟨4, 4, 0, 1, 0, 1⟩) (R := unitSquare) rfl rfl
    (Or.inl (by omega)) (fun h => by cases h) f bc exact 0 (stack := 5) (by omega) h
  exact ⟨Z, h⟩

/-- Those of `C74_implicit_euler_partial`: 100 steps on two ranks, every second pass written; output 3 is that of pass 6. -/
example (lap : Lapack ℚ) (lu : PetscLU ℚ) (h : Nat → Heap) : ∃ Z : Nat → List (List (Text × Text)),
    AlwaysEnds (mainOn 30 2 exHalves lap ((exThermal.solver fun x _ => 1 + x ^ 2).toPatchSolver lu) (exThermal.solver fun x _ => 1 + x ^ 2)
      ⟨false, false⟩ (Patch.fresh ⟨4, 4, 0, 1, 0, 1⟩) exThermal 100 true 2 5 h) Z ∧
    (Z 1).length = 51 ∧ ∃ files doc, (Z 1)[3]? = some files ∧ FilesOf "thermal-mesh-0003".toList 1 2 files doc := by
  obtain ⟨W, g, Z, -, -, h2, -, h3⟩ := C74_implicit_euler_partial (N := 4) (M := 30) (size := 2) (d := 1) (F := exHalves) lap lu exThermal
    (beta := fun x _ => 1 + x ^ 2) (by omega) (opt := ⟨false, false⟩) rfl rfl (by decide) (by unfold Forest.Sorted; decide)
    (by intro r; simp [exHalves, Forest.ranks]; omega) (by norm_num) rfl (root := Patch.fresh ⟨4, 4, 0, 1, 0, 1⟩) (R := unitSquare) rfl rfl
    exPde_elliptic_unit.1 (fun x _ _ => by positivity) (by decide +kernel) (nt := 100) (by norm_num) (vtk := true) (nVtk := 2)
    (fun _ => by norm_num) (stack := 5) (by omega) h
  refine ⟨Z, h2, (h3 1 (by omega)).1.trans (by decide +kernel), ?_⟩
  obtain ⟨files, doc, a, b, -⟩ := (h3 1 (by omega)).2 3 6 (by decide +kernel)
  exact ⟨files, doc, a, b⟩

/-- The passes written with `n-vtk = 3` and 8 passes. -/
example : everyNth 3 8 = [0, 3, 6] := by decide

end EF
