import Verif.Proofs.Meets
import Verif.Proofs.Alone
import Verif.Props.ParallelHPS

/-!
# The example program down to the MPI calls (C66)
-/

namespace EF

open Finset FV HPS MPI

variable {K : Type}

/-- The example program on the ranks below `size`, every broadcast of a node written out as calls of `MPI_Bcast`. -/
def exampleCalls [Field K] (D : Dialect) (M size : Nat) (F : Forest) (lap : Lapack K) (ps : PatchSolver K) (opt : HPSOptions)
    (root : Patch K) (f : K → K → K) (bc : BoundaryFn K) (n : Nat) : Nat → Calls K (Mesh K) :=
  fun r => Calls.of D r (exampleOn M size F lap ps opt root f bc n r)

section
variable [Field K] {N M size : Nat} {F : Forest} {D : Dialect}

theorem exampleOn_shares {P : Patch K → Prop} (hP : Stable P) (lap : Lapack K) {ps : PatchSolver K} (hps : SoundSolver ps)
    (opt : HPSOptions) {root : Patch K} (hr : P root) (f : K → K → K) (bc : BoundaryFn K) (n r : Nat) :
    (exampleOn M size F lap ps opt root f bc n r).Shares P (fun _ => True) := by
  unfold exampleOn
  split
  · exact example_shares hP _ lap hps opt hr f bc n
  · exact .ok trivial

theorem exampleOn_silent (hF : ∀ i ∈ F.ranks, i = 0) (lap : Lapack K) (ps : PatchSolver K) (opt : HPSOptions) (root : Patch K)
    (f : K → K → K) (bc : BoundaryFn K) (n r : Nat) : (exampleOn M size F lap ps opt root f bc n r).Silent (fun _ => True) := by
  unfold exampleOn
  split
  · exact example_silent (S := ⟨M, size, r, F⟩) hF lap ps opt root f bc n
  · exact .ok trivial

/-- Whatever the C++ standard says, if the broadcasts of empty vectors and of short strings do what the code means them to do, or if
there is one rank only, then the calls lead to what the one-step broadcasts lead to. -/
theorem example_ends (hD : D.emptyFront = true ∧ D.behind.isSome = true ∨ size = 1) (hr : EveryRank F size) (lap : Lapack K)
    {ps : PatchSolver K} (hps : SoundSolver ps) {opt : HPSOptions} {root : Patch K} (hp : SoundPatch root) {f : K → K → K}
    {bc : BoundaryFn K} {n : Nat} {Z : Nat → Mesh K} (hZ : AlwaysEnds (exampleOn M size F lap ps opt root f bc n) Z) :
    CallsEnd (exampleCalls D M size F lap ps opt root f bc n) Z := by
  rcases hD with hD | hD
  · exact hZ.calls hD.1 hD.2 fun r => exampleOn_shares stable_sound lap hps opt hp f bc n r
  · refine hZ.calls_silent fun r => exampleOn_silent (fun i hi => ?_) lap ps opt root f bc n r
    have := (hr i).mpr hi
    omega

/-- C66 for every mesh and every leaf solver with operators of the right sizes: whatever the order of the MPI calls of the ranks, the
calls match, the program ends on all ranks, and the meshes of the ranks are those of C65.  Missing: by the C++ standard, two or
more ranks (`C66_undefined_wrong`); ranks without leaves (C65). -/
theorem C66_as_serial_partial [NeZero (2 : K)] (hD : D.emptyFront = true ∧ D.behind.isSome = true ∨ size = 1) (lap : Lapack K)
    {ps : PatchSolver K} (hN : 0 < N) (hs : SolverShapes N ps) (hps : SoundSolver ps)
    {opt : HPSOptions} (ho : opt.homogeneousRhs = false) (hM : F.depth ≤ M) (hF : F.Sorted) (hr : EveryRank F size)
    {root : Patch K} (hp : SoundPatch root) {R : Rect K} (hg : root.grid = ⟨N, N, R.xl, R.xu, R.yl, R.yu⟩) (h0 : root.nCoarsens = 0)
    (h3 : 3 ≤ N ∨ ∃ d, Uniform d (startTree root F []))
    (hc : opt.cacheOperators = true → ∀ k, ∃ B, ∀ p ∈ leavesOf k F (startTree root F []), ps.buildD2N p.grid = .ok B)
    (f : K → K → K) (bc : BoundaryFn K) (n : Nat) :
    ∃ (t1 : Tree (Patch K)) (c1 : Option (Mat K)) (t3 : Tree (Patch K)) (Z : Nat → Mesh K),
      HPS.buildStage lap ps { opt with cacheOperators := false } (startTree root F []) none = .ok (t1, c1) ∧
      (Request.functions f bc).run lap ps opt t1 = .ok t3 ∧
      CallsEnd (exampleCalls D M size F lap ps opt root f bc (n + 1)) Z ∧
      ∀ r, r < size → (Z r).arrays.Describes (meshCells r F (startTree root F [])) ∧ Rep r F t3 [] (Z r).quadtree.map ∧
        ∃ u fv, (Z r).functions = [u, fv] ∧ u.WF ∧ fv.WF ∧ u.size = (meshCells r F (startTree root F [])).length ∧
          u.data = (leavesOf r F t3).flatMap (fun p => p.u.data) ∧ fv.data = (leavesOf r F t3).flatMap (fun p => p.f.data) := by
  obtain ⟨t1, c1, t3, Z, h1, h2, h3, h4⟩ := C65_as_serial_partial lap hN hs ho hM hF hr hg h0 h3 hc f bc n
  exact ⟨t1, c1, t3, Z, h1, h2, example_ends hD hr lap hps hp h3, h4⟩

/-- C66 is false by the C++ standard on two or more ranks: for every mesh, every problem and every number of solves, some rank comes
to undefined behaviour (the address of the first element of an empty vector: the leaves have no `v`, nobody ever sets it), and in
no run do all ranks end. -/
theorem C66_undefined_wrong [NeZero (2 : K)] (hD : D.emptyFront = false) (h2 : 2 ≤ size) (lap : Lapack K)
    {ps : PatchSolver K} (hN : 0 < N) (hs : SolverShapes N ps) (hps : SoundSolver ps)
    {opt : HPSOptions} (hM : F.depth ≤ M) (hF : F.Sorted) (hr : EveryRank F size)
    {root : Patch K} (hp : SoundPatch root) (hv : root.v = Vec.empty) {R : Rect K} (hg : root.grid = ⟨N, N, R.xl, R.xu, R.yl, R.yu⟩)
    (h0 : root.nCoarsens = 0) (h3 : 3 ≤ N ∨ ∃ d, Uniform d (startTree root F []))
    (hc : opt.cacheOperators = true → ∀ k, ∃ B, ∀ p ∈ leavesOf k F (startTree root F []), ps.buildD2N p.grid = .ok B)
    (f : K → K → K) (bc : BoundaryFn K) (n : Nat) :
    (∃ k c e, CallRun k (exampleCalls D M size F lap ps opt root f bc n) c ∧ c e = .fin .ub) ∧
      ∀ k c, CallRun k (exampleCalls D M size F lap ps opt root f bc n) c → ∃ r, ∀ x, c r ≠ .fin (.ok x) := by
  have hI := startTree_init hg h0 F []
  obtain ⟨t1, c1, m, T, e1, -⟩ := buildStage_any lap hs { opt with cacheOperators := false } hN hI h3 no_cache
  choose m1 a1 a2 a3 a4 a5 using refine_first hM hF root
  let A0 : Nat → HPSRank K := fun r => ⟨m1 r, none⟩
  have hA0 : HoldsOn size F (startTree root F []) (fun r => (A0 r).mesh.quadtree) := fun r _ => ⟨a3 r, a4 r⟩
  obtain ⟨s', b1⟩ := mergeBy_build lap ps opt hc (a3 0) e1
  have hsetup := Runs.bind (setup_runs (M := M) hr A0) (q := fun r _ => barrier size) (w := fun _ => ()) (barrier_runs hr.pos)
  let fin : Nat → HPSRank K → Prog (Patch K) (Mesh K) := fun r A => do
    let A ← A.solves ⟨M, size, r, F⟩ lap ps opt f bc n
    let x ← Prog.fin (A.mesh.quadtree.traversePreOrder M r F
      (leafVisit fun p (s : Vec K × Vec K) => pure (p, (s.1.append p.u, s.2.append p.f))) (Vec.empty, Vec.empty))
    pure (({ A.mesh with quadtree := x.1 }.addMeshVector x.2.1).addMeshVector x.2.2)
  let κ : Nat → Quadtree (Patch K) × Option (Mat K) → Prog (Patch K) (Mesh K) :=
    fun r x => fin r { (A0 r).withTree x.1 with cache := x.2 }
  obtain ⟨k1, d1, r1, r2, -⟩ := hsetup (Mesh K) (fun r _ => (A0 r).mesh.quadtree.merge M r F .broadcast (onData (HPS.buildLeaf ps opt))
    (onFamily (HPS.merge4to1 lap)) none >>= κ r) (exampleOn M size F lap ps opt root f bc n) (by
      intro r h
      unfold exampleOn
      rw [if_pos h]
      unfold exampleMain
      dsimp only
      rw [a1 r]
      simp only [HPSRank.setupStage, HPSRank.buildStage, bind_assoc, pure_bind]
      rfl)
  obtain ⟨k2, d2, r3, r4⟩ := merge_meets (M := M) hM hF hr h2 b1 (Q := fun r => (A0 r).mesh.quadtree) hA0 κ (c := d1) r2
  obtain ⟨k, c, e, w1, w2⟩ := (r1.trans r3).calls_crash hD
    (P := fun p => SoundPatch p ∧ p.v = Vec.empty) (fun p hp => ⟨hp.1, fun hf => hf.2.2.2.1 (by rw [hp.2]; rfl)⟩)
    (fun r => exampleOn_shares stable_noV lap hps opt ⟨hp, hv⟩ f bc n r) r4
  refine ⟨⟨k, c, e, w1, w2⟩, fun k' c' hk' => ?_⟩
  by_contra hcon
  push_neg at hcon
  choose z hz using hcon
  have := (hk'.all (fun r => ⟨_, hz r⟩) w1).2.fin w2
  rw [hz e] at this
  cases this

end

section
variable [Field K] [LinearOrder K] [IsStrictOrderedRing K] {N M size d : Nat} {F : Forest} {D : Dialect}

/-- C66 on a mesh refined the same number of times everywhere, with the finite volume leaf solver: the MPI calls of the ranks match in
every order, the program ends on all ranks, and the vectors in the meshes hold the finite volume solution of the whole grid and the
load. -/
theorem C66_finite_volume_partial (hD : D.emptyFront = true ∧ D.behind.isSome = true ∨ size = 1) (lap : Lapack K) (lu : PetscLU K)
    {s : FVSolver K} (hN : 2 ≤ N) {opt : HPSOptions}
    (ho : opt.homogeneousRhs = false) (hc : opt.cacheOperators = true → s.Constant) (hM : F.depth ≤ M) (hF : F.Sorted)
    (hr : EveryRank F size) (hd : F.shape = .uniform d) {root : Patch K} (hp : SoundPatch root) {R : Rect K}
    (hg : root.grid = ⟨N, N, R.xl, R.xu, R.yl, R.yu⟩) (h0 : root.nCoarsens = 0) (hR : Proper R) (hE : EllipticOn s R)
    (f : K → K → K) (b : Nat → K → K → K) (n : Nat) :
    ∃ (W : Nat → Nat → K) (Z : Nat → Mesh K),
      Solves s R (N * 2 ^ d) (N * 2 ^ d) (dirichletAt R (N * 2 ^ d) b)
        (fun i j => f (cx R (N * 2 ^ d) i) (cy R (N * 2 ^ d) j)) W ∧
      CallsEnd (exampleCalls D M size F lap (s.toPatchSolver lu) opt root f (fun q x y => (b q x y, 1, 0)) (n + 1)) Z ∧
      Covered R (N * 2 ^ d) size (fun r => meshCells r F (startTree root F [])) ∧
      ∀ r, r < size → (Z r).arrays.Describes (meshCells r F (startTree root F [])) ∧
        ∃ u fv, (Z r).functions = [u, fv] ∧ CellValues R (N * 2 ^ d) W (meshCells r F (startTree root F [])) u ∧
          CellValues R (N * 2 ^ d) (fun i j => f (cx R (N * 2 ^ d) i) (cy R (N * 2 ^ d) j))
            (meshCells r F (startTree root F [])) fv := by
  obtain ⟨W, Z, h1, h2, h3⟩ := C65_finite_volume_partial lap lu hN ho hc hM hF hr hd hg h0 hR hE f b n
  exact ⟨W, Z, h1, example_ends hD hr lap (FVSolver.toPatchSolver_sound lu s) hp h2, h3⟩

end

/-! ## Sequences of requests -/

section
variable [Field K] {M size : Nat} {F : Forest} {D : Dialect}

/-- The vectors a request's callbacks hand out have the size they say. -/
def HPS.Request.Sound : Request K → Prop
  | .callbacks load bdry => (∀ grid, (load grid).WF) ∧ ∀ grid nc T h g, bdry grid nc T h = .ok g → g.WF
  | .functions _ _ => True

theorem request_shares {P : Patch K → Prop} (hP : Stable P) (S : Place) (lap : Lapack K) {ps : PatchSolver K} (hps : SoundSolver ps)
    (opt : HPSOptions) {q : Request K} (hq : q.Sound) {A : HPSRank K} (h : A.All P) :
    (A.request S lap ps opt q).Shares P (HPSRank.All P) := by
  cases q with
  | callbacks load bdry =>
    refine .bind (HPSRank.upwards_shares hP h S lap hps opt fun p q e => ?_) fun A hA => HPSRank.solve_shares hP hA S hps opt fun p q e => ?_
    · rw [← Res.ok_inj.mp e]
      exact .of (.inl rfl) (.inl rfl) rfl (.inr (hq.1 _)) (.inl rfl) (.inl rfl)
    · simp only [Res.bind_eq_ok, Res.pure_def, Res.ok_inj] at e
      obtain ⟨g, hg, rfl⟩ := e
      exact .of (.inl rfl) (.inr (hq.2 _ _ _ _ _ hg)) rfl (.inl rfl) (.inl rfl) (.inl rfl)
  | functions f bc =>
    exact .bind (HPSRank.upwardsAnalytic_shares hP h S lap hps opt f) fun A hA => HPSRank.solveAnalytic_shares hP hA S lap hps opt bc

theorem requests_shares {P : Patch K → Prop} (hP : Stable P) (S : Place) (lap : Lapack K) {ps : PatchSolver K} (hps : SoundSolver ps)
    (opt : HPSOptions) {rs : List (Request K)} (hq : ∀ q ∈ rs, q.Sound) {A : HPSRank K} (h : A.All P) :
    (A.requests S lap ps opt rs).Shares P (HPSRank.All P) := by
  induction rs generalizing A with
  | nil => exact .ok h
  | cons q rs ih =>
    exact .bind (request_shares hP S lap hps opt (hq q List.mem_cons_self) h) fun A hA =>
      ih (fun q hq' => hq q (List.mem_cons_of_mem _ hq')) hA

/-- C66 for sequences of requests on solver objects that hold a tree: with broadcasts of empty vectors and short strings doing what
the code means, the MPI calls match in every order and all ranks end with the meshes of C65. -/
theorem C66_requests_partial (hD : D.emptyFront = true ∧ D.behind.isSome = true) (hM : F.depth ≤ M) (hF : F.Sorted)
    (hr : EveryRank F size) (lap : Lapack K) {ps : PatchSolver K} (hps : SoundSolver ps) (opt : HPSOptions) {rs : List (Request K)}
    (hq : ∀ q ∈ rs, q.Sound) {t t' : Tree (Patch K)} {A : Nat → HPSRank K} (hA : HoldsOn size F t (fun r => (A r).mesh.quadtree))
    (hs : ∀ r p n, (A r).mesh.quadtree.map p = some (some n) → SoundPatch n.data)
    (ht : runAll lap ps opt rs t = .ok t') (idle : HPSRank K) :
    ∃ A' : Nat → HPSRank K,
      CallsEnd (fun r => Calls.of D r (if r < size then (A r).requests ⟨M, size, r, F⟩ lap ps opt rs else .fin (.ok idle))) A' ∧
      HoldsOn size F t' (fun r => (A' r).mesh.quadtree) ∧
      ∀ r, r < size → (A' r).mesh.arrays = (A r).mesh.arrays ∧ (A' r).mesh.functions = (A r).mesh.functions := by
  obtain ⟨A', h1, h2⟩ := C65_requests_partial hM hF hr lap ps opt rs hA ht idle
  refine ⟨A', h1.calls hD.1 hD.2 fun r => ?_, h2⟩
  split
  · exact (requests_shares stable_sound _ lap hps opt hq (fun p n hn => hs r p n hn)).mono fun _ _ => trivial
  · exact .ok trivial

end

/-! ## Concrete cases -/

/-- A compiler that forms addresses of elements of empty vectors, and on which a question mark stands behind every string. -/
def exDialect : Dialect := ⟨true, some fun _ _ => '?'⟩

theorem exRoot_sound : SoundPatch (Patch.fresh (⟨4, 4, 0, 1, 0, 1⟩ : Grid ℚ)) := ⟨rfl, rfl, rfl, rfl, rfl, rfl⟩

/-- Two ranks, three solves. -/
example (lap : Lapack ℚ) (lu : PetscLU ℚ) : ∃ Z : Nat → Mesh ℚ,
    CallsEnd (exampleCalls exDialect 30 2 exHalves lap (exPde.toPatchSolver lu) ⟨false, false⟩ (Patch.fresh ⟨4, 4, 0, 1, 0, 1⟩)
      (fun x y => x * y) (fun _ x y => (x + y * y, 1, 0)) 3) Z := by
  obtain ⟨W, Z, -, h2, -⟩ := C66_finite_volume_partial (D := exDialect) (N := 4) (M := 30) (size := 2) (d := 1) (F := exHalves)
    (.inl ⟨rfl, rfl⟩) lap lu (s := exPde)
    (by omega) (opt := ⟨false, false⟩) rfl (fun h => by cases h) (by decide) (by unfold Forest.Sorted; decide)
    (by intro r; simp [exHalves, Forest.ranks]; omega) rfl exRoot_sound (R := unitSquare) rfl rfl
    exPde_elliptic_unit.1 exPde_elliptic_unit.2 (fun x y => x * y) (fun _ x y => x + y * y) 2
  exact ⟨Z, h2⟩

/-- An adaptive mesh on one rank, by the standard. -/
example (lap : Lapack ℚ) (lu : PetscLU ℚ) (f : ℚ → ℚ → ℚ) (bc : BoundaryFn ℚ) : ∃ Z : Nat → Mesh ℚ,
    CallsEnd (exampleCalls strict 30 1 exOneRank lap (exPde.toPatchSolver lu) ⟨false, false⟩ (Patch.fresh ⟨4, 4, 0, 1, 0, 1⟩) f bc 2) Z := by
  obtain ⟨_, _, _, Z, -, -, h, -⟩ := C66_as_serial_partial (D := strict) (N := 4) (M := 30) (size := 1) (F := exOneRank) (.inr rfl) lap
    (by omega) (FVSolver.shapes lu exPde (n := 4) (by omega)) (FVSolver.toPatchSolver_sound lu exPde) (opt := ⟨false, false⟩) rfl
    (by decide) (by unfold Forest.Sorted; decide) (by intro r; simp [exOneRank, Forest.ranks]) exRoot_sound (R := unitSquare) rfl rfl
    (Or.inl (by omega)) (fun h => by cases h) f bc 1
  exact ⟨Z, h⟩

/-- A load and boundary values from callbacks that meet the condition on requests. -/
example : (Request.callbacks (fun grid : Grid ℚ => Vec.fill (grid.nx * grid.ny) grid.xl) (fun grid _ _ _ => .ok (Vec.fill (4 * grid.nx) 2)) :
    Request ℚ).Sound :=
  ⟨fun _ => by simp [Vec.fill, Vec.WF], fun _ _ _ _ g e => by rw [← Res.ok_inj.mp e]; simp [Vec.fill, Vec.WF]⟩

/-- An adaptive mesh on two ranks, by the standard. -/
example (lap : Lapack ℚ) (lu : PetscLU ℚ) (f : ℚ → ℚ → ℚ) (bc : BoundaryFn ℚ) (n : Nat) :
    ∃ k c e, CallRun k (exampleCalls strict 30 2 exTwoRanks lap (exPde.toPatchSolver lu) ⟨false, false⟩
      (Patch.fresh ⟨4, 4, 0, 1, 0, 1⟩) f bc n) c ∧ c e = .fin .ub :=
  (C66_undefined_wrong (D := strict) (N := 4) (M := 30) (size := 2) (F := exTwoRanks) rfl (by omega) lap
    (by omega) (FVSolver.shapes lu exPde (n := 4) (by omega)) (FVSolver.toPatchSolver_sound lu exPde) (opt := ⟨false, false⟩)
    (by decide) (by unfold Forest.Sorted; decide) (by intro r; simp [exTwoRanks, Forest.ranks]; omega) exRoot_sound rfl (R := unitSquare)
    rfl rfl (Or.inl (by omega)) (fun h => by cases h) f bc n).1

end EF
