import Verif.Proofs.StageLemmas
import Verif.Props.Leaf

/-!
# Properties of the three stages (C20, C21, C23, C24, C26, C29)
-/

namespace EF

open Finset FV HPS

variable {K : Type} [Field K] {N : Nat}

/-- A tree of fresh patches of a given shape on a rectangle. -/
def freshTree (N : Nat) : Tree Unit → Rect K → Tree (Patch K)
  | .leaf _, R => .leaf (Patch.fresh ⟨N, N, R.xl, R.xu, R.yl, R.yu⟩)
  | .node _ c0 c1 c2 c3, R => .node (Patch.fresh ⟨N, N, R.xl, R.xu, R.yl, R.yu⟩) (freshTree N c0 (R.quarter 0))
      (freshTree N c1 (R.quarter 1)) (freshTree N c2 (R.quarter 2)) (freshTree N c3 (R.quarter 3))

theorem freshTree_init (N : Nat) (sh : Tree Unit) (R : Rect K) : Init N (freshTree N sh R) R := by
  induction sh generalizing R with
  | leaf => exact .leaf rfl rfl rfl ⟨rfl, rfl, rfl, rfl⟩
  | node _ _ _ _ _ i0 i1 i2 i3 => exact .node rfl (i0 _) (i1 _) (i2 _) (i3 _)

/-- The unit square. -/
def unitSquare : Rect ℚ := ⟨0, 1, 0, 1⟩

/-- An adaptive shape: the lower left quarter is refined once more, and its upper right quarter again. -/
def exShape : Tree Unit :=
  .node () (.node () (.leaf ()) (.leaf ()) (.leaf ()) (.node () (.leaf ()) (.leaf ()) (.leaf ()) (.leaf ())))
    (.leaf ()) (.leaf ()) (.leaf ())

theorem exPde_elliptic_unit : Proper unitSquare ∧ EllipticOn exPde unitSquare :=
  ⟨⟨by norm_num [unitSquare], by norm_num [unitSquare]⟩, exPde_elliptic⟩

/-- Data with load `x + 1` and boundary values `k²`. -/
def exData : Data ℚ :=
  ⟨fun grid => Vec.ofFn (grid.nx * grid.ny) (fun k => k + 1), fun grid => Vec.ofFn (2 * grid.nx + 2 * grid.ny) (fun k => (k : ℚ) ^ 2)⟩

theorem exData_sized : exData.Sized :=
  ⟨fun _ => ⟨rfl, (Vec.has_ofFn _ _).2.1⟩, fun _ => ⟨rfl, (Vec.has_ofFn _ _).2.1⟩⟩

omit [Field K] in
theorem Data.setsLoad {d : Data K} (hd : d.Sized) : SetsLoad N d.rhs d.load :=
  ⟨fun _ => rfl, fun grid hx hy => by have := hd.1 grid; rwa [hx, hy] at this⟩

omit [Field K] in
theorem Data.setsBoundary {d : Data K} (hd : d.Sized) (m : Nat) : SetsBoundary m d.bc (fun p => d.bdry p.grid) :=
  ⟨fun _ => rfl, fun p hx hy => by
    have := hd.2 p.grid
    rw [hx, hy] at this
    exact ⟨by rw [this.1]; omega, this.2⟩⟩

omit [Field K] in
theorem no_cache : ∀ A : Mat K, (none : Option (Mat K)) = some A → ∃ a, A.Has (4 * N) (4 * N) a := fun _ h => by simp at h

/-! ### C20 -/

/-- C20.  On every quadtree, for leaf solvers that return objects of the documented sizes, the three stages return
(no exception, no access out of bounds), with every combination of options; the tree shape is kept and every leaf has a
solution value per cell.  Leaf sizes: at least three cells, which is what the interpolation operators support, or any
positive number if the tree is uniformly refined. -/
theorem C20_stages_succeed [NeZero (2 : K)] (lap : Lapack K) {ps : PatchSolver K} (hN : 0 < N) (hs : SolverShapes N ps)
    (opt : HPSOptions) {t : Tree (Patch K)} {R : Rect K} (ht : Init N t R) (h3 : 3 ≤ N ∨ ∃ d, Uniform d t) {d : Data K}
    (hd : d.Sized) :
    ∃ t1 c1 t3, buildStage lap ps opt t none = .ok (t1, c1) ∧ run lap ps opt d t1 = .ok t3 ∧ t1.shape = t.shape ∧
      t3.shape = t.shape ∧ ∀ p ∈ t3.leaves, p.u.size = N * N ∧ p.u.WF := by
  obtain ⟨t1, c1, m, T, e1, b1, _, s1, _⟩ := buildStage_any lap hs opt hN ht h3 no_cache
  obtain ⟨t2, h, e2, u2, _, _, s2⟩ := upwardsStage_ok (HP := HP0 N) lap hs opt (Data.setsLoad hd)
    (fun grid f h a b _ => ⟨a, b⟩) b1
  obtain ⟨t3, e3, v3, s3⟩ := solveStage_ok hs opt (Data.setsBoundary hd m) (HP := HP0 N) (fun _ _ _ h => h)
    (fun _ _ _ _ => ⟨rfl, by simp [Vec.WF, Vec.fill]⟩) u2
  refine ⟨t1, c1, t3, e1, ?_, s1, by rw [s3, s2, s1], ?_⟩
  · unfold run; rw [e2, Res.ok_bind, e3]
  · intro p hp
    obtain ⟨hx, hy, T, h, g, _, hh, hg, hu⟩ := v3.leaves p hp
    obtain ⟨u, hu', h1, h2⟩ := hs.solve p.grid (bv N 4 g) p.f hx hy rfl
      ((bv_has N 4 g).2.1.trans (bv_has N 4 g).1.symm) hh.1 hh.2
    unfold UPs at hu
    rw [hu] at hu'
    rw [Res.ok_inj.mp hu']
    exact ⟨h1, h2⟩

theorem sampleLoad_fn (f : K → K → K) : ∃ φ : Grid K → Vec K, (∀ grid, sampleLoad f grid = .ok (φ grid)) ∧
    ∀ grid : Grid K, (φ grid).size = grid.nx * grid.ny ∧ (φ grid).WF := by
  have h := fun grid => C33_load_sampled f grid
  choose φ h1 ψ h2 _ using h
  exact ⟨φ, h1, fun grid => ⟨(h2 grid).1, (h2 grid).2.1.trans (h2 grid).1.symm⟩⟩

/-- C20 for loads and boundary conditions given as functions, without homogeneous-rhs (see C24). -/
theorem C20_stages_succeed_functions [NeZero (2 : K)] (lap : Lapack K) {ps : PatchSolver K} (hN : 0 < N)
    (hs : SolverShapes N ps) {opt : HPSOptions} (ho : opt.homogeneousRhs = false) {t : Tree (Patch K)} {R : Rect K}
    (ht : Init N t R) (h3 : 3 ≤ N ∨ ∃ d, Uniform d t) (f : K → K → K) (bc : BoundaryFn K) :
    ∃ t1 c1 t3, buildStage lap ps opt t none = .ok (t1, c1) ∧ (Request.functions f bc).run lap ps opt t1 = .ok t3 ∧
      t3.shape = t.shape ∧ ∀ p ∈ t3.leaves, p.u.size = N * N ∧ p.u.WF := by
  obtain ⟨t1, c1, m, T, e1, b1, _, s1, _⟩ := buildStage_any lap hs opt hN ht h3 no_cache
  obtain ⟨φ, f1, f2⟩ := sampleLoad_fn f
  obtain ⟨t2, h, e2, u2, v2, _, s2⟩ := upwardsStage_ok (HP := HP0 N) lap hs opt
    (rhs := fun p => .ok { p with f := φ p.grid }) (φ := φ)
    ⟨fun _ => rfl, fun grid hx hy => by have := f2 grid; rwa [hx, hy] at this⟩ (fun grid f h a b _ => ⟨a, b⟩) b1
  have hr := u2.built.root
  simp only [pow_zero, mul_one, crsN] at hr
  have hm : 0 < m := by
    obtain ⟨j, hj⟩ := hr.2.2.2.2.2
    rw [hj]; positivity
  have hv := v2 ho
  simp only [pow_zero, mul_one] at hv
  obtain ⟨γ, g1, _⟩ := rootDirichlet_ok lap bc hm hr.2.1 hr.2.2.2.2.1 hv
  obtain ⟨t3, e3, v3, s3⟩ := solveStage_ok hs opt (m := m) (bdry := fun p => .ok { p with g := Vec.ofFn (4 * m) γ })
    (γ := fun _ => Vec.ofFn (4 * m) γ) ⟨fun _ => rfl, fun _ _ _ => ⟨rfl, (Vec.has_ofFn _ _).2.1⟩⟩ (HP := HP0 N)
    (fun _ _ _ h => h) (fun _ _ _ _ => ⟨rfl, by simp [Vec.WF, Vec.fill]⟩) u2
  refine ⟨t1, c1, t3, e1, ?_, by rw [s3, s2, s1], ?_⟩
  · show (upwardsStageAnalytic lap ps opt f t1 >>= fun t2 => solveStageAnalytic lap ps opt bc t2) = _
    rw [upwardsStageAnalytic_eq lap ps opt f1, e2, Res.ok_bind, solveStageAnalytic_eq g1, e3]
  · intro p hp
    obtain ⟨hx, hy, T, h, g, _, hh, hg, hu⟩ := v3.leaves p hp
    obtain ⟨u, hu', h1, h2⟩ := hs.solve p.grid (bv N 4 g) p.f hx hy rfl
      ((bv_has N 4 g).2.1.trans (bv_has N 4 g).1.symm) hh.1 hh.2
    unfold UPs at hu
    rw [hu] at hu'
    rw [Res.ok_inj.mp hu']
    exact ⟨h1, h2⟩

/-- The hypotheses of C20 hold for the finite volume solver on an adaptive tree. -/
example (lap : Lapack ℚ) (lu : PetscLU ℚ) (opt : HPSOptions) :=
  C20_stages_succeed lap (by omega) (FVSolver.shapes lu exPde (n := 4) (by omega)) opt
    (freshTree_init 4 exShape unitSquare) (Or.inl (by omega)) exData_sized

/-! ### C21 -/

/-- Every request is an upwards stage and a solve stage with callbacks. -/
theorem HPS.Request.stages (lap : Lapack K) (ps : PatchSolver K) (opt : HPSOptions) (r : Request K) :
    ∃ (rhs : Patch K → Res (Patch K)) (φ : Grid K → Vec K) (bdry : Patch K → Res (Patch K))
      (γ : Grid K → Nat → Mat K → Vec K → Res (Vec K)),
      (∀ p, rhs p = .ok { p with f := φ p.grid }) ∧ BoundaryOf bdry γ ∧
      ∀ t, r.run lap ps opt t = (upwardsStage lap ps opt rhs t >>= fun t2 => solveStage ps opt bdry t2) := by
  cases r with
  | callbacks load bdry => exact ⟨_, load, _, bdry, fun _ => rfl, fun _ => rfl, fun _ => rfl⟩
  | functions f bc =>
    obtain ⟨φ, f1, _⟩ := sampleLoad_fn f
    refine ⟨fun p => .ok { p with f := φ p.grid }, φ, fun p => do
        let g ← rootDirichlet lap bc p
        pure { p with g := g }, fun grid _ T h => rootDirichlet lap bc { (Patch.fresh grid) with T := T, h := h },
      fun _ => rfl, fun _ => rfl, fun t => ?_⟩
    show (upwardsStageAnalytic lap ps opt f t >>= fun t2 => solveStageAnalytic lap ps opt bc t2) = _
    rw [upwardsStageAnalytic_eq lap ps opt f1]
    congr 1
    funext t2
    unfold solveStageAnalytic solveStage
    rw [bind_assoc]
    simp only [pure_bind]

/-- A request keeps what later runs see. -/
theorem HPS.Request.run_keeps (lap : Lapack K) (ps : PatchSolver K) (opt : HPSOptions) (r : Request K) {t t' : Tree (Patch K)}
    (h : r.run lap ps opt t = .ok t') : wipe opt.homogeneousRhs t' = wipe opt.homogeneousRhs t := by
  obtain ⟨rhs, φ, bdry, γ, h1, h2, h3⟩ := r.stages lap ps opt
  rw [h3] at h
  obtain ⟨t2, a, b⟩ := Res.bind_eq_ok.mp h
  rw [solve_keeps ps opt h2 b, upwards_keeps lap ps opt h1 a]

/-- A request sees only what earlier runs keep. -/
theorem HPS.Request.run_wipe (lap : Lapack K) (ps : PatchSolver K) (opt : HPSOptions) (r : Request K) (t : Tree (Patch K)) :
    r.run lap ps opt (wipe opt.homogeneousRhs t) = r.run lap ps opt t := by
  obtain ⟨rhs, φ, bdry, γ, h1, h2, h3⟩ := r.stages lap ps opt
  rw [h3, h3, upwards_wipe lap ps opt h1, bind_map_left]
  simp only [solve_wipe2 ps opt h2]

theorem HPS.runAll_keeps (lap : Lapack K) (ps : PatchSolver K) (opt : HPSOptions) (rs : List (Request K)) {t t' : Tree (Patch K)}
    (h : runAll lap ps opt rs t = .ok t') : wipe opt.homogeneousRhs t' = wipe opt.homogeneousRhs t := by
  induction rs generalizing t with
  | nil => rw [Res.ok_inj.mp h]
  | cons r rs ih =>
    obtain ⟨t2, a, b⟩ := Res.bind_eq_ok.mp h
    rw [ih b, r.run_keeps lap ps opt a]

/-- C21.  After any history of requests on a tree, the result of a request — every field of every patch, or the exception
— is the one it has on the tree without the history. -/
theorem C21_rerun (lap : Lapack K) (ps : PatchSolver K) (opt : HPSOptions) (rs : List (Request K)) (r : Request K)
    {t t' : Tree (Patch K)} (h : runAll lap ps opt rs t = .ok t') : r.run lap ps opt t' = r.run lap ps opt t := by
  rw [← r.run_wipe, runAll_keeps lap ps opt rs h, r.run_wipe]

/-- A history meeting the hypotheses of C21: two requests on an adaptive tree. -/
example (lap : Lapack ℚ) (lu : PetscLU ℚ) : ∃ t1 c1 t', buildStage lap (exPde.toPatchSolver lu) ⟨false, false⟩
      (freshTree 4 exShape unitSquare) none = .ok (t1, c1) ∧
    runAll lap (exPde.toPatchSolver lu) ⟨false, false⟩ [.functions (fun x y => x * y) (fun _ x _ => (x, 1, 0)),
      .functions (fun x _ => x) (fun _ _ y => (y, 1, 1))] t1 = .ok t' := by
  have h := fun f bc => C20_stages_succeed_functions lap (by omega) (FVSolver.shapes lu exPde (n := 4) (by omega))
    (opt := ⟨false, false⟩) rfl (freshTree_init 4 exShape unitSquare) (Or.inl (by omega)) f bc
  obtain ⟨t1, c1, t3, a1, a2, _⟩ := h (fun x y => x * y) (fun _ x _ => (x, 1, 0))
  obtain ⟨t1', c1', t3', b1, b2, _⟩ := h (fun x _ => x) (fun _ _ y => (y, 1, 1))
  rw [a1] at b1
  obtain ⟨rfl, rfl⟩ := Prod.mk.inj (Res.ok_inj.mp b1)
  refine ⟨t1, c1, t3', a1, ?_⟩
  unfold runAll
  rw [a2, Res.ok_bind]
  unfold runAll
  rw [C21_rerun lap _ _ [.functions (fun x y => x * y) (fun _ x _ => (x, 1, 0))] _ (t := t1) (by unfold runAll; rw [a2]; rfl),
    b2]
  rfl

/-! ### C23 -/

/-- The third set of data is `a` times the first plus `b` times the second. -/
def Data.Comb (a b : K) (d1 d2 d3 : Data K) : Prop :=
  ∀ grid, VecComb a b (d1.load grid) (d2.load grid) (d3.load grid) ∧ VecComb a b (d1.bdry grid) (d2.bdry grid) (d3.bdry grid)

/-- A built tree on whose leaf grids the leaf solver is linear. -/
theorem built_linear [NeZero (2 : K)] (lap : Lapack K) {ps : PatchSolver K} (hN : 0 < N) (hs : SolverShapes N ps)
    {opt : HPSOptions} {t : Tree (Patch K)} {R : Rect K} (ht : Init N t R)
    (h3 : 3 ≤ N ∨ ∃ d, Uniform d t) (hl : ∀ p ∈ t.leaves, LinearLeaf N ps p.grid) {t1 : Tree (Patch K)}
    {c1 : Option (Mat K)} (h1 : buildStage lap ps opt t none = .ok (t1, c1)) :
    ∃ m T, Built N (fun grid _ => True ∧ LinearLeaf N ps grid) t1 R 0 m T := by
  obtain ⟨t1', c1', m, T, e1, b1, _⟩ := buildStage_any lap hs opt hN ht h3 no_cache
  rw [h1] at e1
  obtain ⟨rfl, rfl⟩ := Prod.mk.inj (Res.ok_inj.mp e1)
  have hlv := buildStage_leaves h1
  exact ⟨m, T, b1.leaves (P := fun grid => LinearLeaf N ps grid) (by
    rw [hlv]
    intro grid hg
    obtain ⟨p, hp, rfl⟩ := List.mem_map.mp hg
    exact hl p hp)⟩

/-- The leaf step for a combination of loads. -/
theorem leafRun_comb {ps : PatchSolver K} {a b : K} {d1 d2 d3 : Data K} {Φ1 Φ2 : Grid K → Nat → K}
    {η1 η2 : Grid K → Nat → Nat → K}
    (x1 : ∀ grid, LinearLeaf N ps grid → grid.nx = N → grid.ny = N → d1.load grid = Vec.ofFn (N * N) (Φ1 grid) ∧
        ps.particularNeumannData grid (d1.load grid) = .ok (bv N 4 (η1 grid)))
    (x2 : ∀ grid, LinearLeaf N ps grid → grid.nx = N → grid.ny = N → d2.load grid = Vec.ofFn (N * N) (Φ2 grid) ∧
        ps.particularNeumannData grid (d2.load grid) = .ok (bv N 4 (η2 grid)))
    (hd : ∀ grid, VecComb a b (d1.load grid) (d2.load grid) (d3.load grid)) {hom : Bool} (ho : hom = false) :
    LeafRun N (fun grid => LinearLeaf N ps grid) hom (upwardsLeaf ps d3.rhs) (fun g => lin1 a b (Φ1 g) (Φ2 g))
      (fun g => lin a b (η1 g) (η2 g)) := by
  refine ⟨?_, fun h => by rw [ho] at h; simp at h⟩
  intro p hx hy hp
  obtain ⟨y1, z1⟩ := x1 p.grid hp hx hy
  obtain ⟨y2, z2⟩ := x2 p.grid hp hx hy
  obtain ⟨n, f, g, w1, w2, w3⟩ := hd p.grid
  have hn : n = N * N := by rw [y1] at w1; exact w1.1.symm
  subst hn
  have y3 : d3.load p.grid = Vec.ofFn (N * N) (lin1 a b (Φ1 p.grid) (Φ2 p.grid)) := by
    rw [Vec.has_iff.mp w3]
    refine Vec.ofFn_congr fun i hi => ?_
    have q1 := (Vec.has_iff.mp w1).symm.trans y1
    have q2 := (Vec.has_iff.mp w2).symm.trans y2
    rw [Vec.ofFn_inj q1 i hi, Vec.ofFn_inj q2 i hi]
    rfl
  obtain ⟨H, H1, H2⟩ := hp.flux'
  have z3 : ps.particularNeumannData p.grid (d3.load p.grid) = .ok (bv N 4 (lin a b (η1 p.grid) (η2 p.grid))) := by
    rw [y3, H1]
    congr 1
    unfold bv
    refine Vec.ofFn_congr fun i hi => ?_
    have q1 := z1
    have q2 := z2
    rw [y1, H1] at q1
    rw [y2, H1] at q2
    unfold bv at q1 q2
    have q1 := Vec.ofFn_inj (Res.ok_inj.mp q1) i hi
    have q2 := Vec.ofFn_inj (Res.ok_inj.mp q2) i hi
    have := H2 a b (Φ1 p.grid) (Φ2 p.grid) i hi
    show H (fun k => a * Φ1 p.grid k + b * Φ2 p.grid k) i = _
    rw [this, q1, q2]
    rfl
  refine ⟨{ p with f := d3.load p.grid, h := bv N 4 (lin a b (η1 p.grid) (η2 p.grid)) }, ?_, ⟨rfl, rfl, rfl, rfl, rfl, rfl⟩,
    fun _ => ⟨rfl, y3⟩⟩
  unfold upwardsLeaf
  rw [Data.rhs, Res.ok_bind]
  exact (congrArg (· >>= _) z3).trans rfl

/-- C23.  On one built tree, for a leaf solver that is linear on the leaf grids, the solution of a linear combination of
two sets of data is the linear combination of the solutions — also where an interface system is singular and the solve
leaves its right-hand side, and with every combination of options. -/
theorem C23_linear [NeZero (2 : K)] (lap : Lapack K) {ps : PatchSolver K} (hN : 0 < N) (hs : SolverShapes N ps)
    {opt : HPSOptions} {t : Tree (Patch K)} {R : Rect K} (ht : Init N t R)
    (h3 : 3 ≤ N ∨ ∃ d, Uniform d t) (hl : ∀ p ∈ t.leaves, LinearLeaf N ps p.grid) {a b : K} {d1 d2 d3 : Data K}
    (hd1 : d1.Sized) (hd2 : d2.Sized) (hd3 : d3.Sized) (hd : Data.Comb a b d1 d2 d3) {t1 : Tree (Patch K)}
    {c1 : Option (Mat K)} (h1 : buildStage lap ps opt t none = .ok (t1, c1)) :
    ∃ r1 r2 r3, run lap ps opt d1 t1 = .ok r1 ∧ run lap ps opt d2 t1 = .ok r2 ∧ run lap ps opt d3 t1 = .ok r3 ∧
      Combined a b r1 r2 r3 := by
  obtain ⟨m, T, b2⟩ := built_linear lap hN hs ht h3 hl h1
  have hP : ∀ grid, LinearLeaf N ps grid → LinearLeaf N ps grid := fun _ h => h
  cases ho : opt.homogeneousRhs with
  | false =>
    obtain ⟨Φ1, η1, x1, l1⟩ := LeafRun.of hP hd1
    obtain ⟨Φ2, η2, x2, l2⟩ := LeafRun.of hP hd2
    refine runs3 lap hP b2 (fun _ _ h => h.2) (o1 := opt) (o2 := opt) (o3 := opt) (Φ1 := Φ1) (Φ2 := Φ2) (η1 := η1)
      (η2 := η2) (by rw [ho]; exact l1) (by rw [ho]; exact l2) ?_ (fun h => ⟨h, h⟩) hd1 (fun grid => (hd grid).2)
    exact leafRun_comb x1 x2 (fun grid => (hd grid).1) ho
  | true =>
    have hz1 : ∀ grid : Grid K, lin1 a b (fun _ => (0 : K)) (fun _ => 0) = fun _ => 0 := fun _ => by
      funext k; simp [lin1]
    have hz2 : ∀ grid : Grid K, lin a b (fun _ _ => (0 : K)) (fun _ _ => 0) = fun _ _ => 0 := fun _ => by
      funext p k; simp [lin]
    refine runs3 lap hP b2 (fun _ _ h => h.2) (o1 := opt) (o2 := opt) (o3 := opt) (Φ1 := fun _ _ => 0) (Φ2 := fun _ _ => 0)
      (η1 := fun _ _ _ => 0) (η2 := fun _ _ _ => 0) (by rw [ho]; exact LeafRun.hom hP hd1)
      (by rw [ho]; exact LeafRun.hom hP hd2) ?_ (fun h => ⟨h, h⟩) hd1 (fun grid => (hd grid).2)
    rw [ho]
    have := LeafRun.hom hP hd3
    refine ⟨?_, fun _ grid => ⟨hz1 grid, hz2 grid⟩⟩
    intro p hx hy hp
    obtain ⟨q, q1, q2, _⟩ := this.run p hx hy hp
    exact ⟨q, q1, q2, by simp⟩

/-- Every leaf problem of an elliptic problem has a linear finite volume solver. -/
theorem fv_linearLeaf [LinearOrder K] [IsStrictOrderedRing K] (lu : PetscLU K) {s : FVSolver K} (hN : 2 ≤ N)
    {t : Tree (Patch K)} {R : Rect K} (ht : Init N t R) (hR : Proper R) (hc : EllipticOn s R) :
    ∀ p ∈ t.leaves, LinearLeaf N (s.toPatchSolver lu) p.grid := by
  intro p hp
  obtain ⟨hx, hy⟩ := ht.leaves p hp
  obtain ⟨h1, h2⟩ := ht.elliptic hR hc p hp
  exact FVSolver.linearLeaf lu s hN hx hy (unique_of_elliptic h1 h2 N N)

/-- C23 for the finite volume solver and an elliptic problem. -/
theorem C23_linear_finite_volume [LinearOrder K] [IsStrictOrderedRing K] (lap : Lapack K) (lu : PetscLU K) {s : FVSolver K}
    (hN : 2 ≤ N) {opt : HPSOptions} {t : Tree (Patch K)} {R : Rect K} (ht : Init N t R)
    (h3 : 3 ≤ N ∨ ∃ d, Uniform d t) (hR : Proper R) (hc : EllipticOn s R) {a b : K} {d1 d2 d3 : Data K}
    (hd1 : d1.Sized) (hd2 : d2.Sized) (hd3 : d3.Sized) (hd : Data.Comb a b d1 d2 d3) {t1 : Tree (Patch K)} {c1 : Option (Mat K)}
    (h1 : buildStage lap (s.toPatchSolver lu) opt t none = .ok (t1, c1)) :
    ∃ r1 r2 r3, run lap (s.toPatchSolver lu) opt d1 t1 = .ok r1 ∧ run lap (s.toPatchSolver lu) opt d2 t1 = .ok r2 ∧
      run lap (s.toPatchSolver lu) opt d3 t1 = .ok r3 ∧ Combined a b r1 r2 r3 :=
  C23_linear lap (by omega) (FVSolver.shapes lu s hN) ht h3 (fv_linearLeaf lu hN ht hR hc) hd1 hd2 hd3 hd h1

/-- The hypotheses of C23 hold for a variable coefficient problem on an adaptive tree. -/
example (lap : Lapack ℚ) (lu : PetscLU ℚ) : ∃ t1 c1 d3, d3.Sized ∧ Data.Comb 2 (-3) exData exData d3 ∧
    buildStage lap (exPde.toPatchSolver lu) ⟨false, false⟩ (freshTree 4 exShape unitSquare) none = .ok (t1, c1) := by
  obtain ⟨t1, c1, _, h, _⟩ := C20_stages_succeed lap (by omega) (FVSolver.shapes lu exPde (n := 4) (by omega)) ⟨false, false⟩
    (freshTree_init 4 exShape unitSquare) (Or.inl (by omega)) exData_sized
  refine ⟨t1, c1, ⟨fun grid => Vec.ofFn (grid.nx * grid.ny) (fun k => 2 * (k + 1) + -3 * (k + 1)),
    fun grid => Vec.ofFn (2 * grid.nx + 2 * grid.ny) (fun k => 2 * (k : ℚ) ^ 2 + -3 * (k : ℚ) ^ 2)⟩,
    ⟨fun _ => ⟨rfl, (Vec.has_ofFn _ _).2.1⟩, fun _ => ⟨rfl, (Vec.has_ofFn _ _).2.1⟩⟩, ?_, h⟩
  exact fun grid => ⟨⟨_, _, _, Vec.has_ofFn _ _, Vec.has_ofFn _ _, Vec.has_ofFn _ _⟩,
    ⟨_, _, _, Vec.has_ofFn _ _, Vec.has_ofFn _ _, Vec.has_ofFn _ _⟩⟩

/-! ### C24 -/

theorem HPS.Combined.same {r1 r2 r3 : Tree (Patch K)} (h : Combined 1 0 r1 r2 r3) :
    r3.shape = r1.shape ∧ r3.leaves.map (fun p => (p.grid, p.u)) = r1.leaves.map (fun p => (p.grid, p.u)) := by
  induction r1 generalizing r2 r3 with
  | leaf p =>
    cases r2 with
    | node => cases r3 <;> exact h.elim
    | leaf q =>
    cases r3 with
    | node => exact h.elim
    | leaf r =>
      obtain ⟨h1, h2, n, f, g, x, y, z⟩ := h
      refine ⟨rfl, ?_⟩
      simp only [Tree.leaves, List.map_cons, List.map_nil, List.cons.injEq, Prod.mk.injEq, and_true]
      refine ⟨h1.symm, ?_⟩
      rw [Vec.has_iff.mp z, Vec.has_iff.mp x]
      exact Vec.ofFn_congr fun i _ => by ring
  | node p c0 c1 c2 c3 i0 i1 i2 i3 =>
    cases r2 with
    | leaf => cases r3 <;> exact h.elim
    | node q d0 d1 d2 d3 =>
    cases r3 with
    | leaf => exact h.elim
    | node r e0 e1 e2 e3 =>
      obtain ⟨h0, h1, h2, h3⟩ := h
      obtain ⟨s0, l0⟩ := i0 h0
      obtain ⟨s1, l1⟩ := i1 h1
      obtain ⟨s2, l2⟩ := i2 h2
      obtain ⟨s3, l3⟩ := i3 h3
      exact ⟨by simp only [Tree.shape, s0, s1, s2, s3], by simp only [Tree.leaves, List.map_append, l0, l1, l2, l3]⟩

/-- C24 for data given through callbacks.  With option homogeneous-rhs set the leaf solutions are those which the option
unset gives for a zero load; the load handed over with the option set does not matter.  (Full claim: also for boundary
conditions given as functions; false, see `C24_homogeneous_functions_wrong`.) -/
theorem C24_homogeneous_partial [NeZero (2 : K)] (lap : Lapack K) {ps : PatchSolver K} (hN : 0 < N) (hs : SolverShapes N ps)
    {cached : Bool} {t : Tree (Patch K)} {R : Rect K} (ht : Init N t R) (h3 : 3 ≤ N ∨ ∃ d, Uniform d t)
    (hl : ∀ p ∈ t.leaves, LinearLeaf N ps p.grid) {d d0 : Data K} (hd : d.Sized)
    (h0 : ∀ grid : Grid K, (d0.load grid).Has (grid.nx * grid.ny) (fun _ => 0)) (hb : ∀ grid, d0.bdry grid = d.bdry grid)
    {t1 : Tree (Patch K)} {c1 : Option (Mat K)} (h1 : buildStage lap ps ⟨cached, true⟩ t none = .ok (t1, c1)) :
    buildStage lap ps ⟨cached, false⟩ t none = .ok (t1, c1) ∧
    ∃ r r0, run lap ps ⟨cached, true⟩ d t1 = .ok r ∧ run lap ps ⟨cached, false⟩ d0 t1 = .ok r0 ∧ r0.shape = r.shape ∧
      r0.leaves.map (fun p => (p.grid, p.u)) = r.leaves.map (fun p => (p.grid, p.u)) := by
  refine ⟨h1, ?_⟩
  obtain ⟨m, T, b2⟩ := built_linear lap hN hs ht h3 hl h1
  have hP : ∀ grid, LinearLeaf N ps grid → LinearLeaf N ps grid := fun _ h => h
  have hz1 : lin1 1 0 (fun _ => (0 : K)) (fun _ => 0) = fun _ => 0 := by funext k; simp [lin1]
  have hz2 : lin 1 0 (fun _ _ => (0 : K)) (fun _ _ => 0) = fun _ _ => 0 := by funext p k; simp [lin]
  obtain ⟨r1, r2, r3, e1, e2, e3, hc⟩ := runs3 lap hP b2 (fun _ _ h => h.2) (a := 1) (b := 0) (o1 := ⟨cached, true⟩)
    (o2 := ⟨cached, true⟩) (o3 := ⟨cached, false⟩) (d1 := d) (d2 := d) (d3 := d0) (Φ1 := fun _ _ => 0) (Φ2 := fun _ _ => 0)
    (η1 := fun _ _ _ => 0) (η2 := fun _ _ _ => 0) (LeafRun.hom hP hd) (LeafRun.hom hP hd)
    (by
      refine ⟨?_, by simp⟩
      intro p hx hy hp
      obtain ⟨H, H1, H2⟩ := hp.flux'
      have y3 : d0.load p.grid = Vec.ofFn (N * N) (fun _ => 0) := by
        have := Vec.has_iff.mp (h0 p.grid)
        rwa [hx, hy] at this
      have z3 : ps.particularNeumannData p.grid (d0.load p.grid) = .ok (bv N 4 (fun _ _ => 0)) := by
        rw [y3, H1]
        congr 1
        unfold bv
        refine Vec.ofFn_congr fun i hi => ?_
        have := H2 0 0 (fun _ => 0) (fun _ => 0) i hi
        simpa using this
      refine ⟨{ p with f := d0.load p.grid, h := bv N 4 (fun _ _ => 0) }, ?_, ⟨rfl, rfl, rfl, rfl, rfl, rfl⟩, fun _ => ?_⟩
      · unfold upwardsLeaf
        rw [Data.rhs, Res.ok_bind]
        exact (congrArg (· >>= _) z3).trans rfl
      · rw [hz1, hz2]; exact ⟨rfl, y3⟩)
    (by simp) hd (fun grid => by
      obtain ⟨s1, s2⟩ := hd.2 grid
      have := has_of_wf s1 s2
      exact ⟨_, _, _, this, this, by
        rw [hb, Vec.has_iff]
        refine (Vec.has_iff.mp this).trans (Vec.ofFn_congr fun i _ => ?_)
        ring⟩)
  exact ⟨r1, r3, e1, e3, hc.same⟩

theorem merge4to1_tau_h {lap : Lapack K} {F F' : Fam (Patch K)} (h : merge4to1 lap F = .ok F') : F'.tau.h = F.tau.h := by
  simp only [merge4to1, coarsen, Res.bind_eq_ok, Res.pure_def, Res.ok_inj] at h
  obtain ⟨G, ⟨_, _, a, ha, b, hb, c, hc, d, hd, rfl⟩, _, _, _, _, _, _, _, _, _, _, _, _, rfl⟩ := h
  rfl

/-- C24 is false for boundary conditions given as functions: on every freshly created tree that is refined at all, with
homogeneous-rhs set, build and upwards stage return but the solve stage throws, whatever the functions are. -/
theorem C24_homogeneous_functions_wrong [NeZero (2 : K)] (lap : Lapack K) {ps : PatchSolver K} (hN : 0 < N)
    (hs : SolverShapes N ps) {opt : HPSOptions} (ho : opt.homogeneousRhs = true) {p : Patch K}
    {c0 c1 c2 c3 : Tree (Patch K)} {R : Rect K} (ht : Init N (.node p c0 c1 c2 c3) R) (hp : p.h.size = 0)
    (h3 : 3 ≤ N ∨ ∃ d, Uniform d (.node p c0 c1 c2 c3)) (f : K → K → K) (bc : BoundaryFn K) :
    ∃ t1 c t2, buildStage lap ps opt (.node p c0 c1 c2 c3) none = .ok (t1, c) ∧ upwardsStageAnalytic lap ps opt f t1 = .ok t2 ∧
      solveStageAnalytic lap ps opt bc t2 = .throw .invalidArgument := by
  obtain ⟨t1, c, m, T, e1, b1, _, s1, _⟩ := buildStage_any lap hs opt hN ht h3 no_cache
  obtain ⟨φ, f1, f2⟩ := sampleLoad_fn f
  obtain ⟨t2, h, e2, u2, v2, _, s2⟩ := upwardsStage_ok (HP := HP0 N) lap hs opt
    (rhs := fun p => .ok { p with f := φ p.grid }) (φ := φ)
    ⟨fun _ => rfl, fun grid hx hy => by have := f2 grid; rwa [hx, hy] at this⟩ (fun grid f h a b _ => ⟨a, b⟩) b1
  refine ⟨t1, c, t2, e1, by rw [upwardsStageAnalytic_eq lap ps opt f1, e2], ?_⟩
  have k1 : t1.val.h = p.h ∧ ∃ q d0 d1 d2 d3, t1 = .node q d0 d1 d2 d3 := by
    unfold buildStage at e1
    rw [Tree.mergeSt] at e1
    simp only [Res.bind_eq_ok, Res.pure_def, Res.ok_inj, Prod.mk.injEq] at e1
    obtain ⟨_, _, _, _, _, _, _, _, F, hF, rfl, _⟩ := e1
    exact ⟨merge4to1_tau_h hF, _, _, _, _, _, rfl⟩
  have k2 : t2.val.h = t1.val.h := by
    obtain ⟨-, q, d0, d1, d2, d3, rfl⟩ := k1
    unfold upwardsStage at e2
    rw [Tree.merge] at e2
    simp only [Res.bind_eq_ok, Res.pure_def, Res.ok_inj] at e2
    obtain ⟨_, _, _, _, _, _, _, _, F, hF, rfl⟩ := e2
    have := (upwards4to1_frame hF).1 ho
    rw [this]
    rfl
  have hsz : t2.val.h.size = 0 := by rw [k2, k1.1, hp]
  have hr := u2.built.root
  simp only [pow_zero, mul_one, crsN] at hr
  have hm : 0 < m := by
    obtain ⟨j, hj⟩ := hr.2.2.2.2.2
    rw [hj]; positivity
  unfold solveStageAnalytic rootDirichlet
  simp only [boundaryVec_ok _ bc hr.2.1, Res.ok_bind, Mat.diagonal_ofFn]
  have : (Mat.ofFn (4 * m) (4 * m) (fun i j => if i = j then bval (·.2.2) bc t2.val.grid m i else 0)).mulVec t2.val.h =
      .throw .invalidArgument := by
    unfold Mat.mulVec
    rw [if_pos]
    simp only [Mat.ncols_ofFn, hsz]
    omega
  rw [this]
  rfl

/-- The hypotheses of C24 hold for a variable coefficient problem on an adaptive tree. -/
example (lap : Lapack ℚ) (lu : PetscLU ℚ) : ∃ d0 : Data ℚ,
    (∀ grid : Grid ℚ, (d0.load grid).Has (grid.nx * grid.ny) (fun _ => 0)) ∧ (∀ grid, d0.bdry grid = exData.bdry grid) ∧
    (∀ p ∈ (freshTree 4 exShape unitSquare).leaves, LinearLeaf 4 (exPde.toPatchSolver lu) p.grid) ∧
    ∃ t1 c1, buildStage lap (exPde.toPatchSolver lu) ⟨false, true⟩ (freshTree 4 exShape unitSquare) none = .ok (t1, c1) := by
  obtain ⟨t1, c1, _, h, _⟩ := C20_stages_succeed lap (by omega) (FVSolver.shapes lu exPde (n := 4) (by omega)) ⟨false, true⟩
    (freshTree_init 4 exShape unitSquare) (Or.inl (by omega)) exData_sized
  exact ⟨⟨fun grid => Vec.ofFn (grid.nx * grid.ny) (fun _ => 0), exData.bdry⟩, fun _ => Vec.has_ofFn _ _, fun _ => rfl,
    fv_linearLeaf lu (by omega) (freshTree_init 4 exShape unitSquare) exPde_elliptic_unit.1 exPde_elliptic_unit.2, t1, c1, h⟩

/-! ### C26 -/

theorem boundaryPoint_eq [NeZero (2 : K)] {grid : Grid K} {m : Nat} (hx : grid.nx = m) (hy : grid.ny = m) {s i : Nat}
    (hs : s < 4) : boundaryPoint grid s i = sidePoint (rect grid) m s i := by
  have h4 : s = 0 ∨ s = 1 ∨ s = 2 ∨ s = 3 := by omega
  unfold boundaryPoint sidePoint
  rcases h4 with h | h | h | h <;> subst h <;> simp [FVSolver.x_eq, FVSolver.y_eq, hx, hy, rect]

/-- C26.  After build and upwards stage the root has an operator `τ` and a flux `η`; the solve stage returns, and whenever the
boundary system `a I + b T` is nonsingular the Dirichlet data `γ` it has stored at the root satisfy
`a γ + b (T γ + η) = r` at the centre of every boundary cell. -/
theorem C26_root_condition [NeZero (2 : K)] (lap : Lapack K) {ps : PatchSolver K} (hN : 0 < N)
    (hs : SolverShapes N ps) {opt : HPSOptions} (ho : opt.homogeneousRhs = false) {t : Tree (Patch K)} {R : Rect K}
    (ht : Init N t R) (h3 : 3 ≤ N ∨ ∃ d, Uniform d t) {t1 t2 : Tree (Patch K)} {c1 : Option (Mat K)}
    (h1 : buildStage lap ps opt t none = .ok (t1, c1)) {f : K → K → K} (h2 : upwardsStageAnalytic lap ps opt f t1 = .ok t2)
    (bc : BoundaryFn K) :
    ∃ m τ η γ, 0 < m ∧ t2.val.T.Has (4 * m) (4 * m) τ ∧ t2.val.h.Has (4 * m) η ∧
      (solveStageAnalytic lap ps opt bc t2).Returns (fun t3 => t3.val.g.Has (4 * m) γ) ∧
      ∀ (a b r : Nat → K), (∀ s, s < 4 → ∀ i, i < m →
          bc s (sidePoint R m s i).1 (sidePoint R m s i).2 = (r (s * m + i), a (s * m + i), b (s * m + i))) →
        Nonsing (4 * m) (fun i j => (if i = j then a i else 0) + b i * τ i j) →
        ∀ k, k < 4 * m → a k * γ k + b k * (∑ j ∈ range (4 * m), τ k j * γ j + η k) = r k := by
  obtain ⟨t1', c1', m, T, e1, b1, _⟩ := buildStage_any lap hs opt hN ht h3 no_cache
  rw [h1] at e1
  obtain ⟨rfl, rfl⟩ := Prod.mk.inj (Res.ok_inj.mp e1)
  obtain ⟨φ, f1, f2⟩ := sampleLoad_fn f
  obtain ⟨t2', h, e2, u2, v2, _, s2⟩ := upwardsStage_ok (HP := HP0 N) lap hs opt
    (rhs := fun p => .ok { p with f := φ p.grid }) (φ := φ)
    ⟨fun _ => rfl, fun grid hx hy => by have := f2 grid; rwa [hx, hy] at this⟩ (fun grid f h a b _ => ⟨a, b⟩) b1
  rw [upwardsStageAnalytic_eq lap ps opt f1, e2] at h2
  obtain rfl := Res.ok_inj.mp h2
  have hr := u2.built.root
  simp only [pow_zero, mul_one, crsN] at hr
  have hm : 0 < m := by
    obtain ⟨j, hj⟩ := hr.2.2.2.2.2
    rw [hj]; positivity
  have hv := v2 ho
  simp only [pow_zero, mul_one] at hv
  obtain ⟨γ, g1, g2⟩ := rootDirichlet_ok lap bc hm hr.2.1 hr.2.2.2.2.1 hv
  obtain ⟨t3, e3, v3, s3⟩ := solveStage_ok hs opt (m := m) (bdry := fun p => .ok { p with g := Vec.ofFn (4 * m) γ })
    (γ := fun _ => Vec.ofFn (4 * m) γ) ⟨fun _ => rfl, fun _ _ _ => ⟨rfl, (Vec.has_ofFn _ _).2.1⟩⟩ (HP := HP0 N)
    (fun _ _ _ h => h) (fun _ _ _ _ => ⟨rfl, by simp [Vec.WF, Vec.fill]⟩) u2
  refine ⟨m, _, _, γ, hm, by rw [hr.2.2.2.2.1]; exact bm_has m 4 4 T, by rw [hv]; exact bv_has m 4 h,
    ⟨t3, by rw [solveStageAnalytic_eq g1, e3], ?_⟩, ?_⟩
  · have := v3.root_g
    simp only [pow_zero, mul_one, proN] at this
    simp only [this]
    have e : bv m 4 (toBv m (fun k => (Vec.ofFn (4 * m) γ).data.getD k 0)) = Vec.ofFn (4 * m) γ := by
      rw [← has_bv (has_of_wf rfl (Vec.has_ofFn (4 * m) γ).2.1)]
    rw [e]
    exact Vec.has_ofFn _ _
  · intro a b r hbc hns k hk
    have hrect : rect t2'.val.grid = R := by
      obtain ⟨x1, x2, x3, x4⟩ := hr.2.2.2.1
      unfold rect
      rw [x1, x2, x3, x4]
    have key : ∀ k, k < 4 * m → bval (·.1) bc t2'.val.grid m k = r k ∧ bval (·.2.1) bc t2'.val.grid m k = a k ∧
        bval (·.2.2) bc t2'.val.grid m k = b k := by
      intro k hk
      have hs4 : k / m < 4 := Nat.div_lt_of_lt_mul (by rwa [Nat.mul_comm] at hk)
      have hkm : k / m * m + k % m = k := by rw [Nat.mul_comm]; exact Nat.div_add_mod k m
      have := hbc (k / m) hs4 (k % m) (Nat.mod_lt _ hm)
      rw [hkm] at this
      unfold bval
      rw [boundaryPoint_eq hr.2.1 hr.2.2.1 hs4, hrect, this]
      exact ⟨rfl, rfl, rfl⟩
    have hns' : Nonsing (4 * m) (fun i j => (if i = j then bval (·.2.1) bc t2'.val.grid m i else 0) +
        bval (·.2.2) bc t2'.val.grid m i * T (i / m) (j / m) (i % m) (j % m)) := by
      refine hns.congr ?_
      intro i hi j hj
      obtain ⟨_, k2, k3⟩ := key i hi
      rw [k2, k3]
    have := g2 hns' k hk
    obtain ⟨k1, k2, k3⟩ := key k hk
    rw [k1, k2, k3] at this
    exact this

/-- C26 for Dirichlet conditions (`a = 1`, `b = 0`): the root data are the values of the callback at the centres of the boundary
cells. -/
theorem C26_dirichlet [NeZero (2 : K)] (lap : Lapack K) {ps : PatchSolver K} (hN : 0 < N)
    (hs : SolverShapes N ps) {opt : HPSOptions} (ho : opt.homogeneousRhs = false) {t : Tree (Patch K)} {R : Rect K}
    (ht : Init N t R) (h3 : 3 ≤ N ∨ ∃ d, Uniform d t) {t1 t2 : Tree (Patch K)} {c1 : Option (Mat K)}
    (h1 : buildStage lap ps opt t none = .ok (t1, c1)) {f : K → K → K} (h2 : upwardsStageAnalytic lap ps opt f t1 = .ok t2)
    (r : Nat → K → K → K) :
    ∃ m, 0 < m ∧ (solveStageAnalytic lap ps opt (fun s x y => (r s x y, 1, 0)) t2).Returns (fun t3 => ∃ γ, t3.val.g.Has (4 * m) γ ∧
      ∀ s, s < 4 → ∀ i, i < m → γ (s * m + i) = r s (sidePoint R m s i).1 (sidePoint R m s i).2) := by
  obtain ⟨m, τ, η, γ, hm, hT, hh, ⟨t3, e3, g3⟩, key⟩ := C26_root_condition lap hN hs ho ht h3 h1 h2 (fun s x y => (r s x y, 1, 0))
  refine ⟨m, hm, t3, e3, γ, g3, fun s hs4 i hi => ?_⟩
  have hk : s * m + i < 4 * m := by
    calc s * m + i < s * m + m := by omega
      _ = (s + 1) * m := by ring
      _ ≤ 4 * m := Nat.mul_le_mul_right m (by omega)
  have := key (fun _ => 1) (fun _ => 0) (fun k => r (k / m) (sidePoint R m (k / m) (k % m)).1 (sidePoint R m (k / m) (k % m)).2)
    (by
      intro s _ i hi
      have e1 : (s * m + i) / m = s := by rw [Nat.mul_comm, Nat.mul_add_div hm, Nat.div_eq_of_lt hi, Nat.add_zero]
      have e2 : (s * m + i) % m = i := by rw [Nat.mul_comm, Nat.mul_add_mod, Nat.mod_eq_of_lt hi]
      simp only [e1, e2])
    (by
      intro v hv i hi
      have := hv i hi
      simp only [zero_mul, add_zero] at this
      rw [Finset.sum_eq_single i] at this
      · simpa using this
      · intro j _ hj; simp [Ne.symm hj]
      · intro h; exact absurd (mem_range.mpr hi) h) (s * m + i) hk
  have e1 : (s * m + i) / m = s := by rw [Nat.mul_comm, Nat.mul_add_div hm, Nat.div_eq_of_lt hi, Nat.add_zero]
  have e2 : (s * m + i) % m = i := by rw [Nat.mul_comm, Nat.mul_add_mod, Nat.mod_eq_of_lt hi]
  simp only [e1, e2, zero_mul, add_zero, one_mul] at this
  exact this

/-- The hypotheses of C26 hold for a variable coefficient problem on an adaptive tree. -/
example (lap : Lapack ℚ) (lu : PetscLU ℚ) : ∃ t1 c1 t2, buildStage lap (exPde.toPatchSolver lu) ⟨false, false⟩
      (freshTree 4 exShape unitSquare) none = .ok (t1, c1) ∧
    upwardsStageAnalytic lap (exPde.toPatchSolver lu) ⟨false, false⟩ (fun x y => x + y) t1 = .ok t2 := by
  obtain ⟨t1, c1, t3, h1, h2, _⟩ := C20_stages_succeed_functions lap (by omega) (FVSolver.shapes lu exPde (n := 4) (by omega))
    (opt := ⟨false, false⟩) rfl (freshTree_init 4 exShape unitSquare) (Or.inl (by omega)) (fun x y => x + y)
    (fun _ _ _ => (0, 1, 0))
  obtain ⟨t2, h, _⟩ := Res.bind_eq_ok.mp h2
  exact ⟨t1, c1, t2, h1, h⟩

/-! ### C29 -/

/-- The flux a leaf operator gives is the derivative of the leaf solution. -/
theorem leafDeriv_eq (lu : PetscLU K) (s : FVSolver K) (hN : 2 ≤ N) {p : Patch K} {T : Blk K} {h g : Nat → Nat → K}
    (hx : p.grid.nx = N) (hy : p.grid.ny = N) (hq : Unique s (rect p.grid) N N) (hL : LPs N (s.toPatchSolver lu) p.grid T)
    (hH : HPs N (s.toPatchSolver lu) p.grid p.f h) (hg : p.g = bv N 4 g) (hu : UPs N (s.toPatchSolver lu) p.grid g p.f p.u) :
    ∀ d, d < 4 → ∀ i, i < N → leafDeriv N p d i = opFlux N T g h d i := by
  intro d hd i hi
  have hN0 : 0 < N := by omega
  obtain ⟨⟨f1, f2⟩, hH⟩ := hH
  obtain ⟨φ, hφ⟩ : ∃ φ, p.f = Vec.ofFn (N * N) φ := ⟨_, Vec.has_iff.mp (has_of_wf f1 f2)⟩
  obtain ⟨a, η, t1, t2, t3⟩ := FVSolver.represent lu s hN hx hy hq φ
  obtain ⟨U, u1, u2⟩ := FVSolver.solve_ok lu s hN hx hy (fun k => g (k / N) (k % N)) φ
  have e1 : bv N 4 g = Vec.ofFn (4 * N) (fun k => g (k / N) (k % N)) := rfl
  have eU : p.u = Vec.ofFn (N * N) U := by
    have hu : s.solve lu p.grid (bv N 4 g) p.f = .ok p.u := hu
    rw [hφ, e1, u1] at hu
    exact (Res.ok_inj.mp hu).symm
  have hk : d * N + i < 4 * N := by
    calc d * N + i < d * N + N := by omega
      _ = (d + 1) * N := by ring
      _ ≤ 4 * N := Nat.mul_le_mul_right N (by omega)
  have d1 : (d * N + i) / N = d := by rw [Nat.mul_comm, Nat.mul_add_div hN0, Nat.div_eq_of_lt hi, Nat.add_zero]
  have d2 : (d * N + i) % N = i := by rw [Nat.mul_comm, Nat.mul_add_mod, Nat.mod_eq_of_lt hi]
  have key := t3 _ _ (u2 hq) (d * N + i) hk
  rw [d1, d2] at key
  have hη : η (d * N + i) = h d i := by
    have hH : s.particularNeumannData lu p.grid p.f = .ok (bv N 4 h) := hH
    rw [hφ, t2] at hH
    have := Vec.ofFn_inj (Res.ok_inj.mp hH) _ hk
    rw [d1, d2] at this
    exact this
  have hL : s.buildD2N lu p.grid = .ok (bm N 4 4 T) := hL
  rw [t1] at hL
  have ha : ∀ j, j < 4 * N → a (d * N + i) j = T d (j / N) i (j % N) := by
    intro j hj
    have := Mat.ofFn_inj (Res.ok_inj.mp hL) _ hk _ hj
    rw [d1, d2] at this
    exact this
  have getU : ∀ k, k < N * N → (Vec.ofFn (N * N) U).data.getD k 0 = U k := by
    intro k hk
    exact getD_listFn hk 0
  have getG : ∀ k, k < 4 * N → (bv N 4 g).data.getD k 0 = g (k / N) (k % N) := by
    intro k hk
    rw [e1]
    exact getD_listFn hk 0
  have hdv : leafDeriv N p d i = deriv (rect p.grid) N N (Bdry.ofFn N (fun k => g (k / N) (k % N))) (fun i j => U (j + i * N)) d i := by
    unfold leafDeriv
    rw [eU, hg]
    refine deriv_congr hN0 ?_ ?_ ?_ ?_ ?_ hi
    · intro j hj; exact getG _ (by omega)
    · intro j hj; exact getG _ (by omega)
    · intro j hj; exact getG _ (by omega)
    · intro j hj; exact getG _ (by omega)
    · intro i hi j hj; exact getU _ (FVSolver.idx_lt hi hj)
  rw [hdv, key, hη]
  unfold opFlux app
  congr 1
  rw [sum_range_mul 4 N (fun j => a (d * N + i) j * g (j / N) (j % N))]
  refine Finset.sum_congr rfl fun q hq => Finset.sum_congr rfl fun j hj => ?_
  rw [mem_range] at hq hj
  have hqj : q * N + j < 4 * N := by
    calc q * N + j < q * N + N := by omega
      _ = (q + 1) * N := by ring
      _ ≤ 4 * N := Nat.mul_le_mul_right N (by omega)
  have d1 : (q * N + j) / N = q := by rw [Nat.mul_comm, Nat.mul_add_div hN0, Nat.div_eq_of_lt hj, Nat.add_zero]
  have d2 : (q * N + j) % N = j := by rw [Nat.mul_comm, Nat.mul_add_mod, Nat.mod_eq_of_lt hj]
  rw [ha _ hqj, d1, d2]

/-- C29 for the finite volume solver, for all data and all adaptive trees on which the interface systems met by the build
stage are nonsingular (C19): at every branch, on each cell of the coarser side of each of the four interfaces, the mean of
the coordinate derivatives of the leaf solutions on one side is the mean of those on the other side.  (Missing for the full
claim: the interface systems of an elliptic problem are nonsingular on adaptive trees; the flux is the derivative, without
the factor `beta`.) -/
theorem C29_flux_conserved_partial [CharZero K] (lap : Lapack K) (lu : PetscLU K) {s : FVSolver K} (hN : 2 ≤ N)
    {opt : HPSOptions} (hc : opt.cacheOperators = false) {t : Tree (Patch K)} {R : Rect K} (ht : Init N t R)
    (h3 : 3 ≤ N ∨ ∃ d, Uniform d t) (hq : ∀ p ∈ t.leaves, Unique s (rect p.grid) N N) {d : Data K} (hd : d.Sized)
    {t1 t3 : Tree (Patch K)} {c1 : Option (Mat K)} (h1 : buildStage lap (s.toPatchSolver lu) opt t none = .ok (t1, c1))
    (h2 : run lap (s.toPatchSolver lu) opt d t1 = .ok t3) (hX : Branches (fun p => NonsingularMat p.X) t1) :
    Conserved N (leafDeriv N) t3 := by
  have hs := FVSolver.shapes lu s hN
  obtain ⟨t1', m, T, e1, b1, _⟩ := buildStage_ok lap hs hc (by omega) ht h3 none
  rw [h1] at e1
  obtain ⟨rfl, rfl⟩ := Prod.mk.inj (Res.ok_inj.mp e1)
  have b2 := b1.leaves (P := fun grid => Unique s (rect grid) N N) (by
    rw [buildStage_leaves h1]
    intro grid hg
    obtain ⟨p, hp, rfl⟩ := List.mem_map.mp hg
    exact hq p hp)
  obtain ⟨t2, h, e2, u2, _, _, s2, x2⟩ := upwardsStage_okX
    (HP := fun grid f h => (f.size = N * N ∧ f.WF) ∧ (Unique s (rect grid) N N → grid.nx = N → grid.ny = N →
      (s.toPatchSolver lu).particularNeumannData grid f = .ok (bv N 4 h))) lap hs opt
    (Data.setsLoad hd) (fun grid f h _ a b c => ⟨⟨a, b⟩, fun _ _ _ => c⟩) b2
  obtain ⟨t3', e3, v3, s3, x3⟩ := solveStage_okX hs opt (Data.setsBoundary hd m) (fun _ _ _ h => h.1)
    (fun _ grid _ _ => ⟨⟨rfl, by simp [Vec.WF, Vec.fill]⟩, fun hq hx hy => by
      obtain ⟨H, H1, H2⟩ := (FVSolver.linearLeaf lu s hN hx hy hq).flux'
      rw [Vec.fill_eq (N * N), H1]
      congr 1
      unfold bv
      refine Vec.ofFn_congr fun i hi => ?_
      have := H2 0 0 (fun _ => 0) (fun _ => 0) i hi
      simpa using this⟩) u2
  have : t3' = t3 := by
    unfold run at h2
    rw [e2, Res.ok_bind, e3] at h2
    exact Res.ok_inj.mp h2
  subst this
  rw [branches_xs, ← x2, ← x3, ← branches_xs] at hX
  refine (v3.flux (φ := leafDeriv N) ?_ hX).2
  intro p T h g hx hy hL hh hg hu
  exact leafDeriv_eq lu s hN hx hy hL.2 hL.1 ⟨hh.1, hh.2 hL.2 hx hy⟩ hg hu

end EF
