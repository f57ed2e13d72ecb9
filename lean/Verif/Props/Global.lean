import Verif.Proofs.GlobalTree
import Verif.Props.Stages

/-!
# Uniformly refined meshes: the global finite volume solution (C18) and nonsingularity (C19)
-/

namespace EF

open Finset FV HPS

variable {K : Type} [Field K] [LinearOrder K] [IsStrictOrderedRing K] {N : Nat}

/-- The three stages on a uniform tree. -/
theorem solve_global (lap : Lapack K) (lu : PetscLU K) {s : FVSolver K} (hN : 2 ≤ N) {opt : HPSOptions}
    (hc : opt.cacheOperators = false) (ho : opt.homogeneousRhs = false) {t : Tree (Patch K)} {R : Rect K} (ht : Init N t R)
    {d : Nat} (hu : Uniform d t) (hR : Proper R) (hE : EllipticOn s R) {rhs : Patch K → Res (Patch K)} {φ : Grid K → Vec K}
    (hφ : SetsLoad N rhs φ) {bdry : Patch K → Res (Patch K)} {γ : Patch K → Vec K} (hγ : SetsBoundary (N * 2 ^ d) bdry γ)
    {t1 t2 t3 : Tree (Patch K)} {c1 : Option (Mat K)}
    (h1 : buildStage lap (s.toPatchSolver lu) opt t none = .ok (t1, c1))
    (h2 : upwardsStage lap (s.toPatchSolver lu) opt rhs t1 = .ok t2)
    (h3 : solveStage (s.toPatchSolver lu) opt bdry t2 = .ok t3) :
    t2.val.grid = ⟨N * 2 ^ d, N * 2 ^ d, R.xl, R.xu, R.yl, R.yu⟩ ∧ t3.val.g.data = (γ t2.val).data ∧ 
      Solves s R (N * 2 ^ d) (N * 2 ^ d) (Bdry.ofFn (N * 2 ^ d) (fun k => (γ t2.val).data.getD k 0))
        (gridFn N (fun p => φ p.grid) t) (gridFn N (·.u) t3) ∧
      Branches (fun p => NonsingularMat p.X) t3 := by
  have hs := FVSolver.shapes lu s hN
  obtain ⟨t1', m, T, e1, b1, s1, hm⟩ := buildStage_ok lap hs hc (by omega) ht (Or.inr ⟨d, hu⟩) none
  rw [h1] at e1
  obtain ⟨rfl, rfl⟩ := Prod.mk.inj (Res.ok_inj.mp e1)
  obtain rfl := hm d hu
  obtain ⟨t2', h, e2, u2, _, _, s2⟩ := upwardsStage_ok'
    (HP := fun grid f h => f = φ grid ∧ HPs N (s.toPatchSolver lu) grid f h) lap hs opt hφ
    (fun grid f h a b c e => ⟨a, ⟨b, c⟩, e⟩) b1
  rw [h2] at e2
  obtain rfl := Res.ok_inj.mp e2
  obtain ⟨t3', e3, v3, s3⟩ := solveStage_ok hs opt hγ (fun _ _ _ h => h.2.1) (fun h => by rw [ho] at h; cases h) u2
  rw [h3] at e3
  obtain rfl := Res.ok_inj.mp e3
  have hr := u2.built.root
  simp only [pow_zero, mul_one] at hr
  obtain ⟨_, r1, r2, ⟨r3, r4, r5, r6⟩, _⟩ := hr
  have hsh : t3.shape = t.shape := by rw [s3, s2, s1]
  have hu3 : Uniform d t3 := uniform_shape.mp (hsh ▸ uniform_shape.mpr hu)
  obtain ⟨_, _, g3, g4⟩ := v3.global lu hN (P := fun grid f => f = φ grid) rfl hu3 hR hE
  obtain ⟨y1, y2⟩ := hγ.2 t2.val r1 r2
  have hroot := v3.root_g
  simp only [pow_zero, mul_one] at hroot
  have hgv := has_bv (has_of_wf y1 y2)
  have hgrid : t2.val.grid = ⟨N * 2 ^ d, N * 2 ^ d, R.xl, R.xu, R.yl, R.yu⟩ := by
    cases hg : t2.val.grid
    rw [hg] at r1 r2 r3 r4 r5 r6
    simp only at *
    subst_vars
    rfl
  refine ⟨hgrid, ?_, ?_, g4⟩
  · rw [hroot]
    conv_rhs => rw [hgv]
    rfl
  · have hq := unique_of_elliptic hR hE (N * 2 ^ d) (N * 2 ^ d)
    obtain ⟨U, hU⟩ := exists_of_unique hq (ofB (toBv (N * 2 ^ d) (fun k => (γ t2.val).data.getD k 0))) (gridFn N (·.f) t3)
    have hv := g3 U hU
    rw [← v3.load ht hsh]
    refine hU.congr ?_ ?_ ?_ ?_ (fun _ _ _ _ => rfl) (fun i hi j hj => (hv i hi j hj).symm) <;> intro j hj <;>
      simp [ofB, toBv, Bdry.ofFn]

/-! ### C18 -/

/-- C18.  On a uniformly refined mesh of any depth, with any load per cell and any boundary values, the values on the leaves
put together into one array satisfy the finite volume equation of the global grid in every cell. -/
theorem C18_global_finite_volume (lap : Lapack K) (lu : PetscLU K) {s : FVSolver K} (hN : 2 ≤ N) {opt : HPSOptions}
    (hc : opt.cacheOperators = false) (ho : opt.homogeneousRhs = false) {t : Tree (Patch K)} {R : Rect K} (ht : Init N t R)
    {d : Nat} (hu : Uniform d t) (hR : Proper R) (hE : EllipticOn s R) {dat : Data K} (hd : dat.Sized)
    {t1 t3 : Tree (Patch K)} {c1 : Option (Mat K)} (h1 : buildStage lap (s.toPatchSolver lu) opt t none = .ok (t1, c1))
    (h2 : run lap (s.toPatchSolver lu) opt dat t1 = .ok t3) :
    Solves s R (N * 2 ^ d) (N * 2 ^ d)
      (Bdry.ofFn (N * 2 ^ d) (fun k => (dat.bdry ⟨N * 2 ^ d, N * 2 ^ d, R.xl, R.xu, R.yl, R.yu⟩).data.getD k 0))
      (gridFn N (fun p => dat.load p.grid) t) (gridFn N (·.u) t3) := by
  unfold run at h2
  obtain ⟨t2, e2, e3⟩ := Res.bind_eq_ok.mp h2
  have := solve_global lap lu hN hc ho ht hu hR hE (Data.setsLoad hd) (Data.setsBoundary hd (N * 2 ^ d)) h1 e2 e3
  rw [this.1] at this
  exact this.2.2.1

/-- Dirichlet values `r` at the centres of the boundary cells. -/
def dirichletAt (R : Rect K) (m : Nat) (r : Nat → K → K → K) : Bdry K :=
  ⟨fun k => r 0 (sidePoint R m 0 k).1 (sidePoint R m 0 k).2, fun k => r 1 (sidePoint R m 1 k).1 (sidePoint R m 1 k).2,
    fun k => r 2 (sidePoint R m 2 k).1 (sidePoint R m 2 k).2, fun k => r 3 (sidePoint R m 3 k).1 (sidePoint R m 3 k).2⟩

omit [LinearOrder K] [IsStrictOrderedRing K] in
/-- A function sampled at the cell centres of every leaf is the function sampled at the cell centres of the global grid. -/
theorem gridFn_sampled [CharZero K] (hN : 0 < N) {f : K → K → K} {φ : Grid K → Vec K} (hφ : ∀ grid, sampleLoad f grid = .ok (φ grid))
    {t : Tree (Patch K)} {R : Rect K} (ht : Init N t R) {d : Nat} (hu : Uniform d t) :
    ∀ i, i < N * 2 ^ d → ∀ j, j < N * 2 ^ d →
      gridFn N (fun p => φ p.grid) t i j = f (cx R (N * 2 ^ d) i) (cy R (N * 2 ^ d) j) := by
  induction ht generalizing d with
  | @leaf p R hk hx hy hR =>
    cases hu
    intro i hi j hj
    simp only [pow_zero, mul_one] at hi hj ⊢
    obtain ⟨F, h1, ψ, h2, h3⟩ := C33_load_sampled f p.grid
    rw [hφ] at h1
    obtain rfl := Res.ok_inj.mp h1
    rw [rect_eq hR, hx, hy] at h3
    rw [← h3 i hi j hj]
    unfold gridFn
    rw [hx, hy] at h2
    rw [Vec.has_iff.mp h2]
    exact getD_listFn (FVSolver.idx_lt hi hj) 0
  | @node p R c0 c1 c2 c3 hk h0 h1 h2 h3 i0 i1 i2 i3 =>
    cases hu with
    | @node d' _ _ _ _ _ u0 u1 u2 u3 =>
    intro i hi j hj
    have hn : 0 < N * 2 ^ d' := by positivity
    have e : N * 2 ^ (d' + 1) = 2 * (N * 2 ^ d') := by ring
    rw [e] at hi hj ⊢
    rw [gridFn, cells_uniform u0]
    replace i0 := i0 u0
    replace i1 := i1 u1
    replace i2 := i2 u2
    replace i3 := i3 u3
    generalize N * 2 ^ d' = n at *
    split_ifs with a b b
    · rw [i0 i a j b, cx_quarter R hn, cy_quarter R hn (by omega)]; simp
    · rw [i2 i a (j - n) (by omega), cx_quarter R hn, cy_quarter R hn (by omega)]
      congr 2
      · simp
      · omega
    · rw [i1 (i - n) (by omega) j b, cx_quarter R hn, cy_quarter R hn (by omega)]
      congr 2
      · omega
      · simp
    · rw [i3 (i - n) (by omega) (j - n) (by omega), cx_quarter R hn, cy_quarter R hn (by omega)]
      congr 2
      · omega
      · omega

/-- C18 for a load `f` and Dirichlet values `r` given as functions: the leaf values solve the finite volume problem of the global
grid with `f` at the cell centres and `r` at the centres of the boundary cells. -/
theorem C18_global_finite_volume_functions (lap : Lapack K) (lu : PetscLU K) {s : FVSolver K} (hN : 2 ≤ N) {opt : HPSOptions}
    (hc : opt.cacheOperators = false) (ho : opt.homogeneousRhs = false) {t : Tree (Patch K)} {R : Rect K} (ht : Init N t R)
    {d : Nat} (hu : Uniform d t) (hR : Proper R) (hE : EllipticOn s R) (f : K → K → K) (r : Nat → K → K → K)
    {t1 t3 : Tree (Patch K)} {c1 : Option (Mat K)} (h1 : buildStage lap (s.toPatchSolver lu) opt t none = .ok (t1, c1))
    (h2 : (Request.functions f (fun s x y => (r s x y, 1, 0))).run lap (s.toPatchSolver lu) opt t1 = .ok t3) :
    Solves s R (N * 2 ^ d) (N * 2 ^ d) (dirichletAt R (N * 2 ^ d) r)
      (fun i j => f (cx R (N * 2 ^ d) i) (cy R (N * 2 ^ d) j)) (gridFn N (·.u) t3) := by
  have hs := FVSolver.shapes lu s hN
  unfold Request.run at h2
  obtain ⟨t2, e2, e3⟩ := Res.bind_eq_ok.mp h2
  obtain ⟨φ, f1, f2⟩ := sampleLoad_fn f
  have e2' := e2
  rw [upwardsStageAnalytic_eq lap _ opt f1] at e2
  have hφ : SetsLoad N (fun p => .ok { p with f := φ p.grid }) φ :=
    ⟨fun _ => rfl, fun grid hx hy => by have := f2 grid; rwa [hx, hy] at this⟩
  obtain ⟨m, hm, t3', e3', γ, g1, g2⟩ := C26_dirichlet lap (by omega) hs ho ht (Or.inr ⟨d, hu⟩) h1 e2' r
  rw [e3] at e3'
  obtain rfl := Res.ok_inj.mp e3'
  have e3'' := e3
  unfold solveStageAnalytic at e3
  obtain ⟨g, e4, e5⟩ := Res.bind_eq_ok.mp e3
  rw [solveStageAnalytic_eq e4] at e3''
  -- the root has `N * 2 ^ d` cells per side
  obtain ⟨t1', m', T, b0, b1, s1, hm'⟩ := buildStage_ok lap hs hc (by omega) ht (Or.inr ⟨d, hu⟩) none
  rw [h1] at b0
  obtain ⟨rfl, rfl⟩ := Prod.mk.inj (Res.ok_inj.mp b0)
  obtain rfl := hm' d hu
  obtain ⟨t2', h, x2, u2, v2, _, s2⟩ := upwardsStage_ok (HP := HP0 N) lap hs opt hφ (fun grid f h a b _ => ⟨a, b⟩) b1
  rw [e2] at x2
  obtain rfl := Res.ok_inj.mp x2
  have hr := u2.built.root
  simp only [pow_zero, mul_one, crsN] at hr
  have hv := v2 ho
  simp only [pow_zero, mul_one] at hv
  obtain ⟨γ', w1, _⟩ := rootDirichlet_ok lap (fun s x y => (r s x y, 1, 0)) (by positivity : 0 < N * 2 ^ d) hr.2.1 hr.2.2.2.2.1 hv
  rw [e4] at w1
  obtain rfl := Res.ok_inj.mp w1
  have key := solve_global lap lu hN hc ho ht hu hR hE hφ (bdry := fun p => .ok { p with g := Vec.ofFn (4 * (N * 2 ^ d)) γ' })
    (γ := fun _ => Vec.ofFn (4 * (N * 2 ^ d)) γ') ⟨fun _ => rfl, fun _ _ _ => ⟨rfl, (Vec.has_ofFn _ _).2.1⟩⟩ h1 e2 e3''
  obtain ⟨_, k2, k3, _⟩ := key
  have hmM : m = N * 2 ^ d := by
    have h1 := congrArg List.length k2
    rw [g1.2.1] at h1
    simp [Vec.ofFn] at h1
    omega
  subst hmM
  have hγ : ∀ k, k < 4 * (N * 2 ^ d) → γ' k = γ k := by
    intro k hk
    have : t3.val.g.data.getD k 0 = (Vec.ofFn (4 * (N * 2 ^ d)) γ').data.getD k 0 := by rw [k2]
    rw [Vec.has_iff.mp g1] at this
    have a1 : (Vec.ofFn (4 * (N * 2 ^ d)) γ).data.getD k 0 = γ k := getD_listFn hk 0
    have a2 : (Vec.ofFn (4 * (N * 2 ^ d)) γ').data.getD k 0 = γ' k := getD_listFn hk 0
    rw [a1, a2] at this
    exact this.symm
  have hval : ∀ side, side < 4 → ∀ i, i < N * 2 ^ d → (Vec.ofFn (4 * (N * 2 ^ d)) γ').data.getD (side * (N * 2 ^ d) + i) 0
      = r side (sidePoint R (N * 2 ^ d) side i).1 (sidePoint R (N * 2 ^ d) side i).2 := by
    intro side hs4 i hi
    have hk : side * (N * 2 ^ d) + i < 4 * (N * 2 ^ d) := Mat.idx_lt hs4 hi
    have a2 : (Vec.ofFn (4 * (N * 2 ^ d)) γ').data.getD (side * (N * 2 ^ d) + i) 0 = γ' (side * (N * 2 ^ d) + i) := getD_listFn hk 0
    rw [a2, hγ _ hk, g2 side hs4 i hi]
  refine k3.congr ?_ ?_ ?_ ?_ (gridFn_sampled (by omega) f1 ht hu) (fun _ _ _ _ => rfl)
  · intro j hj
    have := hval 0 (by omega) j hj
    rw [zero_mul, zero_add] at this
    exact this
  · intro j hj
    have := hval 1 (by omega) j hj
    rw [one_mul] at this
    exact this
  · intro j hj; exact hval 2 (by omega) j hj
  · intro j hj; exact hval 3 (by omega) j hj

/-- C18: the result does not depend on how the grid is cut into patches: two uniformly refined meshes of the same region with the
same number of cells give the same value in every cell. -/
theorem C18_independent_of_cut (lap lap' : Lapack K) (lu lu' : PetscLU K) {s : FVSolver K} {N N' d d' : Nat} (hN : 2 ≤ N)
    (hN' : 2 ≤ N') (hM : N * 2 ^ d = N' * 2 ^ d') {opt : HPSOptions} (hc : opt.cacheOperators = false)
    (ho : opt.homogeneousRhs = false) {R : Rect K} (hR : Proper R) (hE : EllipticOn s R) {t t' : Tree (Patch K)} (ht : Init N t R)
    (hu : Uniform d t) (ht' : Init N' t' R) (hu' : Uniform d' t') (f : K → K → K) (r : Nat → K → K → K)
    {t1 t3 t1' t3' : Tree (Patch K)} {c1 c1' : Option (Mat K)}
    (h1 : buildStage lap (s.toPatchSolver lu) opt t none = .ok (t1, c1))
    (h2 : (Request.functions f (fun s x y => (r s x y, 1, 0))).run lap (s.toPatchSolver lu) opt t1 = .ok t3)
    (h1' : buildStage lap' (s.toPatchSolver lu') opt t' none = .ok (t1', c1'))
    (h2' : (Request.functions f (fun s x y => (r s x y, 1, 0))).run lap' (s.toPatchSolver lu') opt t1' = .ok t3') :
    ∀ i, i < N * 2 ^ d → ∀ j, j < N * 2 ^ d → gridFn N (·.u) t3 i j = gridFn N' (·.u) t3' i j := by
  have a := C18_global_finite_volume_functions lap lu hN hc ho ht hu hR hE f r h1 h2
  have b := C18_global_finite_volume_functions lap' lu' hN' hc ho ht' hu' hR hE f r h1' h2'
  rw [← hM] at b
  exact unique_of_elliptic hR hE _ _ _ _ _ _ a b

/-- Shape of a tree refined twice everywhere. -/
def exUniform : Tree Unit :=
  let q : Tree Unit := .node () (.leaf ()) (.leaf ()) (.leaf ()) (.leaf ())
  .node () q q q q

theorem exUniform_uniform (N : Nat) : Uniform 2 (freshTree N exUniform unitSquare) :=
  .node _ (.node _ (.leaf _) (.leaf _) (.leaf _) (.leaf _)) (.node _ (.leaf _) (.leaf _) (.leaf _) (.leaf _))
    (.node _ (.leaf _) (.leaf _) (.leaf _) (.leaf _)) (.node _ (.leaf _) (.leaf _) (.leaf _) (.leaf _))

/-- The hypotheses of C18 hold for a variable coefficient problem on a mesh refined twice, and the same grid as one patch. -/
example (lap : Lapack ℚ) (lu : PetscLU ℚ) (f : ℚ → ℚ → ℚ) (bc : BoundaryFn ℚ) :
    (∃ t1 c1 t3, buildStage lap (exPde.toPatchSolver lu) ⟨false, false⟩ (freshTree 2 exUniform unitSquare) none = .ok (t1, c1) ∧
      (Request.functions f bc).run lap (exPde.toPatchSolver lu) ⟨false, false⟩ t1 = .ok t3) ∧
    (∃ t1 c1 t3, buildStage lap (exPde.toPatchSolver lu) ⟨false, false⟩ (freshTree 8 (.leaf ()) unitSquare) none = .ok (t1, c1) ∧
      (Request.functions f bc).run lap (exPde.toPatchSolver lu) ⟨false, false⟩ t1 = .ok t3) ∧
    Uniform 2 (freshTree 2 exUniform unitSquare) ∧ Proper unitSquare ∧ EllipticOn exPde unitSquare := by
  refine ⟨?_, ?_, exUniform_uniform 2, exPde_elliptic_unit⟩
  · obtain ⟨t1, c1, t3, h1, h2, _⟩ := C20_stages_succeed_functions lap (by omega) (FVSolver.shapes lu exPde (n := 2) (by omega))
      (opt := ⟨false, false⟩) rfl (freshTree_init 2 exUniform unitSquare) (Or.inr ⟨2, exUniform_uniform 2⟩) f bc
    exact ⟨t1, c1, t3, h1, h2⟩
  · obtain ⟨t1, c1, t3, h1, h2, _⟩ := C20_stages_succeed_functions lap (by omega) (FVSolver.shapes lu exPde (n := 8) (by omega))
      (opt := ⟨false, false⟩) rfl (freshTree_init 8 (.leaf ()) unitSquare) (Or.inl (by omega)) f bc
    exact ⟨t1, c1, t3, h1, h2⟩

/-! ### C19 -/

/-- C19.  For an elliptic problem on a uniformly refined mesh of any depth every linear system met is nonsingular: the interface
systems of the build stage, those of the upwards stage after any run, and the systems assembled by the leaf solver for any
boundary values and load. -/
theorem C19_nonsingular (lap : Lapack K) (lu : PetscLU K) {s : FVSolver K} (hN : 2 ≤ N) {opt : HPSOptions}
    (hc : opt.cacheOperators = false) (ho : opt.homogeneousRhs = false) {t : Tree (Patch K)} {R : Rect K} (ht : Init N t R)
    {d : Nat} (hu : Uniform d t) (hR : Proper R) (hE : EllipticOn s R)
    {t1 : Tree (Patch K)} {c1 : Option (Mat K)} (h1 : buildStage lap (s.toPatchSolver lu) opt t none = .ok (t1, c1)) :
    Branches (fun p => NonsingularMat p.X) t1 ∧
      (∀ (dat : Data K) (t3 : Tree (Patch K)), dat.Sized → run lap (s.toPatchSolver lu) opt dat t1 = .ok t3 →
        Branches (fun p => NonsingularMat p.X) t3) ∧
      ∀ p ∈ t.leaves, ∀ (g f : Vec K) (γ φ : Nat → K), g.Has (4 * N) γ → f.Has (N * N) φ →
        ∃ gs st, FVSolver.sides p.grid g = .ok gs ∧ FVSolver.assemble s p.grid gs f = .ok st ∧ Nonsing (N * N) st.A := by
  refine ⟨?_, ?_, ?_⟩
  · obtain ⟨t1', m', T, b0, b1, s1, hm'⟩ := buildStage_ok lap (FVSolver.shapes lu s hN) hc (by omega) ht (Or.inr ⟨d, hu⟩) none
    rw [h1] at b0
    obtain ⟨rfl, rfl⟩ := Prod.mk.inj (Res.ok_inj.mp b0)
    have hu1 : Uniform d t1 := uniform_shape.mp (s1 ▸ uniform_shape.mpr hu)
    exact (b1.global lu hN rfl hu1 hR hE).2
  · intro dat t3 hd h2
    unfold run at h2
    obtain ⟨t2, e2, e3⟩ := Res.bind_eq_ok.mp h2
    exact (solve_global lap lu hN hc ho ht hu hR hE (Data.setsLoad hd) (Data.setsBoundary hd (N * 2 ^ d)) h1 e2 e3).2.2.2
  · intro p hp g f γ φ hg hf
    obtain ⟨hx, hy⟩ := ht.leaves p hp
    obtain ⟨p1, p2⟩ := ht.elliptic hR hE p hp
    rw [Vec.has_iff.mp hg, Vec.has_iff.mp hf]
    exact FVSolver.assembled_nonsing s hN hx hy γ φ (unique_of_elliptic p1 p2 N N)

/-- The hypotheses of C19 hold for a variable coefficient problem on a mesh refined twice. -/
example (lap : Lapack ℚ) (lu : PetscLU ℚ) : ∃ t1 c1,
    buildStage lap (exPde.toPatchSolver lu) ⟨false, false⟩ (freshTree 2 exUniform unitSquare) none = .ok (t1, c1) ∧
      Branches (fun p => NonsingularMat p.X) t1 := by
  obtain ⟨t1, c1, t3, h1, h2, _⟩ := C20_stages_succeed lap (by omega) (FVSolver.shapes lu exPde (n := 2) (by omega))
      ⟨false, false⟩ (freshTree_init 2 exUniform unitSquare) (Or.inr ⟨2, exUniform_uniform 2⟩) exData_sized
  exact ⟨t1, c1, h1, (C19_nonsingular lap lu (by omega) rfl rfl (freshTree_init 2 exUniform unitSquare) (exUniform_uniform 2)
    exPde_elliptic_unit.1 exPde_elliptic_unit.2 h1).1⟩

/-- The hypotheses of `C29_flux_conserved_partial` hold on a uniform tree. -/
example (lap : Lapack ℚ) (lu : PetscLU ℚ) : ∃ t1 c1 t3,
    buildStage lap (exPde.toPatchSolver lu) ⟨false, false⟩ (freshTree 2 exUniform unitSquare) none = .ok (t1, c1) ∧
      run lap (exPde.toPatchSolver lu) ⟨false, false⟩ exData t1 = .ok t3 ∧ Conserved 2 (leafDeriv 2) t3 := by
  have hi := freshTree_init 2 exUniform unitSquare
  obtain ⟨t1, c1, t3, h1, h2, _⟩ := C20_stages_succeed lap (by omega) (FVSolver.shapes lu exPde (n := 2) (by omega))
      ⟨false, false⟩ hi (Or.inr ⟨2, exUniform_uniform 2⟩) exData_sized
  refine ⟨t1, c1, t3, h1, h2, C29_flux_conserved_partial lap lu (by omega) rfl hi (Or.inr ⟨2, exUniform_uniform 2⟩) ?_ exData_sized h1 h2
    (C19_nonsingular lap lu (by omega) rfl rfl hi (exUniform_uniform 2) exPde_elliptic_unit.1 exPde_elliptic_unit.2 h1).1⟩
  intro p hp
  obtain ⟨p1, p2⟩ := hi.elliptic exPde_elliptic_unit.1 exPde_elliptic_unit.2 p hp
  exact unique_of_elliptic p1 p2 2 2

end EF
