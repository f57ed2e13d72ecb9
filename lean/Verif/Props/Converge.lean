import Verif.Proofs.Converge
import Verif.Proofs.Thermal
import Verif.Props.Exact
import Mathlib.Topology.Order.Compact
import Mathlib.Topology.MetricSpace.Lipschitz
import Mathlib.Analysis.SpecialFunctions.ExpDeriv

/-!
# Second order convergence on uniformly refined meshes (C69)
-/

namespace EF

open Finset FV HPS

section
variable {K : Type} [Field K] {N : Nat}

/-- C20, for loads and boundary conditions given as functions: the leaves of the result are where they were. -/
theorem C20_leaves_in_place [NeZero (2 : K)] (lap : Lapack K) {ps : PatchSolver K} (hN : 0 < N)
    (hs : SolverShapes N ps) {opt : HPSOptions} (ho : opt.homogeneousRhs = false) {t : Tree (Patch K)} {R : Rect K}
    (ht : Init N t R) (h3 : 3 ≤ N ∨ ∃ d, Uniform d t) (f : K → K → K) (bc : BoundaryFn K) {t1 t3 : Tree (Patch K)} {c1 : Option (Mat K)}
    (h1 : buildStage lap ps opt t none = .ok (t1, c1)) (h2 : (Request.functions f bc).run lap ps opt t1 = .ok t3) :
    Placed N t3 R ∧ t3.shape = t.shape := by
  obtain ⟨t1', c1', m, T, e1, b1, _, s1, _⟩ := buildStage_any lap hs opt hN ht h3 no_cache
  rw [h1] at e1
  obtain ⟨rfl, rfl⟩ := Prod.mk.inj (Res.ok_inj.mp e1)
  obtain ⟨φ, f1, f2⟩ := sampleLoad_fn f
  obtain ⟨t2, h, e2, u2, v2, _, s2⟩ := upwardsStage_ok (HP := HP0 N) lap hs opt
    (rhs := fun p => .ok { p with f := φ p.grid }) (φ := φ)
    ⟨fun _ => rfl, fun grid hx hy => by have := f2 grid; rwa [hx, hy] at this⟩ (fun grid f h a b _ => ⟨a, b⟩) b1
  have hr := u2.built.root
  simp only [pow_zero, mul_one, crsN] at hr
  have hm : 0 < m := by
    obtain ⟨j, hj⟩ := hr.2.2.2.2.2
    rw [hj]; positivity
  have hv := v2 ho
  simp only [pow_zero, mul_one] at hv
  obtain ⟨γ, g1, _⟩ := rootDirichlet_ok lap bc hm hr.2.1 hr.2.2.2.2.1 hv
  obtain ⟨t3', e3, v3, s3⟩ := solveStage_ok hs opt (m := m) (bdry := fun p => .ok { p with g := Vec.ofFn (4 * m) γ })
    (γ := fun _ => Vec.ofFn (4 * m) γ) ⟨fun _ => rfl, fun _ _ _ => ⟨rfl, (Vec.has_ofFn _ _).2.1⟩⟩ (HP := HP0 N)
    (fun _ _ _ h => h) (fun _ _ _ _ => ⟨rfl, by simp [Vec.WF, Vec.fill]⟩) u2
  have e : (Request.functions f bc).run lap ps opt t1 = .ok t3' := by
    show (upwardsStageAnalytic lap ps opt f t1 >>= fun t2 => solveStageAnalytic lap ps opt bc t2) = _
    rw [upwardsStageAnalytic_eq lap ps opt f1, e2, Res.ok_bind, solveStageAnalytic_eq g1, e3]
  rw [h2] at e
  obtain rfl := Res.ok_inj.mp e
  exact ⟨v3.placed, by rw [s3, s2, s1]⟩

/-- What holds for every cell of the global grid holds for every cell of every leaf. -/
theorem HPS.Placed.leaf_of_grid [CharZero K] (hN : 0 < N) {t : Tree (Patch K)} {R : Rect K} (ht : Placed N t R) {d : Nat} (hu : Uniform d t)
    (v : Patch K → Vec K) (P : K → K → K → Prop)
    (h : ∀ i, i < N * 2 ^ d → ∀ j, j < N * 2 ^ d → P (cx R (N * 2 ^ d) i) (cy R (N * 2 ^ d) j) (gridFn N v t i j)) :
    ∀ p ∈ t.leaves, p.grid.nx = N ∧ p.grid.ny = N ∧ ∀ i, i < N → ∀ j, j < N →
      P (cx (rect p.grid) N i) (cy (rect p.grid) N j) ((v p).data.getD (j + i * N) 0) := by
  induction ht generalizing d with
  | @leaf p R hx hy hR =>
    cases hu
    intro q hq
    obtain rfl : q = p := by simpa [Tree.leaves] using hq
    refine ⟨hx, hy, fun i hi j hj => ?_⟩
    rw [rect_eq hR]
    have := h i (by simpa using hi) j (by simpa using hj)
    simpa [gridFn] using this
  | @node p R c0 c1 c2 c3 h0 h1 h2 h3 i0 i1 i2 i3 =>
    cases hu with
    | @node d' _ _ _ _ _ u0 u1 u2 u3 =>
    have hn : 0 < N * 2 ^ d' := by positivity
    have e : N * 2 ^ (d' + 1) = 2 * (N * 2 ^ d') := by ring
    rw [e] at h
    have hc := cells_uniform (N := N) u0
    replace i0 := i0 u0
    replace i1 := i1 u1
    replace i2 := i2 u2
    replace i3 := i3 u3
    generalize N * 2 ^ d' = n at *
    intro q hq
    simp only [Tree.leaves, List.mem_append] at hq
    rcases hq with ((hq | hq) | hq) | hq
    · refine i0 (fun i hi j hj => ?_) q hq
      have := h i (by omega) j (by omega)
      rw [gridFn, hc] at this
      simp only [if_pos hi, if_pos hj] at this
      rw [cx_quarter R hn, cy_quarter R hn (by omega)]
      simpa using this
    · refine i1 (fun i hi j hj => ?_) q hq
      have := h (n + i) (by omega) j (by omega)
      rw [gridFn, hc] at this
      simp only [if_neg (by omega : ¬ n + i < n), if_pos hj, Nat.add_sub_cancel_left] at this
      rw [cx_quarter R hn, cy_quarter R hn (by omega)]
      simpa using this
    · refine i2 (fun i hi j hj => ?_) q hq
      have := h i (by omega) (n + j) (by omega)
      rw [gridFn, hc] at this
      simp only [if_neg (by omega : ¬ n + j < n), if_pos hi, Nat.add_sub_cancel_left] at this
      rw [cx_quarter R hn, cy_quarter R hn (by omega)]
      simpa using this
    · refine i3 (fun i hi j hj => ?_) q hq
      have := h (n + i) (by omega) (n + j) (by omega)
      rw [gridFn, hc] at this
      simp only [if_neg (by omega : ¬ n + j < n), if_neg (by omega : ¬ n + i < n), Nat.add_sub_cancel_left] at this
      rw [cx_quarter R hn, cy_quarter R hn (by omega)]
      simpa using this

end

/-- A smooth function that is positive on the closed rectangle has a positive lower bound. -/
theorem FV.Derivs.lower {R : Rect ℝ} (hR : Proper R) {u : ℝ → ℝ → ℝ} {Dx Dy : Nat → ℝ → ℝ → ℝ} {M : ℝ} (h : Derivs R u Dx Dy M)
    (hp : ∀ x y, Inside R x y → 0 < u x y) : ∃ b0, 0 < b0 ∧ ∀ x y, Inside R x y → b0 ≤ u x y := by
  have hM := h.nonneg hR
  have hx := h.lipschitz
  have hy : ∀ x y y', Inside R x y → Inside R x y' → |u x y - u x y'| ≤ M * |y - y'| := by
    have h' : Derivs (⟨R.yl, R.yu, R.xl, R.xu⟩ : Rect ℝ) (fun y x => u x y) (fun k y x => Dy k x y) (fun k y x => Dx k x y) M :=
      ⟨by rw [h.y0], by rw [h.x0], h.inY, h.inX⟩
    exact fun x y y' a b => h'.lipschitz y y' x ⟨a.2.2.1, a.2.2.2, a.1, a.2.1⟩ ⟨b.2.2.1, b.2.2.2, b.1, b.2.1⟩
  have hc : ContinuousOn (fun p : ℝ × ℝ => u p.1 p.2) (Set.Icc R.xl R.xu ×ˢ Set.Icc R.yl R.yu) := by
    refine (LipschitzOnWith.of_dist_le_mul (K := ⟨2 * M, by positivity⟩) ?_).continuousOn
    rintro ⟨x, y⟩ ⟨⟨a1, a2⟩, b1, b2⟩ ⟨x', y'⟩ ⟨⟨c1, c2⟩, d1, d2⟩
    simp only at a1 a2 b1 b2 c1 c2 d1 d2
    rw [Real.dist_eq, Prod.dist_eq, Real.dist_eq, Real.dist_eq]
    show |u x y - u x' y'| ≤ 2 * M * max |x - x'| |y - y'|
    have k1 := hx x x' y ⟨a1, a2, b1, b2⟩ ⟨c1, c2, b1, b2⟩
    have k2 := hy x' y y' ⟨c1, c2, b1, b2⟩ ⟨c1, c2, d1, d2⟩
    have k3 := mul_le_mul_of_nonneg_left (le_max_left |x - x'| |y - y'|) hM
    have k4 := mul_le_mul_of_nonneg_left (le_max_right |x - x'| |y - y'|) hM
    have k5 := abs_add_le (u x y - u x' y) (u x' y - u x' y')
    rw [sub_add_sub_cancel] at k5
    linarith
  obtain ⟨⟨x, y⟩, ⟨hx', hy'⟩, hmin⟩ := (isCompact_Icc.prod isCompact_Icc).exists_isMinOn
    ⟨(R.xl, R.yl), ⟨le_rfl, hR.1.le⟩, le_rfl, hR.2.le⟩ hc
  refine ⟨u x y, hp x y ⟨hx'.1, hx'.2, hy'.1, hy'.2⟩, fun a b hab => ?_⟩
  exact hmin (⟨⟨hab.1, hab.2.1⟩, hab.2.2.1, hab.2.2.2⟩ : ((a, b) : ℝ × ℝ) ∈ Set.Icc R.xl R.xu ×ˢ Set.Icc R.yl R.yu)

/-- Error of the cell values of a leaf against a function at the cell centres. -/
def HPS.LeafNear (N : Nat) (u : ℝ → ℝ → ℝ) (ε : ℝ) (p : Patch ℝ) : Prop :=
  ∀ i, i < N → ∀ j, j < N → |p.u.data.getD (j + i * N) 0 - u (cx (rect p.grid) N i) (cy (rect p.grid) N j)| ≤ ε

/-- C69.  An elliptic problem `alpha div(beta grad u) + lambda u = f` with four times differentiable `beta` and solution `u` on a closed
rectangle.  There is a constant, independent of the mesh, such that on every uniformly refined mesh the stages, given `f` and the boundary
values of `u`, return, and leave in every cell of every leaf a value within the constant divided by the square of the number of cells per
side of `u` at the centre of the cell. -/
theorem C69_second_order {s : FVSolver ℝ} {R : Rect ℝ} (hR : Proper R) (hE : EllipticOn s R) {Bx By : Nat → ℝ → ℝ → ℝ} {B : ℝ}
    (hβ : Derivs R s.beta Bx By B) {u : ℝ → ℝ → ℝ} {Dx Dy : Nat → ℝ → ℝ → ℝ} {M : ℝ} (hu : Derivs R u Dx Dy M) {f : ℝ → ℝ → ℝ}
    (hf : Classical s R u Dx Dy Bx By f) :
    ∃ C, 0 ≤ C ∧ ∀ (lap : Lapack ℝ) (lu : PetscLU ℝ) (N : Nat), 2 ≤ N → ∀ opt : HPSOptions, opt.cacheOperators = false →
      opt.homogeneousRhs = false → ∀ t : Tree (Patch ℝ), Init N t R → ∀ d, Uniform d t →
      ∃ t1 c1 t3, buildStage lap (s.toPatchSolver lu) opt t none = .ok (t1, c1) ∧
        (Request.functions f (fun _ x y => (u x y, 1, 0))).run lap (s.toPatchSolver lu) opt t1 = .ok t3 ∧ t3.shape = t.shape ∧
        ∀ p ∈ t3.leaves, LeafNear N u (C / (N * 2 ^ d) ^ 2) p := by
  obtain ⟨b0, h0, hb⟩ := hβ.lower hR (fun x y h => (hE x y h).1)
  have B0 := hβ.nonneg hR
  have M0 := hu.nonneg hR
  have r1 := hR.1
  have r2 := hR.2
  obtain ⟨L, eL⟩ : ∃ L, L = (R.xu - R.xl) + (R.yu - R.yl) := ⟨_, rfl⟩
  have L0 : 0 < L := by linarith
  obtain ⟨C', eC⟩ : ∃ C', C' = (2 / b0 + (1 + L) ^ 3 * top R b0 B / drop R b0 B) * (B * M) := ⟨_, rfl⟩
  have hC' : 0 ≤ C' := by
    have : 0 ≤ top R b0 B := by unfold top; positivity
    have := drop_pos hR h0 B0
    rw [eC]
    positivity
  refine ⟨C' * ((R.xu - R.xl) ^ 2 + (R.yu - R.yl) ^ 2), by positivity, ?_⟩
  intro lap lu N hN opt hc ho t ht d hd
  have hs := FVSolver.shapes lu s hN
  obtain ⟨t1, c1, t3, e1, e2, e3, _⟩ := C20_stages_succeed_functions lap (by omega) hs ho ht (Or.inr ⟨d, hd⟩) f (fun _ x y => (u x y, 1, 0))
  refine ⟨t1, c1, t3, e1, e2, e3, ?_⟩
  have hU := C18_global_finite_volume_functions lap lu hN hc ho ht hd hR hE f (fun _ x y => u x y) e1 e2
  have pl := (C20_leaves_in_place lap (by omega) hs ho ht (Or.inr ⟨d, hd⟩) f _ e1 e2).1
  have hd3 : Uniform d t3 := uniform_shape.mp (e3 ▸ uniform_shape.mpr hd)
  have hm : 2 ≤ N * 2 ^ d := hN.trans (Nat.le_mul_of_pos_right _ (by positivity))
  have bound := error_bound hR hE h0 hb hβ hu hf (L := L) (by linarith) (by linarith) hm
    (g := dirichletAt R (N * 2 ^ d) (fun _ x y => u x y)) (fun k _ => ⟨rfl, rfl, rfl, rfl⟩) hU
  have := pl.leaf_of_grid (by omega) hd3 (·.u) (fun x y v => |v - u x y| ≤ C' * ((R.xu - R.xl) ^ 2 + (R.yu - R.yl) ^ 2) / (N * 2 ^ d) ^ 2)
    (by
      intro i hi j hj
      refine (bound i hi j hj).trans (le_of_eq ?_)
      rw [← eC]
      unfold hx hy
      push_cast
      ring)
  intro p hp i hi j hj
  exact (this p hp).2.2 i hi j hj

/-- C69, convergence: every accuracy is reached on every uniformly refined mesh with enough cells per side, however they are divided into
patches. -/
theorem C69_converges {s : FVSolver ℝ} {R : Rect ℝ} (hR : Proper R) (hE : EllipticOn s R) {Bx By : Nat → ℝ → ℝ → ℝ} {B : ℝ}
    (hβ : Derivs R s.beta Bx By B) {u : ℝ → ℝ → ℝ} {Dx Dy : Nat → ℝ → ℝ → ℝ} {M : ℝ} (hu : Derivs R u Dx Dy M) {f : ℝ → ℝ → ℝ}
    (hf : Classical s R u Dx Dy Bx By f) {ε : ℝ} (hε : 0 < ε) :
    ∃ m : Nat, ∀ (lap : Lapack ℝ) (lu : PetscLU ℝ) (N : Nat), 2 ≤ N → ∀ opt : HPSOptions, opt.cacheOperators = false →
      opt.homogeneousRhs = false → ∀ t : Tree (Patch ℝ), Init N t R → ∀ d, Uniform d t → m ≤ N * 2 ^ d →
      ∃ t1 c1 t3, buildStage lap (s.toPatchSolver lu) opt t none = .ok (t1, c1) ∧
        (Request.functions f (fun _ x y => (u x y, 1, 0))).run lap (s.toPatchSolver lu) opt t1 = .ok t3 ∧
        ∀ p ∈ t3.leaves, LeafNear N u ε p := by
  obtain ⟨C, hC, h⟩ := C69_second_order hR hE hβ hu hf
  obtain ⟨m, hm⟩ := exists_nat_gt (C / ε)
  refine ⟨m + 1, fun lap lu N hN opt hc ho t ht d hd hmN => ?_⟩
  obtain ⟨t1, c1, t3, e1, e2, _, e3⟩ := h lap lu N hN opt hc ho t ht d hd
  refine ⟨t1, c1, t3, e1, e2, fun p hp i hi j hj => (e3 p hp i hi j hj).trans ?_⟩
  have k : (m : ℝ) + 1 ≤ (N : ℝ) * 2 ^ d := by exact_mod_cast hmN
  have k0 : (0 : ℝ) ≤ m := by positivity
  have k1 : (m : ℝ) ≤ ((N : ℝ) * 2 ^ d) ^ 2 := by nlinarith
  rw [div_lt_iff₀ hε] at hm
  rw [div_le_iff₀ (by nlinarith)]
  nlinarith

/-! ### The hypotheses hold: `div(eˣ grad u) - u = f` with solution `eˣ⁺ʸ` on the unit square -/

/-- `beta = eˣ`, `lambda = -1`. -/
noncomputable def expPde : FVSolver ℝ := ⟨fun _ _ => 1, fun x _ => Real.exp x, fun _ _ => -1⟩

/-- The unit square. -/
def unitSquareR : Rect ℝ := ⟨0, 1, 0, 1⟩

theorem expPde_beta : Derivs unitSquareR expPde.beta (fun _ x _ => Real.exp x) (fun k x _ => if k = 0 then Real.exp x else 0) (Real.exp 2) := by
  have hb : ∀ x ∈ Set.Icc (0 : ℝ) 1, |Real.exp x| ≤ Real.exp 2 := by
    intro x hx
    rw [abs_of_pos (Real.exp_pos x)]
    exact Real.exp_le_exp.mpr (by linarith [hx.2])
  refine ⟨rfl, rfl, fun y _ => ⟨fun k _ x _ => (Real.hasDerivAt_exp x).hasDerivWithinAt, fun k _ x hx => hb x hx⟩, fun x hx => ⟨?_, ?_⟩⟩
  · intro k _ y _
    simp only [Nat.add_eq_zero_iff, one_ne_zero, and_false, if_false]
    split_ifs
    · exact hasDerivWithinAt_const _ _ _
    · exact hasDerivWithinAt_const _ _ _
  · intro k _ y _
    dsimp only
    split_ifs
    · exact hb x hx
    · rw [abs_zero]; positivity

theorem expPde_solution : Derivs unitSquareR (fun x y => Real.exp (x + y)) (fun _ x y => Real.exp (x + y)) (fun _ x y => Real.exp (x + y))
    (Real.exp 2) := by
  have hb : ∀ x ∈ Set.Icc (0 : ℝ) 1, ∀ y ∈ Set.Icc (0 : ℝ) 1, |Real.exp (x + y)| ≤ Real.exp 2 := by
    intro x hx y hy
    rw [abs_of_pos (Real.exp_pos _)]
    exact Real.exp_le_exp.mpr (by linarith [hx.2, hy.2])
  refine ⟨rfl, rfl, fun y hy => ⟨fun k _ x _ => ?_, fun k _ x hx => hb x hx y hy⟩, fun x hx => ⟨fun k _ y _ => ?_, fun k _ y hy => hb x hx y hy⟩⟩
  · exact (((hasDerivAt_id x).add_const y).exp.congr_deriv (by simp)).hasDerivWithinAt
  · exact (((hasDerivAt_id y).const_add x).exp.congr_deriv (by simp)).hasDerivWithinAt

example : Proper unitSquareR ∧ EllipticOn expPde unitSquareR ∧
    Classical expPde unitSquareR (fun x y => Real.exp (x + y)) (fun _ x y => Real.exp (x + y)) (fun _ x y => Real.exp (x + y))
      (fun _ x _ => Real.exp x) (fun k x _ => if k = 0 then Real.exp x else 0)
      (fun x y => 3 * Real.exp x * Real.exp (x + y) - Real.exp (x + y)) ∧
    (∃ N d, 2 ≤ N ∧ ∃ t : Tree (Patch ℝ), Init N t unitSquareR ∧ Uniform d t ∧ 0 < d) ∧ Nonempty (Lapack ℝ) := by
  refine ⟨⟨by norm_num [unitSquareR], by norm_num [unitSquareR]⟩, ?_, ?_, ⟨2, 1, le_rfl,
    freshTree 2 (.node () (.leaf ()) (.leaf ()) (.leaf ()) (.leaf ())) unitSquareR, freshTree_init _ _ _,
    .node _ (.leaf _) (.leaf _) (.leaf _) (.leaf _), one_pos⟩, Lapack.nonempty⟩
  · intro x y _
    exact ⟨Real.exp_pos x, by simp [expPde], by norm_num [expPde]⟩
  · intro x y _
    simp only [expPde]
    norm_num
    ring

end EF
