import Verif.Props.Converge

/-!
# The solution depends on the data monotonically and stably (C83)
-/

namespace EF

open Finset FV HPS

section
variable {K : Type} [Field K] [LinearOrder K] [IsStrictOrderedRing K] {N : Nat}

theorem FV.centre_inside {R : Rect K} (hR : Proper R) {m i j : Nat} (hi : i < m) (hj : j < m) : Inside R (cx R m i) (cy R m j) := by
  have hx0 := hx_pos hR (by omega : 0 < m)
  have hy0 := hy_pos hR (by omega : 0 < m)
  have a := cx_face hR hi
  have b := cy_face hR hj
  exact ⟨by linarith, by linarith, by linarith, by linarith⟩

theorem FV.sidePoint_inside {R : Rect K} (hR : Proper R) {m s k : Nat} (hs : s < 4) (hk : k < m) :
    Inside R (sidePoint R m s k).1 (sidePoint R m s k).2 := by
  obtain ⟨a1, a2, a3, a4⟩ := centre_inside hR hk hk
  have h1 := hR.1.le
  have h2 := hR.2.le
  interval_cases s
  · exact ⟨le_rfl, h1, a3, a4⟩
  · exact ⟨h1, le_rfl, a3, a4⟩
  · exact ⟨a1, a2, le_rfl, h2⟩
  · exact ⟨a1, a2, h2, le_rfl⟩

/-- C83, order: on a uniformly refined mesh, a smaller boundary value and a larger load (divided by alpha) give nowhere a larger
solution. -/
theorem C83_monotone (lap : Lapack K) (lu : PetscLU K) {s : FVSolver K} (hN : 2 ≤ N) {opt : HPSOptions}
    (hc : opt.cacheOperators = false) (ho : opt.homogeneousRhs = false) {t : Tree (Patch K)} {R : Rect K} (ht : Init N t R)
    {d : Nat} (hu : Uniform d t) (hR : Proper R) (hE : EllipticOn s R) {f f' : K → K → K} {r r' : Nat → K → K → K}
    (hf : ∀ x y, Inside R x y → f' x y / s.alpha x y ≤ f x y / s.alpha x y) (hr : ∀ k x y, Inside R x y → r k x y ≤ r' k x y)
    {t1 t3 t3' : Tree (Patch K)} {c1 : Option (Mat K)} (h1 : buildStage lap (s.toPatchSolver lu) opt t none = .ok (t1, c1))
    (h2 : (Request.functions f (fun s x y => (r s x y, 1, 0))).run lap (s.toPatchSolver lu) opt t1 = .ok t3)
    (h2' : (Request.functions f' (fun s x y => (r' s x y, 1, 0))).run lap (s.toPatchSolver lu) opt t1 = .ok t3') :
    ∀ i, i < N * 2 ^ d → ∀ j, j < N * 2 ^ d → gridFn N (·.u) t3 i j ≤ gridFn N (·.u) t3' i j := by
  have a := C18_global_finite_volume_functions lap lu hN hc ho ht hu hR hE f r h1 h2
  have a' := C18_global_finite_volume_functions lap lu hN hc ho ht hu hR hE f' r' h1 h2'
  have key := comparison hR hE (M := 0) (b := (dirichletAt R (N * 2 ^ d) r).lin 1 (-1) (dirichletAt R (N * 2 ^ d) r'))
    (nx := N * 2 ^ d) (ny := N * 2 ^ d)
    (u := fun i j => 1 * gridFn N (·.u) t3 i j + (-1) * gridFn N (·.u) t3' i j) ?_ (Or.inl le_rfl) ?_
  · intro i hi j hj
    have := key i hi j hj
    linarith
  · refine ⟨fun k hk => ?_, fun k hk => ?_, fun k hk => ?_, fun k hk => ?_⟩
    · have := hr 0 _ _ (sidePoint_inside hR (s := 0) (by omega) hk)
      simp only [Bdry.lin, dirichletAt]
      linarith
    · have := hr 1 _ _ (sidePoint_inside hR (s := 1) (by omega) hk)
      simp only [Bdry.lin, dirichletAt]
      linarith
    · have := hr 2 _ _ (sidePoint_inside hR (s := 2) (by omega) hk)
      simp only [Bdry.lin, dirichletAt]
      linarith
    · have := hr 3 _ _ (sidePoint_inside hR (s := 3) (by omega) hk)
      simp only [Bdry.lin, dirichletAt]
      linarith
  · intro i hi j hj
    rw [balance_lin, a i hi j hj, a' i hi j hj]
    have := hf _ _ (centre_inside hR hi hj)
    rw [add_div, mul_div_assoc, mul_div_assoc]
    linarith

/-- C83, range: without load the value in every cell of every leaf lies between any two bounds of the boundary values with the first not
positive and the second not negative. -/
theorem C83_range (lap : Lapack K) (lu : PetscLU K) {s : FVSolver K} (hN : 2 ≤ N) {opt : HPSOptions}
    (hc : opt.cacheOperators = false) (ho : opt.homogeneousRhs = false) {t : Tree (Patch K)} {R : Rect K} (ht : Init N t R)
    {d : Nat} (hu : Uniform d t) (hR : Proper R) (hE : EllipticOn s R) {r : Nat → K → K → K} {lo hi : K}
    (hlo : lo ≤ 0 ∨ ∀ x y, s.lambda x y = 0) (hhi : 0 ≤ hi ∨ ∀ x y, s.lambda x y = 0)
    (hr : ∀ k x y, Inside R x y → lo ≤ r k x y ∧ r k x y ≤ hi)
    {t1 t3 : Tree (Patch K)} {c1 : Option (Mat K)} (h1 : buildStage lap (s.toPatchSolver lu) opt t none = .ok (t1, c1))
    (h2 : (Request.functions (fun _ _ => 0) (fun s x y => (r s x y, 1, 0))).run lap (s.toPatchSolver lu) opt t1 = .ok t3) :
    ∀ p ∈ t3.leaves, ∀ i, i < N → ∀ j, j < N → lo ≤ p.u.data.getD (j + i * N) 0 ∧ p.u.data.getD (j + i * N) 0 ≤ hi := by
  have hs := FVSolver.shapes lu s hN
  have a := C18_global_finite_volume_functions lap lu hN hc ho ht hu hR hE (fun _ _ => 0) r h1 h2
  obtain ⟨pl, e3⟩ := C20_leaves_in_place lap (by omega) hs ho ht (Or.inr ⟨d, hu⟩) _ _ h1 h2
  have hd3 : Uniform d t3 := uniform_shape.mp (e3 ▸ uniform_shape.mpr hu)
  have up := comparison hR hE (M := hi) (b := dirichletAt R (N * 2 ^ d) r) (nx := N * 2 ^ d) (ny := N * 2 ^ d) (u := gridFn N (·.u) t3)
    ⟨fun k hk => (hr 0 _ _ (sidePoint_inside hR (s := 0) (by omega) hk)).2, fun k hk => (hr 1 _ _ (sidePoint_inside hR (s := 1) (by omega) hk)).2,
      fun k hk => (hr 2 _ _ (sidePoint_inside hR (s := 2) (by omega) hk)).2, fun k hk => (hr 3 _ _ (sidePoint_inside hR (s := 3) (by omega) hk)).2⟩ hhi
    (fun i hi j hj => by rw [a i hi j hj, zero_div])
  have low := comparison hR hE (M := -lo) (b := (dirichletAt R (N * 2 ^ d) r).lin (-1) 0 (dirichletAt R (N * 2 ^ d) r)) (nx := N * 2 ^ d)
    (ny := N * 2 ^ d) (u := fun i j => -1 * gridFn N (·.u) t3 i j + 0 * gridFn N (·.u) t3 i j)
    ⟨fun k hk => by have := (hr 0 _ _ (sidePoint_inside hR (s := 0) (by omega) hk)).1; simp only [Bdry.lin, dirichletAt]; linarith,
      fun k hk => by have := (hr 1 _ _ (sidePoint_inside hR (s := 1) (by omega) hk)).1; simp only [Bdry.lin, dirichletAt]; linarith,
      fun k hk => by have := (hr 2 _ _ (sidePoint_inside hR (s := 2) (by omega) hk)).1; simp only [Bdry.lin, dirichletAt]; linarith,
      fun k hk => by have := (hr 3 _ _ (sidePoint_inside hR (s := 3) (by omega) hk)).1; simp only [Bdry.lin, dirichletAt]; linarith⟩
    (hlo.imp (fun h => by linarith) id) (fun i hi j hj => by rw [balance_lin, a i hi j hj]; simp)
  have := pl.leaf_of_grid (by omega) hd3 (·.u) (fun _ _ v => lo ≤ v ∧ v ≤ hi) (fun i hi j hj => ⟨by have := low i hi j hj; linarith, up i hi j hj⟩)
  exact fun p hp i hi j hj => (this p hp).2.2 i hi j hj

end

/-- C83, stability: one constant for all meshes, patch sizes, loads and boundary values such that changing the boundary values by at most
`δ` and the load, divided by alpha, by at most `ε` changes the solution by at most `δ + C ε` in every cell. -/
theorem C83_stable {s : FVSolver ℝ} {R : Rect ℝ} (hR : Proper R) (hE : EllipticOn s R) {b0 b1 : ℝ} (h0 : 0 < b0) (hb1 : 0 ≤ b1)
    (hb : ∀ x y, Inside R x y → b0 ≤ s.beta x y)
    (hl : ∀ x x' y, Inside R x y → Inside R x' y → |s.beta x y - s.beta x' y| ≤ b1 * |x - x'|) :
    ∃ C, 0 ≤ C ∧ ∀ (lap : Lapack ℝ) (lu : PetscLU ℝ) (N : Nat), 2 ≤ N → ∀ opt : HPSOptions, opt.cacheOperators = false →
      opt.homogeneousRhs = false → ∀ t : Tree (Patch ℝ), Init N t R → ∀ d, Uniform d t → ∀ (f f' : ℝ → ℝ → ℝ) (r r' : Nat → ℝ → ℝ → ℝ) (δ ε : ℝ),
      (∀ k x y, Inside R x y → |r k x y - r' k x y| ≤ δ) → (∀ x y, Inside R x y → |(f x y - f' x y) / s.alpha x y| ≤ ε) →
      ∃ t1 c1 t3 t3', buildStage lap (s.toPatchSolver lu) opt t none = .ok (t1, c1) ∧
        (Request.functions f (fun s x y => (r s x y, 1, 0))).run lap (s.toPatchSolver lu) opt t1 = .ok t3 ∧
        (Request.functions f' (fun s x y => (r' s x y, 1, 0))).run lap (s.toPatchSolver lu) opt t1 = .ok t3' ∧
        ∀ i, i < N * 2 ^ d → ∀ j, j < N * 2 ^ d → |gridFn N (·.u) t3 i j - gridFn N (·.u) t3' i j| ≤ δ + C * ε := by
  have hd := drop_pos hR h0 hb1
  have htop : 0 ≤ top R b0 b1 := by unfold top; positivity
  refine ⟨top R b0 b1 / drop R b0 b1, by positivity, ?_⟩
  intro lap lu N hN opt hc ho t ht d hu f f' r r' δ ε hr hf
  have hs := FVSolver.shapes lu s hN
  obtain ⟨t1, c1, t3, e1, e2, e3, _⟩ := C20_stages_succeed_functions lap (by omega) hs ho ht (Or.inr ⟨d, hu⟩) f (fun s x y => (r s x y, 1, 0))
  obtain ⟨t1', c1', t3', e1', e2', e3', _⟩ := C20_stages_succeed_functions lap (by omega) hs ho ht (Or.inr ⟨d, hu⟩) f' (fun s x y => (r' s x y, 1, 0))
  rw [e1] at e1'
  obtain ⟨rfl, rfl⟩ := Prod.mk.inj (Res.ok_inj.mp e1')
  refine ⟨t1, c1, t3, t3', e1, e2, e2', ?_⟩
  have a := C18_global_finite_volume_functions lap lu hN hc ho ht hu hR hE f r e1 e2
  have a' := C18_global_finite_volume_functions lap lu hN hc ho ht hu hR hE f' r' e1 e2'
  have hm : 0 < N * 2 ^ d := by positivity
  have δ0 : 0 ≤ δ := (abs_nonneg _).trans (hr 0 R.xl R.yl ⟨le_rfl, hR.1.le, le_rfl, hR.2.le⟩)
  have ε0 : 0 ≤ ε := (abs_nonneg _).trans (hf R.xl R.yl ⟨le_rfl, hR.1.le, le_rfl, hR.2.le⟩)
  obtain ⟨G, w, gW, gE, gS, gN, hw, hbal⟩ := barrier hR hE h0 hb1 hb hl hm le_rfl ε0
  have key : ∀ σ : ℝ, |σ| = 1 → ∀ i, i < N * 2 ^ d → ∀ j, j < N * 2 ^ d →
      1 * (σ * gridFn N (·.u) t3 i j + (-σ) * gridFn N (·.u) t3' i j) + -1 * w i j ≤ δ := by
    intro σ hσ
    have hside : ∀ k, k < 4 → ∀ l, l < N * 2 ^ d → σ * r k (sidePoint R (N * 2 ^ d) k l).1 (sidePoint R (N * 2 ^ d) k l).2 +
        (-σ) * r' k (sidePoint R (N * 2 ^ d) k l).1 (sidePoint R (N * 2 ^ d) k l).2 ≤ δ := by
      intro k hk l hl
      refine le_trans (le_abs_self _) ?_
      rw [show ∀ x y : ℝ, σ * x + -σ * y = σ * (x - y) from fun x y => by ring, abs_mul, hσ, one_mul]
      exact hr k _ _ (sidePoint_inside hR hk hl)
    refine comparison hR hE (b := ((dirichletAt R (N * 2 ^ d) r).lin σ (-σ) (dirichletAt R (N * 2 ^ d) r')).lin 1 (-1) G)
      (u := fun i j => 1 * (σ * gridFn N (·.u) t3 i j + (-σ) * gridFn N (·.u) t3' i j) + -1 * w i j) ⟨?_, ?_, ?_, ?_⟩ (Or.inl δ0) ?_
    · intro k hk
      have h1 := hside 0 (by omega) k hk
      have h2 := gW k
      simp only [Bdry.lin, dirichletAt]
      linarith
    · intro k hk
      have h1 := hside 1 (by omega) k hk
      have h2 := gE k hk
      simp only [Bdry.lin, dirichletAt]
      linarith
    · intro k hk
      have h1 := hside 2 (by omega) k hk
      have h2 := gS k hk
      simp only [Bdry.lin, dirichletAt]
      linarith
    · intro k hk
      have h1 := hside 3 (by omega) k hk
      have h2 := gN k hk
      simp only [Bdry.lin, dirichletAt]
      linarith
    · intro i hi j hj
      rw [balance_lin, balance_lin, a i hi j hj, a' i hi j hj]
      have h1 := hbal i hi j hj
      simp only [mul_zero, zero_div, zero_mul, sub_zero] at h1
      have h2 := hf _ _ (centre_inside hR hi hj)
      have h3 : -ε ≤ σ * ((f (cx R (N * 2 ^ d) i) (cy R (N * 2 ^ d) j) - f' (cx R (N * 2 ^ d) i) (cy R (N * 2 ^ d) j)) /
          s.alpha (cx R (N * 2 ^ d) i) (cy R (N * 2 ^ d) j)) := by
        refine (abs_le.mp ?_).1
        rw [abs_mul, hσ, one_mul]
        exact h2
      rw [add_div, mul_div_assoc, mul_div_assoc]
      rw [show ∀ x y z : ℝ, (σ * x + -σ * y) / z = σ * ((x - y) / z) from fun x y z => by ring]
      linarith
  intro i hi j hj
  have k1 := key 1 (by norm_num) i hi j hj
  have k2 := key (-1) (by norm_num) i hi j hj
  have k3 := (hw i hi j hj).2
  rw [zero_add, mul_div_assoc, mul_comm] at k3
  rw [abs_le]
  constructor <;> linarith

/-- The hypotheses of `C83_monotone` hold for a variable coefficient problem on sixteen patches, with a load that is larger and boundary
values that are smaller; so the two solutions are ordered. -/
example (lap : Lapack ℚ) (lu : PetscLU ℚ) : ∃ t1 c1 t3 t3', buildStage lap (exPde.toPatchSolver lu) ⟨false, false⟩
      (freshTree 4 exUniform unitSquare) none = .ok (t1, c1) ∧
    (Request.functions exPde.alpha (fun _ x _ => (x, 1, 0))).run lap (exPde.toPatchSolver lu) ⟨false, false⟩ t1 = .ok t3 ∧
    (Request.functions (fun _ _ => 0) (fun _ x _ => (x + 1, 1, 0))).run lap (exPde.toPatchSolver lu) ⟨false, false⟩ t1 = .ok t3' ∧
    ∀ i, i < 4 * 2 ^ 2 → ∀ j, j < 4 * 2 ^ 2 → gridFn 4 (·.u) t3 i j ≤ gridFn 4 (·.u) t3' i j := by
  have hi := freshTree_init (K := ℚ) 4 exUniform unitSquare
  have hs := FVSolver.shapes lu exPde (n := 4) (by omega)
  obtain ⟨t1, c1, t3, e1, e2, _⟩ := C20_stages_succeed_functions lap (by omega) hs (opt := ⟨false, false⟩) rfl hi
    (Or.inl (by omega)) exPde.alpha (fun _ x _ => (x, 1, 0))
  obtain ⟨t1', c1', t3', e1', e2', _⟩ := C20_stages_succeed_functions lap (by omega) hs (opt := ⟨false, false⟩) rfl hi
    (Or.inl (by omega)) (fun _ _ => 0) (fun _ x _ => (x + 1, 1, 0))
  rw [e1] at e1'
  obtain ⟨rfl, rfl⟩ := Prod.mk.inj (Res.ok_inj.mp e1')
  exact ⟨t1, c1, t3, t3', e1, e2, e2', C83_monotone lap lu (by omega) rfl rfl hi (exUniform_uniform 4) exPde_elliptic_unit.1
    exPde_elliptic_unit.2 (fun x y h => by rw [zero_div, div_self (exPde_elliptic_unit.2 x y h).2.1]; norm_num) (fun _ x _ _ => by linarith) e1 e2 e2'⟩

/-- The hypotheses of `C83_range` hold for that problem with boundary values between 0 and 1. -/
example (lap : Lapack ℚ) (lu : PetscLU ℚ) : ∃ t1 c1 t3, buildStage lap (exPde.toPatchSolver lu) ⟨false, false⟩
      (freshTree 4 exUniform unitSquare) none = .ok (t1, c1) ∧
    (Request.functions (fun _ _ => 0) (fun _ x y => (x * y, 1, 0))).run lap (exPde.toPatchSolver lu) ⟨false, false⟩ t1 = .ok t3 ∧
    ∀ p ∈ t3.leaves, ∀ i, i < 4 → ∀ j, j < 4 → 0 ≤ p.u.data.getD (j + i * 4) 0 ∧ p.u.data.getD (j + i * 4) 0 ≤ 1 := by
  have hi := freshTree_init (K := ℚ) 4 exUniform unitSquare
  have hs := FVSolver.shapes lu exPde (n := 4) (by omega)
  obtain ⟨t1, c1, t3, e1, e2, _⟩ := C20_stages_succeed_functions lap (by omega) hs (opt := ⟨false, false⟩) rfl hi
    (Or.inl (by omega)) (fun _ _ => 0) (fun _ x y => (x * y, 1, 0))
  refine ⟨t1, c1, t3, e1, e2, C83_range lap lu (by omega) rfl rfl hi (exUniform_uniform 4) exPde_elliptic_unit.1
    exPde_elliptic_unit.2 (r := fun _ x y => x * y) (Or.inl le_rfl) (Or.inl (by norm_num)) ?_ e1 e2⟩
  rintro _ x y ⟨a, b, c, d⟩
  simp only [unitSquare] at a b c d
  exact ⟨by positivity, by nlinarith⟩

/-- The hypotheses of `C83_stable` hold for a problem whose coefficient is not a polynomial. -/
example : Proper unitSquareR ∧ EllipticOn expPde unitSquareR ∧ (∀ x y, Inside unitSquareR x y → 1 ≤ expPde.beta x y) ∧
    ∀ x x' y, Inside unitSquareR x y → Inside unitSquareR x' y → |expPde.beta x y - expPde.beta x' y| ≤ Real.exp 2 * |x - x'| := by
  refine ⟨⟨by norm_num [unitSquareR], by norm_num [unitSquareR]⟩, fun x y _ => ⟨Real.exp_pos x, by simp [expPde], by norm_num [expPde]⟩,
    fun x y h => ?_, expPde_beta.lipschitz⟩
  have : 0 ≤ x := h.1
  simpa [expPde] using this

end EF
