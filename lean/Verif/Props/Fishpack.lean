import Verif.Proofs.Fishpack
import Verif.Props.Same

/-!
# The solver type `FISHPACK90` (C57)
-/

namespace EF

open Finset FV HPS

variable {K : Type} [Field K] [LinearOrder K] [IsStrictOrderedRing K]

/-- C57, what holds.  With solver type `FISHPACK90`, on a square grid with at least three cells per side, `solve` returns the
discrete solution of `u_xx + u_yy + lambda(0,0) u = f` with the given boundary values, for every load, provided that problem
has at most one solution.  Missing: the coefficient functions of the user (see the negations below). -/
theorem C57_fishpack_solves_partial (hst : Hstcrt K) (s : FVSolver K) {n : Nat} (hn : 3 ≤ n) {grid : Grid K}
    (hx : grid.nx = n) (hy : grid.ny = n) (hR : Proper (rect grid))
    (hq : FV.Unique ⟨fun _ _ => 1, fun _ _ => 1, fun _ _ => s.lambda 0 0⟩ (rect grid) n n) {g f : Vec K} {γ φ : Nat → K}
    (hγ : g.Has (4 * n) γ) (hφ : f.Has (n * n) φ) :
    (s.solveFish hst grid g f).Returns (fun u => ∃ U, u.Has (n * n) U ∧
      Solves ⟨fun _ _ => 1, fun _ _ => 1, fun _ _ => s.lambda 0 0⟩ (rect grid) n n (Bdry.ofFn n γ) (fun i j => φ (j + i * n))
        (fun i j => U (j + i * n))) := by
  obtain ⟨U, h1, h2, _⟩ := FVSolver.solveFish_ok hst s hx hy γ φ
  rw [← Vec.has_iff.mp hγ, ← Vec.has_iff.mp hφ] at h1
  exact ⟨_, h1, U, Vec.has_ofFn _ _, h2 hn hR hq⟩

/-- Both solver types compute the same values. -/
theorem solveKind_eq (lu : PetscLU K) (hst : Hstcrt K) {s : FVSolver K} (hs : s.Plain) {n : Nat} (hn : 3 ≤ n)
    {grid : Grid K} (hx : grid.nx = n) (hy : grid.ny = n) (hR : Proper (rect grid)) (hq : FV.Unique s (rect grid) n n)
    (γ φ : Nat → K) :
    s.solveFish hst grid (Vec.ofFn (4 * n) γ) (Vec.ofFn (n * n) φ) = s.solve lu grid (Vec.ofFn (4 * n) γ) (Vec.ofFn (n * n) φ) := by
  obtain ⟨U, h1, h2, _⟩ := FVSolver.solveFish_ok hst s hx hy γ φ
  obtain ⟨V, h3, h4⟩ := FVSolver.solve_ok lu s (by omega) hx hy γ φ
  rw [h1, h3]
  congr 1
  refine Vec.ofFn_congr fun k hk => ?_
  obtain ⟨a, b, c⟩ := FVSolver.cell_idx hk
  have := hq _ _ _ _ (hs.solves.mpr (h2 hn hR (hs.unique.mp hq))) (h4 hq) (k / n) a (k % n) b
  simpa only [c] using this

theorem patchSolver_same (lu : PetscLU K) (hst : Hstcrt K) {s : FVSolver K} (hs : s.Plain) {N : Nat} (hn : 3 ≤ N) {R : Rect K}
    (hR : Proper R) (hq : ∀ P, R.Part P → FV.Unique s P N N) :
    SameOn N R (s.patchSolver lu hst .FivePointStencil) (s.patchSolver lu hst .FISHPACK90) := by
  have key : ∀ grid : Grid K, grid.nx = N → grid.ny = N → R.Part (rect grid) → ∀ γ φ : Nat → K,
      s.solveFish hst grid (Vec.ofFn (4 * N) γ) (Vec.ofFn (N * N) φ) = s.solve lu grid (Vec.ofFn (4 * N) γ) (Vec.ofFn (N * N) φ) :=
    fun grid hx hy hp γ φ => solveKind_eq lu hst hs hn hx hy (hp.proper hR) (hq _ hp) γ φ
  have two : ∀ grid : Grid K, grid.nx = N → grid.ny = N → R.Part (rect grid) → ∀ γ φ : Nat → K,
      FVSolver.mapD2NWith (s.solveFish hst) grid (Vec.ofFn (4 * N) γ) (Vec.ofFn (N * N) φ)
        = FVSolver.mapD2NWith (s.solve lu) grid (Vec.ofFn (4 * N) γ) (Vec.ofFn (N * N) φ) := by
    intro grid hx hy hp γ φ
    obtain ⟨V, h3, _⟩ := FVSolver.solve_ok lu s (by omega) hx hy γ φ
    rw [FVSolver.mapD2NWith_ok (by omega) hx hy γ φ h3,
      FVSolver.mapD2NWith_ok (by omega) hx hy γ φ (by rw [key grid hx hy hp]; exact h3)]
  refine ⟨?_, ?_, ?_⟩
  · intro grid hx hy hp
    have hsol := fun j => FVSolver.solve_ok lu s (n := N) (by omega) hx hy (FVSolver.unit j) (fun _ => 0)
    choose V hV _ using hsol
    show FVSolver.buildD2NWith (FVSolver.mapD2NWith (s.solveFish hst)) grid
      = FVSolver.buildD2NWith (FVSolver.mapD2NWith (s.solve lu)) grid
    rw [FVSolver.buildD2NWith_ok (by omega) hx hy hV,
      FVSolver.buildD2NWith_ok (by omega) hx hy (fun j => by rw [key grid hx hy hp]; exact hV j)]
  · intro grid f hx hy hp f1 f2
    show FVSolver.mapD2NWith (s.solveFish hst) grid (Vec.fill (2 * grid.nx + 2 * grid.ny) 0) f
      = FVSolver.mapD2NWith (s.solve lu) grid (Vec.fill (2 * grid.nx + 2 * grid.ny) 0) f
    rw [hx, hy, show 2 * N + 2 * N = 4 * N by omega, Vec.fill_eq, Vec.has_iff.mp (has_of_wf f1 f2)]
    exact two grid hx hy hp _ _
  · intro grid g f hx hy hp g1 g2 f1 f2
    show s.solveFish hst grid g f = s.solve lu grid g f
    rw [Vec.has_iff.mp (has_of_wf g1 g2), Vec.has_iff.mp (has_of_wf f1 f2)]
    exact key grid hx hy hp _ _

/-- C57, what holds.  For constant coefficients with `alpha * beta = 1`, leaves with at least three cells per side and
uniquely solvable leaf problems, the two solver types return the same operator, the same flux and the same solution on every
leaf grid of a rectangle. -/
theorem C57_same_leaf_results_partial (lu : PetscLU K) (hst : Hstcrt K) {s : FVSolver K}
    (hab : ∀ x y x' y', s.alpha x y * s.beta x' y' = 1) (hl : ∀ x y, s.lambda x y = s.lambda 0 0) {N : Nat} (hn : 3 ≤ N)
    {R : Rect K} (hR : Proper R) (hq : ∀ P, R.Part P → FV.Unique s P N N) :
    SameOn N R (s.patchSolver lu hst .FivePointStencil) (s.patchSolver lu hst .FISHPACK90) :=
  patchSolver_same lu hst ⟨hab, hl⟩ hn hR hq

/-- C57, what holds.  For constant coefficients with `alpha * beta = 1` and `lambda ≤ 0` and leaves with at least three cells
per side, a whole run gives the same trees with either solver type. -/
theorem C57_same_run_partial (lap : Lapack K) (lu : PetscLU K) (hst : Hstcrt K) {s : FVSolver K}
    (hab : ∀ x y x' y', s.alpha x y * s.beta x' y' = 1) (hl : ∀ x y, s.lambda x y = s.lambda 0 0) (hl0 : s.lambda 0 0 ≤ 0)
    {N : Nat} (hn : 3 ≤ N) {R : Rect K} (hR : Proper R) (opt : HPSOptions) {t : Tree (Patch K)} (ht : Init N t R) {d : Data K}
    (hd : d.Sized) :
    ∃ t1 c1 t3, buildStage lap (s.patchSolver lu hst .FivePointStencil) opt t none = .ok (t1, c1) ∧
      run lap (s.patchSolver lu hst .FivePointStencil) opt d t1 = .ok t3 ∧
      buildStage lap (s.patchSolver lu hst .FISHPACK90) opt t none = .ok (t1, c1) ∧
      run lap (s.patchSolver lu hst .FISHPACK90) opt d t1 = .ok t3 := by
  have hs : s.Plain := ⟨hab, hl⟩
  exact C59_interchangeable_leaf_solvers lap (by omega) (FVSolver.shapes lu s (by omega))
    (patchSolver_same lu hst hs hn hR (fun P hP => hs.unique.mpr (helmholtz_unique (hP.proper hR) hl0 _ _))) opt ht
    (Or.inl hn) hd

/-- C57, what the code does.  With `FISHPACK90` the coefficient functions are used only through `lambda(0,0)`. -/
theorem C57_ignores_coefficients_actual (lu : PetscLU K) (hst : Hstcrt K) {s s' : FVSolver K} (h : s.lambda 0 0 = s'.lambda 0 0) :
    s.patchSolver lu hst .FISHPACK90 = s'.patchSolver lu hst .FISHPACK90 := by
  have : s.solveFish hst = s'.solveFish hst := by
    funext grid g f
    unfold FVSolver.solveFish
    rw [h]
  unfold FVSolver.patchSolver FVSolver.solveKind
  simp only [this]

/-- C57 fails for `beta` different from one: on every square grid with at least three cells per side and every constant
`beta = c > 0` other than one, the values `FISHPACK90` returns for load one and zero boundary values are not the discrete
solution of `div(c grad u) = 1`, although that problem is elliptic. -/
theorem C57_beta_wrong (hst : Hstcrt K) {c : K} (hc : 0 < c) (hc1 : c ≠ 1) {n : Nat} (hn : 3 ≤ n) {grid : Grid K}
    (hx : grid.nx = n) (hy : grid.ny = n) (hR : Proper (rect grid)) :
    EllipticOn (⟨fun _ _ => 1, fun _ _ => c, fun _ _ => 0⟩ : FVSolver K) (rect grid) ∧
      ∃ U, FVSolver.solveFish hst ⟨fun _ _ => 1, fun _ _ => c, fun _ _ => 0⟩ grid (Vec.ofFn (4 * n) (fun _ => 0))
          (Vec.ofFn (n * n) (fun _ => 1)) = .ok (Vec.ofFn (n * n) U) ∧
        ¬ Solves ⟨fun _ _ => 1, fun _ _ => c, fun _ _ => 0⟩ (rect grid) n n (Bdry.ofFn n (fun _ => 0)) (fun _ _ => 1)
          (fun i j => U (j + i * n)) := by
  refine ⟨fun x y _ => ⟨hc, one_ne_zero, by simp⟩, ?_⟩
  obtain ⟨U, h1, h2, _⟩ := FVSolver.solveFish_ok hst ⟨fun _ _ => 1, fun _ _ => c, fun _ _ => 0⟩ hx hy (fun _ => 0) (fun _ => 1)
  refine ⟨U, h1, fun hS => hc1 ?_⟩
  have a := h2 hn hR (helmholtz_unique hR (le_refl _) n n) 0 (by omega) 0 (by omega)
  have b := hS 0 (by omega) 0 (by omega)
  have e : FV.balance (⟨fun _ _ => 1, fun _ _ => c, fun _ _ => 0⟩ : FVSolver K) (rect grid) n n (Bdry.ofFn n (fun _ => 0))
      (fun i j => U (j + i * n)) 0 0 = c * FV.balance (FVSolver.helmholtz 0) (rect grid) n n (Bdry.ofFn n (fun _ => 0))
      (fun i j => U (j + i * n)) 0 0 := by
    simp only [FV.balance, FVSolver.helmholtz]
    ring
  rw [b, a] at e
  linarith

/-- C57 fails for `lambda` that is not constant: for `u_xx + u_yy - x u = 1` with zero boundary values on a grid to the right
of the y-axis. -/
theorem C57_lambda_wrong (hst : Hstcrt K) {n : Nat} (hn : 3 ≤ n) {grid : Grid K} (hx : grid.nx = n) (hy : grid.ny = n)
    (hR : Proper (rect grid)) (h0 : 0 ≤ grid.xl) :
    EllipticOn (⟨fun _ _ => 1, fun _ _ => 1, fun x _ => -x⟩ : FVSolver K) (rect grid) ∧
      ∃ U, FVSolver.solveFish hst ⟨fun _ _ => 1, fun _ _ => 1, fun x _ => -x⟩ grid (Vec.ofFn (4 * n) (fun _ => 0))
          (Vec.ofFn (n * n) (fun _ => 1)) = .ok (Vec.ofFn (n * n) U) ∧
        ¬ Solves ⟨fun _ _ => 1, fun _ _ => 1, fun x _ => -x⟩ (rect grid) n n (Bdry.ofFn n (fun _ => 0)) (fun _ _ => 1)
          (fun i j => U (j + i * n)) := by
  refine ⟨fun x y h => ⟨one_pos, one_ne_zero, ?_⟩, ?_⟩
  · have : grid.xl ≤ x := h.1
    simp only [div_one]
    linarith
  obtain ⟨U, h1, h2, _⟩ := FVSolver.solveFish_ok hst ⟨fun _ _ => 1, fun _ _ => 1, fun x _ => -x⟩ hx hy (fun _ => 0) (fun _ => 1)
  refine ⟨U, h1, fun hS => ?_⟩
  have a := h2 hn hR (helmholtz_unique hR (by simp) n n)
  have hz : ∀ i, i < n → ∀ j, j < n → U (j + i * n) = 0 := by
    intro i hi j hj
    have e1 := a i hi j hj
    have e2 := hS i hi j hj
    have e : FV.balance (⟨fun _ _ => 1, fun _ _ => 1, fun x _ => -x⟩ : FVSolver K) (rect grid) n n (Bdry.ofFn n (fun _ => 0))
      (fun i j => U (j + i * n)) i j = FV.balance (FVSolver.helmholtz (-0)) (rect grid) n n (Bdry.ofFn n (fun _ => 0))
      (fun i j => U (j + i * n)) i j - cx (rect grid) n i * U (j + i * n) := by
      simp only [FV.balance, FVSolver.helmholtz]
      ring
    rw [e2, e1] at e
    have hpos : 0 < cx (rect grid) n i := by
      have := hx_pos hR (nx := n) (by omega)
      have h0' : 0 ≤ (rect grid).xl := h0
      unfold cx
      positivity
    have : cx (rect grid) n i * U (j + i * n) = 0 := by linarith
    exact (mul_eq_zero.mp this).resolve_left (ne_of_gt hpos)
  have e := hS 0 (by omega) 0 (by omega)
  have z := (solves_zero (⟨fun _ _ => 1, fun _ _ => 1, fun x _ => -x⟩ : FVSolver K) (rect grid) n n).congr (u' := fun i j => U (j + i * n))
    (fun _ _ => rfl) (fun _ _ => rfl) (fun _ _ => rfl) (fun _ _ => rfl) (fun _ _ _ _ => rfl) (fun i hi j hj => (hz i hi j hj).symm)
    0 (by omega) 0 (by omega)
  have hb : (Bdry.ofFn n (fun _ => (0 : K))) = FVSolver.bz := rfl
  rw [hb, z] at e
  exact zero_ne_one e

/-- C57 fails on leaves with one or two cells per side: `FISHPACK90` refuses them, the code prints a warning and returns the
load unchanged, which for zero load and boundary value one is not the solution. -/
theorem C57_small_leaf_wrong (lu : PetscLU K) (hst : Hstcrt K) (s : FVSolver K) {n : Nat} (h1 : 1 ≤ n) (h2 : n ≤ 2)
    {grid : Grid K} (hx : grid.nx = n) (hy : grid.ny = n) (hR : Proper (rect grid)) :
    (∀ γ φ : Nat → K, (s.patchSolver lu hst .FISHPACK90).solve grid (Vec.ofFn (4 * n) γ) (Vec.ofFn (n * n) φ)
        = .ok (Vec.ofFn (n * n) φ)) ∧
      ¬ Solves ⟨fun _ _ => 1, fun _ _ => 1, fun _ _ => s.lambda 0 0⟩ (rect grid) n n (Bdry.ofFn n (fun _ => 1)) (fun _ _ => 0)
        (fun _ _ => 0) := by
  constructor
  · intro γ φ
    obtain ⟨U, e, _, e2⟩ := FVSolver.solveFish_ok hst s hx hy γ φ
    show s.solveFish hst grid _ _ = _
    rw [e]
    congr 1
    exact Vec.ofFn_congr fun k hk => e2 h2 k hk
  · intro hS
    have e := hS 0 (by omega) 0 (by omega)
    have px := hx_pos hR (nx := n) (by omega)
    have py := hy_pos hR (ny := n) (by omega)
    have ix : 0 < 1 / FV.hx (rect grid) n ^ 2 := by positivity
    have iy : 0 < 1 / FV.hy (rect grid) n ^ 2 := by positivity
    rcases (show n = 1 ∨ n = 2 by omega) with rfl | rfl
    · simp only [FV.balance, west, east, south, north, Bdry.ofFn] at e
      simp only [Nat.zero_add, if_true] at e
      have : (4 : K) * (1 / FV.hx (rect grid) 1 ^ 2) + 4 * (1 / FV.hy (rect grid) 1 ^ 2) = 0 := by
        rw [← e]; ring
      linarith
    · simp only [FV.balance, west, east, south, north, Bdry.ofFn] at e
      simp only [Nat.zero_add, if_true, show ¬ (1 = 2) by omega, if_false] at e
      have : (2 : K) * (1 / FV.hx (rect grid) 2 ^ 2) + 2 * (1 / FV.hy (rect grid) 2 ^ 2) = 0 := by
        rw [← e]; ring
      linarith

/-- The default solver type is the solver all other properties speak of. -/
theorem patchSolver_default (lu : PetscLU K) (hst : Hstcrt K) (s : FVSolver K) :
    s.patchSolver lu hst .FivePointStencil = s.toPatchSolver lu := rfl

/-- Unit square with three cells per side. -/
def exGrid3 : Grid ℚ := ⟨3, 3, 0, 1, 0, 1⟩

/-- `2 div(1/2 grad u) - 3 u = f`. -/
def exPlain : FVSolver ℚ := ⟨fun _ _ => 2, fun _ _ => 1 / 2, fun _ _ => -3⟩

theorem exGrid3_proper : Proper (rect exGrid3) := ⟨by norm_num [rect, exGrid3], by norm_num [rect, exGrid3]⟩

/-- The hypotheses of the C57 theorems hold on the unit square and on an adaptive tree. -/
example (hst : Hstcrt ℚ) :=
  C57_fishpack_solves_partial hst exPlain (le_refl 3) (grid := exGrid3) rfl rfl exGrid3_proper
    (helmholtz_unique exGrid3_proper (by norm_num [exPlain]) 3 3) (Vec.has_ofFn 12 (fun i => (i : ℚ)))
    (Vec.has_ofFn 9 (fun i => (i : ℚ) ^ 2))

example (lap : Lapack ℚ) (lu : PetscLU ℚ) (hst : Hstcrt ℚ) (opt : HPSOptions) :=
  C57_same_run_partial lap lu hst (s := exPlain) (by intros; norm_num [exPlain]) (fun _ _ => rfl) (by norm_num [exPlain])
    (N := 4) (by omega) exPde_elliptic_unit.1 opt (freshTree_init 4 exShape unitSquare) exData_sized

example (hst : Hstcrt ℚ) := C57_beta_wrong hst (c := 2) two_pos (by norm_num) (le_refl 3) (grid := exGrid3) rfl rfl exGrid3_proper
example (hst : Hstcrt ℚ) := C57_lambda_wrong hst (le_refl 3) (grid := exGrid3) rfl rfl exGrid3_proper (le_refl _)
example (lu : PetscLU ℚ) (hst : Hstcrt ℚ) :=
  C57_small_leaf_wrong lu hst exPlain (n := 2) (by omega) (by omega) (grid := exGrid) rfl rfl
    ⟨by norm_num [rect, exGrid], by norm_num [rect, exGrid]⟩

end EF
