import Verif.Proofs.D2NOptimize
import Verif.Props.Same
import Verif.Props.Exact

/-!
# The leaf operator built with `DTN_OPTIMIZE` (C58)
-/

namespace EF

open Finset FV HPS

variable {K : Type} [Field K]

/-- C58, what holds.  For constant coefficients on a square with uniquely solvable leaf problem, the operator completed from
its West columns is the operator. -/
theorem C58_same_operator_partial [CharZero K] (lu : PetscLU K) {s : FVSolver K} {a b l : K} (ha : ∀ x y, s.alpha x y = a)
    (hb : ∀ x y, s.beta x y = b) (hl : ∀ x y, s.lambda x y = l) {n : Nat} (hn : 2 ≤ n) {grid : Grid K} (hg : SquareGrid n grid)
    (hsq : grid.xu - grid.xl = grid.yu - grid.yl) (hq : FV.Unique s (rect grid) n n) :
    ∃ T, s.buildD2N lu grid = .ok T ∧ FVSolver.buildD2NOpt (s.mapD2N lu) grid = .ok T := by
  have hn0 : 0 < n := by omega
  have hsol := fun j => FVSolver.solve_ok lu s hn hg.nx hg.ny (FVSolver.unit j) (fun _ => 0)
  choose U hU hS using hsol
  refine ⟨_, FVSolver.buildD2NWith_ok hn0 hg.nx hg.ny hU, ?_⟩
  rw [show s.mapD2N lu = FVSolver.mapD2NWith (s.solve lu) from rfl, FVSolver.buildD2NOpt_ok hn0 hg.nx hg.ny hU, ofFn_eq_bm]
  congr 1
  refine bm_congr fun p hp q hq4 i hi j hj => ?_
  have h0 : (n : K) ≠ 0 := by exact_mod_cast hn0.ne'
  rw [Mat.idx_div hi, Mat.idx_mod hi]
  refine FVSolver.optBlocks_eq (V := fun j i' j' => U j (j' + i' * n)) ⟨ha, hb, hl⟩ ?_ ?_ hq (fun j => hS j hq) hp hq4 hi hj
  · show (grid.xu - grid.xl) / (n : K) = (grid.yu - grid.yl) / (n : K)
    rw [hsq]
  · show (grid.xu - grid.xl) / (n : K) ≠ 0
    exact div_ne_zero (sub_ne_zero.mpr (Ne.symm hg.wx)) h0

/-- Quarters of a square are squares. -/
theorem Rect.Part.square [CharZero K] {R P : Rect K} (h : R.Part P) (hR : R.xu - R.xl = R.yu - R.yl) :
    P.xu - P.xl = P.yu - P.yl := by
  induction h with
  | whole => exact hR
  | @quarter P _ q ih =>
    have e : P.xu = P.xl + (P.yu - P.yl) := by rw [← ih]; ring
    unfold Rect.quarter
    dsimp only
    split_ifs <;> rw [e] <;> field_simp <;> ring

theorem Rect.Part.elliptic [LinearOrder K] [IsStrictOrderedRing K] {s : FVSolver K} {R P : Rect K} (h : R.Part P)
    (hR : Proper R) (hE : EllipticOn s R) : EllipticOn s P := by
  induction h with
  | whole => exact hE
  | quarter h' q ih => exact elliptic_quarter (h'.proper hR) ih q

/-- C58, what holds.  On a square domain with constant coefficients, a whole run gives the same trees with and without
`DTN_OPTIMIZE`. -/
theorem C58_same_run_partial [LinearOrder K] [IsStrictOrderedRing K] (lap : Lapack K) (lu : PetscLU K) {s : FVSolver K}
    {a b l : K} (ha : ∀ x y, s.alpha x y = a) (hb : ∀ x y, s.beta x y = b) (hl : ∀ x y, s.lambda x y = l) {N : Nat}
    (hn : 2 ≤ N) {R : Rect K} (hR : Proper R) (hsq : R.xu - R.xl = R.yu - R.yl) (hE : EllipticOn s R) (opt : HPSOptions)
    {t : Tree (Patch K)} (ht : Init N t R) (h3 : 3 ≤ N ∨ ∃ d, Uniform d t) {d : Data K} (hd : d.Sized) :
    ∃ t1 c1 t3, buildStage lap (s.toPatchSolver lu) opt t none = .ok (t1, c1) ∧
      run lap (s.toPatchSolver lu) opt d t1 = .ok t3 ∧
      buildStage lap (s.toPatchSolverOpt lu) opt t none = .ok (t1, c1) ∧
      run lap (s.toPatchSolverOpt lu) opt d t1 = .ok t3 := by
  refine C59_interchangeable_leaf_solvers (ps' := s.toPatchSolverOpt lu) lap (by omega) (FVSolver.shapes lu s hn) ⟨?_, fun _ _ _ _ _ _ _ => rfl,
    fun _ _ _ _ _ _ _ _ _ _ => rfl⟩ opt ht h3 hd
  intro grid hx hy hp
  have hpr := hp.proper hR
  obtain ⟨T, h1, h2⟩ := C58_same_operator_partial lu ha hb hl hn ⟨hx, hy, ne_of_lt hpr.1, ne_of_lt hpr.2⟩ (hp.square hsq)
    (unique_of_elliptic hpr (hp.elliptic hR hE) N N)
  show FVSolver.buildD2NOpt (s.mapD2N lu) grid = s.buildD2N lu grid
  rw [h1, h2]

section
variable [LinearOrder K] [IsStrictOrderedRing K]

/-- The rows of the operator applied to the boundary values of a linear function. -/
theorem d2n_linear (lu : PetscLU K) {s : FVSolver K} {β : K} (hb : ∀ x y, s.beta x y = β) (hl : ∀ x y, s.lambda x y = 0)
    {n : Nat} (hn : 2 ≤ n) {grid : Grid K} (hx : grid.nx = n) (hy : grid.ny = n) (hR : Proper (rect grid))
    (hq : FV.Unique s (rect grid) n n) :
    ∃ A : Nat → Nat → Nat → Nat → K, s.buildD2N lu grid = .ok (bm n 4 4 A) ∧ ∀ a b c p, p < 4 → ∀ i, i < n →
      ∑ q ∈ range 4, ∑ j ∈ range n, A p q i j * smp a b c (rect grid) n q j = slope b c p := by
  have hn0 : 0 < n := by omega
  obtain ⟨A, h, t1, _, t3⟩ := FVSolver.represent lu s hn hx hy hq (fun _ => 0)
  refine ⟨_, by rw [t1, ofFn_eq_bm], fun a b c p hp i hi => ?_⟩
  have hz : ∀ k, k < 4 * n → h k = 0 := by
    intro k hk
    have := t3 (fun _ => 0) (fun _ _ => 0) (by
      intro i _ j _
      simp [FV.balance, FV.east, FV.west, FV.north, FV.south, Bdry.ofFn]) k hk
    simp only [mul_zero, sum_const_zero, zero_add] at this
    rw [← this]
    unfold deriv Bdry.ofFn
    split <;> simp
  have hk := Mat.idx_lt hp hi
  have hS := HPS.solves_linear (s := s) (a := a) (b := b) (c := c) (fun _ _ _ _ => by rw [hb, hb]) (fun _ _ _ _ => by rw [hb, hb])
    (R := rect grid) hn0 (f := fun _ _ => 0) (fun _ _ _ _ => by rw [hl, zero_mul])
  have hD := HPS.deriv_linear a b c (R := rect grid) hn0 (hx_pos hR hn0).ne' (hy_pos hR hn0).ne' hp i
  have e : ∀ p, p < 4 → ∀ k, k < n → smp a b c (rect grid) n ((p * n + k) / n) ((p * n + k) % n) = smp a b c (rect grid) n p k := by
    intro p _ k hk
    rw [Mat.idx_div hk, Mat.idx_mod hk]
  have e0 := e 0 (by omega)
  have e1 := e 1 (by omega)
  simp only [Nat.zero_mul, Nat.zero_add] at e0
  rw [Nat.one_mul] at e1
  have := t3 (fun k => smp a b c (rect grid) n (k / n) (k % n)) _ (hS.congr (fun k hk => (e0 k hk).symm) (fun k hk => (e1 k hk).symm)
    (fun k hk => (e 2 (by omega) k hk).symm) (fun k hk => (e 3 (by omega) k hk).symm) (fun _ _ _ _ => rfl) (fun _ _ _ _ => rfl)) _ hk
  rw [hz _ hk, add_zero, Mat.idx_div hi, Mat.idx_mod hi, sum_range_mul] at this
  rw [← hD]
  have hd : deriv (rect grid) n n (Bdry.ofFn n (fun k => smp a b c (rect grid) n (k / n) (k % n)))
      (fun i j => a + b * cx (rect grid) n i + c * cy (rect grid) n j) p i =
      deriv (rect grid) n n (ofB (smp a b c (rect grid) n)) (fun i j => a + b * cx (rect grid) n i + c * cy (rect grid) n j) p i := by
    interval_cases p <;> simp only [deriv, ofB, Bdry.ofFn, e0 i hi, e1 i hi, e 2 (by omega) i hi, e 3 (by omega) i hi]
  rw [← hd, this]
  refine sum_congr rfl fun q _ => sum_congr rfl fun j hj => ?_
  rw [Mat.idx_div (mem_range.mp hj), Mat.idx_mod (mem_range.mp hj)]

/-- C58 fails on rectangles that are not squares: for constant coefficients and `lambda = 0`, on every grid with `n ≥ 2` cells
per side of different width and height, the completed operator differs from the operator. -/
theorem C58_not_square_wrong (lu : PetscLU K) {s : FVSolver K} {a b : K} (ha : ∀ x y, s.alpha x y = a) (ha0 : a ≠ 0)
    (hb : ∀ x y, s.beta x y = b) (hb0 : 0 < b) (hl : ∀ x y, s.lambda x y = 0) {n : Nat} (hn : 2 ≤ n) {grid : Grid K}
    (hx : grid.nx = n) (hy : grid.ny = n) (hR : Proper (rect grid)) (hsq : grid.xu - grid.xl ≠ grid.yu - grid.yl) :
    ∃ T T', s.buildD2N lu grid = .ok T ∧ FVSolver.buildD2NOpt (s.mapD2N lu) grid = .ok T' ∧ T' ≠ T := by
  have hn0 : 0 < n := by omega
  have hq : FV.Unique s (rect grid) n n := unique_of_elliptic hR (fun x y _ => ⟨by rw [hb]; exact hb0, by rw [ha]; exact ha0,
    by rw [hl, zero_div]⟩) n n
  obtain ⟨A, hA, hrow⟩ := d2n_linear lu hb hl hn hx hy hR hq
  have hsol := fun j => FVSolver.solve_ok lu s hn hx hy (FVSolver.unit j) (fun _ => 0)
  choose U hU _ using hsol
  refine ⟨_, _, hA, FVSolver.buildD2NOpt_ok hn0 hx hy hU, fun e => hsq ?_⟩
  have hB := bm_inj e
  have r1 := hrow (-grid.xl) 1 0 0 (by omega) 0 hn0
  have r2 := hrow (-grid.yl) 0 1 2 (by omega) 0 hn0
  have h0 : (n : K) ≠ 0 := by exact_mod_cast hn0.ne'
  have hxu : grid.xu = grid.xl + n * FV.hx (rect grid) n := by
    show grid.xu = grid.xl + n * ((grid.xu - grid.xl) / n)
    rw [mul_div_cancel₀ _ h0]; ring
  have hyu : grid.yu = grid.yl + n * FV.hy (rect grid) n := by
    show grid.yu = grid.yl + n * ((grid.yu - grid.yl) / n)
    rw [mul_div_cancel₀ _ h0]; ring
  have x1 : FV.hx (rect grid) n * ∑ j ∈ range n, (A 0 1 0 j * n + A 0 2 0 j * (j + 1 / 2) + A 0 3 0 j * (j + 1 / 2)) = 1 := by
    rw [show slope (1 : K) 0 0 = 1 from rfl] at r1
    refine Eq.trans ?_ r1
    rw [mul_sum]
    simp only [sum_range_succ, sum_range_zero, zero_add, smp_0, smp_1, smp_2, smp_3, ← sum_add_distrib]
    refine sum_congr rfl fun j _ => ?_
    rw [show (rect grid).xu = grid.xu from rfl, hxu]
    unfold cx
    simp only [show (rect grid).xl = grid.xl from rfl]
    ring
  have x2 : FV.hy (rect grid) n * ∑ j ∈ range n, (A 0 1 0 j * n + A 0 2 0 j * (j + 1 / 2) + A 0 3 0 j * (j + 1 / 2)) = 1 := by
    rw [show slope (0 : K) 1 2 = 1 from rfl] at r2
    refine Eq.trans ?_ r2
    rw [mul_sum]
    simp only [sum_range_succ, sum_range_zero, zero_add, smp_0, smp_1, smp_2, smp_3, ← sum_add_distrib]
    refine sum_congr rfl fun j hj => ?_
    have hj := mem_range.mp hj
    have q1 : A 0 1 0 j = A 2 3 0 j := (hB 0 (by omega) 1 (by omega) 0 hn0 j hj).symm.trans (hB 2 (by omega) 3 (by omega) 0 hn0 j hj)
    have q2 : A 0 2 0 j = A 2 0 0 j := (hB 0 (by omega) 2 (by omega) 0 hn0 j hj).symm.trans (hB 2 (by omega) 0 (by omega) 0 hn0 j hj)
    have q3 : A 0 3 0 j = A 2 1 0 j := (hB 0 (by omega) 3 (by omega) 0 hn0 j hj).symm.trans (hB 2 (by omega) 1 (by omega) 0 hn0 j hj)
    rw [q1, q2, q3, show (rect grid).yu = grid.yu from rfl, hyu]
    unfold cy
    simp only [show (rect grid).yl = grid.yl from rfl]
    ring
  have hX : ∑ j ∈ range n, (A 0 1 0 j * (n : K) + A 0 2 0 j * (j + 1 / 2) + A 0 3 0 j * (j + 1 / 2)) ≠ 0 := by
    intro h
    rw [h, mul_zero] at x1
    exact zero_ne_one x1
  have := mul_right_cancel₀ hX (x1.trans x2.symm)
  rw [hxu, hyu, this]
  ring

end

theorem exGrid_proper : Proper (rect exGrid) := ⟨by norm_num [rect, exGrid], by norm_num [rect, exGrid]⟩

/-- The solutions of `exPde` on `exGrid` for unit boundary values at the lowest cell of the West and of the East side. -/
def exW : Nat → Nat → ℚ
  | 0, 0 => 146736 / 518287
  | 0, _ => 25832 / 518287
  | _, 0 => 21104 / 518287
  | _, _ => 6880 / 518287
@[inherit_doc exW] def exE : Nat → Nat → ℚ
  | 0, 0 => 42208 / 518287
  | 0, _ => 13760 / 518287
  | _, 0 => 598720 / 1554861
  | _, _ => 100880 / 1554861

/-- C58 fails for variable coefficients: for `div((1+x) grad u) - u = f` on the unit square with two cells per side the
completed operator differs from the operator. -/
theorem C58_variable_wrong (lu : PetscLU ℚ) :
    EllipticOn exPde (rect exGrid) ∧ ∃ T T', exPde.buildD2N lu exGrid = .ok T ∧
      FVSolver.buildD2NOpt (exPde.mapD2N lu) exGrid = .ok T' ∧ T' ≠ T := by
  refine ⟨exPde_elliptic, ?_⟩
  have hq : FV.Unique exPde (rect exGrid) 2 2 := unique_of_elliptic exGrid_proper exPde_elliptic 2 2
  have hsol := fun j => FVSolver.solve_ok lu exPde (grid := exGrid) (le_refl 2) rfl rfl (FVSolver.unit j) (fun _ => 0)
  choose U hU hS using hsol
  refine ⟨_, _, FVSolver.buildD2NWith_ok (n := 2) (by omega) rfl rfl hU, FVSolver.buildD2NOpt_ok (n := 2) (by omega) rfl rfl hU, fun e => ?_⟩
  rw [ofFn_eq_bm] at e
  have h := bm_inj e 1 (by omega) 1 (by omega) 0 (by omega) 0 (by omega)
  have w : Solves exPde (rect exGrid) 2 2 (Bdry.ofFn 2 (FVSolver.unit 0)) (fun _ _ => 0) exW := by
    intro i hi j hj
    interval_cases i <;> interval_cases j <;> norm_num [balance, exPde, exGrid, rect, FV.hx, FV.hy, cx, cy, east, west,
      north, south, Bdry.ofFn, FVSolver.unit, exW]
  have v : Solves exPde (rect exGrid) 2 2 (Bdry.ofFn 2 (FVSolver.unit 2)) (fun _ _ => 0) exE := by
    intro i hi j hj
    interval_cases i <;> interval_cases j <;> norm_num [balance, exPde, exGrid, rect, FV.hx, FV.hy, cx, cy, east, west,
      north, south, Bdry.ofFn, FVSolver.unit, exE]
  have w0 := hq _ _ _ _ (hS 0 hq) w 0 (by omega) 0 (by omega)
  have v0 := hq _ _ _ _ (hS 2 hq) v 1 (by omega) 0 (by omega)
  norm_num [FVSolver.optBlocks, deriv, Bdry.ofFn, FVSolver.unit, exGrid, rect, FV.hx] at h
  norm_num [exW] at w0
  norm_num [exE] at v0
  rw [w0, v0] at h
  norm_num at h

/-- `2 div(1/3 grad u) - 5 u = f` meets the hypotheses of C58 on the unit square. -/
def exConst : FVSolver ℚ := ⟨fun _ _ => 2, fun _ _ => 1 / 3, fun _ _ => -5⟩

theorem exConst_elliptic (R : Rect ℚ) : EllipticOn exConst R := fun _ _ _ => by norm_num [exConst]

example (lu : PetscLU ℚ) : ∃ T, exConst.buildD2N lu exGrid = .ok T ∧ FVSolver.buildD2NOpt (exConst.mapD2N lu) exGrid = .ok T :=
  C58_same_operator_partial lu (fun _ _ => rfl) (fun _ _ => rfl) (fun _ _ => rfl) (le_refl 2) ⟨rfl, rfl, by simp [exGrid], by simp [exGrid]⟩
    rfl (unique_of_elliptic exGrid_proper (exConst_elliptic _) 2 2)

example (lap : Lapack ℚ) (lu : PetscLU ℚ) (opt : HPSOptions) :
    ∃ t1 c1 t3, buildStage lap (exConst.toPatchSolver lu) opt (freshTree 4 exShape unitSquare) none = .ok (t1, c1) ∧
      run lap (exConst.toPatchSolver lu) opt exData t1 = .ok t3 ∧
      buildStage lap (exConst.toPatchSolverOpt lu) opt (freshTree 4 exShape unitSquare) none = .ok (t1, c1) ∧
      run lap (exConst.toPatchSolverOpt lu) opt exData t1 = .ok t3 :=
  C58_same_run_partial lap lu (fun _ _ => rfl) (fun _ _ => rfl) (fun _ _ => rfl) (by omega) ⟨by norm_num [unitSquare], by norm_num [unitSquare]⟩
    (by norm_num [unitSquare]) (exConst_elliptic _) opt (freshTree_init 4 exShape unitSquare) (Or.inl (by omega)) exData_sized

/-- The Laplacian on a rectangle twice as wide as high. -/
example (lu : PetscLU ℚ) : ∃ T T', (⟨fun _ _ => 1, fun _ _ => 1, fun _ _ => 0⟩ : FVSolver ℚ).buildD2N lu ⟨8, 8, 0, 2, 0, 1⟩ = .ok T ∧
    FVSolver.buildD2NOpt ((⟨fun _ _ => 1, fun _ _ => 1, fun _ _ => 0⟩ : FVSolver ℚ).mapD2N lu) ⟨8, 8, 0, 2, 0, 1⟩ = .ok T' ∧ T' ≠ T :=
  C58_not_square_wrong lu (fun _ _ => rfl) one_ne_zero (fun _ _ => rfl) one_pos (fun _ _ => rfl) (n := 8) (by omega) rfl rfl
    ⟨by norm_num [rect], by norm_num [rect]⟩ (by norm_num)

end EF
