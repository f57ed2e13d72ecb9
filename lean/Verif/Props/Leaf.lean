import Verif.Proofs.FVOperator
import Verif.Proofs.FVMax
import Mathlib.Algebra.Order.Ring.Rat

/-!
# Properties of the leaf grid and the leaf solver (C30–C33)
-/

namespace EF

open Finset FV

variable {K : Type} [Field K]

/-- A square grid on a rectangle with nonzero side lengths. -/
structure SquareGrid (n : Nat) (grid : Grid K) : Prop where
  nx : grid.nx = n
  ny : grid.ny = n
  wx : grid.xl ≠ grid.xu
  wy : grid.yl ≠ grid.yu

/-- A PETSc LU satisfying the contract exists over every field. -/
theorem PetscLU.nonempty : Nonempty (PetscLU K) := by
  classical
  refine ⟨⟨fun N A f => if h : Nonsing N A then (h.exists_sol f).choose else fun _ => 0, ?_⟩⟩
  intro N A f h i hi
  simp only [dif_pos h]
  exact (h.exists_sol f).choose_spec i hi

/-! ### C30 -/

/-- C30.  On a square grid with at least two cells per side `solve` returns values that satisfy the finite volume
equation in every cell, for every load and all boundary values, whenever the discrete problem has at most one
solution. -/
theorem C30_leaf_solves [CharZero K] (lu : PetscLU K) (s : FVSolver K) {n : Nat} (hn : 2 ≤ n) {grid : Grid K}
    (hg : SquareGrid n grid) (hq : Unique s (rect grid) n n) {g f : Vec K} {γ φ : Nat → K} (hγ : g.Has (4 * n) γ)
    (hφ : f.Has (n * n) φ) :
    (s.solve lu grid g f).Returns (fun u => ∃ U, u.Has (n * n) U ∧
      Solves s (rect grid) n n (Bdry.ofFn n γ) (fun i j => φ (j + i * n)) (fun i j => U (j + i * n))) := by
  obtain ⟨U, h1, h2⟩ := FVSolver.solve_ok lu s hn hg.nx hg.ny γ φ
  rw [← Vec.has_iff.mp hγ, ← Vec.has_iff.mp hφ] at h1
  exact ⟨_, h1, U, Vec.has_ofFn _ _, h2 hq⟩

/-- Unit square with two cells per side. -/
def exGrid : Grid ℚ := ⟨2, 2, 0, 1, 0, 1⟩

/-- A variable coefficient problem: `div((1+x) grad u) - u = f`. -/
def exPde : FVSolver ℚ := ⟨fun _ _ => 1, fun x _ => 1 + x, fun _ _ => -1⟩

theorem exPde_elliptic : EllipticOn exPde (rect exGrid) := by
  intro x y ⟨h, _, _, _⟩
  have : (0 : ℚ) ≤ x := h
  refine ⟨?_, by simp [exPde], by norm_num [exPde]⟩
  show 0 < 1 + x
  linarith

/-- The hypotheses of C30 hold for a variable coefficient problem on the unit square. -/
example : SquareGrid 2 exGrid ∧ Unique exPde (rect exGrid) 2 2 ∧ (Vec.ofFn 8 (fun i => (i : ℚ))).Has 8 (fun i => (i : ℚ)) :=
  ⟨⟨rfl, rfl, by norm_num [exGrid], by norm_num [exGrid]⟩,
    unique_of_elliptic ⟨by norm_num [rect, exGrid], by norm_num [rect, exGrid]⟩ exPde_elliptic 2 2, Vec.has_ofFn _ _⟩

/-- A 2 × 3 grid. -/
def exGrid23 : Grid ℚ := ⟨2, 3, 0, 1, 0, 1⟩

theorem exGrid23_proper : Proper (rect exGrid23) := ⟨by norm_num [rect, exGrid23], by norm_num [rect, exGrid23]⟩

/-- C30 fails on grids that are not square: the Dirichlet data of a 2 × 3 grid has 10 entries, but all four sides are
read with the length of the South side, and `solve` reads past the end of the West side. -/
theorem C30_leaf_solves_nonsquare_wrong (lu : PetscLU ℚ) :
    ∃ g f : Vec ℚ, (∃ γ, g.Has (2 * exGrid23.nx + 2 * exGrid23.ny) γ) ∧ (∃ φ, f.Has (exGrid23.nx * exGrid23.ny) φ) ∧
      Unique exPde (rect exGrid23) 2 3 ∧ exPde.solve lu exGrid23 g f = .ub := by
  refine ⟨Vec.ofFn 10 (fun _ => 1), Vec.ofFn 6 (fun _ => 1), ⟨_, Vec.has_ofFn _ _⟩, ⟨_, Vec.has_ofFn _ _⟩,
    unique_of_elliptic exGrid23_proper exPde_elliptic 2 3, ?_⟩
  have ha : (match FVSolver.sides exGrid23 (Vec.ofFn 10 (fun _ => (1 : ℚ))) >>= fun gs =>
      FVSolver.assemble exPde exGrid23 gs (Vec.ofFn 6 (fun _ => 1)) with
      | .ub => true | _ => false) = true := by
    decide +kernel
  unfold FVSolver.solve
  rw [← bind_assoc]
  revert ha
  cases FVSolver.sides exGrid23 (Vec.ofFn 10 (fun _ => (1 : ℚ))) >>= fun gs =>
      FVSolver.assemble exPde exGrid23 gs (Vec.ofFn 6 (fun _ => 1)) with
  | ok a => simp
  | ub => simp
  | throw e => simp

/-! ### C31 -/

section
variable [LinearOrder K] [IsStrictOrderedRing K]

/-- C31, first half.  An elliptic discrete Dirichlet problem on any grid has exactly one solution. -/
theorem C31_unique_solvability {c : FVSolver K} {R : Rect K} (hR : Proper R) (hc : EllipticOn c R) (nx ny : Nat)
    (b : Bdry K) (f : Nat → Nat → K) :
    (∃ u, Solves c R nx ny b f u) ∧
      ∀ u v, Solves c R nx ny b f u → Solves c R nx ny b f v → ∀ i, i < nx → ∀ j, j < ny → u i j = v i j :=
  ⟨exists_of_unique (unique_of_elliptic hR hc nx ny) b f, fun u v => unique_of_elliptic hR hc nx ny b f u v⟩

/-- Some boundary value of the `nx × ny` grid. -/
inductive Bdry.Value (nx ny : Nat) (b : Bdry K) : K → Prop
  | W {j} : j < ny → Bdry.Value nx ny b (b.W j)
  | E {j} : j < ny → Bdry.Value nx ny b (b.E j)
  | S {i} : i < nx → Bdry.Value nx ny b (b.S i)
  | N {i} : i < nx → Bdry.Value nx ny b (b.N i)

/-- C31, second half.  For zero load and `lambda = 0` every cell value lies between any lower and any upper bound of
the boundary values. -/
theorem C31_maximum_principle {c : FVSolver K} {R : Rect K} (hR : Proper R) (hc : EllipticOn c R)
    (hl : ∀ x y, c.lambda x y = 0) {nx ny : Nat} {b : Bdry K} {u : Nat → Nat → K}
    (hu : Solves c R nx ny b (fun _ _ => 0) u) {lo hi : K} (hb : ∀ x, Bdry.Value nx ny b x → lo ≤ x ∧ x ≤ hi) :
    ∀ i, i < nx → ∀ j, j < ny → lo ≤ u i j ∧ u i j ≤ hi := by
  intro i hi' j hj'
  constructor
  · have hneg : Solves c R nx ny (b.lin (-1) 0 b) (fun _ _ => 0) (fun i j => - u i j) := by
      refine (hu.lin (-1) 0 hu).congr (fun _ _ => rfl) (fun _ _ => rfl) (fun _ _ => rfl) (fun _ _ => rfl) ?_ ?_ <;>
        intros <;> simp
    have := comparison hR hc (M := -lo) (b := b.lin (-1) 0 b)
      ⟨fun j hj => by have := (hb _ (.W hj)).1; simp only [Bdry.lin]; linarith,
        fun j hj => by have := (hb _ (.E hj)).1; simp only [Bdry.lin]; linarith,
        fun j hj => by have := (hb _ (.S hj)).1; simp only [Bdry.lin]; linarith,
        fun j hj => by have := (hb _ (.N hj)).1; simp only [Bdry.lin]; linarith⟩ (Or.inr hl)
      (fun i hi j hj => by rw [hneg i hi j hj]; simp) i hi' j hj'
    linarith
  · exact comparison hR hc (M := hi) (b := b)
      ⟨fun j hj => (hb _ (.W hj)).2, fun j hj => (hb _ (.E hj)).2, fun j hj => (hb _ (.S hj)).2,
        fun j hj => (hb _ (.N hj)).2⟩ (Or.inr hl) (fun i hi j hj => by rw [hu i hi j hj]; simp) i hi' j hj'

/-- C31 for the code: on an elliptic problem `solve` returns the one and only solution. -/
theorem C31_solve_returns_the_solution (lu : PetscLU K) {s : FVSolver K} {n : Nat} (hn : 2 ≤ n) {grid : Grid K}
    (hx : grid.nx = n) (hy : grid.ny = n) (hR : Proper (rect grid)) (hc : EllipticOn s (rect grid)) {g f : Vec K}
    {γ φ : Nat → K} (hγ : g.Has (4 * n) γ) (hφ : f.Has (n * n) φ) :
    (s.solve lu grid g f).Returns (fun u => ∃ U, u.Has (n * n) U ∧ ∀ V,
      Solves s (rect grid) n n (Bdry.ofFn n γ) (fun i j => φ (j + i * n)) V ↔
        ∀ i, i < n → ∀ j, j < n → V i j = U (j + i * n)) := by
  have hq := unique_of_elliptic hR hc n n
  obtain ⟨u, h1, U, h2, h3⟩ := C30_leaf_solves lu s hn ⟨hx, hy, ne_of_lt hR.1, ne_of_lt hR.2⟩ hq hγ hφ
  refine ⟨u, h1, U, h2, fun V => ⟨fun hV i hi j hj => hq _ _ _ _ hV h3 i hi j hj, fun hV => ?_⟩⟩
  exact h3.congr (fun _ _ => rfl) (fun _ _ => rfl) (fun _ _ => rfl) (fun _ _ => rfl) (fun _ _ _ _ => rfl)
    (fun i hi j hj => (hV i hi j hj).symm)

end

/-- The hypotheses of C31 hold for a variable coefficient problem on the unit square. -/
example : Proper (rect exGrid) ∧ EllipticOn exPde (rect exGrid) :=
  ⟨⟨by norm_num [rect, exGrid], by norm_num [rect, exGrid]⟩, exPde_elliptic⟩

/-! ### C32 -/

/-- C32.  The operator `buildD2N` returns, applied to the boundary values, plus what `particularNeumannData` returns,
is what `mapD2N` returns; and these are the derivatives in coordinate direction of the solution. -/
theorem C32_operator_represents_solver [CharZero K] (lu : PetscLU K) (s : FVSolver K) {n : Nat} (hn : 2 ≤ n)
    {grid : Grid K} (hg : SquareGrid n grid) (hq : Unique s (rect grid) n n) {g f : Vec K} {γ φ : Nat → K}
    (hγ : g.Has (4 * n) γ) (hφ : f.Has (n * n) φ) :
    ∃ T h q U, s.buildD2N lu grid = .ok T ∧ s.particularNeumannData lu grid f = .ok h ∧ s.mapD2N lu grid g f = .ok q ∧
      (T.mulVec g >>= fun y => y.add h) = .ok q ∧
      Solves s (rect grid) n n (Bdry.ofFn n γ) (fun i j => φ (j + i * n)) U ∧
      q.Has (4 * n) (fun k => deriv (rect grid) n n (Bdry.ofFn n γ) U (k / n) (k % n)) := by
  obtain ⟨U, h1, h2⟩ := FVSolver.solve_ok lu s hn hg.nx hg.ny γ φ
  obtain ⟨a, h, t1, t2, t3⟩ := FVSolver.represent lu s hn hg.nx hg.ny hq φ
  have hm := FVSolver.mapD2N_ok lu s hn hg.nx hg.ny γ φ h1
  rw [Vec.has_iff.mp hγ, Vec.has_iff.mp hφ]
  refine ⟨_, _, _, fun i j => U (j + i * n), t1, t2, hm, ?_, h2 hq, Vec.has_ofFn _ _⟩
  rw [Mat.mulVec_ofFn (by omega), Res.ok_bind, Vec.add_ofFn]
  congr 1
  refine Vec.ofFn_congr fun k hk => ?_
  rw [t3 γ (fun i j => U (j + i * n)) (h2 hq) k hk]

/-- C32 without a load and with unit boundary values: column `j` of the operator is the flux of the solution with
boundary value one at position `j`. -/
theorem C32_columns [CharZero K] (lu : PetscLU K) (s : FVSolver K) {n : Nat} (hn : 2 ≤ n) {grid : Grid K}
    (hg : SquareGrid n grid) (hq : Unique s (rect grid) n n) :
    (s.buildD2N lu grid).Returns (fun T => ∃ a, T.Has (4 * n) (4 * n) a ∧ ∀ j, j < 4 * n → ∀ U,
      Solves s (rect grid) n n (Bdry.ofFn n (fun k => if k = j then 1 else 0)) (fun _ _ => 0) U →
      ∀ k, k < 4 * n → a k j = deriv (rect grid) n n (Bdry.ofFn n (fun k => if k = j then 1 else 0)) U (k / n) (k % n)) := by
  obtain ⟨V, h1, h2⟩ := FVSolver.buildD2N_ok lu s hn hg.nx hg.ny
  refine ⟨_, h2, _, Mat.has_ofFn _ _ _, ?_⟩
  intro j hj U hU k hk
  obtain ⟨W, w1, w2⟩ := FVSolver.solve_ok lu s hn hg.nx hg.ny (FVSolver.unit j) (fun _ => 0)
  rw [h1 j] at w1
  have hVW := Vec.ofFn_inj (Res.ok_inj.mp w1)
  have hs := hq _ _ _ _ (w2 hq) hU
  refine deriv_congr (by omega) (fun _ _ => rfl) (fun _ _ => rfl) (fun _ _ => rfl) (fun _ _ => rfl) ?_
    (Nat.mod_lt _ (by omega))
  intro i' hi' j' hj'
  rw [hVW _ (FVSolver.idx_lt hi' hj')]
  exact hs i' hi' j' hj'

/-! ### C33 -/

/-- C33, numbering: the cells of an `nx × ny` grid are numbered one-to-one by `0 … nx*ny-1`. -/
theorem C33_numbering (nx ny : Nat) :
    (∀ i j, i < nx → j < ny → FVSolver.gridIndex2MatrixIndex i j nx ny < nx * ny) ∧
    (∀ i j i' j', j < ny → j' < ny →
      FVSolver.gridIndex2MatrixIndex i j nx ny = FVSolver.gridIndex2MatrixIndex i' j' nx ny → i = i' ∧ j = j') ∧
    (∀ k, k < nx * ny → ∃ i j, i < nx ∧ j < ny ∧ FVSolver.gridIndex2MatrixIndex i j nx ny = k) := by
  refine ⟨fun i j hi hj => FVSolver.idx_lt hi hj, fun i j i' j' hj hj' h => FVSolver.idx_inj hj hj' h, ?_⟩
  intro k hk
  have hny : 0 < ny := by
    rcases Nat.eq_zero_or_pos ny with h | h
    · subst h; omega
    · exact h
  exact ⟨k / ny, k % ny, Nat.div_lt_of_lt_mul (by rwa [Nat.mul_comm]), Nat.mod_lt _ hny,
    by unfold FVSolver.gridIndex2MatrixIndex; rw [Nat.mul_comm]; exact Nat.mod_add_div k ny⟩

/-- C33, geometry: cell centres are where they should be, strictly inside the domain, in increasing order, one cell
width apart; any other dimension index throws. -/
theorem C33_centres [LinearOrder K] [IsStrictOrderedRing K] (grid : Grid K) (hR : Proper (rect grid)) :
    (∀ i, i < grid.nx → ∃ x, grid.point 0 i = .ok x ∧
      x = grid.xl + (i + 1 / 2) * ((grid.xu - grid.xl) / grid.nx) ∧ grid.xl < x ∧ x < grid.xu) ∧
    (∀ j, j < grid.ny → ∃ y, grid.point 1 j = .ok y ∧
      y = grid.yl + (j + 1 / 2) * ((grid.yu - grid.yl) / grid.ny) ∧ grid.yl < y ∧ y < grid.yu) ∧
    (∀ d k, 2 ≤ d → (grid.point d k).Throws) := by
  refine ⟨?_, ?_, ?_⟩
  · intro i hi
    have h := hx_pos hR (Nat.lt_of_le_of_lt (Nat.zero_le i) hi)
    obtain ⟨f1, f2⟩ := cx_face hR hi
    refine ⟨grid.x i, rfl, ?_, ?_, ?_⟩
    · rw [FVSolver.x_eq]; rfl
    · rw [FVSolver.x_eq]; exact lt_of_le_of_lt f1 (by linarith)
    · rw [FVSolver.x_eq]; exact lt_of_lt_of_le (by linarith) f2
  · intro j hj
    have h := hy_pos hR (Nat.lt_of_le_of_lt (Nat.zero_le j) hj)
    obtain ⟨f1, f2⟩ := cy_face hR hj
    refine ⟨grid.y j, rfl, ?_, ?_, ?_⟩
    · rw [FVSolver.y_eq]; rfl
    · rw [FVSolver.y_eq]; exact lt_of_le_of_lt f1 (by linarith)
    · rw [FVSolver.y_eq]; exact lt_of_lt_of_le (by linarith) f2
  · intro d k hd
    refine ⟨.invalidArgument, ?_⟩
    unfold Grid.point
    rw [if_neg (by omega), if_neg (by omega)]

/-- C33, load: the load sampled from a function uses the same numbering. -/
theorem C33_load_sampled (f : K → K → K) (grid : Grid K) :
    (HPS.sampleLoad f grid).Returns (fun F => ∃ φ, F.Has (grid.nx * grid.ny) φ ∧ ∀ i, i < grid.nx → ∀ j, j < grid.ny →
      φ (j + i * grid.ny) = f (cx (rect grid) grid.nx i) (cy (rect grid) grid.ny j)) := by
  have key := FVSolver.forN_progress (n := grid.nx)
    (body := fun i F => do
      let x ← grid.point 0 i
      forN grid.ny (fun j F => do
        let y ← grid.point 1 j
        F.set (j + i * grid.ny) (f x y)) F)
    (fun i0 (F : Vec K) => ∃ φ, F = Vec.ofFn (grid.nx * grid.ny) φ ∧ ∀ i, i < i0 → ∀ j, j < grid.ny →
      φ (j + i * grid.ny) = f (grid.x i) (grid.y j)) (s := Vec.zeros (grid.nx * grid.ny))
    ⟨_, Vec.zeros_eq _, fun i hi => by omega⟩
    (by
      intro i0 F hi0 ⟨φ, hF, hφ⟩
      have inner := FVSolver.forN_progress (n := grid.ny) (body := fun j F => do
          let y ← grid.point 1 j
          F.set (j + i0 * grid.ny) (f (grid.x i0) y))
        (fun j0 (F : Vec K) => ∃ φ, F = Vec.ofFn (grid.nx * grid.ny) φ ∧
          (∀ i, i < i0 → ∀ j, j < grid.ny → φ (j + i * grid.ny) = f (grid.x i) (grid.y j)) ∧
          ∀ j, j < j0 → φ (j + i0 * grid.ny) = f (grid.x i0) (grid.y j)) (s := F)
        ⟨φ, hF, hφ, fun j hj => by omega⟩
        (by
          intro j0 F hj0 ⟨φ, hF, h1, h2⟩
          refine ⟨Vec.ofFn (grid.nx * grid.ny)
            (fun k => if k = j0 + i0 * grid.ny then f (grid.x i0) (grid.y j0) else φ k), ?_, _, rfl, ?_, ?_⟩
          · show (F.set (j0 + i0 * grid.ny) (f (grid.x i0) (grid.y j0))) = _
            rw [hF, Vec.set_ofFn (FVSolver.idx_lt hi0 hj0)]
          · intro i hi j hj
            rw [if_neg (fun h => by have := FVSolver.idx_inj hj hj0 h; omega)]
            exact h1 i hi j hj
          · intro j hj
            by_cases h : j = j0
            · subst h; rw [if_pos rfl]
            · rw [if_neg (by omega)]
              exact h2 j (by omega))
      obtain ⟨F', e, ψ, h1, h2, h3⟩ := inner
      refine ⟨F', e, ψ, h1, ?_⟩
      intro i hi j hj
      by_cases h : i = i0
      · subst h; exact h3 j hj
      · exact h2 i (by omega) j hj)
  obtain ⟨F, h1, φ, h2, h3⟩ := key
  refine ⟨F, h1, φ, Vec.has_iff.mpr h2, fun i hi j hj => ?_⟩
  rw [h3 i hi j hj, FVSolver.x_eq, FVSolver.y_eq]

/-- A grid meeting the hypotheses of `C33_centres`. -/
example : Proper (rect exGrid23) := exGrid23_proper

end EF
