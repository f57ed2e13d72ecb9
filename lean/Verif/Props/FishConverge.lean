import Verif.Props.Study
import Verif.Props.Fishpack
import Mathlib.Analysis.SpecialFunctions.Trigonometric.Deriv

/-!
# Second order with FISHPACK90, and the convergence study as it is shipped (C69, C70, C80)
-/

namespace EF

open FV HPS

section
variable {K : Type} [Field K] [LinearOrder K] [IsStrictOrderedRing K]

/-- With FISHPACK90 all operators have the right sizes. -/
theorem fish_shapes (lu : PetscLU K) (hst : Hstcrt K) (s : FVSolver K) {n : Nat} (hn : 0 < n) :
    SolverShapes n (s.patchSolver lu hst .FISHPACK90) where
  d2n := by
    intro grid hx hy
    choose V hV _ using fun j => FVSolver.solveFish_ok hst s hx hy (FVSolver.unit j) (fun _ => 0)
    exact ⟨_, FVSolver.buildD2NWith_ok hn hx hy hV, _, Mat.has_ofFn _ _ _⟩
  flux := by
    intro grid f hx hy h1 h2
    obtain ⟨φ, hφ⟩ := h2.has
    rw [h1, Vec.has_iff] at hφ
    obtain ⟨U, hU, -⟩ := FVSolver.solveFish_ok hst s hx hy (fun _ => 0) φ
    have e := FVSolver.mapD2NWith_ok hn hx hy _ _ hU
    rw [← hφ, ← Vec.fill_eq] at e
    have h4 : 2 * grid.nx + 2 * grid.ny = 4 * n := by omega
    have e' : (s.patchSolver lu hst .FISHPACK90).particularNeumannData grid f =
        FVSolver.mapD2NWith (s.solveFish hst) grid (Vec.fill (4 * n) 0) f := by
      rw [← h4]
      rfl
    exact ⟨_, e'.trans e, _, Vec.has_ofFn _ _⟩
  solve := by
    intro grid g f hx hy g1 g2 f1 f2
    obtain ⟨φ, hφ⟩ := f2.has
    obtain ⟨γ, hγ⟩ := g2.has
    rw [f1, Vec.has_iff] at hφ
    rw [g1, Vec.has_iff] at hγ
    obtain ⟨U, hU, -⟩ := FVSolver.solveFish_ok hst s hx hy γ φ
    refine ⟨Vec.ofFn (n * n) U, ?_, rfl, (Vec.has_ofFn _ _).wf⟩
    show s.solveFish hst grid g f = _
    rw [hφ, hγ, hU]

/-- FISHPACK90 gives the values of the finite volume solver for the Helmholtz equation with `lambda(0,0)`. -/
theorem fish_same (lu : PetscLU K) (hst : Hstcrt K) (s : FVSolver K) {l : K} (hl : s.lambda 0 0 = l) (hl0 : l ≤ 0) {N : Nat} (hn : 3 ≤ N)
    {R : Rect K} (hR : Proper R) : SameOn N R ((FVSolver.helmholtz l).toPatchSolver lu) (s.patchSolver lu hst .FISHPACK90) := by
  rw [C57_ignores_coefficients_actual lu hst (s' := FVSolver.helmholtz l) hl]
  exact patchSolver_same lu hst ⟨fun _ _ _ _ => one_mul 1, fun _ _ => rfl⟩ hn hR fun P hP => helmholtz_unique (hP.proper hR) hl0 _ _

end

/-- The derivatives of the coefficient one. -/
def oneD (k : Nat) (_ _ : ℝ) : ℝ := if k = 0 then 1 else 0

theorem oneD_derivs (l : ℝ) (R : Rect ℝ) : Derivs R (FVSolver.helmholtz l).beta oneD oneD 1 := by
  have h : ∀ k : Nat, |(if k = 0 then 1 else 0 : ℝ)| ≤ 1 := fun k => by split <;> norm_num
  refine ⟨rfl, rfl, fun y _ => ⟨fun k _ x _ => ?_, fun k _ x _ => h k⟩, fun x _ => ⟨fun k _ y _ => ?_, fun k _ y _ => h k⟩⟩
  · exact hasDerivWithinAt_const _ _ _
  · exact hasDerivWithinAt_const _ _ _

theorem helmholtz_elliptic {l : ℝ} (hl : l ≤ 0) (R : Rect ℝ) : EllipticOn (FVSolver.helmholtz l) R :=
  fun _ _ _ => ⟨one_pos, one_ne_zero, by
    show l / 1 ≤ 0
    rw [div_one]
    exact hl⟩

/-- The Helmholtz equation `u_xx + u_yy + l u = f` at every point of the rectangle. -/
def Helmholtz (l : ℝ) (R : Rect ℝ) (u : ℝ → ℝ → ℝ) (Dx Dy : Nat → ℝ → ℝ → ℝ) (f : ℝ → ℝ → ℝ) : Prop :=
  ∀ x y, Inside R x y → Dx 2 x y + Dy 2 x y + l * u x y = f x y

theorem Helmholtz.classical {l : ℝ} {R : Rect ℝ} {u : ℝ → ℝ → ℝ} {Dx Dy : Nat → ℝ → ℝ → ℝ} {f : ℝ → ℝ → ℝ} (h : Helmholtz l R u Dx Dy f) :
    Classical (FVSolver.helmholtz l) R u Dx Dy oneD oneD f := by
  intro x y hi
  rw [← h x y hi]
  show 1 * ((if 1 = 0 then 1 else 0 : ℝ) * Dx 1 x y + 1 * Dx 2 x y + ((if 1 = 0 then 1 else 0 : ℝ) * Dy 1 x y + 1 * Dy 2 x y)) + l * u x y = _
  rw [if_neg one_ne_zero]
  ring

/-- C69 with FISHPACK90: for a smooth solution of `u_xx + u_yy + lambda(0,0) u = f` with `lambda(0,0) ≤ 0`, whatever the coefficient
functions are otherwise, the values in all cells are within a constant over the square of the cells per side of the solution, with one
constant for all uniformly refined meshes with at least three cells per side of a leaf. -/
theorem C69_fishpack {l : ℝ} (hl : l ≤ 0) {R : Rect ℝ} (hR : Proper R) {u : ℝ → ℝ → ℝ} {Dx Dy : Nat → ℝ → ℝ → ℝ} {D : ℝ}
    (hu : Derivs R u Dx Dy D) {f : ℝ → ℝ → ℝ} (hf : Helmholtz l R u Dx Dy f) :
    ∃ C, 0 ≤ C ∧ ∀ (lap : Lapack ℝ) (lu : PetscLU ℝ) (hst : Hstcrt ℝ) (s : FVSolver ℝ), s.lambda 0 0 = l → ∀ N, 3 ≤ N →
      ∀ opt : HPSOptions, opt.cacheOperators = false → opt.homogeneousRhs = false → ∀ t : Tree (Patch ℝ), Init N t R → ∀ d, Uniform d t →
      ∃ t1 c1 t3, buildStage lap (s.patchSolver lu hst .FISHPACK90) opt t none = .ok (t1, c1) ∧
        (Request.functions f (fun _ x y => (u x y, 1, 0))).run lap (s.patchSolver lu hst .FISHPACK90) opt t1 = .ok t3 ∧ t3.shape = t.shape ∧
        ∀ p ∈ t3.leaves, LeafNear N u (C / (N * 2 ^ d) ^ 2) p := by
  obtain ⟨C, C0, hC⟩ := C69_second_order hR (helmholtz_elliptic hl R) (oneD_derivs l R) hu hf.classical
  refine ⟨C, C0, fun lap lu hst s hs N hN opt hc ho t ht d hd => ?_⟩
  obtain ⟨t1, c1, t3, k1, k2, k3, k4⟩ := hC lap lu N (by omega) opt hc ho t ht d hd
  obtain ⟨t4, c4, t5, l1, l2, l3, l4⟩ := C59_interchangeable_leaf_solvers_functions lap (by omega)
    (FVSolver.shapes lu (FVSolver.helmholtz l) (by omega)) (fish_same lu hst s hs hl hN hR) ho ht (.inl hN) f (fun _ x y => (u x y, 1, 0))
  rw [k1] at l1
  obtain ⟨rfl, rfl⟩ := Prod.mk.inj (Res.ok_inj.mp l1)
  rw [k2] at l2
  obtain rfl := Res.ok_inj.mp l2
  exact ⟨t1, c1, t3, l3, l4, k3, k4⟩

/-- C70 with FISHPACK90: the errors every rank reports on a uniformly refined mesh are at most a constant over the square of the cells per
side.  Missing: adaptive meshes, floating point. -/
theorem C70_fishpack_partial {l : ℝ} (hl : l ≤ 0) {R : Rect ℝ} (hR : Proper R) {u : ℝ → ℝ → ℝ} {Dx Dy : Nat → ℝ → ℝ → ℝ} {D : ℝ}
    (hu : Derivs R u Dx Dy D) {f : ℝ → ℝ → ℝ} (hf : Helmholtz l R u Dx Dy f) :
    ∃ C, 0 ≤ C ∧ ∀ (lap : Lapack ℝ) (hst : Hstcrt ℝ) (lu : PetscLU ℝ) (s : FVSolver ℝ) (N M size d : Nat) (F : Forest) (opt : HPSOptions)
      (root : Patch ℝ) (n maxLevel : Nat), s.lambda 0 0 = l →
      3 ≤ N → opt.homogeneousRhs = false → opt.cacheOperators = false → F.depth ≤ M → F.Sorted → EveryRank F size → F.shape = .uniform d →
      root.grid = ⟨N, N, R.xl, R.xu, R.yl, R.yu⟩ → root.nCoarsens = 0 →
      ∃ Z : Nat → ErrorReport ℝ,
        AlwaysEnds (studyOn M size F lap (s.patchSolver lu hst .FISHPACK90) opt root f (fun _ x y => (u x y, 1, 0)) (n + 1) Real.sqrt u
          maxLevel) Z ∧
        ∀ r, r < size → 0 ≤ (Z r).l1 ∧ (Z r).l1 ≤ (Z r).l2 ∧ (Z r).l2 ≤ (Z r).lI ∧ (Z r).lI ≤ C / (N * 2 ^ d) ^ 2 := by
  obtain ⟨C, C0, hC⟩ := second_order_same hR (helmholtz_elliptic hl R) (oneD_derivs l R) hu hf.classical
  exact ⟨C, C0, fun lap hst lu s N M size d F opt root n maxLevel hs hN => hC lap lu _ N M size d F opt root n maxLevel (by omega)
    (fish_shapes lu hst s (by omega)) (fish_same lu hst s hs hl hN hR)⟩

/-- C80 with FISHPACK90, which the program uses: the errors in every uniform row of every rank's file are at most a constant over the square
of the effective resolution in the row, whatever the sizes, levels and number of ranks.
Missing: the adaptive rows; rounding. -/
theorem C80_fishpack_partial {l : ℝ} (hl : l ≤ 0) {R : Rect ℝ} (hR : Proper R) {u : ℝ → ℝ → ℝ} {Dx Dy : Nat → ℝ → ℝ → ℝ} {D : ℝ}
    (hu : Derivs R u Dx Dy D) {f : ℝ → ℝ → ℝ} (hf : Helmholtz l R u Dx Dy f) :
    ∃ C, 0 ≤ C ∧ ∀ (lap : Lapack ℝ) (lu : PetscLU ℝ) (hst : Hstcrt ℝ) (s : FVSolver ℝ) (M size n : Nat) (F : Nat → Nat → Nat → Forest)
      (sizes levels : List Nat) (clock : Nat → Nat → ℝ) (tell : ℝ → Text) (a : AppClock ℝ), s.lambda 0 0 = l →
      (∀ x, ',' ∉ tell x ∧ '\n' ∉ tell x) → (∀ N ∈ sizes, 3 ≤ N) →
      (∀ j ∈ studyRuns true sizes levels ++ studyRuns false sizes levels, (F j.minLevel j.maxLevel j.N).depth ≤ M ∧
        (F j.minLevel j.maxLevel j.N).Sorted ∧ EveryRank (F j.minLevel j.maxLevel j.N) size) →
      (∀ N l, (F l l N).shape = .uniform l) →
      ∃ (E : StudyRun → Nat → ErrorReport ℝ) (Z : StudyRun → Nat → ℚ) (file : Nat → Text × Text),
        AlwaysEnds (StudyCase.on ⟨lap, s.patchSolver lu hst .FISHPACK90, ⟨false, false⟩, R.xl, R.xu, R.yl, R.yu, f,
          fun _ x y => (u x y, 1, 0), n + 1, Real.sqrt, u⟩ M size F clock tell sizes levels a) file ∧
        (∀ r, r < size → readTable (file r).2 = (resultColumns :: studyRows tell (clock r) n (fun j => E j r) (fun j => Z j r) a.ticks
          (studyRuns true sizes levels ++ studyRuns false sizes levels)).map (fun l => l ++ [[]]) ++ [[[]]]) ∧
        ∀ j ∈ studyRuns true sizes levels, ∀ r, r < size → (E j r).resolution = 2 ^ j.maxLevel * j.N ∧ 0 ≤ (E j r).l1 ∧
          (E j r).l1 ≤ (E j r).l2 ∧ (E j r).l2 ≤ (E j r).lI ∧ (E j r).lI ≤ C / ((E j r).resolution : ℝ) ^ 2 := by
  obtain ⟨C, C0, hC⟩ := study_second_order hR (helmholtz_elliptic hl R) (oneD_derivs l R) hu hf.classical
  exact ⟨C, C0, fun lap lu hst s M size n F sizes levels clock tell a hs ht h3 => hC lap lu _ M size n F sizes levels clock tell a ht h3
    fun N hN => ⟨fish_shapes lu hst s (by omega), fish_same lu hst s hs hl hN hR⟩⟩

/-! ## The program as shipped -/

/-- The square `[0, π]²`.  examples/elliptic-multiple/main.cpp:426-436. -/
noncomputable def piSquare : Rect ℝ := ⟨0, Real.pi, 0, Real.pi⟩

/-- `uFunction`.  examples/elliptic-multiple/main.cpp:53-55. -/
noncomputable def sinSum (x y : ℝ) : ℝ := Real.sin x + Real.sin y

/-- The derivatives of the sum of sines by its first argument. -/
noncomputable def sinD (k : Nat) (x y : ℝ) : ℝ := Real.sin (x + k * (Real.pi / 2)) + if k = 0 then Real.sin y else 0

theorem sinD_deriv (k : Nat) (y x : ℝ) : HasDerivAt (fun x => sinD k x y) (sinD (k + 1) x y) x := by
  have h := (((hasDerivAt_id x).add_const ((k : ℝ) * (Real.pi / 2))).sin).add_const (if k = 0 then Real.sin y else 0)
  refine h.congr_deriv ?_
  unfold sinD
  rw [if_neg (by omega), add_zero, mul_one]
  push_cast
  rw [show x + ((k : ℝ) + 1) * (Real.pi / 2) = x + k * (Real.pi / 2) + Real.pi / 2 by ring, Real.sin_add_pi_div_two]
  rfl

theorem sinD_bound (k : Nat) (x y : ℝ) : |sinD k x y| ≤ 2 := by
  unfold sinD
  refine (abs_add_le _ _).trans ?_
  have h1 := Real.abs_sin_le_one (x + k * (Real.pi / 2))
  have h2 : |(if k = 0 then Real.sin y else 0)| ≤ 1 := by
    split
    · exact Real.abs_sin_le_one y
    · norm_num
  linarith

theorem sinSum_derivs (R : Rect ℝ) : Derivs R sinSum sinD (fun k x y => sinD k y x) 2 := by
  refine ⟨?_, ?_, fun y _ => ⟨fun k _ x _ => (sinD_deriv k y x).hasDerivWithinAt, fun k _ x _ => sinD_bound k x y⟩,
    fun x _ => ⟨fun k _ y _ => (sinD_deriv k x y).hasDerivWithinAt, fun k _ y _ => sinD_bound k y x⟩⟩
  · funext x y
    simp [sinD, sinSum]
  · funext x y
    simp [sinD, sinSum, add_comm]

theorem sinSum_poisson (R : Rect ℝ) : Helmholtz 0 R sinSum sinD (fun k x y => sinD k y x) (fun x y => -sinSum x y) := by
  intro x y _
  unfold sinD sinSum
  simp only [OfNat.ofNat_ne_zero, if_false, add_zero, zero_mul]
  push_cast
  rw [show (2 : ℝ) * (Real.pi / 2) = Real.pi by ring, Real.sin_add_pi, Real.sin_add_pi]
  ring

/-- The coefficient functions: `alpha` is one, `beta` and `lambda` are zero.  examples/elliptic-multiple/main.cpp:70-101. -/
def shippedPde : FVSolver ℝ := ⟨fun _ _ => 1, fun _ _ => 0, fun _ _ => 0⟩

/-- The study as shipped: `u = sin x + sin y` on `[0, π]²` with FISHPACK90 and the functions, options and one solve per run that the
program sets; the leaf solver and LAPACK are the external ones. -/
noncomputable def shippedStudy (lap : Lapack ℝ) (lu : PetscLU ℝ) (hst : Hstcrt ℝ) : StudyCase ℝ :=
  ⟨lap, shippedPde.patchSolver lu hst .FISHPACK90, ⟨false, false⟩, 0, Real.pi, 0, Real.pi, fun x y => -sinSum x y,
    fun _ x y => (sinSum x y, 1, 0), 1, Real.sqrt, sinSum⟩

/-- `patch_size_vector`.  examples/elliptic-multiple/main.cpp:444. -/
def shippedSizes : List Nat := [4, 8, 16, 32]

/-- `max_level_vector`.  examples/elliptic-multiple/main.cpp:446. -/
def shippedLevels : List Nat := [1, 2, 3, 4, 5, 6, 7]

/-- C80 for the program as shipped, on any number of ranks, each with a leaf in every run: it ends and every rank writes 50 rows; there is
one constant, the same for all numbers of ranks and all meshes, such that the errors in the 25 uniform rows are at most the constant over
the square of the effective resolution in the row.  That `beta` is zero in the program has no effect.
Missing: the adaptive rows; rounding. -/
theorem C80_shipped_partial :
    ∃ C : ℝ, 0 ≤ C ∧ ∀ (lap : Lapack ℝ) (lu : PetscLU ℝ) (hst : Hstcrt ℝ) (M size : Nat) (F : Nat → Nat → Nat → Forest)
      (clock : Nat → Nat → ℝ) (fl : ℝ → ℚ) (a : AppClock ℝ),
      (∀ j ∈ studyRuns true shippedSizes shippedLevels ++ studyRuns false shippedSizes shippedLevels,
        (F j.minLevel j.maxLevel j.N).depth ≤ M ∧ (F j.minLevel j.maxLevel j.N).Sorted ∧ EveryRank (F j.minLevel j.maxLevel j.N) size) →
      (∀ N l, (F l l N).shape = .uniform l) →
      ∃ (E : StudyRun → Nat → ErrorReport ℝ) (Z : StudyRun → Nat → ℚ) (file : Nat → Text × Text),
        AlwaysEnds ((shippedStudy lap lu hst).on M size F clock (fun x => number2string (fl x)) shippedSizes shippedLevels a) file ∧
        (∀ r, r < size → readTable (file r).2 = (resultColumns :: studyRows (fun x => number2string (fl x)) (clock r) 0 (fun j => E j r)
          (fun j => Z j r) a.ticks (studyRuns true shippedSizes shippedLevels ++ studyRuns false shippedSizes shippedLevels)).map
            (fun l => l ++ [[]]) ++ [[[]]] ∧ (readTable (file r).2).length = 52) ∧
        ∀ j ∈ studyRuns true shippedSizes shippedLevels, ∀ r, r < size → (E j r).resolution = 2 ^ j.maxLevel * j.N ∧ 0 ≤ (E j r).l1 ∧
          (E j r).l1 ≤ (E j r).l2 ∧ (E j r).l2 ≤ (E j r).lI ∧ (E j r).lI ≤ C / ((E j r).resolution : ℝ) ^ 2 := by
  obtain ⟨C, C0, hC⟩ := C80_fishpack_partial le_rfl (R := piSquare) ⟨Real.pi_pos, Real.pi_pos⟩ (sinSum_derivs _) (sinSum_poisson _)
  refine ⟨C, C0, fun lap lu hst M size F clock fl a hF hU => ?_⟩
  obtain ⟨E, Z, file, h1, h2, h3⟩ := hC lap lu hst shippedPde M size 0 F shippedSizes shippedLevels clock (fun x => number2string (fl x)) a rfl
    (fun x => number2string_plain _) (by decide) hF hU
  refine ⟨E, Z, file, h1, fun r hr => ⟨h2 r hr, ?_⟩, h3⟩
  rw [h2 r hr, List.length_append, List.length_map, List.length_cons, studyRows_length]
  decide

end EF
