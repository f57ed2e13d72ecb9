import Verif.Proofs.MemoryCount
import Verif.Props.Report

/-!
# The size of the data a convergence study reports (C79)
-/

namespace EF

open Finset FV HPS

section
variable {K : Type} [Field K] [NeZero (2 : K)] {N M size : Nat} {F : Forest}

/-- A mesh starts with unused patches. -/
theorem startTree_fresh (grid : Grid K) (F : Forest) (a : Addr) : Every FreshLeaf FreshBranch (startTree (Patch.fresh grid) F a) := by
  have h : ∀ a, ∃ g : Grid K, startData (Patch.fresh grid) a = Patch.fresh g := by
    intro a
    unfold startData
    split
    · exact ⟨_, rfl⟩
    · exact ⟨_, rfl⟩
  induction F generalizing a with
  | leaf k =>
    obtain ⟨g, hg⟩ := h a
    show FreshLeaf (startData _ a)
    rw [hg]
    exact ⟨⟨⟨rfl, rfl⟩, ⟨rfl, rfl⟩, ⟨rfl, rfl⟩⟩, rfl, rfl⟩
  | node c0 c1 c2 c3 h0 h1 h2 h3 =>
    obtain ⟨g, hg⟩ := h a
    refine ⟨?_, h0 _, h1 _, h2 _, h3 _⟩
    rw [hg]
    exact ⟨rfl, rfl, rfl⟩

/-- C79, what each rank reports, for every mesh, every problem and every leaf solver with operators of the right sizes: the study ends on
all ranks, and the size a rank reports is eight bytes for every number kept in the nodes it has a leaf below of, and seventeen bytes for
every such node.  The numbers depend on the mesh and the cells per leaf only: not on the problem, the solvers, or how often it is solved. -/
theorem C79_each_rank_actual (lap : Lapack K) {ps : PatchSolver K} (hN : 0 < N) (hs : SolverShapes N ps) {opt : HPSOptions}
    (ho : opt.homogeneousRhs = false) (hM : F.depth ≤ M) (hF : F.Sorted) (hr : EveryRank F size) (R : Rect K)
    (h3 : 3 ≤ N ∨ ∃ d, F.shape = .uniform d)
    (hc : opt.cacheOperators = true → ∀ k, ∃ B, ∀ p ∈ leavesOf k F (startTree (.fresh ⟨N, N, R.xl, R.xu, R.yl, R.yu⟩) F []),
      ps.buildD2N p.grid = .ok B) (f : K → K → K) (bc : BoundaryFn K) (n : Nat) :
    ∃ Z : Nat → ℚ, AlwaysEnds (memoryOn M size F lap ps opt (.fresh ⟨N, N, R.xl, R.xu, R.yl, R.yu⟩) f bc (n + 1)) Z ∧
      ∀ r, r < size → Z r = F.megabytes N (fun G => r ∈ G.ranks) := by
  set root : Patch K := .fresh ⟨N, N, R.xl, R.xu, R.yl, R.yu⟩ with hroot
  have hI : Init N (startTree root F []) (Addr.rect R []) := startTree_init (R := R) rfl rfl F []
  obtain ⟨t1, c1, t3, e1, e2, -, e4, e5, e6⟩ := serial_kept lap hN hs (opt := { opt with cacheOperators := false }) ho hI
    (h3.imp_right fun ⟨d, hd⟩ => ⟨d, startTree_uniform root hd []⟩) (startTree_fresh _ F []) f bc
  rw [Request.run_cache] at e2
  choose m1 a1 a2 a3 a4 a5 using refine_first hM hF root
  let A0 : Nat → HPSRank K := fun r => ⟨m1 r, none⟩
  have hA0 : HoldsOn size F (startTree root F []) (fun r => (A0 r).mesh.quadtree) := fun r _ => ⟨a3 r, a4 r⟩
  obtain ⟨s', b1⟩ := mergeBy_build lap ps opt hc (a3 0) e1
  obtain ⟨A1, b2, -, b3⟩ := build_runs hM hF hr lap ps opt hA0 b1
  obtain ⟨A2, b4, b5⟩ := solves_runs hM hF hr lap ps opt f bc e2 n b2.holds
  have b7 : ∀ r, r < size → sizeReport ⟨M, size, r, F⟩ (A2 r).mesh.quadtree = .ok (F.megabytes N (fun G => r ∈ G.ranks)) := fun r h => by
    rw [sizeReport_ok hM hF (b4 r h).1 (b4 r h).2.1, kept_megabytes e5 (b4 r h).1.fits e4 e6]
  have hrun : Runs (fun r => r < size) (fun r => memoryMain ⟨M, size, r, F⟩ lap ps opt root f bc (n + 1))
      (fun r => F.megabytes N (fun G => r ∈ G.ranks)) := by
    have c1 := setup_runs (M := M) hr A0
    have c2 := Runs.bind c1 (q := fun r A => A.buildStage ⟨M, size, r, F⟩ lap ps opt) (w := A1) b3
    have c3 := Runs.bind c2 (q := fun r A => A.solves ⟨M, size, r, F⟩ lap ps opt f bc (n + 1)) (w := A2) b5
    have c4 := Runs.bind c3 (q := fun r A => Prog.fin (sizeReport ⟨M, size, r, F⟩ A.mesh.quadtree))
      (w := fun r => F.megabytes N (fun G => r ∈ G.ranks))
      (Runs.pure fun r h => by
        beta_reduce
        rw [b7 r h]
        rfl)
    refine c4.congr (fun r h => ?_) (fun r h => rfl)
    unfold memoryMain
    dsimp only
    rw [a1 r]
    simp only [bind_assoc]
    rfl
  exact ⟨_, Runs.ends hrun 0, fun r h => if_pos h⟩

/-- C79 on one rank, for every mesh: what is reported is eight bytes for every number kept in the mesh and seventeen for every node; with
`L` leaves whose depths sum to `D` these are at most `(18 N² + 8 N) L + (36 N² + 10 N) D` numbers, so of the order of the unknowns times the
depth, and `(4 L - 1) / 3` nodes.
Missing: several ranks, where it is false (`C79_ranks_wrong`); the memory of the objects themselves, which the program does not count;
the option for a zero right-hand side. -/
theorem C79_one_rank_partial (lap : Lapack K) {ps : PatchSolver K} (hN : 0 < N) (hs : SolverShapes N ps) {opt : HPSOptions}
    (ho : opt.homogeneousRhs = false) (hM : F.depth ≤ M) (hF : F.Sorted) (hr : EveryRank F 1) (R : Rect K)
    (h3 : 3 ≤ N ∨ ∃ d, F.shape = .uniform d)
    (hc : opt.cacheOperators = true → ∃ B, ∀ p ∈ (startTree (.fresh ⟨N, N, R.xl, R.xu, R.yl, R.yu⟩) F []).leaves,
      ps.buildD2N p.grid = .ok B) (f : K → K → K) (bc : BoundaryFn K) (n : Nat) :
    ∃ Z : Nat → ℚ, AlwaysEnds (memoryOn M 1 F lap ps opt (.fresh ⟨N, N, R.xl, R.xu, R.yl, R.yu⟩) f bc (n + 1)) Z ∧
      Z 0 = F.megabytes N (fun _ => True) ∧ 3 * F.count (fun _ => True) + 1 = 4 * F.ranks.length ∧
      F.numbers N (fun _ => True) (F.side N) ≤ (18 * N ^ 2 + 8 * N) * F.ranks.length + (36 * N ^ 2 + 10 * N) * F.depths := by
  obtain ⟨Z, z1, z2⟩ := C79_each_rank_actual lap hN hs ho hM hF hr R h3 (fun h k => (hc h).imp fun B hB p hp => hB p (leavesOf_sub hp)) f bc n
  refine ⟨Z, z1, ?_, Forest.count_le, Forest.numbers_le le_rfl⟩
  rw [z2 0 one_pos]
  exact Forest.one_rank fun k hk => by have := (hr k).mpr hk; omega

/-- C79 on one rank and a uniform mesh of `2^d × 2^d` leaves with `N × N` cells: in bytes, what is reported is
`8 (4^d (N² (18 + 36 d) + 18 N) - 10 · 2^d N) + 17 (4^(d+1) - 1) / 3`. -/
theorem C79_uniform_partial (lap : Lapack K) {ps : PatchSolver K} (hN : 0 < N) (hs : SolverShapes N ps) {opt : HPSOptions}
    (ho : opt.homogeneousRhs = false) (hM : F.depth ≤ M) (hF : F.Sorted) (hr : EveryRank F 1) (R : Rect K) {d : Nat}
    (hu : F.shape = .uniform d)
    (hc : opt.cacheOperators = true → ∃ B, ∀ p ∈ (startTree (.fresh ⟨N, N, R.xl, R.xu, R.yl, R.yu⟩) F []).leaves,
      ps.buildD2N p.grid = .ok B) (f : K → K → K) (bc : BoundaryFn K) (n : Nat) :
    ∃ Z : Nat → ℚ, AlwaysEnds (memoryOn M 1 F lap ps opt (.fresh ⟨N, N, R.xl, R.xu, R.yl, R.yu⟩) f bc (n + 1)) Z ∧
      Z 0 * 2 ^ 20 = 8 * (4 ^ d * ((N : ℚ) ^ 2 * (18 + 36 * d) + 18 * N) - 10 * (2 ^ d * N)) + 17 * ((4 ^ (d + 1) - 1) / 3) := by
  obtain ⟨Z, z1, z2, -⟩ := C79_one_rank_partial lap hN hs ho hM hF hr R (.inr ⟨d, hu⟩) hc f bc n
  refine ⟨Z, z1, ?_⟩
  obtain ⟨a, b⟩ := Forest.numbers_uniform (N := N) hu
  have a' : (F.numbers N (fun _ => True) (F.side N) : ℚ) = 4 ^ d * ((N : ℚ) ^ 2 * (18 + 36 * d) + 18 * N) - 10 * (2 ^ d * N) :=
    eq_sub_of_add_eq (by exact_mod_cast a)
  have b' : (F.count (fun _ => True) : ℚ) = (4 ^ (d + 1) - 1) / 3 := by
    rw [eq_div_iff (by norm_num)]
    have : (3 * (F.count (fun _ => True) : ℚ) + 1) = 4 ^ (d + 1) := by exact_mod_cast b
    rw [← this]
    ring
  rw [z2]
  unfold Forest.megabytes
  push_cast
  rw [a', b']
  ring

/-- C79 is false on several ranks, for every mesh and every problem: every rank reports less than the data of the mesh, and the sum over
the ranks is more, since the branches above a border between ranks are kept by several. -/
theorem C79_ranks_wrong (lap : Lapack K) {ps : PatchSolver K} (hN : 0 < N) (hs : SolverShapes N ps) {opt : HPSOptions}
    (ho : opt.homogeneousRhs = false) (hM : F.depth ≤ M) (hF : F.Sorted) (hr : EveryRank F size) (h2 : 2 ≤ size) (R : Rect K)
    (h3 : 3 ≤ N ∨ ∃ d, F.shape = .uniform d)
    (hc : opt.cacheOperators = true → ∀ k, ∃ B, ∀ p ∈ leavesOf k F (startTree (.fresh ⟨N, N, R.xl, R.xu, R.yl, R.yu⟩) F []),
      ps.buildD2N p.grid = .ok B) (f : K → K → K) (bc : BoundaryFn K) (n : Nat) :
    ∃ Z : Nat → ℚ, AlwaysEnds (memoryOn M size F lap ps opt (.fresh ⟨N, N, R.xl, R.xu, R.yl, R.yu⟩) f bc (n + 1)) Z ∧
      (∀ r, r < size → Z r < F.megabytes N (fun _ => True)) ∧ F.megabytes N (fun _ => True) < ∑ r ∈ range size, Z r := by
  obtain ⟨Z, z1, z2⟩ := C79_each_rank_actual lap hN hs ho hM hF hr R h3 hc f bc n
  refine ⟨Z, z1, fun r h => ?_, ?_⟩
  · rw [z2 r h]
    obtain ⟨k, hk, hkr⟩ : ∃ k, k < size ∧ k ≠ r := by
      by_cases hr0 : r = 0
      · exact ⟨1, by omega, by omega⟩
      · exact ⟨0, by omega, by omega⟩
    have c1 := Forest.count_lt ((hr k).mp hk) hkr
    have c2 := (Forest.numbers_mono (N := N) (F := F) (P := fun G => r ∈ G.ranks) (Q := fun _ => True) (fun _ _ => trivial) (F.side N)).1
    unfold Forest.megabytes
    rw [div_lt_div_iff_of_pos_right (by norm_num)]
    exact_mod_cast (show _ < _ by omega)
  · rw [sum_congr rfl fun r h => z2 r (mem_range.mp h)]
    have c1 := Forest.sum_count_lt (F := F) (fun k => (hr k).symm) h2
    have c2 := (Forest.sum_ranks (N := N) (F := F) (fun k hk => (hr k).mpr hk) (F.side N)).1
    unfold Forest.megabytes
    rw [← sum_div, div_lt_div_iff_of_pos_right (by norm_num)]
    have : (∑ r ∈ range size, ((8 * F.numbers N (fun G => r ∈ G.ranks) (F.side N) + 17 * F.count (fun G => r ∈ G.ranks) : Nat) : ℚ))
        = ((8 * (∑ r ∈ range size, F.numbers N (fun G => r ∈ G.ranks) (F.side N)) + 17 * ∑ r ∈ range size, F.count (fun G => r ∈ G.ranks) : Nat) : ℚ) := by
      push_cast
      rw [sum_add_distrib, ← mul_sum, ← mul_sum]
    rw [this]
    exact_mod_cast (show _ < _ by omega)

end

/-! ### The hypotheses hold: an adaptive mesh on two ranks, solved three times; a uniform mesh on one rank -/

noncomputable example (lap : Lapack ℝ) (lu : PetscLU ℝ) (f : ℝ → ℝ → ℝ) (bc : BoundaryFn ℝ) :=
  C79_ranks_wrong (N := 4) (M := 30) (size := 2) (F := exTwoRanks) lap (by omega) (FVSolver.shapes lu expPde (n := 4) (by omega))
    (opt := ⟨false, false⟩) rfl (by decide) (by unfold Forest.Sorted; decide)
    (by intro r; simp [exTwoRanks, Forest.ranks]; omega) le_rfl unitSquareR (Or.inl (by omega)) (fun h => by cases h) f bc 2

/-- A mesh of four leaves of one rank. -/
def exFour : Forest := .node (.leaf 0) (.leaf 0) (.leaf 0) (.leaf 0)

noncomputable example (lap : Lapack ℝ) (lu : PetscLU ℝ) (f : ℝ → ℝ → ℝ) (bc : BoundaryFn ℝ) :=
  C79_uniform_partial (N := 4) (M := 30) (F := exFour) lap (by omega) (FVSolver.shapes lu expPde (n := 4) (by omega))
    (opt := ⟨false, false⟩) rfl (by decide) (by unfold Forest.Sorted; decide)
    (by intro r; simp [exFour, Forest.ranks]) unitSquareR (d := 1) rfl (fun h => by cases h) f bc 0

/-- 3664 numbers on five nodes. -/
example : exFour.megabytes 4 (fun _ => True) = (8 * 3664 + 17 * 5) / 2 ^ 20 := by
  rw [Forest.megabytes, show exFour.numbers 4 (fun _ => True) (exFour.side 4) = 3664 by decide, show exFour.count (fun _ => True) = 5 by decide]
  norm_num

/-- On the adaptive mesh on two ranks, both report the root. -/
example : exTwoRanks.numbers 4 (fun G => 0 ∈ G.ranks) (exTwoRanks.side 4) + exTwoRanks.numbers 4 (fun G => 1 ∈ G.ranks) (exTwoRanks.side 4)
    = exTwoRanks.numbers 4 (fun _ => True) (exTwoRanks.side 4) + 2384 := by decide

end EF
