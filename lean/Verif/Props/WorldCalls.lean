import Verif.Proofs.WorldRuns
import Verif.Props.ParallelHPS

/-!
# C105: the collective calls of the leaf solver

With the five-point stencil every solve on a leaf makes two index sets on the communicator of all ranks.  A rank with more leaves makes more
such calls than one with fewer, and no rank gets past a call the others do not make.
-/

namespace EF

open HPS

variable {K : Type}

/-- The example program with the five-point stencil on `size` ranks. -/
def exampleWorldOn [Field K] (N M size : Nat) (F : Forest) (lap : Lapack K) (ps : PatchSolver K) (opt : HPSOptions) (root : Patch K)
    (f : K → K → K) (bc : BoundaryFn K) (n : Nat) : Config (Patch K) (Mesh K) :=
  fun r => if r < size then exampleMainWorld N ⟨M, size, r, F⟩ lap ps opt root f bc n else .fin (.ok Mesh.blank)

section
variable [Field K] {N M size : Nat} {F : Forest}

/-- C105 is false of the code: if two ranks own different numbers of leaves, the program never ends on both of them, whatever the order of
the collective operations, whatever the problem.  The same program with a leaf solver that makes no collective calls ends on all ranks; see
`C65_as_serial_partial` and the example below. -/
theorem C105_unequal_wrong (lap : Lapack K) (ps : PatchSolver K) {opt : HPSOptions} (ho : opt.cacheOperators = false) (root : Patch K)
    (f : K → K → K) (bc : BoundaryFn K) {n : Nat} (hn : 0 < N ∨ 0 < n) {p q : Nat} (hp : p < size) (hq : q < size)
    (hne : F.ranks.count p ≠ F.ranks.count q) {j : Nat} {c : Config (Patch K) (Mesh K)}
    (hr : Run j (exampleWorldOn N M size F lap ps opt root f bc n) c) :
    ¬ ((∃ x, c p = .fin (.ok x)) ∧ ∃ x, c q = .fin (.ok x)) := by
  refine Prog.Makes.never (size := size) (Q := fun _ => True)
    (n := fun r => if r < size then 8 * N * F.ranks.count r + 4 * n * F.ranks.count r else 0) hr (fun r => ?_) hp hq ?_
  · unfold exampleWorldOn
    split
    · exact example_makes N ⟨M, size, r, F⟩ lap ps ho root f bc n
    · exact .ok trivial
  · rw [if_pos hp, if_pos hq, ← add_mul, ← add_mul]
    intro h
    exact hne (Nat.eq_of_mul_eq_mul_left (by omega) h)

/-- The upwards stage and the solve stage one by one, with or without the operator cache, from any trees whose nodes have paths without the
letter I; paths are made of digits. -/
theorem C105_stages_wrong (lap : Lapack K) (ps : PatchSolver K) (opt : HPSOptions) (f : K → K → K) (bc : BoundaryFn K)
    {A : Nat → HPSRank K} (hA : ∀ r, (A r).Clean) {p q : Nat} (hp : p < size) (hq : q < size)
    (hne : F.ranks.count p ≠ F.ranks.count q) :
    (∀ j c, Run j (fun r => if r < size then (A r).upwardsStageWorld ⟨M, size, r, F⟩ lap ps opt f else .fin (.ok (A r))) c →
      ¬ ((∃ x, c p = .fin (.ok x)) ∧ ∃ x, c q = .fin (.ok x))) ∧
    ∀ j c, Run j (fun r => if r < size then (A r).solveStageWorld ⟨M, size, r, F⟩ lap ps opt bc else .fin (.ok (A r))) c →
      ¬ ((∃ x, c p = .fin (.ok x)) ∧ ∃ x, c q = .fin (.ok x)) := by
  have key : (fun r => if r < size then 2 * F.ranks.count r else 0) p ≠ (fun r => if r < size then 2 * F.ranks.count r else 0) q := by
    dsimp only
    rw [if_pos hp, if_pos hq]
    omega
  constructor
  · intro j c hr
    refine Prog.Makes.never (size := size) (Q := HPSRank.Clean) (n := fun r => if r < size then 2 * F.ranks.count r else 0) hr (fun r => ?_) hp hq key
    split
    · exact HPSRank.upwards_makes (hA r) ⟨M, size, r, F⟩ lap ps opt f
    · exact .ok (hA r)
  · intro j c hr
    refine Prog.Makes.never (size := size) (Q := HPSRank.Clean) (n := fun r => if r < size then 2 * F.ranks.count r else 0) hr (fun r => ?_) hp hq key
    split
    · exact HPSRank.solve_makes (hA r) ⟨M, size, r, F⟩ lap ps opt bc
    · exact .ok (hA r)

/-- On one rank the calls make no difference: what the program ends with is what it ends with without them. -/
theorem C105_one_rank_partial (lap : Lapack K) (ps : PatchSolver K) (opt : HPSOptions) (root : Patch K) (f : K → K → K)
    (bc : BoundaryFn K) (n : Nat) {Z : Nat → Mesh K} (h : AlwaysEnds (exampleOn M 1 F lap ps opt root f bc n) Z) :
    AlwaysEnds (exampleWorldOn N M 1 F lap ps opt root f bc n) Z := by
  obtain ⟨m, hm⟩ := h
  have h0 := (hm 0 _ (.refl _)).2
  rw [Nat.sub_zero] at h0
  have hz : Config.Done (fun r => (.fin (.ok (Z r)) : Prog (Patch K) (Mesh K))) := fun r => ⟨_, rfl⟩
  obtain ⟨i, hi⟩ := Prog.Erases.run (d := exampleWorldOn N M 1 F lap ps opt root f bc n) h0 hz
    (fun r hr => ⟨.ok Mesh.blank, if_neg (by omega)⟩) (by
      show Prog.Erases (if 0 < 1 then _ else _) (if 0 < 1 then _ else _)
      rw [if_pos Nat.zero_lt_one, if_pos Nat.zero_lt_one]
      exact example_erases N M F lap ps opt root f bc n)
    (fun r hr => by unfold exampleWorldOn exampleOn; rw [if_neg (by omega), if_neg (by omega)])
  exact ⟨i, fun k c' hk => hi.all hz hk⟩

theorem solves_world (hM : F.depth ≤ M) (hs : F.Sorted) (hr : EveryRank F size) (h1 : ∀ r, r < size → F.ranks.count r = 1) (lap : Lapack K)
    (ps : PatchSolver K) (opt : HPSOptions) (f : K → K → K) (bc : BoundaryFn K) {t t' : Tree (Patch K)}
    (ht : (Request.functions f bc).run lap ps opt t = .ok t') (n : Nat) {A : Nat → HPSRank K}
    (hA : HoldsOn size F t (fun r => (A r).mesh.quadtree)) :
    ∃ A' : Nat → HPSRank K, Follows size F t' A A' ∧
      Runs (fun r => r < size) (fun r => (A r).solvesWorld ⟨M, size, r, F⟩ lap ps opt f bc (n + 1)) A' := by
  have again : (Request.functions f bc).run lap ps opt t' = .ok t' := by
    rw [C21_rerun lap ps opt [Request.functions f bc] (.functions f bc) (t := t) (by simp [runAll, ht, Res.ok_bind]), ht]
  induction n generalizing t A with
  | zero =>
    obtain ⟨t2, e1, e2⟩ := Res.bind_eq_ok.mp ht
    obtain ⟨A1, u1, u2⟩ := upwardsAnalytic_runs (M := M) hM hs hr lap ps opt f hA e1
    obtain ⟨A2, v1, v2⟩ := solveAnalytic_runs (M := M) hM hs hr lap ps opt bc u1.holds e2
    refine ⟨A2, u1.trans v1, ?_⟩
    exact (Runs.bind (HPSRank.upwards_world hr.pos h1 lap ps opt f u2)
      (q := fun r A => do
        let A ← A.solveStageWorld ⟨M, size, r, F⟩ lap ps opt bc
        A.solvesWorld ⟨M, size, r, F⟩ lap ps opt f bc 0)
      (Runs.bind (HPSRank.solve_world hr.pos h1 lap ps opt bc v2) (q := fun r A => A.solvesWorld ⟨M, size, r, F⟩ lap ps opt f bc 0)
        (w := A2) (Runs.pure fun r _ => rfl))).congr (fun r _ => rfl) (fun r _ => rfl)
  | succ n ih =>
    obtain ⟨t2, e1, e2⟩ := Res.bind_eq_ok.mp ht
    obtain ⟨A1, u1, u2⟩ := upwardsAnalytic_runs (M := M) hM hs hr lap ps opt f hA e1
    obtain ⟨A2, v1, v2⟩ := solveAnalytic_runs (M := M) hM hs hr lap ps opt bc u1.holds e2
    obtain ⟨A3, w1, w2⟩ := ih again v1.holds
    refine ⟨A3, (u1.trans v1).trans w1, ?_⟩
    exact (Runs.bind (HPSRank.upwards_world hr.pos h1 lap ps opt f u2)
      (q := fun r A => do
        let A ← A.solveStageWorld ⟨M, size, r, F⟩ lap ps opt bc
        A.solvesWorld ⟨M, size, r, F⟩ lap ps opt f bc (n + 1))
      (Runs.bind (HPSRank.solve_world hr.pos h1 lap ps opt bc v2)
        (q := fun r A => A.solvesWorld ⟨M, size, r, F⟩ lap ps opt f bc (n + 1)) w2)).congr (fun r _ => rfl) (fun r _ => rfl)

/-- C105 when every rank owns exactly one leaf, on every mesh, adaptively refined or not: the program ends on all ranks, whatever the order
of the collective operations, with the solution and the load of a serial run, as it does without the calls (`C65_as_serial_partial`).
Missing: several leaves on every rank, equally many; then a rank can come to a family it shares with others before its last leaf. -/
theorem C105_one_leaf_partial [NeZero (2 : K)] (lap : Lapack K) {ps : PatchSolver K} (hN : 0 < N) (hs : SolverShapes N ps)
    {opt : HPSOptions} (ho : opt.homogeneousRhs = false) (hM : F.depth ≤ M) (hF : F.Sorted) (hr : EveryRank F size)
    (h1 : ∀ r, r < size → F.ranks.count r = 1)
    {root : Patch K} {R : Rect K} (hg : root.grid = ⟨N, N, R.xl, R.xu, R.yl, R.yu⟩) (h0 : root.nCoarsens = 0)
    (h3 : 3 ≤ N ∨ ∃ d, Uniform d (startTree root F []))
    (hc : opt.cacheOperators = true → ∀ k, ∃ B, ∀ p ∈ leavesOf k F (startTree root F []), ps.buildD2N p.grid = .ok B)
    (f : K → K → K) (bc : BoundaryFn K) (n : Nat) :
    ∃ (t1 : Tree (Patch K)) (c1 : Option (Mat K)) (t3 : Tree (Patch K)) (Z : Nat → Mesh K),
      HPS.buildStage lap ps { opt with cacheOperators := false } (startTree root F []) none = .ok (t1, c1) ∧
      (Request.functions f bc).run lap ps opt t1 = .ok t3 ∧
      AlwaysEnds (exampleWorldOn N M size F lap ps opt root f bc (n + 1)) Z ∧
      ∀ r, r < size → (Z r).arrays.Describes (meshCells r F (startTree root F [])) ∧ Rep r F t3 [] (Z r).quadtree.map ∧
        ∃ u fv, (Z r).functions = [u, fv] ∧ u.data = (leavesOf r F t3).flatMap (fun p => p.u.data) ∧
          fv.data = (leavesOf r F t3).flatMap (fun p => p.f.data) := by
  have hI := startTree_init hg h0 F []
  obtain ⟨t1, c1, t3, e1, e2, -, -, -, -⟩ := serial_fields lap hN hs (opt := { opt with cacheOperators := false }) ho hI h3 f bc
  rw [Request.run_cache] at e2
  choose m1 a1 a2 a3 a4 a5 using refine_first (K := K) hM hF root
  let A0 : Nat → HPSRank K := fun r => ⟨m1 r, none⟩
  have hA0 : HoldsOn size F (startTree root F []) (fun r => (A0 r).mesh.quadtree) := fun r _ => ⟨a3 r, a4 r⟩
  obtain ⟨s', b1⟩ := mergeBy_build lap ps opt hc (a3 0) e1
  obtain ⟨A1, b2, -, b3⟩ := build_runs hM hF hr lap ps opt hA0 b1
  have b3 := HPSRank.build_world (N := N) hr.pos h1 lap ps opt (fun r => rfl) b3
  obtain ⟨A2, b4, b5⟩ := solves_world hM hF hr h1 lap ps opt f bc e2 n b2.holds
  have b6 : ∀ r, ∃ x : Quadtree (Patch K) × Vec K × Vec K, r < size → (A2 r).mesh.quadtree.traversePreOrder M r F
      (leafVisit fun p (s : Vec K × Vec K) => pure (p, (s.1.append p.u, s.2.append p.f))) (Vec.empty, Vec.empty) = .ok x ∧
      x.2.1 = ⟨((leavesOf r F t3).map fun p => p.u.size).sum, (leavesOf r F t3).flatMap fun p => p.u.data⟩ ∧
      x.2.2 = ⟨((leavesOf r F t3).map fun p => p.f.size).sum, (leavesOf r F t3).flatMap fun p => p.f.data⟩ ∧
      Rep r F t3 [] x.1.map := by
    intro r
    by_cases h : r < size
    · obtain ⟨q, u, fv, k1, k2, k3, k4⟩ := collect_eq (m := (A2 r).mesh) hM hF (b4 r h).1
      exact ⟨(q, u, fv), fun _ => ⟨k1, k2, k3, k4⟩⟩
    · exact ⟨((A2 r).mesh.quadtree, Vec.empty, Vec.empty), fun h' => absurd h' h⟩
  choose x b7 using b6
  let Z : Nat → Mesh K := fun r => ({ (A2 r).mesh with quadtree := (x r).1 }.addMeshVector (x r).2.1).addMeshVector (x r).2.2
  have hrun : Runs (fun r => r < size) (fun r => exampleMainWorld N ⟨M, size, r, F⟩ lap ps opt root f bc (n + 1)) Z := by
    have c1 := setup_runs (M := M) hr A0
    have c2 := Runs.bind c1 (q := fun r A => A.buildStageWorld N ⟨M, size, r, F⟩ lap ps opt) (w := A1) b3
    have c3 := Runs.bind c2 (q := fun r A => A.solvesWorld ⟨M, size, r, F⟩ lap ps opt f bc (n + 1)) (w := A2) b5
    have c4 := Runs.bind c3 (q := fun r A => do
      let x ← Prog.fin (A.mesh.quadtree.traversePreOrder M r F
        (leafVisit fun p (s : Vec K × Vec K) => pure (p, (s.1.append p.u, s.2.append p.f))) (Vec.empty, Vec.empty))
      pure (({ A.mesh with quadtree := x.1 }.addMeshVector x.2.1).addMeshVector x.2.2)) (w := Z)
      (Runs.pure fun r h => by
        beta_reduce
        rw [(b7 r h).1]
        rfl)
    refine c4.congr (fun r h => ?_) (fun r h => rfl)
    unfold exampleMainWorld
    dsimp only
    rw [a1 r]
    simp only [bind_assoc]
    rfl
  refine ⟨t1, c1, t3, fun r => if r < size then Z r else Mesh.blank, e1, e2, Runs.ends hrun Mesh.blank, ?_⟩
  intro r h
  simp only [if_pos h]
  obtain ⟨k1, k2, k3, k4⟩ := b7 r h
  have w1 := (b2.trans b4) r h
  refine ⟨?_, k4, (x r).2.1, (x r).2.2, ?_, by rw [k2], by rw [k3]⟩
  · show (A2 r).mesh.arrays.Describes _
    rw [w1.2.2.1]
    exact a2 r
  · show ((A2 r).mesh.functions ++ [(x r).2.1]) ++ [(x r).2.2] = _
    rw [w1.2.2.2]
    show (m1 r).functions ++ _ ++ _ = _
    rw [a5 r]
    rfl

end

/-! ## The hypotheses are met -/

/-- The mesh with one refined quarter on two ranks, four small leaves on rank 0 and three large ones on rank 1: without the calls the program
ends on both ranks, with them it does not. -/
example (lap : Lapack ℚ) (lu : PetscLU ℚ) (f : ℚ → ℚ → ℚ) (bc : BoundaryFn ℚ) :
    (∃ Z : Nat → Mesh ℚ, AlwaysEnds (exampleOn 30 2 exTwoRanks lap (exPde.toPatchSolver lu) ⟨false, false⟩
      (Patch.fresh ⟨4, 4, 0, 1, 0, 1⟩) f bc 1) Z) ∧
    ¬ ∃ Z : Nat → Mesh ℚ, AlwaysEnds (exampleWorldOn 4 30 2 exTwoRanks lap (exPde.toPatchSolver lu) ⟨false, false⟩
      (Patch.fresh ⟨4, 4, 0, 1, 0, 1⟩) f bc 1) Z := by
  constructor
  · obtain ⟨_, _, _, Z, -, -, h, -⟩ := C65_as_serial_partial (N := 4) (M := 30) (size := 2) (F := exTwoRanks) lap (by omega)
      (FVSolver.shapes lu exPde (n := 4) (by omega)) (opt := ⟨false, false⟩) rfl (by decide) (by unfold Forest.Sorted; decide)
      (by intro r; simp [exTwoRanks, Forest.ranks]; omega) (root := Patch.fresh ⟨4, 4, 0, 1, 0, 1⟩) (R := unitSquare) rfl rfl
      (Or.inl (by omega)) (fun h => by cases h) f bc 0
    exact ⟨Z, h⟩
  · rintro ⟨Z, m, hm⟩
    have h := (hm 0 _ (.refl _)).2
    exact C105_unequal_wrong (N := 4) (M := 30) (size := 2) (F := exTwoRanks) lap (exPde.toPatchSolver lu) (opt := ⟨false, false⟩) rfl
      (Patch.fresh ⟨4, 4, 0, 1, 0, 1⟩) f bc (n := 1) (Or.inl (by omega)) (p := 0) (q := 1) (by omega) (by omega) (by decide) h
      ⟨⟨_, rfl⟩, _, rfl⟩

/-- A rank that has not built anything has no such path. -/
example : HPSRank.Clean (⟨Mesh.blank, none⟩ : HPSRank ℚ) := fun _ _ h => by cases h

/-- The same mesh on one rank: the program ends, with the calls too. -/
example (lap : Lapack ℚ) (lu : PetscLU ℚ) (f : ℚ → ℚ → ℚ) (bc : BoundaryFn ℚ) :
    ∃ Z : Nat → Mesh ℚ, AlwaysEnds (exampleWorldOn 4 30 1 exOneRank lap (exPde.toPatchSolver lu) ⟨false, false⟩
      (Patch.fresh ⟨4, 4, 0, 1, 0, 1⟩) f bc 1) Z := by
  obtain ⟨_, _, _, Z, -, -, h, -⟩ := C65_as_serial_partial (N := 4) (M := 30) (size := 1) (F := exOneRank) lap (by omega)
    (FVSolver.shapes lu exPde (n := 4) (by omega)) (opt := ⟨false, false⟩) rfl (by decide) (by unfold Forest.Sorted; decide)
    (by intro r; simp [exOneRank, Forest.ranks]) (root := Patch.fresh ⟨4, 4, 0, 1, 0, 1⟩) (R := unitSquare) rfl rfl
    (Or.inl (by omega)) (fun h => by cases h) f bc 0
  exact ⟨Z, C105_one_rank_partial lap _ _ _ f bc 1 h⟩

/-- One refined quarter and three large leaves, each of the seven leaves on a rank of its own. -/
def exSeven : Forest := .node (.node (.leaf 0) (.leaf 1) (.leaf 2) (.leaf 3)) (.leaf 4) (.leaf 5) (.leaf 6)

/-- On seven ranks with a leaf each the program ends, with the calls too. -/
example (lap : Lapack ℚ) (lu : PetscLU ℚ) (f : ℚ → ℚ → ℚ) (bc : BoundaryFn ℚ) :
    ∃ Z : Nat → Mesh ℚ, AlwaysEnds (exampleWorldOn 4 30 7 exSeven lap (exPde.toPatchSolver lu) ⟨false, false⟩
      (Patch.fresh ⟨4, 4, 0, 1, 0, 1⟩) f bc 3) Z := by
  obtain ⟨_, _, _, Z, -, -, h, -⟩ := C105_one_leaf_partial (N := 4) (M := 30) (size := 7) (F := exSeven) lap (by omega)
    (FVSolver.shapes lu exPde (n := 4) (by omega)) (opt := ⟨false, false⟩) rfl (by decide) (by unfold Forest.Sorted; decide)
    (by intro r; simp [exSeven, Forest.ranks]; omega) (by decide) (root := Patch.fresh ⟨4, 4, 0, 1, 0, 1⟩) (R := unitSquare) rfl rfl
    (Or.inl (by omega)) (fun h => by cases h) f bc 2
  exact ⟨Z, h⟩

end EF
