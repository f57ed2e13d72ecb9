import Verif.Proofs.WorldFront
import Verif.Props.WorldOrder

/-!
# C105: builds with the operator cache, on any partition

With the cache a rank makes its calls before it comes to any family, so the build ends on all ranks however the leaves are spread; what does not
end is the first stage after it.
-/

namespace EF

open HPS

variable {K : Type}

section
variable [Field K] {N M size : Nat} {F : Forest}

/-- The example program up to the end of the build. -/
def buildWorldOn (N M size : Nat) (F : Forest) (lap : Lapack K) (ps : PatchSolver K) (opt : HPSOptions) (root : Patch K) (r : Nat) :
    Prog (Patch K) (HPSRank K) := do
  let mesh ← Prog.fin (Mesh.refineByFunction M r F root FVFactory.factory Mesh.blank)
  let A ← HPSRank.setupStage ⟨M, size, r, F⟩ ⟨mesh, none⟩
  A.buildStageWorld N ⟨M, size, r, F⟩ lap ps opt

theorem buildWorld_front [NeZero (2 : K)] (lap : Lapack K) {ps : PatchSolver K} (hN : 0 < N) (hs : SolverShapes N ps)
    {opt : HPSOptions} (hoc : opt.cacheOperators = true) (hM : F.depth ≤ M) (hF : F.Sorted) (hr : EveryRank F size)
    {root : Patch K} {R : Rect K} (hg : root.grid = ⟨N, N, R.xl, R.xu, R.yl, R.yu⟩) (h0 : root.nCoarsens = 0)
    (h3 : 3 ≤ N ∨ ∃ d, Uniform d (startTree root F []))
    (hc : ∀ k, ∃ B, ∀ p ∈ leavesOf k F (startTree root F []), ps.buildD2N p.grid = .ok B) :
    ∃ (t1 : Tree (Patch K)) (c1 : Option (Mat K)) (A1 : Nat → HPSRank K),
      HPS.buildStage lap ps { opt with cacheOperators := false } (startTree root F []) none = .ok (t1, c1) ∧
      HoldsOn size F t1 (fun r => (A1 r).mesh.quadtree) ∧
      Runs (fun r => r < size) (buildWorldOn N M size F lap ps opt root) A1 := by
  have hI := startTree_init hg h0 F []
  obtain ⟨t1, c1, _, e1, -, -, -, -, -⟩ := serial_fields lap hN hs (opt := ⟨false, false⟩) rfl hI h3 (fun _ _ => 0)
    (fun _ _ _ => (1, 0, 0))
  have e1 : HPS.buildStage lap ps { opt with cacheOperators := false } (startTree root F []) none = .ok (t1, c1) := e1
  choose m1 a1 a2 a3 a4 a5 using refine_first (K := K) hM hF root
  let A0 : Nat → HPSRank K := fun r => ⟨m1 r, none⟩
  have hA0 : HoldsOn size F (startTree root F []) (fun r => (A0 r).mesh.quadtree) := fun r _ => ⟨a3 r, a4 r⟩
  obtain ⟨s', b1⟩ := mergeBy_build lap ps opt (fun _ => hc) (a3 0) e1
  obtain ⟨A1, b2, -, b3⟩ := build_runs hM hF hr lap ps opt hA0 b1
  have b3 := HPSRank.build_front (N := N) hr hM lap ps hoc (fun r => rfl) hA0 b3
  refine ⟨t1, c1, A1, e1, b2.holds, ?_⟩
  have c1 := setup_runs (M := M) hr A0
  refine (Runs.bind c1 (q := fun r A => A.buildStageWorld N ⟨M, size, r, F⟩ lap ps opt) (w := A1) b3).congr (fun r h => ?_) (fun r h => rfl)
  unfold buildWorldOn
  rw [a1 r]
  rfl

/-- The build with the operator cache, on any partition, whether or not the ranks have equally many leaves: it ends on all ranks, whatever the
order of the collective operations, with the tree of a serial build.  The hypotheses are those of `C65_as_serial_partial`.
Missing: the stages after the build. -/
theorem C105_build_cached_partial [NeZero (2 : K)] (lap : Lapack K) {ps : PatchSolver K} (hN : 0 < N) (hs : SolverShapes N ps)
    {opt : HPSOptions} (hoc : opt.cacheOperators = true) (hM : F.depth ≤ M) (hF : F.Sorted) (hr : EveryRank F size)
    {root : Patch K} {R : Rect K} (hg : root.grid = ⟨N, N, R.xl, R.xu, R.yl, R.yu⟩) (h0 : root.nCoarsens = 0)
    (h3 : 3 ≤ N ∨ ∃ d, Uniform d (startTree root F []))
    (hc : ∀ k, ∃ B, ∀ p ∈ leavesOf k F (startTree root F []), ps.buildD2N p.grid = .ok B) :
    ∃ (t1 : Tree (Patch K)) (c1 : Option (Mat K)) (Z : Nat → HPSRank K),
      HPS.buildStage lap ps { opt with cacheOperators := false } (startTree root F []) none = .ok (t1, c1) ∧
      AlwaysEnds (fun r => if r < size then buildWorldOn N M size F lap ps opt root r else .fin (.ok ⟨Mesh.blank, none⟩)) Z ∧
      ∀ r, r < size → Rep r F t1 [] (Z r).mesh.quadtree.map := by
  obtain ⟨t1, c1, A1, e1, h1, h2⟩ := buildWorld_front (M := M) lap hN hs hoc hM hF hr hg h0 h3 hc
  refine ⟨t1, c1, _, e1, Runs.ends h2 ⟨Mesh.blank, none⟩, fun r h => ?_⟩
  simp only [if_pos h]
  exact (h1 r h).1

/-- The whole program with the cache and at least one solve: if two ranks come to their common operations of the first upwards stage in
different orders, no run of it ends on all ranks with a result on these two. -/
theorem C105_order_cached_wrong [NeZero (2 : K)] (lap : Lapack K) {ps : PatchSolver K} (hN : 0 < N) (hs : SolverShapes N ps)
    {opt : HPSOptions} (hoc : opt.cacheOperators = true) (hM : F.depth ≤ M) (hF : F.Sorted) (hr : EveryRank F size)
    {root : Patch K} {R : Rect K} (hg : root.grid = ⟨N, N, R.xl, R.xu, R.yl, R.yu⟩) (h0 : root.nCoarsens = 0)
    (h3 : 3 ≤ N ∨ ∃ d, Uniform d (startTree root F []))
    (hc : ∀ k, ∃ B, ∀ p ∈ leavesOf k F (startTree root F []), ps.buildD2N p.grid = .ok B)
    (f : K → K → K) (bc : BoundaryFn K) (n : Nat) {p q : Nat} (hp : p < size) (hq : q < size)
    (hne : ¬ (commonOps size 2 F p q <+: commonOps size 2 F q p ∨ commonOps size 2 F q p <+: commonOps size 2 F p q))
    {j : Nat} {c : Config (Patch K) (Mesh K)} (hrun : Run j (exampleWorldOn N M size F lap ps opt root f bc (n + 1)) c) (hd : c.Done) :
    ¬ ((∃ x, c p = .fin (.ok x)) ∧ ∃ x, c q = .fin (.ok x)) := by
  rintro ⟨ep, eq⟩
  obtain ⟨t1, c1, A1, -, h1, h2⟩ := buildWorld_front (M := M) lap hN hs hoc hM hF hr hg h0 h3 hc
  let rest : Nat → HPSRank K → Prog (Patch K) (Mesh K) := fun r A => do
    let A ← A.solvesWorld ⟨M, size, r, F⟩ lap ps opt f bc (n + 1)
    let x ← Prog.fin (A.mesh.quadtree.traversePreOrder M r F
      (leafVisit fun p (s : Vec K × Vec K) => pure (p, (s.1.append p.u, s.2.append p.f))) (Vec.empty, Vec.empty))
    pure (({ A.mesh with quadtree := x.1 }.addMeshVector x.2.1).addMeshVector x.2.2)
  obtain ⟨i, d, r1, r2, -⟩ := h2 _ rest (exampleWorldOn N M size F lap ps opt root f bc (n + 1)) (fun r h => by
    unfold exampleWorldOn
    rw [if_pos h]
    unfold exampleMainWorld buildWorldOn
    simp only [bind_assoc]
    rfl)
  have hrest := (hrun.all hd r1).2
  have key : ∀ r, r < size → (d r).Begins True (fun _ => True) ((0, size - 1, []) :: mergeOps size 2 r F []) := by
    intro r h
    rw [r2 r h]
    show Prog.Begins True (fun _ => True) _ (((A1 r).upwardsStageWorld ⟨M, size, r, F⟩ lap ps opt f >>= fun A =>
      A.solveStageWorld ⟨M, size, r, F⟩ lap ps opt bc >>= fun A => A.solvesWorld ⟨M, size, r, F⟩ lap ps opt f bc n) >>= _)
    rw [bind_assoc]
    refine .end0 (Q := fun _ => True) ?_ fun A _ => .rest trivial _
    refine .bind (l := [(0, size - 1, [])]) (l' := mergeOps size 2 r F []) (Q := fun _ => True) (.allMax fun _ => .ok trivial)
      fun _ _ => ?_
    exact .end0 (mergeWorld_begins (fun t => rfl) hM hF (h1 r h).2 (h1 r h).1 _) fun _ _ => .ok trivial
  have hb : Op.both p q (0, size - 1, []) = true := by simp [Op.both]; omega
  have sym : ∀ l : List Op, l.filter (Op.both p q) = l.filter (Op.both q p) := fun l => by
    congr 1
    funext o
    simp only [Op.both, and_comm]
  have h := Prog.Begins.run hrest (key p hp) (key q hq) ep eq
  simp only [List.filter_cons_of_pos hb, List.cons_prefix_cons, true_and, List.cons.injEq] at h
  rw [sym (mergeOps size 2 q F [])] at h
  rcases h with h | h | h
  · exact hne (.inl (by unfold commonOps; rw [h]))
  · exact hne (.inl h)
  · exact hne (.inr h)

end

/-! ## The hypotheses are met -/

/-- The Laplace equation. -/
def exLaplace : FVSolver ℚ := ⟨fun _ _ => 1, fun _ _ => 1, fun _ _ => 0⟩

/-- Leaves with equal cells have one operator. -/
theorem exLaplace_one (lu : PetscLU ℚ) (L : List (Patch ℚ))
    (hL : ∀ p ∈ L, ∀ q ∈ L, p.grid.nx = 4 ∧ p.grid.ny = 4 ∧ p.grid.dx = q.grid.dx ∧ p.grid.dy = q.grid.dy) :
    ∃ B, ∀ p ∈ L, (exLaplace.toPatchSolver lu).buildD2N p.grid = .ok B := by
  cases L with
  | nil => exact ⟨⟨0, 0, []⟩, fun p hp => by cases hp⟩
  | cons p L =>
    obtain ⟨px, py, -⟩ := hL p (by simp) p (by simp)
    obtain ⟨B, hB, -⟩ := (FVSolver.shapes lu exLaplace (n := 4) (by omega)).d2n p.grid px py
    refine ⟨B, fun q hq => ?_⟩
    obtain ⟨qx, qy, h1, h2⟩ := hL q hq p (by simp)
    rw [← hB]
    exact FVSolver.buildD2N_congr lu ⟨1, 1, 0, rfl⟩ (by rw [px, qx]) (by rw [py, qy]) h1 h2

/-- Four small leaves on rank 0 and three large ones on rank 1: the build with the cache ends on both ranks. -/
example (lap : Lapack ℚ) (lu : PetscLU ℚ) :
    ∃ Z : Nat → HPSRank ℚ, AlwaysEnds (fun r => if r < 2 then buildWorldOn 4 30 2 exTwoRanks lap (exLaplace.toPatchSolver lu) ⟨true, false⟩
      (Patch.fresh ⟨4, 4, 0, 1, 0, 1⟩) r else .fin (.ok ⟨Mesh.blank, none⟩)) Z := by
  obtain ⟨_, _, Z, -, h, -⟩ := C105_build_cached_partial (N := 4) (M := 30) (size := 2) (F := exTwoRanks) lap (by omega)
    (FVSolver.shapes lu exLaplace (n := 4) (by omega)) (opt := ⟨true, false⟩) rfl (by decide) (by unfold Forest.Sorted; decide)
    (by intro r; simp [exTwoRanks, Forest.ranks]; omega) (root := Patch.fresh ⟨4, 4, 0, 1, 0, 1⟩) (R := unitSquare) rfl rfl
    (Or.inl (by omega)) (fun k => by
      apply exLaplace_one
      match k with
      | 0 => decide +kernel
      | 1 => decide +kernel
      | k + 2 =>
        intro p hp
        simp [leavesOf, exTwoRanks, startTree] at hp)
  exact ⟨Z, h⟩

/-- Sixteen leaves of one size on three ranks: five, five and six.  Rank 1 comes to the second quarter, which it shares with rank 0, after three
leaves; rank 0 after five. -/
def exFiveFiveSix : Forest :=
  .node (.node (.leaf 0) (.leaf 0) (.leaf 0) (.leaf 0)) (.node (.leaf 0) (.leaf 1) (.leaf 1) (.leaf 1))
    (.node (.leaf 1) (.leaf 1) (.leaf 2) (.leaf 2)) (.node (.leaf 2) (.leaf 2) (.leaf 2) (.leaf 2))

/-- The program with the cache does not end on them. -/
example (lap : Lapack ℚ) (lu : PetscLU ℚ) (f : ℚ → ℚ → ℚ) (bc : BoundaryFn ℚ) :
    ¬ ∃ Z : Nat → Mesh ℚ, AlwaysEnds (exampleWorldOn 4 30 3 exFiveFiveSix lap (exLaplace.toPatchSolver lu) ⟨true, false⟩
      (Patch.fresh ⟨4, 4, 0, 1, 0, 1⟩) f bc 1) Z := by
  rintro ⟨Z, m, hm⟩
  have h := (hm 0 _ (.refl _)).2
  exact C105_order_cached_wrong (N := 4) (M := 30) (size := 3) (F := exFiveFiveSix) lap (by omega)
    (FVSolver.shapes lu exLaplace (n := 4) (by omega)) (opt := ⟨true, false⟩) rfl (by decide) (by unfold Forest.Sorted; decide)
    (by intro r; simp [exFiveFiveSix, Forest.ranks]; omega) (root := Patch.fresh ⟨4, 4, 0, 1, 0, 1⟩) (R := unitSquare) rfl rfl
    (Or.inl (by omega)) (fun k => by
      apply exLaplace_one
      match k with
      | 0 => decide +kernel
      | 1 => decide +kernel
      | 2 => decide +kernel
      | k + 3 =>
        intro p hp
        simp [leavesOf, exFiveFiveSix, startTree] at hp) f bc 0 (p := 0) (q := 1) (by omega) (by omega) (by decide +kernel) h
    (fun r => ⟨_, rfl⟩) ⟨⟨_, rfl⟩, _, rfl⟩

end EF
