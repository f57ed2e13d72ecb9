import Verif.Proofs.WorldSplit
import Verif.Props.WorldCalls

/-!
# C105 where every rank has a quadrant

If the leaves of every rank are those of one quadrant, and all ranks have equally many, no rank comes to a family it shares with others
between two leaves of its own.
-/

namespace EF

open HPS

variable {K : Type}

section
variable [Field K] {N M size k : Nat} {F : Forest}

theorem solves_whole (hM : F.depth ≤ M) (hs : F.Sorted) (hr : EveryRank F size) (hk : QuadrantEach size k F) (lap : Lapack K)
    (ps : PatchSolver K) (opt : HPSOptions) (f : K → K → K) (bc : BoundaryFn K) {t t' : Tree (Patch K)}
    (ht : (Request.functions f bc).run lap ps opt t = .ok t') (n : Nat) {A : Nat → HPSRank K}
    (hA : HoldsOn size F t (fun r => (A r).mesh.quadtree)) :
    ∃ A' : Nat → HPSRank K, Follows size F t' A A' ∧
      Runs (fun r => r < size) (fun r => (A r).solvesWorld ⟨M, size, r, F⟩ lap ps opt f bc (n + 1)) A' := by
  have again : (Request.functions f bc).run lap ps opt t' = .ok t' := by
    rw [C21_rerun lap ps opt [Request.functions f bc] (.functions f bc) (t := t) (by simp [runAll, ht, Res.ok_bind]), ht]
  induction n generalizing t A with
  | zero =>
    obtain ⟨t2, e1, e2⟩ := Res.bind_eq_ok.mp ht
    obtain ⟨A1, u1, u2⟩ := upwardsAnalytic_runs (M := M) hM hs hr lap ps opt f hA e1
    obtain ⟨A2, v1, v2⟩ := solveWorld_whole (M := M) hM hs hr hk lap ps opt bc u1.holds e2
    refine ⟨A2, u1.trans v1, ?_⟩
    exact (Runs.bind (HPSRank.upwards_whole hr.pos hM hk lap ps opt f hA u2)
      (q := fun r A => do
        let A ← A.solveStageWorld ⟨M, size, r, F⟩ lap ps opt bc
        A.solvesWorld ⟨M, size, r, F⟩ lap ps opt f bc 0)
      (Runs.bind v2 (q := fun r A => A.solvesWorld ⟨M, size, r, F⟩ lap ps opt f bc 0)
        (w := A2) (Runs.pure fun r _ => rfl))).congr (fun r _ => rfl) (fun r _ => rfl)
  | succ n ih =>
    obtain ⟨t2, e1, e2⟩ := Res.bind_eq_ok.mp ht
    obtain ⟨A1, u1, u2⟩ := upwardsAnalytic_runs (M := M) hM hs hr lap ps opt f hA e1
    obtain ⟨A2, v1, v2⟩ := solveWorld_whole (M := M) hM hs hr hk lap ps opt bc u1.holds e2
    obtain ⟨A3, w1, w2⟩ := ih again v1.holds
    refine ⟨A3, (u1.trans v1).trans w1, ?_⟩
    exact (Runs.bind (HPSRank.upwards_whole hr.pos hM hk lap ps opt f hA u2)
      (q := fun r A => do
        let A ← A.solveStageWorld ⟨M, size, r, F⟩ lap ps opt bc
        A.solvesWorld ⟨M, size, r, F⟩ lap ps opt f bc (n + 1))
      (Runs.bind v2
        (q := fun r A => A.solvesWorld ⟨M, size, r, F⟩ lap ps opt f bc (n + 1)) w2)).congr (fun r _ => rfl) (fun r _ => rfl)
/-- C105 when the leaves of every rank are those of one quadrant, equally many on every rank, adaptively refined or not, with or without the
operator cache: the program ends on all ranks, whatever the order of the collective operations, with the solution and the load of a serial
run.  One leaf on every rank (`C105_one_leaf_partial`) is a case of it.  With the cache the leaves of a rank have to have one operator, as in
`C65_as_serial_partial`.
Missing: other partitions with equally many leaves; on many of them the program does not end (`C105_order_wrong`). -/
theorem C105_quadrant_each_partial [NeZero (2 : K)] (lap : Lapack K) {ps : PatchSolver K} (hN : 0 < N) (hs : SolverShapes N ps)
    {opt : HPSOptions} (ho : opt.homogeneousRhs = false) (hM : F.depth ≤ M) (hF : F.Sorted) (hr : EveryRank F size)
    (hk : QuadrantEach size k F)
    {root : Patch K} {R : Rect K} (hg : root.grid = ⟨N, N, R.xl, R.xu, R.yl, R.yu⟩) (h0 : root.nCoarsens = 0)
    (h3 : 3 ≤ N ∨ ∃ d, Uniform d (startTree root F []))
    (hc : opt.cacheOperators = true → ∀ k, ∃ B, ∀ p ∈ leavesOf k F (startTree root F []), ps.buildD2N p.grid = .ok B)
    (f : K → K → K) (bc : BoundaryFn K) (n : Nat) :
    ∃ (t1 : Tree (Patch K)) (c1 : Option (Mat K)) (t3 : Tree (Patch K)) (Z : Nat → Mesh K),
      HPS.buildStage lap ps { opt with cacheOperators := false } (startTree root F []) none = .ok (t1, c1) ∧
      (Request.functions f bc).run lap ps opt t1 = .ok t3 ∧
      AlwaysEnds (exampleWorldOn N M size F lap ps opt root f bc (n + 1)) Z ∧
      ∀ r, r < size → (Z r).arrays.Describes (meshCells r F (startTree root F [])) ∧ Rep r F t3 [] (Z r).quadtree.map ∧
        ∃ u fv, (Z r).functions = [u, fv] ∧ u.data = (leavesOf r F t3).flatMap (fun p => p.u.data) ∧
          fv.data = (leavesOf r F t3).flatMap (fun p => p.f.data) := by
  have hI := startTree_init hg h0 F []
  obtain ⟨t1, c1, t3, e1, e2, -, -, -, -⟩ := serial_fields lap hN hs (opt := { opt with cacheOperators := false }) ho hI h3 f bc
  rw [Request.run_cache] at e2
  choose m1 a1 a2 a3 a4 a5 using refine_first (K := K) hM hF root
  let A0 : Nat → HPSRank K := fun r => ⟨m1 r, none⟩
  have hA0 : HoldsOn size F (startTree root F []) (fun r => (A0 r).mesh.quadtree) := fun r _ => ⟨a3 r, a4 r⟩
  obtain ⟨s', b1⟩ := mergeBy_build lap ps opt hc (a3 0) e1
  obtain ⟨A1, b2, -, b3⟩ := build_runs hM hF hr lap ps opt hA0 b1
  have b3 := HPSRank.build_whole (N := N) hr.pos hM hk lap ps opt (fun _ => rfl) hA0 b3
  obtain ⟨A2, b4, b5⟩ := solves_whole hM hF hr hk lap ps opt f bc e2 n b2.holds
  have b6 : ∀ r, ∃ x : Quadtree (Patch K) × Vec K × Vec K, r < size → (A2 r).mesh.quadtree.traversePreOrder M r F
      (leafVisit fun p (s : Vec K × Vec K) => pure (p, (s.1.append p.u, s.2.append p.f))) (Vec.empty, Vec.empty) = .ok x ∧
      x.2.1 = ⟨((leavesOf r F t3).map fun p => p.u.size).sum, (leavesOf r F t3).flatMap fun p => p.u.data⟩ ∧
      x.2.2 = ⟨((leavesOf r F t3).map fun p => p.f.size).sum, (leavesOf r F t3).flatMap fun p => p.f.data⟩ ∧
      Rep r F t3 [] x.1.map := by
    intro r
    by_cases h : r < size
    · obtain ⟨q, u, fv, k1, k2, k3, k4⟩ := collect_eq (m := (A2 r).mesh) hM hF (b4 r h).1
      exact ⟨(q, u, fv), fun _ => ⟨k1, k2, k3, k4⟩⟩
    · exact ⟨((A2 r).mesh.quadtree, Vec.empty, Vec.empty), fun h' => absurd h' h⟩
  choose x b7 using b6
  let Z : Nat → Mesh K := fun r => ({ (A2 r).mesh with quadtree := (x r).1 }.addMeshVector (x r).2.1).addMeshVector (x r).2.2
  have hrun : Runs (fun r => r < size) (fun r => exampleMainWorld N ⟨M, size, r, F⟩ lap ps opt root f bc (n + 1)) Z := by
    have c1 := setup_runs (M := M) hr A0
    have c2 := Runs.bind c1 (q := fun r A => A.buildStageWorld N ⟨M, size, r, F⟩ lap ps opt) (w := A1) b3
    have c3 := Runs.bind c2 (q := fun r A => A.solvesWorld ⟨M, size, r, F⟩ lap ps opt f bc (n + 1)) (w := A2) b5
    have c4 := Runs.bind c3 (q := fun r A => do
      let x ← Prog.fin (A.mesh.quadtree.traversePreOrder M r F
        (leafVisit fun p (s : Vec K × Vec K) => pure (p, (s.1.append p.u, s.2.append p.f))) (Vec.empty, Vec.empty))
      pure (({ A.mesh with quadtree := x.1 }.addMeshVector x.2.1).addMeshVector x.2.2)) (w := Z)
      (Runs.pure fun r h => by
        beta_reduce
        rw [(b7 r h).1]
        rfl)
    refine c4.congr (fun r h => ?_) (fun r h => rfl)
    unfold exampleMainWorld
    dsimp only
    rw [a1 r]
    simp only [bind_assoc]
    rfl
  refine ⟨t1, c1, t3, fun r => if r < size then Z r else Mesh.blank, e1, e2, Runs.ends hrun Mesh.blank, ?_⟩
  intro r h
  simp only [if_pos h]
  obtain ⟨k1, k2, k3, k4⟩ := b7 r h
  have w1 := (b2.trans b4) r h
  refine ⟨?_, k4, (x r).2.1, (x r).2.2, ?_, by rw [k2], by rw [k3]⟩
  · show (A2 r).mesh.arrays.Describes _
    rw [w1.2.2.1]
    exact a2 r
  · show ((A2 r).mesh.functions ++ [(x r).2.1]) ++ [(x r).2.2] = _
    rw [w1.2.2.2]
    show (m1 r).functions ++ _ ++ _ = _
    rw [a5 r]
    rfl
end

/-! ## The hypotheses are met -/

/-- Four ranks; each has one quarter of the square, refined into four. -/
def exQuarters : Forest := .node (.node (.leaf 0) (.leaf 0) (.leaf 0) (.leaf 0)) (.node (.leaf 1) (.leaf 1) (.leaf 1) (.leaf 1))
  (.node (.leaf 2) (.leaf 2) (.leaf 2) (.leaf 2)) (.node (.leaf 3) (.leaf 3) (.leaf 3) (.leaf 3))

/-- Sixteen leaves on four ranks: the program ends, with the calls too. -/
example (lap : Lapack ℚ) (lu : PetscLU ℚ) (f : ℚ → ℚ → ℚ) (bc : BoundaryFn ℚ) :
    ∃ Z : Nat → Mesh ℚ, AlwaysEnds (exampleWorldOn 4 30 4 exQuarters lap (exPde.toPatchSolver lu) ⟨false, false⟩
      (Patch.fresh ⟨4, 4, 0, 1, 0, 1⟩) f bc 3) Z := by
  obtain ⟨_, _, _, Z, -, -, h, -⟩ := C105_quadrant_each_partial (N := 4) (M := 30) (size := 4) (k := 4) (F := exQuarters) lap (by omega)
    (FVSolver.shapes lu exPde (n := 4) (by omega)) (opt := ⟨false, false⟩) rfl (by decide) (by unfold Forest.Sorted; decide)
    (by intro r; simp [exQuarters, Forest.ranks]; omega) (by
      intro r hr
      have : r = 0 ∨ r = 1 ∨ r = 2 ∨ r = 3 := by omega
      rcases this with rfl | rfl | rfl | rfl
      · exact ⟨[0], _, rfl, by decide, by decide, by decide⟩
      · exact ⟨[1], _, rfl, by decide, by decide, by decide⟩
      · exact ⟨[2], _, rfl, by decide, by decide, by decide⟩
      · exact ⟨[3], _, rfl, by decide, by decide, by decide⟩) (root := Patch.fresh ⟨4, 4, 0, 1, 0, 1⟩) (R := unitSquare) rfl rfl
    (Or.inl (by omega)) (fun h => by cases h) f bc 2
  exact ⟨Z, h⟩

end EF
