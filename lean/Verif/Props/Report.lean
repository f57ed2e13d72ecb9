import Verif.Proofs.Report
import Verif.Props.ParallelHPS
import Verif.Props.Converge
import Verif.Props.BlockPermute
import Verif.Props.Same

/-!
# The errors a convergence study reports (C70)
-/

namespace EF

open Finset FV HPS

section
variable {K : Type} [Field K] [LinearOrder K] [IsStrictOrderedRing K] {N M size : Nat} {F : Forest}

/-- Area of a rectangle. -/
def Rect.area (R : Rect K) : K := (R.xu - R.xl) * (R.yu - R.yl)

theorem FV.Proper.area {R : Rect K} (h : Proper R) : 0 < R.area := mul_pos (sub_pos.mpr h.1) (sub_pos.mpr h.2)

/-- The convergence study on all ranks, given the serial run. -/
theorem study_runs (hM : F.depth ≤ M) (hs : F.Sorted) (hr : EveryRank F size) (lap : Lapack K) (ps : PatchSolver K)
    (opt : HPSOptions) (root : Patch K) (f : K → K → K) (bc : BoundaryFn K) (n : Nat)
    (hc : opt.cacheOperators = true → ∀ k, ∃ B, ∀ p ∈ leavesOf k F (startTree root F []), ps.buildD2N p.grid = .ok B)
    {t1 t3 : Tree (Patch K)} {c1 : Option (Mat K)}
    (h1 : HPS.buildStage lap ps { opt with cacheOperators := false } (startTree root F []) none = .ok (t1, c1))
    (h2 : (Request.functions f bc).run lap ps opt t1 = .ok t3) {sqrt : K → K} {exact : K → K → K} {maxLevel : Nat}
    {good : Nat → ErrorReport K → Prop}
    (hg : ∀ r, r < size → ∀ q : Quadtree (Patch K), Rep r F t3 [] q.map → q.userPointer = .this →
      ∃ e, errorReport ⟨M, size, r, F⟩ sqrt exact maxLevel root.grid q = .ok e ∧ good r e) :
    ∃ Z : Nat → ErrorReport K, AlwaysEnds (studyOn M size F lap ps opt root f bc (n + 1) sqrt exact maxLevel) Z ∧
      (∀ r, r < size → good r (Z r)) ∧ ∃ m : NodeMap (Patch K), Rep 0 F t3 [] m := by
  choose m1 a1 a2 a3 a4 a5 using refine_first hM hs root
  let A0 : Nat → HPSRank K := fun r => ⟨m1 r, none⟩
  have hA0 : HoldsOn size F (startTree root F []) (fun r => (A0 r).mesh.quadtree) := fun r _ => ⟨a3 r, a4 r⟩
  obtain ⟨s', b1⟩ := mergeBy_build lap ps opt hc (a3 0) h1
  obtain ⟨A1, b2, -, b3⟩ := build_runs hM hs hr lap ps opt hA0 b1
  obtain ⟨A2, b4, b5⟩ := solves_runs hM hs hr lap ps opt f bc h2 n b2.holds
  have b6 : ∀ r, ∃ e : ErrorReport K, r < size →
      errorReport ⟨M, size, r, F⟩ sqrt exact maxLevel root.grid (A2 r).mesh.quadtree = .ok e ∧ good r e := by
    intro r
    by_cases h : r < size
    · obtain ⟨e, k1, k2⟩ := hg r h _ (b4 r h).1 (b4 r h).2.1
      exact ⟨e, fun _ => ⟨k1, k2⟩⟩
    · exact ⟨⟨0, 0, 0, 0, 0⟩, fun h' => absurd h' h⟩
  choose Z b7 using b6
  have hrun : Runs (fun r => r < size) (fun r => studyMain ⟨M, size, r, F⟩ lap ps opt root f bc (n + 1) sqrt exact maxLevel) Z := by
    have c1 := setup_runs (M := M) hr A0
    have c2 := Runs.bind c1 (q := fun r A => A.buildStage ⟨M, size, r, F⟩ lap ps opt) (w := A1) b3
    have c3 := Runs.bind c2 (q := fun r A => A.solves ⟨M, size, r, F⟩ lap ps opt f bc (n + 1)) (w := A2) b5
    have c4 := Runs.bind c3 (q := fun r A => Prog.fin (errorReport ⟨M, size, r, F⟩ sqrt exact maxLevel root.grid A.mesh.quadtree)) (w := Z)
      (Runs.pure fun r h => by
        beta_reduce
        rw [(b7 r h).1]
        rfl)
    refine c4.congr (fun r h => ?_) (fun r h => rfl)
    unfold studyMain
    dsimp only
    rw [a1 r]
    simp only [bind_assoc]
    rfl
  refine ⟨fun r => if r < size then Z r else ⟨0, 0, 0, 0, 0⟩, Runs.ends hrun ⟨0, 0, 0, 0, 0⟩, ?_, ?_⟩
  · intro r h
    simp only [if_pos h]
    exact (b7 r h).2
  · have h0 : 0 < size := by
      cases F with
      | leaf k => exact Nat.lt_of_le_of_lt (Nat.zero_le _) ((hr k).mpr (by simp [Forest.ranks]))
      | node c0 c1 c2 c3 =>
        obtain ⟨k, hk⟩ : ∃ k, k ∈ (Forest.node c0 c1 c2 c3).ranks := ⟨_, (Forest.node c0 c1 c2 c3).first_mem⟩
        exact Nat.lt_of_le_of_lt (Nat.zero_le _) ((hr k).mpr hk)
    exact ⟨_, (b4 0 h0).1⟩

/-- C70, what each rank reports, for every mesh and every leaf solver with operators of the right sizes: the study ends on all ranks, and
the errors and the number of degrees of freedom a rank reports are those of the cells of its own leaves, in the tree a serial run without
operator cache ends with; the area is that of the whole domain. -/
theorem C70_each_rank_actual (lap : Lapack K) {ps : PatchSolver K} (hN : 0 < N) (hs : SolverShapes N ps) {opt : HPSOptions}
    (ho : opt.homogeneousRhs = false) (hM : F.depth ≤ M) (hF : F.Sorted) (hr : EveryRank F size) {root : Patch K} {R : Rect K}
    (hR : Proper R) (hg : root.grid = ⟨N, N, R.xl, R.xu, R.yl, R.yu⟩) (h0 : root.nCoarsens = 0)
    (h3 : 3 ≤ N ∨ ∃ d, Uniform d (startTree root F []))
    (hc : opt.cacheOperators = true → ∀ k, ∃ B, ∀ p ∈ leavesOf k F (startTree root F []), ps.buildD2N p.grid = .ok B)
    (f : K → K → K) (bc : BoundaryFn K) (n : Nat) {sqrt : K → K} (hq : IsSqrt sqrt) (exact : K → K → K) (maxLevel : Nat) :
    ∃ (t1 : Tree (Patch K)) (c1 : Option (Mat K)) (t3 : Tree (Patch K)) (Z : Nat → ErrorReport K),
      HPS.buildStage lap ps { opt with cacheOperators := false } (startTree root F []) none = .ok (t1, c1) ∧
      (Request.functions f bc).run lap ps opt t1 = .ok t3 ∧ Placed N t3 R ∧ t3.shape = (startTree root F []).shape ∧
      (∃ m : NodeMap (Patch K), Rep 0 F t3 [] m) ∧
      AlwaysEnds (studyOn M size F lap ps opt root f bc (n + 1) sqrt exact maxLevel) Z ∧
      ∀ r, r < size → (Z r).Measures R.area ((leavesOf r F t3).flatMap (cellErrors exact)) ∧ (Z r).resolution = 2 ^ maxLevel * N := by
  have hI := startTree_init hg h0 F []
  obtain ⟨t1, c1, t3, e1, e2, e3, e4, -⟩ := serial_fields lap hN hs (opt := { opt with cacheOperators := false }) ho hI h3 f bc
  have pl := (C20_leaves_in_place lap hN hs (opt := { opt with cacheOperators := false }) ho hI h3 f bc e1 e2).1
  have hA : 0 < (root.grid.xu - root.grid.xl) * (root.grid.yu - root.grid.yl) := by rw [hg]; exact hR.area
  obtain ⟨Z, z1, z2, z3⟩ := study_runs hM hF hr lap ps opt root f bc n hc e1 e2 (sqrt := sqrt) (exact := exact) (maxLevel := maxLevel)
    (good := fun r e => e.Measures R.area ((leavesOf r F t3).flatMap (cellErrors exact)) ∧ e.resolution = 2 ^ maxLevel * N)
    (fun r h q hq1 hq2 => by
      have := errorReport_ok (size := size) hM hF hq exact maxLevel (root := root.grid) (N := N) (by rw [hg]) (by rw [hg]) hA hq1 hq2
        (fun p hp => by
          have hp' := leavesOf_sub hp
          obtain ⟨a, b, c⟩ := pl.leaves hR p hp'
          exact ⟨(e4 p hp').1, (e4 p hp').2, a, b, (mul_pos (hx_pos c (by omega)) (hy_pos c (by omega))).le⟩)
      rw [hg] at this ⊢
      exact this)
  refine ⟨t1, c1, t3, Z, e1, e2, pl, e3, z3, z1, z2⟩

/-- C70 on one rank, for every mesh: what is reported are the mean, the root mean square and the maximum of the errors of all cells,
weighted with their areas, and the number of all cells; the mean is at most the root mean square, and this at most the maximum.
Missing: several ranks, where it is false (`C70_ranks_wrong`); floating point. -/
theorem C70_one_rank_partial (lap : Lapack K) {ps : PatchSolver K} (hN : 0 < N) (hs : SolverShapes N ps) {opt : HPSOptions}
    (ho : opt.homogeneousRhs = false) (hM : F.depth ≤ M) (hF : F.Sorted) (hr : EveryRank F 1) {root : Patch K} {R : Rect K}
    (hR : Proper R) (hg : root.grid = ⟨N, N, R.xl, R.xu, R.yl, R.yu⟩) (h0 : root.nCoarsens = 0)
    (h3 : 3 ≤ N ∨ ∃ d, Uniform d (startTree root F []))
    (hc : opt.cacheOperators = true → ∃ B, ∀ p ∈ (startTree root F []).leaves, ps.buildD2N p.grid = .ok B)
    (f : K → K → K) (bc : BoundaryFn K) (n : Nat) {sqrt : K → K} (hq : IsSqrt sqrt) (exact : K → K → K) (maxLevel : Nat) :
    ∃ (t1 : Tree (Patch K)) (c1 : Option (Mat K)) (t3 : Tree (Patch K)) (Z : Nat → ErrorReport K),
      HPS.buildStage lap ps { opt with cacheOperators := false } (startTree root F []) none = .ok (t1, c1) ∧
      (Request.functions f bc).run lap ps opt t1 = .ok t3 ∧
      AlwaysEnds (studyOn M 1 F lap ps opt root f bc (n + 1) sqrt exact maxLevel) Z ∧
      (Z 0).Measures R.area (t3.leaves.flatMap (cellErrors exact)) ∧ (Z 0).l1 ≤ (Z 0).l2 ∧ (Z 0).l2 ≤ (Z 0).lI ∧
      (Z 0).resolution = 2 ^ maxLevel * N := by
  obtain ⟨t1, c1, t3, Z, e1, e2, pl, -, ⟨m, hm⟩, e3, e4⟩ := C70_each_rank_actual lap hN hs ho hM hF hr hR hg h0 h3
    (fun h k => (hc h).imp fun B hB p hp => hB p (leavesOf_sub hp)) f bc n hq exact maxLevel
  obtain ⟨k1, k2⟩ := e4 0 one_pos
  have hall : leavesOf 0 F t3 = t3.leaves := leavesOf_all hm fun k hk => by have := (hr k).mpr hk; omega
  rw [hall] at k1
  obtain ⟨-, k3, k4⟩ := k1.order hR.area (fun c hc => by
    obtain ⟨p, hp, hc⟩ := List.mem_flatMap.mp hc
    exact cellErrors_nonneg exact (pl.leaves hR p hp).2.2 c hc) (pl.area hN exact).le
  exact ⟨t1, c1, t3, Z, e1, e2, e3, k1, k3, k4, k2⟩

theorem flatMap_sum {T A : Type} (L : List T) (g : T → List A) (w : A → K) :
    ((L.flatMap g).map w).sum = (L.map fun p => ((g p).map w).sum).sum := by
  induction L with
  | nil => rfl
  | cons p L ih => simp only [List.flatMap_cons, List.map_append, List.sum_append, List.map_cons, List.sum_cons, ih]

/-- C70 is false on several ranks, for every mesh and problem: every rank reports fewer degrees of freedom than the mesh has cells, and a
mean error that leaves out the errors of the other ranks; only the sums over the ranks, which the program does not form, are right. -/
theorem C70_ranks_wrong (lap : Lapack K) {ps : PatchSolver K} (hN : 0 < N) (hs : SolverShapes N ps) {opt : HPSOptions}
    (ho : opt.homogeneousRhs = false) (hM : F.depth ≤ M) (hF : F.Sorted) (hr : EveryRank F size) (h2 : 2 ≤ size) {root : Patch K} {R : Rect K}
    (hR : Proper R) (hg : root.grid = ⟨N, N, R.xl, R.xu, R.yl, R.yu⟩) (h0 : root.nCoarsens = 0)
    (h3 : 3 ≤ N ∨ ∃ d, Uniform d (startTree root F []))
    (hc : opt.cacheOperators = true → ∀ k, ∃ B, ∀ p ∈ leavesOf k F (startTree root F []), ps.buildD2N p.grid = .ok B)
    (f : K → K → K) (bc : BoundaryFn K) (n : Nat) {sqrt : K → K} (hq : IsSqrt sqrt) (exact : K → K → K) (maxLevel : Nat) :
    ∃ (t1 : Tree (Patch K)) (c1 : Option (Mat K)) (t3 : Tree (Patch K)) (Z : Nat → ErrorReport K),
      HPS.buildStage lap ps { opt with cacheOperators := false } (startTree root F []) none = .ok (t1, c1) ∧
      (Request.functions f bc).run lap ps opt t1 = .ok t3 ∧
      AlwaysEnds (studyOn M size F lap ps opt root f bc (n + 1) sqrt exact maxLevel) Z ∧
      (∀ r, r < size → (Z r).nDOFs < (t3.leaves.flatMap (cellErrors exact)).length) ∧
      (∀ r, r < size → (∃ k, k < size ∧ k ≠ r ∧ 0 < (Z k).lI) →
        (Z r).l1 * R.area < ((t3.leaves.flatMap (cellErrors exact)).map fun c => c.1 * c.2).sum) ∧
      ∑ r ∈ range size, (Z r).nDOFs = (t3.leaves.flatMap (cellErrors exact)).length ∧
      (∑ r ∈ range size, (Z r).l1) * R.area = ((t3.leaves.flatMap (cellErrors exact)).map fun c => c.1 * c.2).sum := by
  obtain ⟨t1, c1, t3, Z, e1, e2, pl, -, ⟨m, hm⟩, e3, e4⟩ := C70_each_rank_actual lap hN hs ho hM hF hr hR hg h0 h3 hc f bc n hq exact maxLevel
  have hlt : ∀ k ∈ F.ranks, k < size := fun k hk => (hr k).mpr hk
  have d1 : ∑ r ∈ range size, (Z r).nDOFs = (t3.leaves.flatMap (cellErrors exact)).length := by
    rw [List.length_flatMap, ← leavesOf_sum _ hm hlt]
    refine Finset.sum_congr rfl fun r h => ?_
    rw [(e4 r (Finset.mem_range.mp h)).1.cells, List.length_flatMap]
  have d2 : (∑ r ∈ range size, (Z r).l1) * R.area = ((t3.leaves.flatMap (cellErrors exact)).map fun c => c.1 * c.2).sum := by
    rw [flatMap_sum, ← leavesOf_sum _ hm hlt, Finset.sum_mul]
    refine Finset.sum_congr rfl fun r h => ?_
    rw [(e4 r (Finset.mem_range.mp h)).1.mean, flatMap_sum]
  have hpos : ∀ r, r < size → ∀ c ∈ (leavesOf r F t3).flatMap (cellErrors exact), 0 < c.1 ∧ 0 ≤ c.2 := by
    intro r _ c hc
    obtain ⟨p, hp, hc⟩ := List.mem_flatMap.mp hc
    obtain ⟨a, b, hp⟩ := pl.leaves hR p (leavesOf_sub hp)
    refine ⟨?_, (cellErrors_nonneg exact hp c hc).2⟩
    obtain ⟨ij, -, rfl⟩ := List.mem_map.mp hc
    exact mul_pos (hx_pos hp (by omega)) (hy_pos hp (by omega))
  refine ⟨t1, c1, t3, Z, e1, e2, e3, ?_, ?_, d1, d2⟩
  · intro r h
    rw [← d1]
    obtain ⟨k, hk, hkr⟩ : ∃ k, k < size ∧ k ≠ r := by
      by_cases hr0 : r = 0
      · exact ⟨1, by omega, by omega⟩
      · exact ⟨0, by omega, by omega⟩
    refine Finset.single_lt_sum (f := fun r => (Z r).nDOFs) hkr (Finset.mem_range.mpr h) (Finset.mem_range.mpr hk) ?_
      (fun _ _ _ => Nat.zero_le _)
    rw [(e4 k hk).1.cells]
    obtain ⟨p, L, hp⟩ := List.exists_cons_of_ne_nil (leavesOf_ne_nil hm ((hr k).mp hk))
    obtain ⟨a, b, -⟩ := pl.leaves hR p (leavesOf_sub (r := k) (F := F) (by rw [hp]; simp))
    rw [hp, List.flatMap_cons, List.length_append, cellErrors_length, a, b]
    have := Nat.mul_pos hN hN
    omega
  · rintro r h ⟨k, hk, hkr, hl⟩
    rw [← d2]
    refine mul_lt_mul_of_pos_right ?_ hR.area
    have nn : ∀ j, j < size → 0 ≤ (Z j).l1 := by
      intro j hj
      have h1 := (e4 j hj).1.mean
      refine nonneg_of_mul_nonneg_left ?_ hR.area
      rw [h1]
      refine List.sum_nonneg fun x hx => ?_
      obtain ⟨c, hc, rfl⟩ := List.mem_map.mp hx
      exact mul_nonneg (hpos j hj c hc).1.le (hpos j hj c hc).2
    refine Finset.single_lt_sum (f := fun r => (Z r).l1) hkr (Finset.mem_range.mpr h) (Finset.mem_range.mpr hk) ?_ (fun j hj _ => nn j (Finset.mem_range.mp hj))
    obtain ⟨-, -, h5⟩ := (e4 k hk).1.largest
    rcases h5 with h5 | ⟨c, hc, h5⟩
    · exact absurd h5 hl.ne'
    · have h1 := (e4 k hk).1.mean
      refine pos_of_mul_pos_left ?_ hR.area.le
      rw [h1]
      refine lt_of_lt_of_le (mul_pos (hpos k hk c hc).1 (h5.symm ▸ hl : 0 < c.2)) ?_
      refine List.single_le_sum (fun x hx => ?_) _ (List.mem_map.mpr ⟨c, hc, rfl⟩)
      obtain ⟨c', hc', rfl⟩ := List.mem_map.mp hx
      exact mul_nonneg (hpos k hk c' hc').1.le (hpos k hk c' hc').2

/-- C70 is false on several ranks: for every mesh and problem there is a function such that the mean of the differences of the solution and
the function over all cells is more than any rank reports. -/
theorem C70_mean_wrong (lap : Lapack K) {ps : PatchSolver K} (hN : 0 < N) (hs : SolverShapes N ps) {opt : HPSOptions}
    (ho : opt.homogeneousRhs = false) (hM : F.depth ≤ M) (hF : F.Sorted) (hr : EveryRank F size) (h2 : 2 ≤ size) {root : Patch K} {R : Rect K}
    (hR : Proper R) (hg : root.grid = ⟨N, N, R.xl, R.xu, R.yl, R.yu⟩) (h0 : root.nCoarsens = 0)
    (h3 : 3 ≤ N ∨ ∃ d, Uniform d (startTree root F []))
    (hc : opt.cacheOperators = true → ∀ k, ∃ B, ∀ p ∈ leavesOf k F (startTree root F []), ps.buildD2N p.grid = .ok B)
    (f : K → K → K) (bc : BoundaryFn K) (n : Nat) {sqrt : K → K} (hq : IsSqrt sqrt) (maxLevel : Nat) :
    ∃ (exact : K → K → K) (t1 : Tree (Patch K)) (c1 : Option (Mat K)) (t3 : Tree (Patch K)) (Z : Nat → ErrorReport K),
      HPS.buildStage lap ps { opt with cacheOperators := false } (startTree root F []) none = .ok (t1, c1) ∧
      (Request.functions f bc).run lap ps opt t1 = .ok t3 ∧
      AlwaysEnds (studyOn M size F lap ps opt root f bc (n + 1) sqrt exact maxLevel) Z ∧
      ∀ r, r < size → (Z r).l1 * R.area < ((t3.leaves.flatMap (cellErrors exact)).map fun c => c.1 * c.2).sum := by
  obtain ⟨t1, c1, t3, -, e1, e2, pl, -, ⟨m, hm⟩, -⟩ := C70_each_rank_actual lap hN hs ho hM hF hr hR hg h0 h3 hc f bc n hq (fun _ _ => 0) maxLevel
  obtain ⟨c, hcb⟩ : ∃ c : K, ∀ p ∈ t3.leaves, ∀ k, |p.u.data.getD k 0| < c := by
    have h1 : ∀ l : List K, ∃ c : K, 0 < c ∧ ∀ k, |l.getD k 0| < c := by
      intro l
      induction l with
      | nil => exact ⟨1, one_pos, fun k => by simp⟩
      | cons a l ih =>
        obtain ⟨c, c0, hc⟩ := ih
        refine ⟨max (|a| + 1) c, lt_max_of_lt_right c0, fun k => ?_⟩
        cases k with
        | zero => exact lt_max_of_lt_left (by simp)
        | succ k => exact lt_max_of_lt_right (hc k)
    generalize t3.leaves = L
    induction L with
    | nil => exact ⟨0, by simp⟩
    | cons p L ih =>
      obtain ⟨c, hc⟩ := ih
      obtain ⟨c', -, hc'⟩ := h1 p.u.data
      refine ⟨max c c', fun q hq k => ?_⟩
      rcases List.mem_cons.mp hq with rfl | hq
      · exact lt_max_of_lt_right (hc' k)
      · exact lt_max_of_lt_left (hc q hq k)
  obtain ⟨t1', c1', t3', Z, k1, k2, k3, -, k4, -⟩ := C70_ranks_wrong lap hN hs ho hM hF hr h2 hR hg h0 h3 hc f bc n hq (fun _ _ => c) maxLevel
  obtain ⟨t1'', c1'', t3'', Z', j1, j2, -, -, -, j3, j4⟩ := C70_each_rank_actual lap hN hs ho hM hF hr hR hg h0 h3 hc f bc n hq (fun _ _ => c) maxLevel
  rw [e1] at k1 j1
  obtain ⟨rfl, rfl⟩ := Prod.mk.inj (Res.ok_inj.mp k1)
  obtain ⟨rfl, rfl⟩ := Prod.mk.inj (Res.ok_inj.mp j1)
  rw [e2] at k2 j2
  obtain rfl := Res.ok_inj.mp k2
  obtain rfl := Res.ok_inj.mp j2
  obtain rfl := AlwaysEnds.unique k3 j3
  refine ⟨_, t1, c1, t3, Z, e1, e2, k3, fun r h => k4 r h ?_⟩
  obtain ⟨k, hk, hkr⟩ : ∃ k, k < size ∧ k ≠ r := by
    by_cases hr0 : r = 0
    · exact ⟨1, by omega, by omega⟩
    · exact ⟨0, by omega, by omega⟩
  refine ⟨k, hk, hkr, ?_⟩
  obtain ⟨p, L, hp⟩ := List.exists_cons_of_ne_nil (leavesOf_ne_nil hm ((hr k).mp hk))
  have hpm : p ∈ leavesOf k F t3 := by rw [hp]; simp
  obtain ⟨a, b, -⟩ := pl.leaves hR p (leavesOf_sub hpm)
  have hcell := (j4 k hk).1.largest.2.1 _ (List.mem_flatMap.mpr ⟨p, hpm, List.mem_map.mpr ⟨(0, 0), by
    rw [a, b]
    simpa [cellIndices] using hN, rfl⟩⟩)
  refine lt_of_lt_of_le ?_ hcell
  refine abs_pos.mpr (sub_ne_zero.mpr ?_)
  have := hcb p (leavesOf_sub hpm) (0 + 0 * p.grid.ny)
  exact ne_of_lt (lt_of_le_of_lt (le_abs_self _) this)

/-! ## One patch -/

theorem sideValues_ok {n : Nat} {fn : Nat → Res K} {φ : Nat → K} (h : ∀ k, fn k = .ok (φ k)) : sideValues n fn = .ok (Vec.ofFn n φ) := by
  unfold sideValues
  rw [Vec.zeros_eq]
  exact Vec.forN_fill φ _ (fun k hk v => by simp only [h k, Res.ok_bind]; exact Vec.set_ofFn hk)

theorem cellValues_eq (grid : Grid K) (fn : K → K → K) : cellValues grid fn = sampleLoad fn grid := by
  unfold cellValues sampleLoad
  simp only [Grid.point, if_true, one_ne_zero, if_false, pure_bind]

/-- C70, one patch: the error of the patch solver study is the largest error of the finite volume solution with the given load and boundary
values. -/
theorem C70_patch_error (lu : PetscLU K) (s : FVSolver K) {R : Rect K} (hR : Proper R) (hE : EllipticOn s R) (exact f : K → K → K) {n : Nat}
    (hn : 2 ≤ n) :
    ∃ U, Solves s R n n (dirichletAt R n fun _ => exact) (fun i j => f (cx R n i) (cy R n j)) U ∧
      ∃ e, patchError (s.toPatchSolver lu) R.xl R.xu R.yl R.yu exact f n = .ok e ∧ 0 ≤ e ∧
        (∀ i, i < n → ∀ j, j < n → |U i j - exact (cx R n i) (cy R n j)| ≤ e) ∧
        (e = 0 ∨ ∃ i j, i < n ∧ j < n ∧ |U i j - exact (cx R n i) (cy R n j)| = e) := by
  have hgx : ∀ i, (⟨n, n, R.xl, R.xu, R.yl, R.yu⟩ : Grid K).x i = cx R n i := fun i => FVSolver.x_eq _ i
  have hgy : ∀ j, (⟨n, n, R.xl, R.xu, R.yl, R.yu⟩ : Grid K).y j = cy R n j := fun j => FVSolver.y_eq _ j
  obtain ⟨F, f1, φ, f2, f3⟩ := C33_load_sampled f (⟨n, n, R.xl, R.xu, R.yl, R.yu⟩ : Grid K)
  obtain ⟨E, x1, ψ, x2, x3⟩ := C33_load_sampled exact (⟨n, n, R.xl, R.xu, R.yl, R.yu⟩ : Grid K)
  let b : Nat → Nat → K := fun q k =>
    if q = 0 then exact R.xl (cy R n k) else if q = 1 then exact R.xu (cy R n k) else if q = 2 then exact (cx R n k) R.yl
    else exact (cx R n k) R.yu
  have g1 := Vec.concatenate_uniform 4 n b
  obtain ⟨u, u1, U, u2, u3⟩ := C30_leaf_solves lu s hn (grid := ⟨n, n, R.xl, R.xu, R.yl, R.yu⟩) ⟨rfl, rfl, ne_of_lt hR.1, ne_of_lt hR.2⟩
    (unique_of_elliptic hR hE n n) (Vec.has_ofFn (4 * n) fun k => b (k / n) (k % n)) f2
  have div : ∀ q k, k < n → b ((q * n + k) / n) ((q * n + k) % n) = b q k := by
    intro q k hk
    rw [Nat.mul_comm, Nat.mul_add_div (by omega), Nat.div_eq_of_lt hk, Nat.add_zero, Nat.mul_add_mod, Nat.mod_eq_of_lt hk]
  have hW : Solves s R n n (dirichletAt R n fun _ => exact) (fun i j => f (cx R n i) (cy R n j)) (fun i j => U (j + i * n)) := by
    refine u3.congr ?_ ?_ ?_ ?_ ?_ (fun _ _ _ _ => rfl)
    · intro k hk
      have := div 0 k hk
      simpa [Bdry.ofFn, dirichletAt, sidePoint, b] using this
    · intro k hk
      have := div 1 k hk
      simpa [Bdry.ofFn, dirichletAt, sidePoint, b] using this
    · intro k hk
      have := div 2 k hk
      simpa [Bdry.ofFn, dirichletAt, sidePoint, b] using this
    · intro k hk
      have := div 3 k hk
      simpa [Bdry.ofFn, dirichletAt, sidePoint, b] using this
    · intro i hi j hj
      exact f3 i hi j hj
  refine ⟨_, hW, ?_⟩
  obtain ⟨e, h1, h2, h3, h4, -⟩ := C49_inf_norm x2 u2
  have ix : ∀ i, i < n → ∀ j, j < n → |ψ (j + i * n) - U (j + i * n)| = |U (j + i * n) - exact (cx R n i) (cy R n j)| := by
    intro i hi j hj
    rw [abs_sub_comm]
    congr 2
    exact x3 i hi j hj
  refine ⟨e, ?_, h2, ?_, ?_⟩
  · unfold patchError
    dsimp only
    rw [sideValues_ok (φ := b 0), Res.ok_bind, sideValues_ok (φ := b 1), Res.ok_bind, sideValues_ok (φ := b 2), Res.ok_bind,
      sideValues_ok (φ := b 3), Res.ok_bind,
      show [Vec.ofFn n (b 0), Vec.ofFn n (b 1), Vec.ofFn n (b 2), Vec.ofFn n (b 3)] = listFn 4 (fun q => Vec.ofFn n (b q)) from rfl,
      g1, Res.ok_bind, cellValues_eq, f1, Res.ok_bind, cellValues_eq, x1, Res.ok_bind]
    · show s.solve lu _ _ _ >>= _ = _
      rw [u1, Res.ok_bind, h1]
    all_goals
      intro k
      simp only [Grid.point, if_true, one_ne_zero, if_false, pure_bind, hgx, hgy]
      rfl
  · intro i hi j hj
    rw [← ix i hi j hj]
    exact h3 _ (FVSolver.idx_lt hi hj)
  · refine h4.imp id ?_
    rintro ⟨k, hk, h5⟩
    have hn0 : 0 < n := by omega
    refine ⟨k / n, k % n, Nat.div_lt_of_lt_mul hk, Nat.mod_lt _ hn0, ?_⟩
    rw [← ix _ (Nat.div_lt_of_lt_mul hk) _ (Nat.mod_lt _ hn0), h5, Nat.mod_add_div']

end

/-! ## Second order -/

/-- Second order for every leaf solver that gives the same values as the finite volume solver. -/
theorem second_order_same {s : FVSolver ℝ} {R : Rect ℝ} (hR : Proper R) (hE : EllipticOn s R) {Bx By : Nat → ℝ → ℝ → ℝ} {B : ℝ}
    (hβ : Derivs R s.beta Bx By B) {u : ℝ → ℝ → ℝ} {Dx Dy : Nat → ℝ → ℝ → ℝ} {D : ℝ} (hu : Derivs R u Dx Dy D) {f : ℝ → ℝ → ℝ}
    (hf : Classical s R u Dx Dy Bx By f) :
    ∃ C, 0 ≤ C ∧ ∀ (lap : Lapack ℝ) (lu : PetscLU ℝ) (ps : PatchSolver ℝ) (N M size d : Nat) (F : Forest) (opt : HPSOptions) (root : Patch ℝ) (n maxLevel : Nat),
      2 ≤ N → SolverShapes N ps → SameOn N R (s.toPatchSolver lu) ps → opt.homogeneousRhs = false → opt.cacheOperators = false → F.depth ≤ M → F.Sorted → EveryRank F size → F.shape = .uniform d →
      root.grid = ⟨N, N, R.xl, R.xu, R.yl, R.yu⟩ → root.nCoarsens = 0 →
      ∃ Z : Nat → ErrorReport ℝ,
        AlwaysEnds (studyOn M size F lap ps opt root f (fun _ x y => (u x y, 1, 0)) (n + 1) Real.sqrt u maxLevel) Z ∧
        ∀ r, r < size → 0 ≤ (Z r).l1 ∧ (Z r).l1 ≤ (Z r).l2 ∧ (Z r).l2 ≤ (Z r).lI ∧ (Z r).lI ≤ C / (N * 2 ^ d) ^ 2 := by
  obtain ⟨C, C0, hC⟩ := C69_second_order hR hE hβ hu hf
  refine ⟨C, C0, ?_⟩
  intro lap lu ps N M size d F opt root n maxLevel hN hs hsame ho hc hM hF hr hd hg h0
  have hI := startTree_init hg h0 F []
  have hu' := startTree_uniform root hd []
  obtain ⟨t1, c1, t3, Z, e1, e2, pl, -, ⟨m, hm⟩, e3, e4⟩ := C70_each_rank_actual lap (by omega) hs ho hM hF hr hR hg h0 (Or.inr ⟨d, hu'⟩)
    (fun h => by rw [hc] at h; cases h) f (fun _ x y => (u x y, 1, 0)) n
    (⟨fun x _ => Real.sqrt_nonneg x, fun x hx => Real.mul_self_sqrt hx⟩ : IsSqrt Real.sqrt) u maxLevel
  obtain ⟨t1', c1', t3', k1, k2, -, k3⟩ := hC lap lu N hN { opt with cacheOperators := false } rfl ho _ hI d hu'
  obtain ⟨t4, c4, t5, l1, l2, l3, l4⟩ := C59_interchangeable_leaf_solvers_functions lap (by omega) (FVSolver.shapes lu s hN) hsame
    (opt := { opt with cacheOperators := false }) ho hI (Or.inr ⟨d, hu'⟩) f (fun _ x y => (u x y, 1, 0))
  rw [k1] at l1
  obtain ⟨rfl, rfl⟩ := Prod.mk.inj (Res.ok_inj.mp l1)
  rw [k2] at l2
  obtain rfl := Res.ok_inj.mp l2
  rw [e1] at l3
  obtain ⟨rfl, rfl⟩ := Prod.mk.inj (Res.ok_inj.mp l3)
  rw [show (Request.functions f fun _ x y => (u x y, 1, 0)).run lap ps { opt with cacheOperators := false } t1
    = (Request.functions f fun _ x y => (u x y, 1, 0)).run lap ps opt t1 from rfl, e2] at l4
  obtain rfl := Res.ok_inj.mp l4
  refine ⟨Z, e3, fun r h => ?_⟩
  have hpos : ∀ c ∈ t3.leaves.flatMap (cellErrors u), 0 ≤ c.1 ∧ 0 ≤ c.2 := by
    intro c hc
    obtain ⟨p, hp, hc⟩ := List.mem_flatMap.mp hc
    exact cellErrors_nonneg u (pl.leaves hR p hp).2.2 c hc
  have area : (((leavesOf r F t3).flatMap (cellErrors u)).map Prod.fst).sum ≤ R.area := by
    rw [show R.area = (R.xu - R.xl) * (R.yu - R.yl) from rfl, ← pl.area (by omega) u, flatMap_sum, flatMap_sum,
      ← leavesOf_sum _ hm (fun k hk => (hr k).mpr hk)]
    refine Finset.single_le_sum (f := fun r => ((leavesOf r F t3).map fun p => ((cellErrors u p).map Prod.fst).sum).sum)
      (fun k _ => List.sum_nonneg fun x hx => ?_) (Finset.mem_range.mpr h)
    obtain ⟨p, hp, rfl⟩ := List.mem_map.mp hx
    refine List.sum_nonneg fun x hx => ?_
    obtain ⟨c, hc, rfl⟩ := List.mem_map.mp hx
    exact (hpos c (List.mem_flatMap.mpr ⟨p, leavesOf_sub hp, hc⟩)).1
  have sub : ∀ c ∈ (leavesOf r F t3).flatMap (cellErrors u), c ∈ t3.leaves.flatMap (cellErrors u) := by
    intro c hc
    obtain ⟨p, hp, hc⟩ := List.mem_flatMap.mp hc
    exact List.mem_flatMap.mpr ⟨p, leavesOf_sub hp, hc⟩
  obtain ⟨o1, o2, o3⟩ := (e4 r h).1.order hR.area (fun c hc => hpos c (sub c hc)) area
  refine ⟨o1, o2, o3, ?_⟩
  rcases (e4 r h).1.largest.2.2 with h5 | ⟨c, hc, h5⟩
  · rw [h5]; positivity
  · rw [← h5]
    obtain ⟨p, hp, hc⟩ := List.mem_flatMap.mp (sub c hc)
    obtain ⟨a, b, -⟩ := pl.leaves hR p hp
    obtain ⟨⟨i, j⟩, hij, rfl⟩ := List.mem_map.mp hc
    obtain ⟨hi, hj⟩ : i < N ∧ j < N := by
      rw [a, b] at hij
      simpa [cellIndices] using hij
    have := k3 p hp i hi j hj
    rw [a, b]
    exact this

/-- C70, second order: for a smooth elliptic problem there is a constant, independent of mesh and ranks, such that on every uniformly
refined mesh and any number of ranks, given the load and the boundary values of the solution, every rank reports errors of at most the
constant divided by the square of the number of cells per side.  Missing: adaptive meshes, floating point. -/
theorem C70_second_order_partial {s : FVSolver ℝ} {R : Rect ℝ} (hR : Proper R) (hE : EllipticOn s R) {Bx By : Nat → ℝ → ℝ → ℝ} {B : ℝ}
    (hβ : Derivs R s.beta Bx By B) {u : ℝ → ℝ → ℝ} {Dx Dy : Nat → ℝ → ℝ → ℝ} {D : ℝ} (hu : Derivs R u Dx Dy D) {f : ℝ → ℝ → ℝ}
    (hf : Classical s R u Dx Dy Bx By f) :
    ∃ C, 0 ≤ C ∧ ∀ (lap : Lapack ℝ) (lu : PetscLU ℝ) (N M size d : Nat) (F : Forest) (opt : HPSOptions) (root : Patch ℝ) (n maxLevel : Nat),
      2 ≤ N → opt.homogeneousRhs = false → opt.cacheOperators = false → F.depth ≤ M → F.Sorted → EveryRank F size → F.shape = .uniform d →
      root.grid = ⟨N, N, R.xl, R.xu, R.yl, R.yu⟩ → root.nCoarsens = 0 →
      ∃ Z : Nat → ErrorReport ℝ,
        AlwaysEnds (studyOn M size F lap (s.toPatchSolver lu) opt root f (fun _ x y => (u x y, 1, 0)) (n + 1) Real.sqrt u maxLevel) Z ∧
        ∀ r, r < size → 0 ≤ (Z r).l1 ∧ (Z r).l1 ≤ (Z r).l2 ∧ (Z r).l2 ≤ (Z r).lI ∧ (Z r).lI ≤ C / (N * 2 ^ d) ^ 2 := by
  obtain ⟨C, C0, hC⟩ := second_order_same hR hE hβ hu hf
  exact ⟨C, C0, fun lap lu N M size d F opt root n maxLevel hN => hC lap lu (s.toPatchSolver lu) N M size d F opt root n maxLevel hN
    (FVSolver.shapes lu s hN) ⟨fun _ _ _ _ => rfl, fun _ _ _ _ _ _ _ => rfl, fun _ _ _ _ _ _ _ _ _ _ => rfl⟩⟩

/-- C70, second order on one patch: with a constant independent of the numbers of cells, the errors the patch solver study collects are at
most the constant divided by the square of the number of cells per side. -/
theorem C70_patch_study {s : FVSolver ℝ} {R : Rect ℝ} (hR : Proper R) (hE : EllipticOn s R) {Bx By : Nat → ℝ → ℝ → ℝ} {B : ℝ}
    (hβ : Derivs R s.beta Bx By B) {u : ℝ → ℝ → ℝ} {Dx Dy : Nat → ℝ → ℝ → ℝ} {D : ℝ} (hu : Derivs R u Dx Dy D) {f : ℝ → ℝ → ℝ}
    (hf : Classical s R u Dx Dy Bx By f) :
    ∃ C, 0 ≤ C ∧ ∀ (lu : PetscLU ℝ) (ns : List Nat), (∀ n ∈ ns, 2 ≤ n) →
      ∃ es, patchStudy (s.toPatchSolver lu) R.xl R.xu R.yl R.yu u f ns = .ok es ∧
        List.Forall₂ (fun (n : Nat) e => 0 ≤ e ∧ e ≤ C / (n : ℝ) ^ 2) ns es := by
  obtain ⟨b0, h0, hb⟩ := hβ.lower hR (fun x y h => (hE x y h).1)
  have B0 := hβ.nonneg hR
  have D0 := hu.nonneg hR
  have r1 := hR.1
  have r2 := hR.2
  obtain ⟨L, eL⟩ : ∃ L, L = (R.xu - R.xl) + (R.yu - R.yl) := ⟨_, rfl⟩
  have L0 : 0 < L := by linarith
  obtain ⟨C', eC⟩ : ∃ C', C' = (2 / b0 + (1 + L) ^ 3 * top R b0 B / drop R b0 B) * (B * D) := ⟨_, rfl⟩
  have hC' : 0 ≤ C' := by
    have : 0 ≤ top R b0 B := by unfold top; positivity
    have := drop_pos hR h0 B0
    rw [eC]
    positivity
  refine ⟨C' * ((R.xu - R.xl) ^ 2 + (R.yu - R.yl) ^ 2), by positivity, ?_⟩
  intro lu ns
  induction ns with
  | nil => exact fun _ => ⟨[], rfl, .nil⟩
  | cons n ns ih =>
    intro hns
    obtain ⟨es, i1, i2⟩ := ih fun k hk => hns k (by simp [hk])
    have hn := hns n (by simp)
    obtain ⟨U, hU, e, e1, e2, e3, e4⟩ := C70_patch_error lu s hR hE u f hn
    refine ⟨e :: es, ?_, .cons ⟨e2, ?_⟩ i2⟩
    · unfold patchStudy at i1 ⊢
      rw [List.mapM_cons, e1, Res.ok_bind, i1]
      rfl
    · have bound := error_bound hR hE h0 hb hβ hu hf (L := L) (by linarith) (by linarith) hn
        (g := dirichletAt R n (fun _ => u)) (fun k _ => ⟨rfl, rfl, rfl, rfl⟩) hU
      rcases e4 with e4 | ⟨i, j, hi, hj, e4⟩
      · rw [e4]; positivity
      · rw [← e4]
        refine (bound i hi j hj).trans (le_of_eq ?_)
        rw [← eC]
        unfold hx hy
        ring

/-! ### The hypotheses hold: `div(eˣ grad u) - u = f` on the unit square, an adaptive mesh on two ranks, three solves -/

theorem expPde_elliptic : EllipticOn expPde unitSquareR :=
  fun x y _ => ⟨Real.exp_pos x, by simp [expPde], by norm_num [expPde]⟩

theorem unitSquareR_proper : Proper unitSquareR := ⟨by norm_num [unitSquareR], by norm_num [unitSquareR]⟩

theorem realSqrt : IsSqrt Real.sqrt := ⟨fun x _ => Real.sqrt_nonneg x, fun x hx => Real.mul_self_sqrt hx⟩

noncomputable example (lap : Lapack ℝ) (lu : PetscLU ℝ) (f : ℝ → ℝ → ℝ) (bc : BoundaryFn ℝ) :=
  C70_mean_wrong (N := 4) (M := 30) (size := 2) (F := exTwoRanks) lap (by omega) (FVSolver.shapes lu expPde (n := 4) (by omega))
    (opt := ⟨false, false⟩) rfl (by decide) (by unfold Forest.Sorted; decide)
    (by intro r; simp [exTwoRanks, Forest.ranks]; omega) le_rfl (root := Patch.fresh ⟨4, 4, 0, 1, 0, 1⟩) (R := unitSquareR)
    unitSquareR_proper rfl rfl (Or.inl (by omega)) (fun h => by cases h) f bc 2 realSqrt 2

noncomputable example (lap : Lapack ℝ) (lu : PetscLU ℝ) (f : ℝ → ℝ → ℝ) (bc : BoundaryFn ℝ) (exact : ℝ → ℝ → ℝ) :=
  C70_one_rank_partial (N := 4) (M := 30) (F := exOneRank) lap (by omega) (FVSolver.shapes lu expPde (n := 4) (by omega))
    (opt := ⟨false, false⟩) rfl (by decide) (by unfold Forest.Sorted; decide)
    (by intro r; simp [exOneRank, Forest.ranks]) (root := Patch.fresh ⟨4, 4, 0, 1, 0, 1⟩) (R := unitSquareR)
    unitSquareR_proper rfl rfl (Or.inl (by omega)) (fun h => by cases h) f bc 2 realSqrt exact 2

/-- The remaining hypotheses of the second order theorems are those of C69; meshes on two ranks meet them. -/
example : ∃ (F : Forest) (d : Nat), F.depth ≤ 30 ∧ F.Sorted ∧ EveryRank F 2 ∧ F.shape = .uniform d ∧ 0 < d :=
  ⟨exHalves, 1, by decide, by unfold Forest.Sorted; decide, by intro r; simp [exHalves, Forest.ranks]; omega, rfl, one_pos⟩

end EF
