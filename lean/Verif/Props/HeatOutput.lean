import Verif.Props.HeatMesh
import Verif.Props.Output

/-!
# The files of the thermal example on adaptive meshes (C74)
-/

namespace EF

open Finset FV HPS Thermal

variable {N M size : Nat} {F : Forest}

theorem leaf_inMesh {K : Type} [Field K] {t : Tree (Patch K)} {R : Rect K} (h : Placed N t R) {p : Patch K} (hp : p ∈ t.leaves) {i j : Nat} (hi : i < N) (hj : j < N) :
    inMesh N (treeCells N t) R (cellRect p.grid.rect N N i j) (p.u.data.getD (j + i * N) 0) := by
  induction h with
  | @leaf q R hx hy hI =>
    simp only [Tree.leaves, List.mem_singleton] at hp
    subst hp
    exact ⟨i, j, hi, hj, by rw [leaf_grid hx hy hI]; rfl, rfl⟩
  | @node q R c0 c1 c2 c3 h0 h1 h2 h3 i0 i1 i2 i3 =>
    simp only [Tree.leaves, List.mem_append] at hp
    rcases hp with ((hp | hp) | hp) | hp
    · exact .inl (i0 hp)
    · exact .inr (.inl (i1 hp))
    · exact .inr (.inr (.inl (i2 hp)))
    · exact .inr (.inr (.inr (i3 hp)))

/-- A leaf of one tree is where a leaf of another tree of the same shape is. -/
theorem leaf_twin {t t' : Tree (Patch ℚ)} {R : Rect ℚ} (h : Placed N t R) (h' : Placed N t' R) (hs : t'.shape = t.shape) {p : Patch ℚ} (hp : p ∈ t.leaves) :
    ∃ p' ∈ t'.leaves, p'.grid = p.grid := by
  induction h generalizing t' with
  | @leaf q R hx hy hI =>
    simp only [Tree.leaves, List.mem_singleton] at hp
    subst hp
    cases h' with
    | @leaf q' _ hx' hy' hI' => exact ⟨q', by simp [Tree.leaves], by rw [leaf_grid hx hy hI, leaf_grid hx' hy' hI']⟩
    | node => cases hs
  | @node q R c0 c1 c2 c3 h0 h1 h2 h3 i0 i1 i2 i3 =>
    cases h' with
    | leaf => cases hs
    | node k0 k1 k2 k3 =>
      simp only [Tree.shape, Tree.node.injEq, true_and] at hs
      simp only [Tree.leaves, List.mem_append] at hp ⊢
      rcases hp with ((hp | hp) | hp) | hp
      · obtain ⟨p', a, b⟩ := i0 k0 hs.1 hp
        exact ⟨p', .inl (.inl (.inl a)), b⟩
      · obtain ⟨p', a, b⟩ := i1 k1 hs.2.1 hp
        exact ⟨p', .inl (.inl (.inr a)), b⟩
      · obtain ⟨p', a, b⟩ := i2 k2 hs.2.2.1 hp
        exact ⟨p', .inl (.inr a), b⟩
      · obtain ⟨p', a, b⟩ := i3 k3 hs.2.2.2 hp
        exact ⟨p', .inr a, b⟩

/-- The load a pass leaves on a leaf. -/
theorem load_left (lap : Lapack ℚ) {ps : PatchSolver ℚ} (hN : 0 < N) (hs : SolverShapes N ps) {opt : HPSOptions}
    (ho : opt.homogeneousRhs = false) {t : Tree (Patch ℚ)} {R : Rect ℚ} (ht : Init N t R) (h3 : 3 ≤ N ∨ ∃ d, Uniform d t)
    (hR : Proper R) {t1 : Tree (Patch ℚ)} {c1 : Option (Mat ℚ)} (h1 : buildStage lap ps opt t none = .ok (t1, c1))
    (c : Thermal ℚ) {k : Nat} {t' t3 : Tree (Patch ℚ)} (hg : Good N opt R t t1 k t') (h : step lap ps opt c k t' = .ok t3) {p : Patch ℚ}
    (hp : p ∈ t3.leaves) {i j : Nat} (hi : i < N) (hj : j < N) :
    if k = 0 then p.f.data.getD (j + i * N) 0 = 0 else ∃ u, inMesh N (treeCells N t') R (cellRect p.grid.rect N N i j) u ∧
      p.f.data.getD (j + i * N) 0 = -(1 / c.dt) * u -
        c.sources (cellRect p.grid.rect N N i j).centre.1 (cellRect p.grid.rect N N i j).centre.2 (c.time k) := by
  obtain ⟨φ, t2, t3', f1, _, _, _, e4, g3, w3⟩ := step_ok lap hN hs ho ht h3 hR h1 c hg
  rw [h] at e4
  obtain rfl := Res.ok_inj.mp e4
  obtain ⟨p', hp', e⟩ := leaf_twin g3.placed hg.placed (hg.shape.trans g3.shape.symm) hp
  obtain ⟨x, y, z⟩ := hg.cells p' hp'
  obtain ⟨F, a1, _, _, a4⟩ := loadOf_ok c k (p := p') (by rw [x, y]; exact z)
  rw [f1 p' hp'] at a1
  obtain rfl := Res.ok_inj.mp a1
  have cc := centre_cell p'.grid i j
  rw [x, y] at a4 cc
  have v := a4 i hi j hj
  rw [w3 p hp, ← e, v]
  split_ifs
  · rfl
  · exact ⟨_, leaf_inMesh hg.placed hp' hi hj, by rw [cc]⟩

/-- The values in the leaves are those in the mesh. -/
theorem inLeaf_inMesh {t : Tree (Patch ℚ)} {R : Rect ℚ} (h : Placed N t R) (hg : ∀ p ∈ t.leaves, p.grid.nx = N ∧ p.grid.ny = N)
    (hU : ∀ p ∈ t.leaves, p.u.size = N * N ∧ p.u.WF) {r : Nat} {c : Rect ℚ} {x : ℚ} (hx : inLeaf (leavesOf r F t) (·.u) c x) :
    inMesh N (treeCells N t) R c x := by
  obtain ⟨p, hp, i, j, hi, hj, rfl, e⟩ := hx
  have hp' := leavesOf_sub hp
  obtain ⟨ex, ey⟩ := hg p hp'
  rw [ex] at hi
  rw [ey] at hj e
  have := (has_of_wf (hU p hp').1 (hU p hp').2).2.2 (j + i * N) (FVSolver.idx_lt hi hj)
  rw [e] at this
  rw [ex, ey, Res.ok_inj.mp this]
  exact leaf_inMesh h hp' hi hj

/-- C74 on adaptive meshes with steps short enough for the mesh, with the finite volume leaf solver: there are cell values on the mesh, at
first zero, each the one and only outcome of an implicit Euler step of the discretisation on the mesh from the ones before (with the boundary
data of the time of the pass, the sources of that time except in pass 0, and on the South side the negative of the flux asked for, see C68),
such that the output of pass `n` shows in every cell the values of the step `n` ends with, within half a millionth, and the load of the pass.

Missing: as in `C74_as_serial_partial`, and longer steps. -/
theorem C74_adaptive_partial (lap : Lapack ℚ) (lu : PetscLU ℚ) (c : Thermal ℚ) {beta : ℚ → ℚ → ℚ} (hN : 3 ≤ N)
    {opt : HPSOptions} (hc : opt.cacheOperators = false) (ho : opt.homogeneousRhs = false) (hM : F.depth ≤ M) (hF : F.Sorted)
    (hr : EveryRank F size) (hz : size ≤ 10 ^ 10) {root : Patch ℚ} {R : Rect ℚ}
    (hg : root.grid = ⟨N, N, R.xl, R.xu, R.yl, R.yu⟩) (h0 : root.nCoarsens = 0) (hR : Proper R)
    (hb : ∀ x y, Inside R x y → 0 < beta x y) (hdt : 0 < c.dt) (hd : ShortSteps N beta c.dt R (startTree root F [])) {nt : Nat} (hnt : nt < 10 ^ 10)
    {vtk : Bool} {nVtk : Int} (hv : vtk = true → nVtk ≠ 0) {stack : Nat} (hk : 5 ≤ stack) (h : Nat → Heap) :
    ∃ (W : Nat → Pieces (Nat → Nat → ℚ)) (Z : Nat → List (List (Text × Text))),
      W 0 = (startTree root F []).cuts.const (fun _ _ => 0) ∧ (∀ k, (W k).Alike (startTree root F []).cuts) ∧
      (∀ k, ∀ step : Pieces (Nat → Nat → ℚ) → Prop,
        step = HeatStepOn beta N R c.dt (fun x y => c.uWest x y (c.time k)) (fun x y => c.uEast x y (c.time k))
          (fun x y => -c.dudnSouth x y (c.time k)) (fun x y => c.dudnNorth x y (c.time k))
          (fun x y => if k = 0 then 0 else c.sources x y (c.time k)) (W k) →
        step (W (k + 1)) ∧ ∀ V, V.Alike (startTree root F []).cuts → step V → V.Same N (W (k + 1))) ∧
      AlwaysEnds (mainOn M size F lap ((c.solver beta).toPatchSolver lu) (c.solver beta) opt root c nt vtk nVtk stack h) Z ∧
      ∀ r, r < size → (Z r).length = (if vtk then everyNth nVtk (nt + 1) else []).length ∧
        ∀ i n, (if vtk then everyNth nVtk (nt + 1) else [])[i]? = some n → ∃ files doc, (Z r)[i]? = some files ∧
          FilesOf ("thermal-mesh-".toList ++ fourDigits i) r size files doc ∧
          ShowsCells doc (meshCells r F (startTree root F [])) ∧
          fieldNames doc = ["u_soln", "f_rhs", "alpha_fn", "beta_fn", "lambda_fn"].map (fun n => some n.toList) ∧
          ShowsField doc "u_soln".toList (meshCells r F (startTree root F [])) (inMesh N (W (n + 1)) R) ∧
          ShowsField doc "f_rhs".toList (meshCells r F (startTree root F [])) (fun q x => if n = 0 then x = 0 else
            ∃ u, inMesh N (W n) R q u ∧ x = -(1 / c.dt) * u - c.sources q.centre.1 q.centre.2 (c.time n)) ∧
          ShowsField doc "alpha_fn".toList (meshCells r F (startTree root F [])) (atCentre fun _ _ => 1) ∧
          ShowsField doc "beta_fn".toList (meshCells r F (startTree root F [])) (atCentre beta) ∧
          ShowsField doc "lambda_fn".toList (meshCells r F (startTree root F [])) (atCentre fun _ _ => -1 / c.dt) := by
  have hI := startTree_init hg h0 F []
  have hs := FVSolver.shapes lu (c.solver beta) (show 2 ≤ N by omega)
  obtain ⟨T, c1, e1, e2, e3, e4, e5⟩ := serial_trees lap (by omega) hs (opt := { opt with cacheOperators := false }) ho hI
    (Or.inl hN) hR c
  have hU : ∀ k, ∀ p ∈ (T (k + 1)).leaves, p.u.size = N * N ∧ p.u.WF := fun k p hp =>
    ((e4 (k + 1)).cells p hp).2.2.resolve_left (by omega)
  obtain ⟨Z, z1, z2⟩ := main_run (by omega) hM hF hr hz hI lap _ (c.solver beta) opt (fun h => by rw [hc] at h; cases h) c hv hk e1 e3
    (fun k => (e4 (k + 1)).placed) (fun k => (e4 (k + 1)).shape) hU e5 h hnt
  have ec : ∀ k, (T k).cuts = (startTree root F []).cuts := fun k => by
    rw [← (T k).cuts_shape, (e4 k).shape, (startTree root F []).cuts_shape]
  have hE : EllipticOn (c.solver beta) R := heat_elliptic hb hdt
  have hD := hd.dominated hdt
  refine ⟨fun k => Thermal.before N k (T k), Z, ?_, fun k => ?_, fun k => ?_, z1, fun r hr' => ⟨(z2 r hr').1, fun i n hi => ?_⟩⟩
  · rw [← ec 0]
    show (treeCells N (T 0)).const _ = _
    generalize T 0 = t
    induction t with
    | leaf p => rfl
    | node p c0 c1 c2 c3 i0 i1 i2 i3 =>
      simp only [treeCells, Tree.cuts, Pieces.const]
      rw [i0, i1, i2, i3]
  · rw [← ec k]
    exact Thermal.before_alike (T k)
  · rintro _ rfl
    obtain ⟨t3, a1, _, a2, a3⟩ := step_mesh lap lu c (by omega) (opt := { opt with cacheOperators := false }) rfl ho hI (Or.inl hN) hR hb hdt e1
      (C86_nonsingular lap lu hN rfl hI hR hE hD e1) (boundaryRigid_damped lap lu hN rfl hI hR hE hD (c.conditions_proper k) e1) (e4 k)
    rw [e3 k] at a1
    obtain rfl := Res.ok_inj.mp a1
    exact ⟨a2, a3⟩
  obtain ⟨files, f1, doc, d1, d2, d3, d4, d5, d6, d7, d8⟩ := (z2 r hr').2 i n hi
  have hg' : ∀ p ∈ (T (n + 1)).leaves, p.grid.nx = N ∧ p.grid.ny = N := fun p hp =>
    ⟨((e4 (n + 1)).cells p hp).1, ((e4 (n + 1)).cells p hp).2.1⟩
  have hcells := meshCells_placed (r := r) (F := F) (e4 (n + 1)).placed hI.placed (e4 (n + 1)).shape
  have vu := values_inLeaf (r := r) (F := F) (v := (·.u)) hg' (hU n)
  have vf := values_inLeaf (r := r) (F := F) (v := (·.f)) hg' (e5 n)
  rw [hcells] at vu vf
  refine ⟨files, doc, f1, d1, d2, d3, ⟨_, d4, forall₂_shown (vu.imp ?_)⟩, ⟨_, d5, forall₂_shown (vf.imp ?_)⟩, d6, d7, d8⟩
  · intro q x hx
    exact inLeaf_inMesh (e4 (n + 1)).placed hg' (hU n) hx
  · rintro q x ⟨p, hp, i, j, hi', hj', rfl, e⟩
    have hp' := leavesOf_sub hp
    obtain ⟨ex, ey⟩ := hg' p hp'
    rw [ex] at hi'
    rw [ey] at hj' e
    have := (has_of_wf (e5 n p hp').1 (e5 n p hp').2).2.2 (j + i * N) (FVSolver.idx_lt hi' hj')
    rw [e] at this
    have hl := load_left lap (by omega) hs (opt := { opt with cacheOperators := false }) ho hI (Or.inl hN) hR e1 c (e4 n) (e3 n) hp' hi' hj'
    rw [ex, ey, Res.ok_inj.mp this]
    by_cases hn : n = 0
    · simp only [if_pos hn] at hl ⊢
      exact hl
    · simp only [if_neg hn] at hl ⊢
      unfold Thermal.before
      simp only [if_neg hn]
      exact hl

/-! ## An example -/

/-- Two ranks on a mesh with leaves on the levels one, two and three. -/
def exDeepRanks : Forest :=
  .node (.leaf 0) (.node (.leaf 0) (.leaf 0) (.node (.leaf 0) (.leaf 0) (.leaf 0) (.leaf 1)) (.leaf 1)) (.leaf 1) (.leaf 1)

/-- The hypotheses hold on it: 100 steps on two ranks, every second pass written; output 3 is that of pass 6. -/
example (lap : Lapack ℚ) (lu : PetscLU ℚ) (h : Nat → Heap) : ∃ Z : Nat → List (List (Text × Text)),
    AlwaysEnds (mainOn 30 2 exDeepRanks lap ((exShort.solver fun x _ => 1 + x).toPatchSolver lu) (exShort.solver fun x _ => 1 + x)
      ⟨false, false⟩ (Patch.fresh ⟨4, 4, 0, 1, 0, 1⟩) exShort 100 true 2 5 h) Z ∧
    (Z 1).length = 51 ∧ ∃ files doc, (Z 1)[3]? = some files ∧ FilesOf "thermal-mesh-0003".toList 1 2 files doc := by
  have hd : ShortSteps 4 (fun x _ => 1 + x) exShort.dt unitSquare (startTree (Patch.fresh (⟨4, 4, 0, 1, 0, 1⟩ : Grid ℚ)) exDeepRanks []) := by
    obtain ⟨⟨B, b1, b2⟩, b3⟩ := exShort_short
    exact ⟨⟨B, b1, b2⟩, b3⟩
  obtain ⟨W, Z, -, -, -, h2, h3⟩ := C74_adaptive_partial (N := 4) (M := 30) (size := 2) (F := exDeepRanks) lap lu exShort
    (beta := fun x _ => 1 + x) (by omega) (opt := ⟨false, false⟩) rfl rfl (by decide) (by unfold Forest.Sorted; decide)
    (by intro r; simp [exDeepRanks, Forest.ranks]; omega) (by norm_num) (root := Patch.fresh ⟨4, 4, 0, 1, 0, 1⟩) (R := unitSquare) rfl rfl
    exPde_elliptic_unit.1 (fun x _ h => by have h1 : (0 : ℚ) ≤ x := h.1; linarith) (by norm_num [exShort]) hd (nt := 100) (by norm_num) (vtk := true)
    (nVtk := 2) (fun _ => by norm_num) (stack := 5) (by omega) h
  refine ⟨Z, h2, (h3 1 (by omega)).1.trans (by decide +kernel), ?_⟩
  obtain ⟨files, doc, a, b, -⟩ := (h3 1 (by omega)).2 3 6 (by decide +kernel)
  exact ⟨files, doc, a, b⟩

end EF
