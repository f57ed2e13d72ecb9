import Verif.Proofs.Runs
import Verif.Proofs.FVOperator
import Verif.Spec.Runs

/-!
# The solution is linear in the data
-/

namespace EF
namespace HPS

open Finset

variable {K : Type} [Field K] {N : Nat}

theorem LinearLeaf.flux' {ps : PatchSolver K} {grid : Grid K} (h : LinearLeaf N ps grid) :
    ∃ H : (Nat → K) → Nat → K,
      (∀ f, ps.particularNeumannData grid (Vec.ofFn (N * N) f) = .ok (Vec.ofFn (4 * N) (H f))) ∧
      ∀ a b f f', ∀ i, i < 4 * N → H (fun k => a * f k + b * f' k) i = a * H f i + b * H f' i := by
  obtain ⟨H, h1, h2⟩ := h.flux
  refine ⟨H, fun f => ?_, h2⟩
  obtain ⟨v, e, hv⟩ := h1 f _ (Vec.has_ofFn _ _)
  rw [e, Vec.has_iff.mp hv]

theorem LinearLeaf.solve' {ps : PatchSolver K} {grid : Grid K} (h : LinearLeaf N ps grid) :
    ∃ U : (Nat → K) → (Nat → K) → Nat → K,
      (∀ g f, ps.solve grid (Vec.ofFn (4 * N) g) (Vec.ofFn (N * N) f) = .ok (Vec.ofFn (N * N) (U g f))) ∧
      ∀ a b g g' f f', ∀ i, i < N * N →
        U (fun k => a * g k + b * g' k) (fun k => a * f k + b * f' k) i = a * U g f i + b * U g' f' i := by
  obtain ⟨U, h1, h2⟩ := h.solve
  refine ⟨U, fun g f => ?_, h2⟩
  obtain ⟨v, e, hv⟩ := h1 g f _ _ (Vec.has_ofFn _ _) (Vec.has_ofFn _ _)
  rw [e, Vec.has_iff.mp hv]

theorem Sol.lin {ps : PatchSolver K} {a b : K} {D1 D2 D3 : DTree K} (hD : LinD a b D1 D2 D3)
    {P : Grid K → Prop} (hs : ∀ grid, P grid → LinearLeaf N ps grid)
    {t1 t2 t3 : Tree (Patch K)} {hom : Bool} {t : Tree (Patch K)} {k m : Nat} (hr : Rep N P hom t D1 k m)
    {g1 g2 : Nat → Nat → K} (h1 : Sol N ps t1 D1 g1) (h2 : Sol N ps t2 D2 g2)
    (h3 : Sol N ps t3 D3 (lin a b g1 g2)) : Combined a b t1 t2 t3 := by
  induction hD generalizing t1 t2 t3 t k m g1 g2 with
  | @leaf grid φ ψ =>
    cases t1 with
    | node => exact h1.elim
    | leaf p =>
    cases t2 with
    | node => exact h2.elim
    | leaf q =>
    cases t3 with
    | node => exact h3.elim
    | leaf r =>
    cases hr with
    | leaf hk hx hy hP hf hf0 =>
      obtain ⟨e1, s1⟩ := h1
      obtain ⟨e2, s2⟩ := h2
      obtain ⟨e3, s3⟩ := h3
      obtain ⟨U, u1, u2⟩ := (hs _ hP).solve'
      refine ⟨by rw [e1, e3], by rw [e2, e3], ?_⟩
      unfold bv at s1 s2 s3
      rw [u1] at s1 s2 s3
      rw [← Res.ok_inj.mp s1, ← Res.ok_inj.mp s2, ← Res.ok_inj.mp s3]
      refine ⟨N * N, _, _, Vec.has_ofFn _ _, Vec.has_ofFn _ _, ?_⟩
      rw [Vec.has_iff]
      refine Vec.ofFn_congr fun i hi => ?_
      exact u2 a b _ _ _ _ i hi
  | @node n k' m' S w v d0 d1 d2 d3 e0 e1 e2 e3 f0 f1 f2 f3 l0 l1 l2 l3 i0 i1 i2 i3 =>
    cases t1 with
    | leaf => exact h1.elim
    | node p c0 c1 c2 c3 =>
    cases t2 with
    | leaf => exact h2.elim
    | node q x0 x1 x2 x3 =>
    cases t3 with
    | leaf => exact h3.elim
    | node r y0 y1 y2 y3 =>
    cases hr with
    | node r0 r1 r2 r3 =>
      obtain ⟨a0, a1, a2, a3⟩ := h1
      obtain ⟨b0, b1, b2, b3⟩ := h2
      obtain ⟨c0', c1', c2', c3'⟩ := h3
      have hu : (fun l s => app n 8 S (hlv n (proN k' m' (HPS.lin a b g1 g2))) l s + HPS.lin a b w v l s) =
          HPS.lin a b (fun l s => app n 8 S (hlv n (proN k' m' g1)) l s + w l s)
            (fun l s => app n 8 S (hlv n (proN k' m' g2)) l s + v l s) := by
        rw [proN_lin, hlv_lin, app_lin]
        funext l s
        simp only [HPS.lin]
        ring
      rw [hu, proN_lin, hlv_lin, cd_lin] at c0' c1' c2' c3'
      exact ⟨i0 r0 a0 b0 c0', i1 r1 a1 b1 c1', i2 r2 a2 b2 c2', i3 r3 a3 b3 c3'⟩

/-- The leaf callback of a run with given data. -/
theorem LeafRun.of {ps : PatchSolver K} {P : Grid K → Prop} (hs : ∀ grid, P grid → LinearLeaf N ps grid)
    {d : Data K} (hd : d.Sized) :
    ∃ Φ η, (∀ grid, P grid → grid.nx = N → grid.ny = N → d.load grid = Vec.ofFn (N * N) (Φ grid) ∧
        ps.particularNeumannData grid (d.load grid) = .ok (bv N 4 (η grid))) ∧
      LeafRun N P false (upwardsLeaf ps d.rhs) Φ η := by
  classical
  have h : ∀ grid : Grid K, ∃ (φ : Nat → K) (h : Nat → Nat → K), P grid → grid.nx = N → grid.ny = N →
      d.load grid = Vec.ofFn (N * N) φ ∧ ps.particularNeumannData grid (d.load grid) = .ok (bv N 4 h) := by
    intro grid
    by_cases hg : P grid ∧ grid.nx = N ∧ grid.ny = N
    · obtain ⟨hP, hx, hy⟩ := hg
      obtain ⟨l1, l2⟩ := hd.1 grid
      rw [hx, hy] at l1
      have e := Vec.has_iff.mp (has_of_wf l1 l2)
      obtain ⟨H, H1, H2⟩ := (hs grid hP).flux'
      refine ⟨_, toBv N (H fun i => (d.load grid).data.getD i 0), fun _ _ _ => ⟨e, ?_⟩⟩
      rw [e, H1]
      rw [← e]
      congr 1
      exact has_bv (Vec.has_ofFn _ _)
    · exact ⟨fun _ => 0, fun _ _ => 0, fun h1 h2 h3 => (hg ⟨h1, h2, h3⟩).elim⟩
  choose Φ η hΦ using h
  refine ⟨Φ, η, hΦ, ⟨?_, by simp⟩⟩
  intro p hx hy hP
  obtain ⟨e1, e2⟩ := hΦ p.grid hP hx hy
  refine ⟨{ p with f := d.load p.grid, h := bv N 4 (η p.grid) }, ?_, ⟨rfl, rfl, rfl, rfl, rfl, rfl⟩, fun _ => ⟨rfl, e1⟩⟩
  unfold upwardsLeaf Data.rhs
  rw [Res.ok_bind]
  simp only []
  rw [e2]
  rfl

/-- The leaf callback of a run in homogeneous mode. -/
theorem LeafRun.hom {ps : PatchSolver K} {P : Grid K → Prop} (hs : ∀ grid, P grid → LinearLeaf N ps grid)
    {d : Data K} (hd : d.Sized) : LeafRun N P true (upwardsLeaf ps d.rhs) (fun _ _ => 0) (fun _ _ _ => 0) := by
  obtain ⟨Φ, η, h1, h2⟩ := LeafRun.of hs hd
  refine ⟨?_, fun _ _ => ⟨rfl, rfl⟩⟩
  intro p hx hy hP
  obtain ⟨q, a, b, _⟩ := h2.run p hx hy hP
  exact ⟨q, a, b, by simp⟩

/-- Three runs on one built tree. -/
theorem runs3 (lap : Lapack K) {ps : PatchSolver K} {P : Grid K → Prop} (hs : ∀ grid, P grid → LinearLeaf N ps grid)
    {LP : Grid K → Blk K → Prop} {t : Tree (Patch K)} {R : Rect K} {m : Nat} {T : Blk K} (ht : Built N LP t R 0 m T)
    (hP : ∀ grid T, LP grid T → P grid) {a b : K} {o1 o2 o3 : HPSOptions} {d1 d2 d3 : Data K}
    {Φ1 Φ2 : Grid K → Nat → K} {η1 η2 : Grid K → Nat → Nat → K}
    (l1 : LeafRun N P o1.homogeneousRhs (upwardsLeaf ps d1.rhs) Φ1 η1)
    (l2 : LeafRun N P o2.homogeneousRhs (upwardsLeaf ps d2.rhs) Φ2 η2)
    (l3 : LeafRun N P o3.homogeneousRhs (upwardsLeaf ps d3.rhs) (fun g => lin1 a b (Φ1 g) (Φ2 g))
      (fun g => lin a b (η1 g) (η2 g)))
    (h123 : o3.homogeneousRhs = true → o1.homogeneousRhs = true ∧ o2.homogeneousRhs = true)
    (hd1 : d1.Sized) (hb : ∀ grid, VecComb a b (d1.bdry grid) (d2.bdry grid) (d3.bdry grid)) :
    ∃ r1 r2 r3, run lap ps o1 d1 t = .ok r1 ∧ run lap ps o2 d2 t = .ok r2 ∧ run lap ps o3 d3 t = .ok r3 ∧
      Combined a b r1 r2 r3 := by
  obtain ⟨t1, t2, t3, h1, h2, D1, D2, D3, e1, e2, e3, s1, s2, s3, hD⟩ := upwards3 lap l1 l2 l3 h123 ht hP
  have hsol : ∀ grid, P grid → grid.nx = N → grid.ny = N → ∀ g φ, ∃ u,
      ps.solve grid (bv N 4 g) (Vec.ofFn (N * N) φ) = .ok u := by
    intro grid hg _ _ g φ
    obtain ⟨U, u1, _⟩ := (hs grid hg).solve'
    exact ⟨_, u1 _ _⟩
  have hr := ht.root
  simp only [pow_zero, mul_one] at hr
  obtain ⟨_, gx, gy, _⟩ := hr
  have sz : ∀ d : Data K, d.Sized → (d.bdry t.val.grid).size = 4 * m ∧ (d.bdry t.val.grid).WF := by
    intro d hd
    obtain ⟨z1, z2⟩ := hd.2 t.val.grid
    exact ⟨by rw [z1, gx, gy]; omega, z2⟩
  obtain ⟨n, f, g, x1, x2, x3⟩ := hb t.val.grid
  have hn : n = 4 * m := by rw [← (sz d1 hd1).1]; exact x1.1.symm
  subst hn
  have y3 : (d3.bdry t.val.grid) = bv m 4 (lin a b (toBv m f) (toBv m g)) := by rw [has_bv x3]; rfl
  obtain ⟨r1, a1, b1⟩ := s1.rep.solve o1 hsol (q := { t1.val with g := d1.bdry t.val.grid })
    ⟨rfl, rfl, rfl, rfl, rfl, rfl⟩ rfl rfl (has_bv x1)
  obtain ⟨r2, a2, b2⟩ := s2.rep.solve o2 hsol (q := { t2.val with g := d2.bdry t.val.grid })
    ⟨rfl, rfl, rfl, rfl, rfl, rfl⟩ rfl rfl (has_bv x2)
  obtain ⟨r3, a3, b3⟩ := s3.rep.solve o3 hsol (q := { t3.val with g := d3.bdry t.val.grid })
    ⟨rfl, rfl, rfl, rfl, rfl, rfl⟩ rfl rfl y3
  refine ⟨r1, r2, r3, ?_, ?_, ?_, Sol.lin hD hs s1.rep b1 b2 b3⟩
  · unfold run upwardsStage
    rw [e1, Res.ok_bind]
    unfold solveStage Data.bc
    rw [← s1.grid] at a1
    rw [Res.ok_bind]
    exact a1
  · unfold run upwardsStage
    rw [e2, Res.ok_bind]
    unfold solveStage Data.bc
    rw [← s2.grid] at a2
    rw [Res.ok_bind]
    exact a2
  · unfold run upwardsStage
    rw [e3, Res.ok_bind]
    unfold solveStage Data.bc
    rw [← s3.grid] at a3
    rw [Res.ok_bind]
    exact a3

/-! ### What is known of the leaves of a built tree -/

theorem coarsenPatch_grid {tag : Nat} {p q : Patch K} (h : coarsenPatch tag p = .ok q) : q.grid = p.grid := by
  unfold coarsenPatch at h
  induction tag generalizing q with
  | zero => rw [forN_zero, Res.ok_inj] at h; rw [h]
  | succ n ih =>
    rw [forN_succ, Res.bind_eq_ok] at h
    obtain ⟨r, h1, h2⟩ := h
    rw [← ih h1]
    simp only [coarsenStep, Res.bind_eq_ok, Res.pure_def, Res.ok_inj] at h2
    obtain ⟨_, _, _, _, _, _, _, _, _, _, _, _, rfl⟩ := h2
    rfl

theorem merge4to1_grids {lap : Lapack K} {F F' : Fam (Patch K)} (h : merge4to1 lap F = .ok F') :
    F'.a.grid = F.a.grid ∧ F'.b.grid = F.b.grid ∧ F'.c.grid = F.c.grid ∧ F'.d.grid = F.d.grid := by
  simp only [merge4to1, coarsen, Res.bind_eq_ok, Res.pure_def, Res.ok_inj] at h
  obtain ⟨G, ⟨_, _, a, ha, b, hb, c, hc, d, hd, rfl⟩, _, _, _, _, _, _, _, _, _, _, _, _, rfl⟩ := h
  exact ⟨coarsenPatch_grid ha, coarsenPatch_grid hb, coarsenPatch_grid hc, coarsenPatch_grid hd⟩

omit [Field K] in
theorem leaves_setVal_grid {c : Tree (Patch K)} {q : Patch K} (h : q.grid = c.val.grid) :
    (c.setVal q).leaves.map (·.grid) = c.leaves.map (·.grid) := by
  cases c with
  | leaf p => simpa [Tree.setVal, Tree.leaves, Tree.val] using h
  | node => rfl

/-- The build stage keeps the leaf grids. -/
theorem buildStage_leaves {lap : Lapack K} {ps : PatchSolver K} {opt : HPSOptions} {t t1 : Tree (Patch K)}
    {cache c1 : Option (Mat K)} (h : buildStage lap ps opt t cache = .ok (t1, c1)) :
    t1.leaves.map (·.grid) = t.leaves.map (·.grid) := by
  unfold buildStage at h
  induction t generalizing cache t1 c1 with
  | leaf p =>
    simp only [Tree.mergeSt, Res.bind_eq_ok, Res.pure_def, Res.ok_inj, Prod.mk.injEq] at h
    obtain ⟨r, hr, rfl, _⟩ := h
    have : r.1.grid = p.grid := by
      unfold buildLeaf at hr
      split at hr
      · split at hr
        · rw [Res.pure_def, Res.ok_inj] at hr; rw [← hr]
        · simp only [Res.bind_eq_ok, Res.pure_def, Res.ok_inj] at hr
          obtain ⟨_, _, rfl⟩ := hr; rfl
      · simp only [Res.bind_eq_ok, Res.pure_def, Res.ok_inj] at hr
        obtain ⟨_, _, rfl⟩ := hr; rfl
    simpa [Tree.leaves] using this
  | node p c0 c1' c2 c3 i0 i1 i2 i3 =>
    simp only [Tree.mergeSt, Res.bind_eq_ok, Res.pure_def, Res.ok_inj, Prod.mk.injEq] at h
    obtain ⟨r0, h0, r1, h1, r2, h2, r3, h3, F, hF, rfl, _⟩ := h
    obtain ⟨g0, g1, g2, g3⟩ := merge4to1_grids hF
    simp only [Tree.leaves, List.map_append, leaves_setVal_grid g0, leaves_setVal_grid g1, leaves_setVal_grid g2,
      leaves_setVal_grid g3, i0 h0, i1 h1, i2 h2, i3 h3]

theorem Built.leaves {LP : Grid K → Blk K → Prop} {P : Grid K → Prop} {t : Tree (Patch K)} {R : Rect K} {k m : Nat} {T : Blk K}
    (h : Built N LP t R k m T) (hP : ∀ grid ∈ t.leaves.map (·.grid), P grid) :
    Built N (fun grid T => LP grid T ∧ P grid) t R k m T := by
  induction h with
  | leaf hk hx hy hR hT hL => exact .leaf hk hx hy hR hT ⟨hL, hP _ (by simp [Tree.leaves])⟩
  | node _ _ _ _ hTT hz hn hm hN h3m hk hx hy hR hX hH hS hSol hT i0 i1 i2 i3 =>
    refine .node (i0 fun g hg => hP g ?_) (i1 fun g hg => hP g ?_) (i2 fun g hg => hP g ?_) (i3 fun g hg => hP g ?_)
      hTT hz hn hm hN h3m hk hx hy hR hX hH hS hSol hT <;>
    · simp only [Tree.leaves, List.map_append, List.mem_append]
      simp only [hg, true_or, or_true]

end HPS

namespace FVSolver

open Finset FV HPS

variable {K : Type} [Field K]

/-- The finite volume solver is linear where its problem has at most one solution. -/
theorem linearLeaf (lu : PetscLU K) (s : FVSolver K) {n : Nat} (hn : 2 ≤ n) {grid : Grid K} (hx : grid.nx = n)
    (hy : grid.ny = n) (hq : Unique s (rect grid) n n) : LinearLeaf n (s.toPatchSolver lu) grid := by
  have hsol := fun g f => solve_ok lu s hn hx hy g f
  choose U hU hS using hsol
  have lin : ∀ (a b : K) g g' f f', ∀ i, i < n → ∀ j, j < n →
      U (fun k => a * g k + b * g' k) (fun k => a * f k + b * f' k) (j + i * n) =
        a * U g f (j + i * n) + b * U g' f' (j + i * n) := by
    intro a b g g' f f'
    have h1 := hS (fun k => a * g k + b * g' k) (fun k => a * f k + b * f' k) hq
    have h2 := (hS g f hq).lin a b (hS g' f' hq)
    exact hq _ _ (fun i j => U (fun k => a * g k + b * g' k) (fun k => a * f k + b * f' k) (j + i * n))
      (fun i j => a * U g f (j + i * n) + b * U g' f' (j + i * n)) h1 h2
  refine ⟨⟨fun f k => deriv (rect grid) n n (Bdry.ofFn n (fun _ => 0))
    (fun i j => U (fun _ => 0) f (j + i * n)) (k / n) (k % n), ?_, ?_⟩, ⟨U, ?_, ?_⟩⟩
  · intro f v hv
    refine ⟨_, ?_, Vec.has_ofFn _ _⟩
    show s.particularNeumannData lu grid _ = _
    rw [Vec.has_iff.mp hv, pnd_eq lu s hx hy, mapD2N_ok lu s hn hx hy _ _ (hU _ _)]
  · intro a b f f' k hk
    have := deriv_lin (rect grid) n n a b (Bdry.ofFn n (fun _ => 0)) (Bdry.ofFn n (fun _ => 0))
      (fun i j => U (fun _ => 0) f (j + i * n)) (fun i j => U (fun _ => 0) f' (j + i * n)) (k / n) (k % n)
    rw [← this]
    refine deriv_congr (by omega) ?_ ?_ ?_ ?_ ?_ (Nat.mod_lt _ (by omega))
    · intro j _; simp [Bdry.ofFn, Bdry.lin]
    · intro j _; simp [Bdry.ofFn, Bdry.lin]
    · intro j _; simp [Bdry.ofFn, Bdry.lin]
    · intro j _; simp [Bdry.ofFn, Bdry.lin]
    · intro i hi j hj
      have := lin a b (fun _ => 0) (fun _ => 0) f f' i hi j hj
      simpa using this
  · intro g f v w hv hw
    refine ⟨_, ?_, Vec.has_ofFn _ _⟩
    show s.solve lu grid _ _ = _
    rw [Vec.has_iff.mp hv, Vec.has_iff.mp hw, hU]
  · intro a b g g' f f' k hk
    obtain ⟨c1, c2, c3⟩ := cell_idx hk
    have := lin a b g g' f f' _ c1 _ c2
    rwa [c3] at this

end FVSolver
end EF
