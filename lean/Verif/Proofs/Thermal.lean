import Verif.Spec.Placed
import Verif.Model.Thermal
import Verif.Proofs.Robin
import Verif.Proofs.RobinMax

/-!
# The time loop of examples/thermal: loads computed from the solution of the step before
-/

namespace EF

open Finset FV HPS

variable {K : Type} [Field K] {N : Nat}

/-! ### Placement of leaves -/

namespace HPS

theorem Init.placed {t : Tree (Patch K)} {R : Rect K} (h : Init N t R) : Placed N t R := by
  induction h with
  | leaf hk hx hy hR => exact .leaf hx hy hR
  | node hk _ _ _ _ i0 i1 i2 i3 => exact .node i0 i1 i2 i3

theorem Slv.placed {LP : Grid K → Blk K → Prop} {HP : Grid K → Vec K → (Nat → Nat → K) → Prop}
    {UP : Grid K → (Nat → Nat → K) → Vec K → Vec K → Prop} {t : Tree (Patch K)} {R : Rect K} {k m : Nat} {T : Blk K}
    {h g : Nat → Nat → K} (ht : Slv N LP HP UP t R k m T h g) : Placed N t R := by
  induction ht with
  | leaf hk hx hy hR hT hL hh hg hu => exact .leaf hx hy hR
  | node _ _ _ _ _ _ _ _ _ _ _ _ _ _ _ _ _ _ _ _ _ i0 i1 i2 i3 => exact .node i0 i1 i2 i3

theorem grid_of_rect {p p' : Patch K} {R : Rect K} (hx : p.grid.nx = N) (hy : p.grid.ny = N) (hR : InRect p R)
    (hx' : p'.grid.nx = N) (hy' : p'.grid.ny = N) (hR' : InRect p' R) : p.grid = p'.grid := by
  obtain ⟨a, b, c, d⟩ := hR
  obtain ⟨a', b', c', d'⟩ := hR'
  cases hp : p.grid
  cases hp0 : p'.grid
  rw [hp] at hx hy a b c d
  rw [hp0] at hx' hy' a' b' c' d'
  simp only at *
  subst_vars
  rfl

theorem cells_shape {P P' : Type} (N : Nat) {a : Tree P} {b : Tree P'} (h : a.shape = b.shape) : cells N a = cells N b := by
  induction a generalizing b with
  | leaf => cases b with
    | leaf => rfl
    | node => cases h
  | node p c0 c1 c2 c3 i0 i1 i2 i3 => cases b with
    | leaf => cases h
    | node p' d0 d1 d2 d3 =>
      simp only [Tree.shape, Tree.node.injEq, true_and] at h
      simp only [cells, i0 h.1]

/-- A function of the leaf grids gives the same array on two trees of the same shape on the same rectangle. -/
theorem Placed.gridFn_eq {t t' : Tree (Patch K)} {R : Rect K} (h : Placed N t R) (h' : Placed N t' R) (hs : t.shape = t'.shape)
    (ψ : Grid K → Vec K) : gridFn N (fun p => ψ p.grid) t = gridFn N (fun p => ψ p.grid) t' := by
  induction h generalizing t' with
  | leaf hx hy hR =>
    cases h' with
    | node => cases hs
    | leaf hx' hy' hR' =>
      funext i j
      simp only [gridFn]
      rw [grid_of_rect hx hy hR hx' hy' hR']
  | node _ _ _ _ i0 i1 i2 i3 =>
    cases h' with
    | leaf => cases hs
    | node g0 g1 g2 g3 =>
      simp only [Tree.shape, Tree.node.injEq, true_and] at hs
      obtain ⟨s0, s1, s2, s3⟩ := hs
      funext i j
      simp only [gridFn, cells_shape N s0, i0 g0 s0, i1 g1 s1, i2 g2 s2, i3 g3 s3]

/-- Functions that agree on the leaves give the same array. -/
theorem gridFn_congr {v w : Patch K → Vec K} {t : Tree (Patch K)} (h : ∀ p ∈ t.leaves, v p = w p) : gridFn N v t = gridFn N w t := by
  induction t with
  | leaf p =>
    funext i j
    simp only [gridFn]
    rw [h p (by simp [Tree.leaves])]
  | node p c0 c1 c2 c3 i0 i1 i2 i3 =>
    simp only [Tree.leaves, List.mem_append] at h
    funext i j
    simp only [gridFn, i0 (fun p hp => h p (Or.inl (Or.inl (Or.inl hp)))), i1 (fun p hp => h p (Or.inl (Or.inl (Or.inr hp)))),
      i2 (fun p hp => h p (Or.inl (Or.inr hp))), i3 (fun p hp => h p (Or.inr hp))]

section
variable [LinearOrder K] [IsStrictOrderedRing K]

/-- Rectangles of the leaves. -/
theorem Placed.within {t : Tree (Patch K)} {R : Rect K} (h : Placed N t R) (hR : Proper R) :
    ∀ p ∈ t.leaves, R.xl ≤ p.grid.xl ∧ p.grid.xl < p.grid.xu ∧ p.grid.xu ≤ R.xu ∧ R.yl ≤ p.grid.yl ∧
      p.grid.yl < p.grid.yu ∧ p.grid.yu ≤ R.yu := by
  induction h with
  | @leaf p R hx hy hI =>
    intro q hq
    simp only [Tree.leaves, List.mem_singleton] at hq
    subst hq
    obtain ⟨a, b, c, d⟩ := hI
    rw [a, b, c, d]
    exact ⟨le_refl _, hR.1, le_refl _, le_refl _, hR.2, le_refl _⟩
  | @node p R c0 c1 c2 c3 h0 h1 h2 h3 i0 i1 i2 i3 =>
    intro q hq
    have hP := fun k => proper_quarter hR k
    obtain ⟨e1, e2⟩ := hR
    simp only [Tree.leaves, List.mem_append] at hq
    rcases hq with ((hq | hq) | hq) | hq
    · have := i0 (hP 0) q hq
      simp [Rect.quarter] at this
      refine ⟨?_, ?_, ?_, ?_, ?_, ?_⟩ <;> linarith [this.1, this.2.1, this.2.2.1, this.2.2.2.1, this.2.2.2.2.1, this.2.2.2.2.2]
    · have := i1 (hP 1) q hq
      simp [Rect.quarter] at this
      refine ⟨?_, ?_, ?_, ?_, ?_, ?_⟩ <;> linarith [this.1, this.2.1, this.2.2.1, this.2.2.2.1, this.2.2.2.2.1, this.2.2.2.2.2]
    · have := i2 (hP 2) q hq
      simp [Rect.quarter] at this
      refine ⟨?_, ?_, ?_, ?_, ?_, ?_⟩ <;> linarith [this.1, this.2.1, this.2.2.1, this.2.2.2.1, this.2.2.2.2.1, this.2.2.2.2.2]
    · have := i3 (hP 3) q hq
      simp [Rect.quarter] at this
      refine ⟨?_, ?_, ?_, ?_, ?_, ?_⟩ <;> linarith [this.1, this.2.1, this.2.2.1, this.2.2.2.1, this.2.2.2.2.1, this.2.2.2.2.2]

/-- Different leaves have different grids. -/
theorem Placed.grid_inj {t : Tree (Patch K)} {R : Rect K} (h : Placed N t R) (hR : Proper R) :
    ∀ p ∈ t.leaves, ∀ q ∈ t.leaves, p.grid = q.grid → p = q := by
  induction h with
  | @leaf p R hx hy hI =>
    intro a ha b hb _
    simp only [Tree.leaves, List.mem_singleton] at ha hb
    rw [ha, hb]
  | @node p R c0 c1 c2 c3 h0 h1 h2 h3 i0 i1 i2 i3 =>
    intro a ha b hb hab
    have hP := fun k => proper_quarter hR k
    simp only [Tree.leaves, List.mem_append] at ha hb
    have w0 := h0.within (hP 0)
    have w1 := h1.within (hP 1)
    have w2 := h2.within (hP 2)
    have w3 := h3.within (hP 3)
    simp [Rect.quarter] at w0 w1 w2 w3
    rcases ha with ((ha | ha) | ha) | ha <;> rcases hb with ((hb | hb) | hb) | hb
    · exact i0 (hP 0) a ha b hb hab
    · have := w0 a ha; have := w1 b hb; rw [hab] at *; exfalso; linarith
    · have := w0 a ha; have := w2 b hb; rw [hab] at *; exfalso; linarith
    · have := w0 a ha; have := w3 b hb; rw [hab] at *; exfalso; linarith
    · have := w1 a ha; have := w0 b hb; rw [hab] at *; exfalso; linarith
    · exact i1 (hP 1) a ha b hb hab
    · have := w1 a ha; have := w2 b hb; rw [hab] at *; exfalso; linarith
    · have := w1 a ha; have := w3 b hb; rw [hab] at *; exfalso; linarith
    · have := w2 a ha; have := w0 b hb; rw [hab] at *; exfalso; linarith
    · have := w2 a ha; have := w1 b hb; rw [hab] at *; exfalso; linarith
    · exact i2 (hP 2) a ha b hb hab
    · have := w2 a ha; have := w3 b hb; rw [hab] at *; exfalso; linarith
    · have := w3 a ha; have := w0 b hb; rw [hab] at *; exfalso; linarith
    · have := w3 a ha; have := w1 b hb; rw [hab] at *; exfalso; linarith
    · have := w3 a ha; have := w2 b hb; rw [hab] at *; exfalso; linarith
    · exact i3 (hP 3) a ha b hb hab

/-- A vector per leaf is a function of the leaf grid. -/
theorem Placed.byGrid {t : Tree (Patch K)} {R : Rect K} (h : Placed N t R) (hR : Proper R) (v : Patch K → Vec K)
    (hv : ∀ p ∈ t.leaves, (v p).size = N * N ∧ (v p).WF) :
    ∃ φ : Grid K → Vec K, (∀ p ∈ t.leaves, φ p.grid = v p) ∧
      ∀ grid : Grid K, grid.nx = N → grid.ny = N → (φ grid).size = N * N ∧ (φ grid).WF := by
  classical
  refine ⟨fun grid => if hg : ∃ p ∈ t.leaves, p.grid = grid then v hg.choose else Vec.fill (N * N) 0, ?_, ?_⟩
  · intro p hp
    have hg : ∃ q ∈ t.leaves, q.grid = p.grid := ⟨p, hp, rfl⟩
    simp only [dif_pos hg]
    rw [h.grid_inj hR _ hg.choose_spec.1 p hp hg.choose_spec.2]
  · intro grid _ _
    by_cases hg : ∃ p ∈ t.leaves, p.grid = grid
    · simp only [dif_pos hg]
      exact hv _ hg.choose_spec.1
    · simp only [dif_neg hg]
      exact ⟨rfl, by simp [Vec.WF, Vec.fill]⟩

end

/-- The upwards stage uses the load callback on the leaves only. -/
theorem upwardsStage_congr (lap : Lapack K) (ps : PatchSolver K) (opt : HPSOptions) {rhs rhs' : Patch K → Res (Patch K)}
    {t : Tree (Patch K)} (h : ∀ p ∈ t.leaves, rhs p = rhs' p) :
    upwardsStage lap ps opt rhs t = upwardsStage lap ps opt rhs' t := by
  unfold upwardsStage
  induction t with
  | leaf p =>
    simp only [Tree.merge]
    unfold upwardsLeaf
    rw [h p (by simp [Tree.leaves])]
  | node p c0 c1 c2 c3 i0 i1 i2 i3 =>
    simp only [Tree.leaves, List.mem_append] at h
    simp only [Tree.merge, i0 (fun p hp => h p (Or.inl (Or.inl (Or.inl hp)))), i1 (fun p hp => h p (Or.inl (Or.inl (Or.inr hp)))),
      i2 (fun p hp => h p (Or.inl (Or.inr hp))), i3 (fun p hp => h p (Or.inr hp))]

/-- Cell by cell combination of two arrays. -/
theorem gridFn_map2 (F : K → K → K) {v w z : Patch K → Vec K} {t : Tree (Patch K)} {d : Nat} (hu : Uniform d t)
    (h : ∀ p ∈ t.leaves, ∀ i, i < N → ∀ j, j < N → (v p).data.getD (j + i * N) 0 =
      F ((w p).data.getD (j + i * N) 0) ((z p).data.getD (j + i * N) 0)) :
    ∀ i, i < N * 2 ^ d → ∀ j, j < N * 2 ^ d → gridFn N v t i j = F (gridFn N w t i j) (gridFn N z t i j) := by
  induction hu with
  | leaf p =>
    intro i hi j hj
    simp only [pow_zero, mul_one] at hi hj
    exact h p (by simp [Tree.leaves]) i hi j hj
  | @node d p c0 c1 c2 c3 u0 u1 u2 u3 i0 i1 i2 i3 =>
    intro i hi j hj
    have e : N * 2 ^ (d + 1) = N * 2 ^ d + N * 2 ^ d := by ring
    rw [e] at hi hj
    simp only [Tree.leaves, List.mem_append] at h
    replace i0 := i0 (fun p hp => h p (Or.inl (Or.inl (Or.inl hp))))
    replace i1 := i1 (fun p hp => h p (Or.inl (Or.inl (Or.inr hp))))
    replace i2 := i2 (fun p hp => h p (Or.inl (Or.inr hp)))
    replace i3 := i3 (fun p hp => h p (Or.inr hp))
    simp only [gridFn, cells_uniform u0]
    split_ifs with a b b
    · exact i0 i a j b
    · exact i2 i a _ (by omega)
    · exact i1 _ (by omega) j b
    · exact i3 _ (by omega) _ (by omega)

/-- A double loop writing one value per cell. -/
theorem loop2 {nx ny : Nat} {body : Nat → Nat → Vec K → Res (Vec K)} {val : Nat → Nat → K}
    (hb : ∀ i, i < nx → ∀ j, j < ny → ∀ F, body i j F = F.set (j + i * ny) (val i j)) :
    ∃ φ, forN nx (fun i F => forN ny (fun j F => body i j F) F) (Vec.zeros (nx * ny)) = .ok (Vec.ofFn (nx * ny) φ) ∧
      ∀ i, i < nx → ∀ j, j < ny → φ (j + i * ny) = val i j := by
  have key := FVSolver.forN_progress (n := nx) (body := fun i F => forN ny (fun j F => body i j F) F)
    (fun i0 (F : Vec K) => ∃ φ, F = Vec.ofFn (nx * ny) φ ∧ ∀ i, i < i0 → ∀ j, j < ny →
      φ (j + i * ny) = val i j) (s := Vec.zeros (nx * ny))
    ⟨_, Vec.zeros_eq _, fun i hi => by omega⟩
    (by
      intro i0 F hi0 ⟨φ, hF, hφ⟩
      have inner := FVSolver.forN_progress (n := ny) (body := fun j F => body i0 j F)
        (fun j0 (F : Vec K) => ∃ φ, F = Vec.ofFn (nx * ny) φ ∧
          (∀ i, i < i0 → ∀ j, j < ny → φ (j + i * ny) = val i j) ∧
          ∀ j, j < j0 → φ (j + i0 * ny) = val i0 j) (s := F)
        ⟨φ, hF, hφ, fun j hj => by omega⟩
        (by
          intro j0 F hj0 ⟨φ, hF, h1, h2⟩
          refine ⟨Vec.ofFn (nx * ny)
            (fun k => if k = j0 + i0 * ny then val i0 j0 else φ k), ?_, _, rfl, ?_, ?_⟩
          · rw [hb i0 hi0 j0 hj0, hF, Vec.set_ofFn (FVSolver.idx_lt hi0 hj0)]
          · intro i hi j hj
            rw [if_neg (fun h => by have := FVSolver.idx_inj hj hj0 h; omega)]
            exact h1 i hi j hj
          · intro j hj
            by_cases h : j = j0
            · subst h; rw [if_pos rfl]
            · rw [if_neg (by omega)]
              exact h2 j (by omega))
      obtain ⟨F', e, ψ, h1, h2, h3⟩ := inner
      refine ⟨F', e, ψ, h1, ?_⟩
      intro i hi j hj
      by_cases h : i = i0
      · subst h; exact h3 j hj
      · exact h2 i (by omega) j hj)
  obtain ⟨F, h1, φ, h2, h3⟩ := key
  exact ⟨φ, by rw [h1, h2], h3⟩

/-- The upwards stage with a load per leaf grid followed by the solve stage with a boundary function, as a request. -/
def mixedReq (lap : Lapack K) (φ : Grid K → Vec K) (bc : BoundaryFn K) : Request K :=
  .callbacks φ (fun grid _ T h => rootDirichlet lap bc { (Patch.fresh grid) with T := T, h := h })

theorem mixedReq_run (lap : Lapack K) (ps : PatchSolver K) (opt : HPSOptions) (φ : Grid K → Vec K) (bc : BoundaryFn K)
    (t : Tree (Patch K)) : (mixedReq lap φ bc).run lap ps opt t =
      (upwardsStage lap ps opt (fun p => .ok { p with f := φ p.grid }) t >>= fun t2 => solveStageAnalytic lap ps opt bc t2) := by
  show (upwardsStage lap ps opt (fun p => .ok { p with f := φ p.grid }) t >>= fun t2 => solveStage ps opt (fun p => do
      let g ← rootDirichlet lap bc { (Patch.fresh p.grid) with T := p.T, h := p.h }
      pure { p with g := g }) t2) = _
  congr 1
  funext t2
  unfold solveStageAnalytic solveStage
  rw [bind_assoc]
  simp only [pure_bind]
  rfl

/-- The two stages on a built tree. -/
theorem mixed_ok [NeZero (2 : K)] (lap : Lapack K) {ps : PatchSolver K} (hN : 0 < N) (hs : SolverShapes N ps) {opt : HPSOptions}
    (ho : opt.homogeneousRhs = false) {t : Tree (Patch K)} {R : Rect K} (ht : Init N t R) (h3 : 3 ≤ N ∨ ∃ d, Uniform d t)
    {t1 : Tree (Patch K)} {c1 : Option (Mat K)} (h1 : buildStage lap ps opt t none = .ok (t1, c1))
    {φ : Grid K → Vec K} (hφ : ∀ grid : Grid K, grid.nx = N → grid.ny = N → (φ grid).size = N * N ∧ (φ grid).WF)
    (bc : BoundaryFn K) :
    ∃ t2 t3, upwardsStage lap ps opt (fun p => .ok { p with f := φ p.grid }) t1 = .ok t2 ∧
      solveStageAnalytic lap ps opt bc t2 = .ok t3 ∧ t3.shape = t.shape ∧ Placed N t3 R ∧
      ∀ p ∈ t3.leaves, p.grid.nx = N ∧ p.grid.ny = N ∧ p.u.size = N * N ∧ p.u.WF ∧ p.f = φ p.grid := by
  obtain ⟨t1', c1', m, T, e1, b1, _, s1, _⟩ := buildStage_any lap hs opt hN ht h3 no_cache
  rw [h1] at e1
  obtain ⟨rfl, rfl⟩ := Prod.mk.inj (Res.ok_inj.mp e1)
  obtain ⟨t2, h, e2, u2, v2, _, s2⟩ := upwardsStage_ok' (HP := fun grid f h => f = φ grid ∧ HP0 N grid f h) lap hs opt
    (rhs := fun p => .ok { p with f := φ p.grid }) (φ := φ) ⟨fun _ => rfl, hφ⟩ (fun grid f h e a b _ => ⟨e, a, b⟩) b1
  have hr := u2.built.root
  simp only [pow_zero, mul_one, crsN] at hr
  have hm : 0 < m := by
    obtain ⟨j, hj⟩ := hr.2.2.2.2.2
    rw [hj]; positivity
  have hv := v2 ho
  simp only [pow_zero, mul_one] at hv
  obtain ⟨γ, g1, _⟩ := rootDirichlet_ok lap bc hm hr.2.1 hr.2.2.2.2.1 hv
  obtain ⟨t3, e3, v3, s3⟩ := solveStage_ok hs opt (m := m) (bdry := fun p => .ok { p with g := Vec.ofFn (4 * m) γ })
    (γ := fun _ => Vec.ofFn (4 * m) γ) ⟨fun _ => rfl, fun _ _ _ => ⟨rfl, (Vec.has_ofFn _ _).2.1⟩⟩ 
    (fun _ _ _ h => h.2) (fun h => by rw [ho] at h; cases h) u2
  refine ⟨t2, t3, e2, by rw [solveStageAnalytic_eq g1, e3], by rw [s3, s2, s1], v3.placed, ?_⟩
  intro p hp
  obtain ⟨hx, hy, T, h, g, _, hh, hg, hu⟩ := v3.leaves p hp
  obtain ⟨u, hu', h1, h2⟩ := hs.solve p.grid (bv N 4 g) p.f hx hy rfl
    ((bv_has N 4 g).2.1.trans (bv_has N 4 g).1.symm) hh.2.1 hh.2.2
  unfold UPs at hu
  rw [hu] at hu'
  rw [Res.ok_inj.mp hu']
  exact ⟨hx, hy, h1, h2, hh.1⟩

end HPS

/-! ### The loads -/

namespace Thermal

theorem firstLoad_ok (grid : Grid K) : ∃ φ, firstLoad grid = .ok (Vec.ofFn (grid.nx * grid.ny) φ) ∧
    ∀ i, i < grid.nx → ∀ j, j < grid.ny → φ (j + i * grid.ny) = 0 :=
  loop2 (body := fun i j F => F.set (j + i * grid.ny) 0) (val := fun _ _ => 0) (fun _ _ _ _ _ => rfl)

theorem nextLoad_ok (c : Thermal K) (n : Nat) {p : Patch K} (hs : p.u.size = p.grid.nx * p.grid.ny) (hw : p.u.WF) :
    ∃ φ, c.nextLoad n p = .ok (Vec.ofFn (p.grid.nx * p.grid.ny) φ) ∧
    ∀ i, i < p.grid.nx → ∀ j, j < p.grid.ny → φ (j + i * p.grid.ny) =
      -(1 / c.dt) * p.u.data.getD (j + i * p.grid.ny) 0 - c.sources (p.grid.x i) (p.grid.y j) (c.time n) := by
  refine loop2 (val := fun i j => -(1 / c.dt) * p.u.data.getD (j + i * p.grid.ny) 0 - c.sources (p.grid.x i) (p.grid.y j) (c.time n)) ?_
  intro i hi j hj F
  have h := (has_of_wf hs hw).2.2 (j + i * p.grid.ny) (FVSolver.idx_lt hi hj)
  show ((p.u.get (j + i * p.grid.ny)) >>= fun u => F.set (j + i * p.grid.ny)
    (-(1 / c.dt) * u - c.sources (p.grid.x i) (p.grid.y j) (c.time n))) = _
  rw [h, Res.ok_bind]

/-- The load of a leaf with a solution on it. -/
theorem loadOf_ok (c : Thermal K) (n : Nat) {p : Patch K} (hs : n = 0 ∨ p.u.size = p.grid.nx * p.grid.ny ∧ p.u.WF) :
    ∃ F, c.loadOf n p = .ok F ∧ F.size = p.grid.nx * p.grid.ny ∧ F.WF ∧
      ∀ i, i < p.grid.nx → ∀ j, j < p.grid.ny → F.data.getD (j + i * p.grid.ny) 0 = if n = 0 then 0 else
        -(1 / c.dt) * p.u.data.getD (j + i * p.grid.ny) 0 - c.sources (p.grid.x i) (p.grid.y j) (c.time n) := by
  unfold loadOf
  by_cases hn : n = 0
  · simp only [if_pos hn]
    obtain ⟨φ, h1, h2⟩ := firstLoad_ok p.grid
    refine ⟨_, h1, (Vec.has_ofFn _ _).1, (Vec.has_ofFn _ _).2.1, fun i hi j hj => ?_⟩
    exact (getD_listFn (FVSolver.idx_lt hi hj) 0).trans (h2 i hi j hj)
  · simp only [if_neg hn]
    obtain ⟨h1, h2⟩ := hs.resolve_left hn
    obtain ⟨φ, h1, h2⟩ := nextLoad_ok c n h1 h2
    refine ⟨_, h1, (Vec.has_ofFn _ _).1, (Vec.has_ofFn _ _).2.1, fun i hi j hj => ?_⟩
    rw [← h2 i hi j hj]
    exact getD_listFn (FVSolver.idx_lt hi hj) 0

section
variable [LinearOrder K] [IsStrictOrderedRing K]

/-- What the trees of the time loop have in common. -/
structure Good (N : Nat) (opt : HPSOptions) (R : Rect K) (t t1 : Tree (Patch K)) (k : Nat) (t' : Tree (Patch K)) : Prop where
  wiped : wipe opt.homogeneousRhs t' = wipe opt.homogeneousRhs t1
  placed : Placed N t' R
  shape : t'.shape = t.shape
  cells : ∀ p ∈ t'.leaves, p.grid.nx = N ∧ p.grid.ny = N ∧ (k = 0 ∨ p.u.size = N * N ∧ p.u.WF)

/-- One step is a request on the built tree. -/
theorem step_ok (lap : Lapack K) {ps : PatchSolver K} (hN : 0 < N) (hs : SolverShapes N ps) {opt : HPSOptions}
    (ho : opt.homogeneousRhs = false) {t : Tree (Patch K)} {R : Rect K} (ht : Init N t R) (h3 : 3 ≤ N ∨ ∃ d, Uniform d t)
    (hR : Proper R) {t1 : Tree (Patch K)} {c1 : Option (Mat K)} (h1 : buildStage lap ps opt t none = .ok (t1, c1))
    (c : Thermal K) {k : Nat} {t' : Tree (Patch K)} (hg : Good N opt R t t1 k t') :
    ∃ (φ : Grid K → Vec K) (t2 t3 : Tree (Patch K)), (∀ p ∈ t'.leaves, c.loadOf k p = .ok (φ p.grid)) ∧
      (∀ grid : Grid K, grid.nx = N → grid.ny = N → (φ grid).size = N * N ∧ (φ grid).WF) ∧
      upwardsStage lap ps opt (fun p => .ok { p with f := φ p.grid }) t1 = .ok t2 ∧
      solveStageAnalytic lap ps opt (c.boundary k) t2 = .ok t3 ∧ step lap ps opt c k t' = .ok t3 ∧
      Good N opt R t t1 (k + 1) t3 ∧ ∀ p ∈ t3.leaves, p.f = φ p.grid := by
  have hl : ∀ p ∈ t'.leaves, ∃ F, c.loadOf k p = .ok F ∧ F.size = N * N ∧ F.WF := by
    intro p hp
    obtain ⟨x, y, z⟩ := hg.cells p hp
    obtain ⟨F, f1, f2, f3, _⟩ := loadOf_ok c k (p := p) (by rw [x, y]; exact z)
    exact ⟨F, f1, by rw [f2, x, y], f3⟩
  obtain ⟨φ, p1, p2⟩ := hg.placed.byGrid hR (fun p => match c.loadOf k p with | .ok F => F | _ => .empty) (by
    intro p hp
    obtain ⟨F, f1, f2⟩ := hl p hp
    rw [f1]
    exact f2)
  have hφ : ∀ p ∈ t'.leaves, c.loadOf k p = .ok (φ p.grid) := by
    intro p hp
    obtain ⟨F, f1, f2⟩ := hl p hp
    have := p1 p hp
    rw [f1] at this
    rw [this, f1]
  obtain ⟨t2, t3, e2, e3, s3, q3, l3⟩ := mixed_ok lap hN hs ho ht h3 h1 p2 (c.boundary k)
  have hrun : (mixedReq lap φ (c.boundary k)).run lap ps opt t1 = .ok t3 := by
    rw [mixedReq_run, e2, Res.ok_bind, e3]
  have hrun' : (mixedReq lap φ (c.boundary k)).run lap ps opt t' = .ok t3 := by
    rw [← Request.run_wipe, hg.wiped, Request.run_wipe, hrun]
  refine ⟨φ, t2, t3, hφ, p2, e2, e3, ?_, ⟨?_, q3, s3, fun p hp => ?_⟩, fun p hp => (l3 p hp).2.2.2.2⟩
  · rw [mixedReq_run] at hrun'
    unfold step
    rw [upwardsStage_congr lap ps opt (rhs' := fun p => .ok { p with f := φ p.grid })]
    · exact hrun'
    · intro p hp
      unfold load
      rw [hφ p hp, Res.ok_bind]
      rfl
  · exact Request.run_keeps lap ps opt _ hrun
  · obtain ⟨x, y, z, w, _⟩ := l3 p hp
    exact ⟨x, y, Or.inr ⟨z, w⟩⟩

omit [LinearOrder K] [IsStrictOrderedRing K] in
theorem _root_.EF.HPS.Built.placed {LP : Grid K → Blk K → Prop} {t : Tree (Patch K)} {R : Rect K} {k m : Nat} {T : Blk K}
    (h : Built N LP t R k m T) : Placed N t R ∧ ∀ p ∈ t.leaves, p.grid.nx = N ∧ p.grid.ny = N := by
  induction h with
  | leaf hk hx hy hR hT hL =>
    refine ⟨.leaf hx hy hR, fun p hp => ?_⟩
    simp only [Tree.leaves, List.mem_singleton] at hp
    subst hp
    exact ⟨hx, hy⟩
  | node _ _ _ _ _ _ _ _ _ _ _ _ _ _ _ _ _ _ _ i0 i1 i2 i3 =>
    refine ⟨.node i0.1 i1.1 i2.1 i3.1, fun p hp => ?_⟩
    simp only [Tree.leaves, List.mem_append] at hp
    rcases hp with ((hp | hp) | hp) | hp
    · exact i0.2 p hp
    · exact i1.2 p hp
    · exact i2.2 p hp
    · exact i3.2 p hp

/-- The tree of the build stage. -/
theorem good_built (lap : Lapack K) {ps : PatchSolver K} (hN : 0 < N) (hs : SolverShapes N ps) {opt : HPSOptions}
    {t : Tree (Patch K)} {R : Rect K} (ht : Init N t R) (h3 : 3 ≤ N ∨ ∃ d, Uniform d t)
    {t1 : Tree (Patch K)} {c1 : Option (Mat K)} (h1 : buildStage lap ps opt t none = .ok (t1, c1)) :
    Good N opt R t t1 0 t1 := by
  obtain ⟨t1', c1', m, T, e1, b1, _, s1, _⟩ := buildStage_any lap hs opt hN ht h3 no_cache
  rw [h1] at e1
  obtain ⟨rfl, rfl⟩ := Prod.mk.inj (Res.ok_inj.mp e1)
  have hp := b1.placed
  exact ⟨rfl, hp.1, s1, fun p h => ⟨(hp.2 p h).1, (hp.2 p h).2, Or.inl rfl⟩⟩

/-- The time loop returns, after any number of steps. -/
theorem steps_ok (lap : Lapack K) {ps : PatchSolver K} (hN : 0 < N) (hs : SolverShapes N ps) {opt : HPSOptions}
    (ho : opt.homogeneousRhs = false) {t : Tree (Patch K)} {R : Rect K} (ht : Init N t R) (h3 : 3 ≤ N ∨ ∃ d, Uniform d t)
    (hR : Proper R) {t1 : Tree (Patch K)} {c1 : Option (Mat K)} (h1 : buildStage lap ps opt t none = .ok (t1, c1))
    (c : Thermal K) (k : Nat) : ∃ t', steps lap ps opt c k t1 = .ok t' ∧ Good N opt R t t1 k t' := by
  induction k with
  | zero => exact ⟨t1, rfl, good_built lap hN hs ht h3 h1⟩
  | succ k ih =>
    obtain ⟨t', e, g⟩ := ih
    obtain ⟨_, _, t3, _, _, _, _, e3, g3, _⟩ := step_ok lap hN hs ho ht h3 hR h1 c g
    exact ⟨t3, by rw [steps, e, Res.ok_bind, e3], g3⟩

end
end Thermal
end EF
