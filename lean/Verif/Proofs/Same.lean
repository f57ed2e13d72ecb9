import Verif.Spec.Same
import Verif.Proofs.StageLemmas

/-!
# The stages use the leaf solver only on the leaf grids
-/

namespace EF

open FV

variable {K : Type} [Field K] {N : Nat}

theorem Rect.Part.sub {R P Q : Rect K} (h1 : R.Part P) (h2 : P.Part Q) : R.Part Q := by
  induction h2 with
  | whole => exact h1
  | quarter _ q ih => exact .quarter ih q

theorem Rect.Part.proper [LinearOrder K] [IsStrictOrderedRing K] {R P : Rect K} (h : R.Part P) (hR : Proper R) : Proper P := by
  induction h with
  | whole => exact hR
  | quarter _ q ih => exact HPS.proper_quarter ih q

namespace Tree

variable {P σ : Type}

theorem mergeSt_congr {leafF leafF' : P → σ → Res (P × σ)} {famF : Fam P → Res (Fam P)} {t : Tree P}
    (h : ∀ p ∈ t.leaves, ∀ s, leafF' p s = leafF p s) (s : σ) :
    t.mergeSt leafF' famF s = t.mergeSt leafF famF s := by
  induction t generalizing s with
  | leaf p => rw [mergeSt, mergeSt, h p (by simp [Tree.leaves])]
  | node p c0 c1 c2 c3 i0 i1 i2 i3 =>
    simp only [Tree.leaves, List.mem_append] at h
    simp only [mergeSt, i0 (fun p hp => h p (by simp [hp])), i1 (fun p hp => h p (by simp [hp])),
      i2 (fun p hp => h p (by simp [hp])), i3 (fun p hp => h p (by simp [hp]))]

theorem merge_congr {leafF leafF' : P → Res P} {famF : Fam P → Res (Fam P)} {t : Tree P}
    (h : ∀ p ∈ t.leaves, leafF' p = leafF p) : t.merge leafF' famF = t.merge leafF famF := by
  induction t with
  | leaf p => rw [merge, merge, h p (by simp [Tree.leaves])]
  | node p c0 c1 c2 c3 i0 i1 i2 i3 =>
    simp only [Tree.leaves, List.mem_append] at h
    simp only [merge, i0 (fun p hp => h p (by simp [hp])), i1 (fun p hp => h p (by simp [hp])),
      i2 (fun p hp => h p (by simp [hp])), i3 (fun p hp => h p (by simp [hp]))]

theorem splitFrom_congr {leafF leafF' : P → Res P} {famF : Fam P → Res (Fam P)} {t : Tree P} {p : P} {t' : Tree P}
    (ht : t.splitFrom leafF famF p = .ok t') (h : ∀ p, ∀ q ∈ t'.leaves, leafF p = .ok q → leafF' p = .ok q) :
    t.splitFrom leafF' famF p = .ok t' := by
  induction t generalizing p t' with
  | leaf _ =>
    rw [splitFrom] at ht ⊢
    obtain ⟨q, e1, e2⟩ := Res.bind_eq_ok.mp ht
    obtain rfl := Res.ok_inj.mp e2
    rw [h p q (by simp [Tree.leaves]) e1]; rfl
  | node _ c0 c1 c2 c3 i0 i1 i2 i3 =>
    rw [splitFrom] at ht ⊢
    obtain ⟨F, e, ht⟩ := Res.bind_eq_ok.mp ht
    obtain ⟨t0, e0, ht⟩ := Res.bind_eq_ok.mp ht
    obtain ⟨t1, e1, ht⟩ := Res.bind_eq_ok.mp ht
    obtain ⟨t2, e2, ht⟩ := Res.bind_eq_ok.mp ht
    obtain ⟨t3, e3, ht⟩ := Res.bind_eq_ok.mp ht
    obtain rfl := Res.ok_inj.mp ht
    simp only [Tree.leaves, List.mem_append] at h
    rw [e, Res.ok_bind, i0 e0 (fun p q hq => h p q (by simp [hq])), Res.ok_bind,
      i1 e1 (fun p q hq => h p q (by simp [hq])), Res.ok_bind, i2 e2 (fun p q hq => h p q (by simp [hq])), Res.ok_bind,
      i3 e3 (fun p q hq => h p q (by simp [hq])), Res.ok_bind]
    rfl

end Tree

namespace HPS

/-- The leaf grids of a tree: `N × N` cells on parts of `R`. -/
def LeafGrids (N : Nat) (R : Rect K) (t : Tree (Patch K)) : Prop :=
  ∀ p ∈ t.leaves, p.grid.nx = N ∧ p.grid.ny = N ∧ R.Part (rect p.grid)

theorem rect_of_inRect {p : Patch K} {R : Rect K} (h : InRect p R) : rect p.grid = R := by
  obtain ⟨a, b, c, d⟩ := h
  unfold rect
  rw [a, b, c, d]

theorem leafGrids_leaf {p : Patch K} {R : Rect K} (hx : p.grid.nx = N) (hy : p.grid.ny = N) (hR : InRect p R) :
    LeafGrids N R (.leaf p) := by
  intro q hq
  simp only [Tree.leaves, List.mem_singleton] at hq
  subst hq
  exact ⟨hx, hy, by rw [rect_of_inRect hR]; exact .whole⟩

theorem leafGrids_node {p : Patch K} {R : Rect K} {c0 c1 c2 c3 : Tree (Patch K)} (h0 : LeafGrids N (R.quarter 0) c0)
    (h1 : LeafGrids N (R.quarter 1) c1) (h2 : LeafGrids N (R.quarter 2) c2) (h3 : LeafGrids N (R.quarter 3) c3) :
    LeafGrids N R (.node p c0 c1 c2 c3) := by
  intro q hq
  simp only [Tree.leaves, List.mem_append] at hq
  have hs : ∀ i, R.Part (R.quarter i) := fun i => .quarter .whole i
  rcases hq with ((hq | hq) | hq) | hq
  · exact ⟨(h0 q hq).1, (h0 q hq).2.1, (hs 0).sub (h0 q hq).2.2⟩
  · exact ⟨(h1 q hq).1, (h1 q hq).2.1, (hs 1).sub (h1 q hq).2.2⟩
  · exact ⟨(h2 q hq).1, (h2 q hq).2.1, (hs 2).sub (h2 q hq).2.2⟩
  · exact ⟨(h3 q hq).1, (h3 q hq).2.1, (hs 3).sub (h3 q hq).2.2⟩

theorem Init.leafGrids {t : Tree (Patch K)} {R : Rect K} (h : Init N t R) : LeafGrids N R t := by
  induction h with
  | leaf hk hx hy hR => exact leafGrids_leaf hx hy hR
  | node _ _ _ _ _ i0 i1 i2 i3 => exact leafGrids_node i0 i1 i2 i3

theorem Built.leafGrids {LP : Grid K → Blk K → Prop} {t : Tree (Patch K)} {R : Rect K} {k m : Nat} {T : Blk K}
    (h : Built N LP t R k m T) : LeafGrids N R t := by
  induction h with
  | leaf hk hx hy hR => exact leafGrids_leaf hx hy hR
  | node _ _ _ _ _ _ _ _ _ _ _ _ _ _ _ _ _ _ _ i0 i1 i2 i3 => exact leafGrids_node i0 i1 i2 i3

theorem Slv.leafGrids {LP : Grid K → Blk K → Prop} {HP : Grid K → Vec K → (Nat → Nat → K) → Prop}
    {UP : Grid K → (Nat → Nat → K) → Vec K → Vec K → Prop} {t : Tree (Patch K)} {R : Rect K} {k m : Nat} {T : Blk K}
    {h g : Nat → Nat → K} (ht : Slv N LP HP UP t R k m T h g) : LeafGrids N R t := by
  induction ht with
  | leaf hk hx hy hR => exact leafGrids_leaf hx hy hR
  | node _ _ _ _ _ _ _ _ _ _ _ _ _ _ _ _ _ _ _ _ _ i0 i1 i2 i3 => exact leafGrids_node i0 i1 i2 i3

variable {ps ps' : PatchSolver K}

theorem SameOn.buildStage {R : Rect K} (h : SameOn N R ps ps') (lap : Lapack K) (opt : HPSOptions) {t : Tree (Patch K)}
    (ht : LeafGrids N R t) (cache : Option (Mat K)) : HPS.buildStage lap ps' opt t cache = HPS.buildStage lap ps opt t cache := by
  unfold HPS.buildStage
  refine Tree.mergeSt_congr (fun p hp s => ?_) cache
  obtain ⟨hx, hy, hr⟩ := ht p hp
  unfold buildLeaf
  rw [h.d2n p.grid hx hy hr]

theorem SameOn.upwardsStage {R : Rect K} (h : SameOn N R ps ps') (lap : Lapack K) (opt : HPSOptions) {t : Tree (Patch K)}
    (ht : LeafGrids N R t) {rhs : Patch K → Res (Patch K)} {φ : Grid K → Vec K} (hφ : SetsLoad N rhs φ) :
    HPS.upwardsStage lap ps' opt rhs t = HPS.upwardsStage lap ps opt rhs t := by
  unfold HPS.upwardsStage
  refine Tree.merge_congr (fun p hp => ?_)
  obtain ⟨hx, hy, hr⟩ := ht p hp
  obtain ⟨f1, f2⟩ := hφ.2 p.grid hx hy
  unfold upwardsLeaf
  rw [hφ.1, Res.ok_bind, Res.ok_bind]
  simp only []
  rw [h.flux p.grid _ hx hy hr f1 f2]

theorem leafSolve_grid {opt : HPSOptions} {p q : Patch K} (h : leafSolve ps opt p = .ok q) :
    ps.solve q.grid q.g q.f = .ok q.u ∧
      ∀ ps' : PatchSolver K, ps'.solve q.grid q.g q.f = .ok q.u → leafSolve ps' opt p = .ok q := by
  unfold leafSolve at h ⊢
  obtain ⟨u, e1, e2⟩ := Res.bind_eq_ok.mp h
  obtain rfl := Res.ok_inj.mp e2
  refine ⟨e1, fun ps' h' => ?_⟩
  have h'' : ps'.solve (if opt.homogeneousRhs then { p with f := Vec.fill (p.grid.nx * p.grid.ny) 0 } else p).grid
    (if opt.homogeneousRhs then { p with f := Vec.fill (p.grid.nx * p.grid.ny) 0 } else p).g
    (if opt.homogeneousRhs then { p with f := Vec.fill (p.grid.nx * p.grid.ny) 0 } else p).f = .ok u := h'
  simp only []
  rw [h'', Res.ok_bind]
  rfl

theorem SameOn.solveStage {R : Rect K} (h : SameOn N R ps ps') (opt : HPSOptions) {bdry : Patch K → Res (Patch K)}
    {t t3 : Tree (Patch K)} (e : HPS.solveStage ps opt bdry t = .ok t3) {LP : Grid K → Blk K → Prop} {k m : Nat} {T : Blk K}
    {η g : Nat → Nat → K} (ht : Slv N LP (HP0 N) (UPs N ps) t3 R k m T η g) : HPS.solveStage ps' opt bdry t = .ok t3 := by
  unfold HPS.solveStage at e ⊢
  obtain ⟨r, e1, e2⟩ := Res.bind_eq_ok.mp e
  rw [e1, Res.ok_bind]
  refine Tree.splitFrom_congr e2 (fun p q hq hpq => ?_)
  obtain ⟨hx, hy, hr⟩ := ht.leafGrids q hq
  obtain ⟨_, _, _, _, g, _, hh, hg, _⟩ := ht.leaves q hq
  obtain ⟨a, b⟩ := leafSolve_grid hpq
  refine b ps' ?_
  rw [h.solve q.grid q.g q.f hx hy hr (by rw [hg]; rfl)
    (by rw [hg]; exact (bv_has N 4 g).2.1.trans (bv_has N 4 g).1.symm) hh.1 hh.2, a]

end HPS
end EF
