import Verif.Proofs.Rerun
import Verif.Proofs.LinearRuns
import Verif.Proofs.FVMax
import Verif.Proofs.SpecialLemmas

/-!
# Lemmas for the properties of the stages
-/

namespace EF
namespace HPS

open Finset

variable {K : Type} [Field K] {N : Nat}

theorem boundarySide_ok (pick : K × K × K → K) (bc : BoundaryFn K) (grid : Grid K) (n : Nat) :
    boundarySide pick bc grid n = .ok (Vec.ofFn grid.nx
      (fun i => pick (bc n (boundaryPoint grid n i).1 (boundaryPoint grid n i).2))) := by
  unfold boundarySide
  rw [Vec.zeros_eq]
  refine Vec.forN_fill _ _ ?_
  intro i hi f
  rw [Vec.set_ofFn hi]

/-- The value of `pick` at position `k` of the boundary vector. -/
def bval (pick : K × K × K → K) (bc : BoundaryFn K) (grid : Grid K) (m k : Nat) : K :=
  pick (bc (k / m) (boundaryPoint grid (k / m) (k % m)).1 (boundaryPoint grid (k / m) (k % m)).2)

theorem boundaryVec_ok (pick : K × K × K → K) (bc : BoundaryFn K) {grid : Grid K} {m : Nat} (hx : grid.nx = m) :
    boundaryVec pick bc grid = .ok (Vec.ofFn (4 * m) (bval pick bc grid m)) := by
  unfold boundaryVec
  simp only [boundarySide_ok, Res.ok_bind, hx]
  exact Vec.concatenate_uniform 4 m (fun s i => pick (bc s (boundaryPoint grid s i).1 (boundaryPoint grid s i).2))

/-- The Dirichlet data of the root. -/
theorem rootDirichlet_ok (lap : Lapack K) (bc : BoundaryFn K) {root : Patch K} {m : Nat} (hm : 0 < m)
    (hx : root.grid.nx = m) {τ : Nat → Nat → K} {η : Nat → K} (hT : root.T = Mat.ofFn (4 * m) (4 * m) τ)
    (hh : root.h = Vec.ofFn (4 * m) η) :
    ∃ γ, rootDirichlet lap bc root = .ok (Vec.ofFn (4 * m) γ) ∧
      (Nonsing (4 * m) (fun i j => (if i = j then bval (·.2.1) bc root.grid m i else 0) +
          bval (·.2.2) bc root.grid m i * τ i j) →
        ∀ k, k < 4 * m → bval (·.2.1) bc root.grid m k * γ k + bval (·.2.2) bc root.grid m k *
          (∑ j ∈ range (4 * m), τ k j * γ j + η k) = bval (·.1) bc root.grid m k) := by
  have h4 : 0 < 4 * m := by omega
  unfold rootDirichlet
  simp only [boundaryVec_ok _ bc hx, Res.ok_bind, Mat.diagonal_ofFn, hh, hT]
  rw [Mat.mulVec_ofFn h4, Res.ok_bind, Vec.sub_ofFn, Res.ok_bind, Mat.mul_ofFn h4 h4 h4, Res.ok_bind, Mat.add_ofFn,
    Res.ok_bind]
  have hs : ∀ i, i < 4 * m → ∀ x : Nat → K, ∑ l ∈ range (4 * m), (if i = l then bval (·.2.2) bc root.grid m i else 0) * x l =
      bval (·.2.2) bc root.grid m i * x i := by
    intro i hi x
    rw [Finset.sum_eq_single i]
    · rw [if_pos rfl]
    · intro l _ hl; rw [if_neg (Ne.symm hl), zero_mul]
    · intro h; exact absurd (mem_range.mpr hi) h
  have e1 : Mat.ofFn (4 * m) (4 * m) (fun i j => (if i = j then bval (·.2.1) bc root.grid m i else 0) +
      ∑ l ∈ range (4 * m), (if i = l then bval (·.2.2) bc root.grid m i else 0) * τ l j) =
      Mat.ofFn (4 * m) (4 * m) (fun i j => (if i = j then bval (·.2.1) bc root.grid m i else 0) +
          bval (·.2.2) bc root.grid m i * τ i j) :=
    Mat.ofFn_congr (fun i hi j hj => by rw [hs i hi (fun l => τ l j)])
  have e2 : Vec.ofFn (4 * m) (fun i => bval (·.1) bc root.grid m i -
      ∑ l ∈ range (4 * m), (if i = l then bval (·.2.2) bc root.grid m i else 0) * η l) =
      Vec.ofFn (4 * m) (fun i => bval (·.1) bc root.grid m i - bval (·.2.2) bc root.grid m i * η i) :=
    Vec.ofFn_congr (fun i hi => by rw [hs i hi η])
  rw [e1, e2]
  obtain ⟨x, x1, x2, _⟩ := Mat.solveVec_total lap (n := 4 * m) (f := fun i j => (if i = j then bval (·.2.1) bc root.grid m i else 0) +
          bval (·.2.2) bc root.grid m i * τ i j) (b := fun i => bval (·.1) bc root.grid m i - bval (·.2.2) bc root.grid m i * η i) h4
  refine ⟨x, x1, fun hns k hk => ?_⟩
  have := x2 hns k hk
  simp only [add_mul, Finset.sum_add_distrib] at this
  have e3 : ∑ l ∈ range (4 * m), (if k = l then bval (·.2.1) bc root.grid m k else 0) * x l = bval (·.2.1) bc root.grid m k * x k := by
    rw [Finset.sum_eq_single k]
    · rw [if_pos rfl]
    · intro l _ hl; rw [if_neg (Ne.symm hl), zero_mul]
    · intro h; exact absurd (mem_range.mpr hk) h
  rw [e3] at this
  rw [mul_add, Finset.mul_sum]
  have e4 : ∑ l ∈ range (4 * m), bval (·.2.2) bc root.grid m k * (τ k l * x l) =
      ∑ l ∈ range (4 * m), bval (·.2.2) bc root.grid m k * τ k l * x l :=
    Finset.sum_congr rfl (fun l _ => (mul_assoc _ _ _).symm)
  rw [e4]
  rw [← add_assoc, this]
  ring

/-- The analytical solve stage is the other one with the computed Dirichlet data. -/
theorem solveStageAnalytic_eq {lap : Lapack K} {ps : PatchSolver K} {opt : HPSOptions} {bc : BoundaryFn K}
    {t : Tree (Patch K)} {g : Vec K} (h : rootDirichlet lap bc t.val = .ok g) :
    solveStageAnalytic lap ps opt bc t = solveStage ps opt (fun p => .ok { p with g := g }) t := by
  unfold solveStageAnalytic solveStage
  rw [h, Res.ok_bind, Res.ok_bind]

/-- The load callback of the analytical upwards stage. -/
theorem upwardsStageAnalytic_eq (lap : Lapack K) (ps : PatchSolver K) (opt : HPSOptions) {f : K → K → K} {φ : Grid K → Vec K}
    (hφ : ∀ grid, sampleLoad f grid = .ok (φ grid)) (t : Tree (Patch K)) :
    upwardsStageAnalytic lap ps opt f t = upwardsStage lap ps opt (fun p => .ok { p with f := φ p.grid }) t := by
  unfold upwardsStageAnalytic upwardsStage
  congr 1
  funext p
  unfold upwardsLeafAnalytic upwardsLeaf
  rw [hφ, Res.ok_bind, Res.ok_bind]

/-- What is known of the leaves of a solved tree. -/
theorem Slv.leaves {LP : Grid K → Blk K → Prop} {HP : Grid K → Vec K → (Nat → Nat → K) → Prop}
    {UP : Grid K → (Nat → Nat → K) → Vec K → Vec K → Prop} {t : Tree (Patch K)} {R : Rect K} {k m : Nat} {T : Blk K}
    {h g : Nat → Nat → K} (ht : Slv N LP HP UP t R k m T h g) :
    ∀ p ∈ t.leaves, p.grid.nx = N ∧ p.grid.ny = N ∧ ∃ T h g, LP p.grid T ∧ HP p.grid p.f h ∧ p.g = bv N 4 g ∧
      UP p.grid g p.f p.u := by
  induction ht with
  | leaf hk hx hy hR hT hL hh hg hu =>
    intro p hp
    simp only [Tree.leaves, List.mem_singleton] at hp
    subst hp
    exact ⟨hx, hy, _, _, _, hL, hh, hg, hu⟩
  | node _ _ _ _ _ _ _ _ _ _ _ _ _ _ _ _ _ _ _ _ _ i0 i1 i2 i3 =>
    intro p hp
    simp only [Tree.leaves, List.mem_append] at hp
    rcases hp with ((hp | hp) | hp) | hp
    · exact i0 p hp
    · exact i1 p hp
    · exact i2 p hp
    · exact i3 p hp

/-- The Dirichlet data of the root of a solved tree. -/
theorem Slv.root_g {LP : Grid K → Blk K → Prop} {HP : Grid K → Vec K → (Nat → Nat → K) → Prop}
    {UP : Grid K → (Nat → Nat → K) → Vec K → Vec K → Prop} {t : Tree (Patch K)} {R : Rect K} {k m : Nat} {T : Blk K}
    {h g : Nat → Nat → K} (ht : Slv N LP HP UP t R k m T h g) : t.val.g = bv (m * 2 ^ k) 4 (proN k m g) := by
  cases ht with
  | leaf hk hx hy hR hT hL hh hg hu => simpa [proN, Tree.val] using hg
  | node _ _ _ _ _ _ _ _ _ _ _ _ _ _ _ _ _ _ _ _ hg => exact hg

theorem Init.leaves {t : Tree (Patch K)} {R : Rect K} (h : Init N t R) :
    ∀ p ∈ t.leaves, p.grid.nx = N ∧ p.grid.ny = N := by
  induction h with
  | leaf hk hx hy hR =>
    intro p hp
    simp only [Tree.leaves, List.mem_singleton] at hp
    subst hp
    exact ⟨hx, hy⟩
  | node _ _ _ _ _ i0 i1 i2 i3 =>
    intro p hp
    simp only [Tree.leaves, List.mem_append] at hp
    rcases hp with ((hp | hp) | hp) | hp
    · exact i0 p hp
    · exact i1 p hp
    · exact i2 p hp
    · exact i3 p hp

section
variable [LinearOrder K] [IsStrictOrderedRing K]

theorem proper_quarter {R : Rect K} (h : FV.Proper R) (q : Nat) : FV.Proper (R.quarter q) := by
  obtain ⟨h1, h2⟩ := h
  unfold FV.Proper Rect.quarter
  constructor
  · simp only []; split <;> linarith
  · simp only []; split <;> linarith

theorem inside_quarter {R : Rect K} (h : FV.Proper R) (q : Nat) {x y : K} (hi : FV.Inside (R.quarter q) x y) :
    FV.Inside R x y := by
  obtain ⟨h1, h2⟩ := h
  obtain ⟨a, b, c, d⟩ := hi
  unfold Rect.quarter at a b c d
  simp only [] at a b c d
  refine ⟨?_, ?_, ?_, ?_⟩
  · split at a <;> linarith
  · split at b <;> linarith
  · split at c <;> linarith
  · split at d <;> linarith

theorem elliptic_quarter {c : FVSolver K} {R : Rect K} (h : FV.Proper R) (hc : FV.EllipticOn c R) (q : Nat) :
    FV.EllipticOn c (R.quarter q) := fun x y hi => hc x y (inside_quarter h q hi)

/-- Every leaf problem of an elliptic problem is elliptic. -/
theorem Init.elliptic {s : FVSolver K} {t : Tree (Patch K)} {R : Rect K} (h : Init N t R) (hR : FV.Proper R)
    (hc : FV.EllipticOn s R) : ∀ p ∈ t.leaves, FV.Proper (FV.rect p.grid) ∧ FV.EllipticOn s (FV.rect p.grid) := by
  induction h with
  | @leaf p R hk hx hy hR' =>
    intro p hp
    simp only [Tree.leaves, List.mem_singleton] at hp
    subst hp
    have : FV.rect p.grid = R := by
      obtain ⟨a, b, c, d⟩ := hR'
      unfold FV.rect
      rw [a, b, c, d]
    rw [this]
    exact ⟨hR, hc⟩
  | node _ _ _ _ _ i0 i1 i2 i3 =>
    intro p hp
    simp only [Tree.leaves, List.mem_append] at hp
    rcases hp with ((hp | hp) | hp) | hp
    · exact i0 (proper_quarter hR 0) (elliptic_quarter hR hc 0) p hp
    · exact i1 (proper_quarter hR 1) (elliptic_quarter hR hc 1) p hp
    · exact i2 (proper_quarter hR 2) (elliptic_quarter hR hc 2) p hp
    · exact i3 (proper_quarter hR 3) (elliptic_quarter hR hc 3) p hp

end

end HPS
end EF
