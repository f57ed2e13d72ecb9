import Verif.Proofs.Singular
import Verif.Props.Exact

/-!
# Property C54: interface systems on adaptive meshes

On uniformly refined meshes the interface systems of an elliptic problem are nonsingular (C19).  On adaptive meshes they need not be:
for the problem of `Verif.Proofs.Singular` the system of the root is singular.  The stages run through without an error, and the
solution of the Laplace equation with boundary values one is not one.
-/

namespace EF

open HPS FV Finset

/-- Nonsingular interface systems on uniformly refined meshes of any depth.  Missing for the full claim: adaptive meshes, where it
is false (`C54_nonsingular_wrong`). -/
theorem C54_nonsingular_partial {K : Type} [Field K] [LinearOrder K] [IsStrictOrderedRing K] {N : Nat} (lap : Lapack K)
    (lu : PetscLU K) {s : FVSolver K} (hN : 2 ≤ N) {opt : HPSOptions} (hc : opt.cacheOperators = false)
    (ho : opt.homogeneousRhs = false) {t : Tree (Patch K)} {R : Rect K} (ht : Init N t R) {d : Nat} (hu : Uniform d t) (hR : Proper R)
    (hE : EllipticOn s R) {t1 : Tree (Patch K)} {c1 : Option (Mat K)}
    (h1 : buildStage lap (s.toPatchSolver lu) opt t none = .ok (t1, c1)) : Branches (fun p => NonsingularMat p.X) t1 :=
  (C19_nonsingular lap lu hN hc ho ht hu hR hE h1).1

/-- The hypotheses hold on a mesh refined twice with variable coefficients. -/
example (lap : Lapack ℚ) (lu : PetscLU ℚ) :
    ∃ t1 c1, buildStage lap (exPde.toPatchSolver lu) ⟨false, false⟩ (freshTree 2 exUniform unitSquare) none = .ok (t1, c1) ∧
      Branches (fun p => NonsingularMat p.X) t1 := by
  have hi := freshTree_init 2 exUniform unitSquare
  obtain ⟨t1, m, T, e1, _⟩ := buildStage_ok lap (FVSolver.shapes lu exPde (n := 2) (by omega)) (opt := ⟨false, false⟩) rfl
    (by omega) hi (Or.inr ⟨2, exUniform_uniform 2⟩) none
  exact ⟨t1, none, e1, C54_nonsingular_partial lap lu (by omega) rfl rfl hi (exUniform_uniform 2) exPde_elliptic_unit.1
    exPde_elliptic_unit.2 e1⟩

/-- The interface system of a built tree of this shape. -/
theorem HPS.sg_built (lu : PetscLU ℚ) {t1 : Tree (Patch ℚ)} {k m : Nat} {T : Blk ℚ}
    (b1 : Built 3 (LPs 3 (sgPde.toPatchSolver lu)) t1 unitSquare k m T) (hs : t1.shape = sgShape) : ¬ NonsingularMat t1.val.X := by
  have hR := exPde_elliptic_unit.1
  have hE := sg_elliptic
  have hP := fun q => proper_quarter hR q
  have hE' := fun q => elliptic_quarter hR hE q
  cases b1 with
  | leaf => cases hs
  | @node p _ c0 c1 c2 c3 n _ _ k0 k1 k2 k3 T0 T1 T2 T3 S TT h0 h1 h2 h3 hTT hz hn hm hN' h3m hk hx hy hR' hX hH hS hSol hT =>
    simp only [Tree.shape, sgShape, Tree.node.injEq, true_and] at hs
    obtain ⟨s0, s1, s2, s3⟩ := hs
    have u0 : Uniform 1 c0 := uniform_shape.mp (by rw [s0]; exact .node _ (.leaf _) (.leaf _) (.leaf _) (.leaf _))
    have u1 : Uniform 0 c1 := uniform_shape.mp (by rw [s1]; exact .leaf _)
    have u2 : Uniform 0 c2 := uniform_shape.mp (by rw [s2]; exact .leaf _)
    have u3 : Uniform 0 c3 := uniform_shape.mp (by rw [s3]; exact .leaf _)
    obtain ⟨t0, _⟩ := h0.globalN lu (by omega) u0 (hP 0) (hE' 0)
    obtain ⟨t1, _⟩ := h1.globalN lu (by omega) u1 (hP 1) (hE' 1)
    obtain ⟨t2, _⟩ := h2.globalN lu (by omega) u2 (hP 2) (hE' 2)
    obtain ⟨t3, _⟩ := h3.globalN lu (by omega) u3 (hP 3) (hE' 3)
    have r0 := h0.res_eq.symm.trans (res_uniform u0)
    have r1 := h1.res_eq.symm.trans (res_uniform u1)
    have r2 := h2.res_eq.symm.trans (res_uniform u2)
    have r3 := h3.res_eq.symm.trans (res_uniform u3)
    have hk1 : k1 = 0 ∧ n = 3 := by
      cases u1
      cases h1
      exact ⟨rfl, rfl⟩
    obtain ⟨rfl, rfl⟩ := hk1
    have pw : ∀ k j, 3 * 2 ^ k = 3 * 2 ^ j → k = j := fun k j h =>
      Nat.pow_right_injective (le_refl 2) (Nat.eq_of_mul_eq_mul_left (by omega) h)
    obtain rfl := pw _ _ r0
    obtain rfl := pw _ _ r2
    obtain rfl := pw _ _ r3
    intro hns
    have := bnonsing_of hX hns
    rw [hTT] at this
    exact sg_core t0 t1 t2 t3 this

/-- C54 is false: for an elliptic problem on an adaptive mesh the build stage succeeds with a singular interface system at the root,
whatever the LAPACK and PETSc behaviour. -/
theorem C54_nonsingular_wrong : ∃ (s : FVSolver ℚ) (t : Tree (Patch ℚ)), Init 3 t unitSquare ∧ Proper unitSquare ∧
    EllipticOn s unitSquare ∧ (∀ x y, s.alpha x y = 1 ∧ s.lambda x y = 0) ∧ ∀ (lap : Lapack ℚ) (lu : PetscLU ℚ),
    ∃ t1 c1, buildStage lap (s.toPatchSolver lu) ⟨false, false⟩ t none = .ok (t1, c1) ∧ ¬ NonsingularMat t1.val.X := by
  refine ⟨sgPde, freshTree 3 sgShape unitSquare, freshTree_init _ _ _, exPde_elliptic_unit.1, sg_elliptic, fun _ _ => ⟨rfl, rfl⟩, ?_⟩
  intro lap lu
  obtain ⟨t1, m, T, e1, b1, s1, _⟩ := buildStage_ok lap (FVSolver.shapes lu sgPde (n := 3) (by omega)) (opt := ⟨false, false⟩) rfl
    (by omega) (freshTree_init 3 sgShape unitSquare) (Or.inl (le_refl 3)) none
  exact ⟨t1, none, e1, sg_built lu b1 (s1.trans rfl)⟩

/-- Load zero, boundary values one. -/
def sgData : Data ℚ :=
  ⟨fun grid => Vec.ofFn (grid.nx * grid.ny) (fun _ => 0), fun grid => Vec.ofFn (2 * grid.nx + 2 * grid.ny) (fun _ => 1)⟩

theorem sgData_sized : sgData.Sized :=
  ⟨fun _ => ⟨rfl, (Vec.has_ofFn _ _).2.1⟩, fun _ => ⟨rfl, (Vec.has_ofFn _ _).2.1⟩⟩

namespace HPS

/-- Boundary values one. -/
def oneB : Nat → Nat → ℚ := fun _ _ => 1

/-- Cell values of the upper left quarter with zero on the interfaces and one on the boundary. -/
def sgV2 : List ℚ := [1 / 2, 11 / 14, 13 / 14, 3 / 14, 1 / 2, 11 / 14, 1 / 14, 3 / 14, 1 / 2]
/-- Cell values of the upper right quarter with zero on the interfaces and one on the boundary. -/
def sgV3 : List ℚ := [1 / 14, 3 / 14, 1 / 2, 3 / 14, 1 / 2, 11 / 14, 1 / 2, 11 / 14, 13 / 14]

theorem sg_one2 : Solves sgPde (unitSquare.quarter 2) 3 3 (ofB (cd 2 oneB zeroB)) zeroB (cellFn 3 sgV2) := by decide +kernel
theorem sg_one3 : Solves sgPde (unitSquare.quarter 3) 3 3 (ofB (cd 3 oneB zeroB)) zeroB (cellFn 3 sgV3) := by decide +kernel

theorem sg_one_jump : deriv (unitSquare.quarter 2) 3 3 (ofB (cd 2 oneB zeroB)) (cellFn 3 sgV2) 1 2
    - deriv (unitSquare.quarter 3) 3 3 (ofB (cd 3 oneB zeroB)) (cellFn 3 sgV3) 0 2 = - 12 := by decide +kernel

/-- The value the solve stage puts on the interface between the upper quarters. -/
theorem sg_interface {TT : Ops ℚ} (t2 : TrueOp sgPde (unitSquare.quarter 2) 3 (TT 2) (fun _ _ => 0) (fun _ _ => 0))
    (t3 : TrueOp sgPde (unitSquare.quarter 3) 3 (TT 3) (fun _ _ => 0) (fun _ _ => 0)) :
    app 3 8 (fun p q => Rf TT p (piF q)) oneB 3 2 = 12 := by
  have h := jump_eq 3 TT oneB zeroB 3 (by omega) 2
  have e2 := t2 _ _ sg_one2 1 (by omega) 2 (by omega)
  have e3 := t3 _ _ sg_one3 0 (by omega) 2 (by omega)
  have hj : jump 3 TT oneB zeroB 3 2 = -12 := by
    rw [← sg_one_jump, e2, e3]
    unfold opFlux
    rw [add_zero, add_zero]
    rfl
  rw [hj] at h
  simp only [zeroB, mul_zero, sum_const_zero, zero_sub, neg_inj] at h
  exact h.symm

end HPS

/-- With boundary values one and without load the fourth patch does not have the value one. -/
theorem HPS.sg_not_one (lu : PetscLU ℚ) {t3 : Tree (Patch ℚ)} {m : Nat} {T : Blk ℚ} {h γ : Nat → Nat → ℚ}
    (v3 : Slv 3 (LPs 3 (sgPde.toPatchSolver lu)) (fun grid f h => (grid.nx = 3 → grid.ny = 3 → f = Vec.ofFn 9 (fun _ => 0)) ∧
      HPs 3 (sgPde.toPatchSolver lu) grid f h) (UPs 3 (sgPde.toPatchSolver lu)) t3 unitSquare 0 m T h γ) (hsh : t3.shape = sgShape)
    (hX3 : ¬ NonsingularMat t3.val.X) (hγ1 : ∀ p, p < 4 → ∀ i, i < m → γ p i = 1) : ∃ p ∈ t3.leaves, ¬ LeafIs 3 (fun _ _ => 1) p := by
  have hP := fun q => proper_quarter exPde_elliptic_unit.1 q
  have hE' := fun q => elliptic_quarter exPde_elliptic_unit.1 sg_elliptic q
  cases v3 with
  | leaf => cases hsh
  | @node p _ c0 c1 c2 c3 n k m k0 k1 k2 k3 T0 T1 T2 T3 S TT f0 f1 f2 f3 w g G u hh h0 h1 h2 h3 hTT hhh hz hn hm hN' h3m
      hk hx hy hR' hX hSol hW hG hu hg =>
    simp only [Tree.shape, sgShape, Tree.node.injEq, true_and] at hsh
    obtain ⟨_, _, q2, q3⟩ := hsh
    cases c2 with
    | node => cases q2
    | leaf p2 =>
    cases c3 with
    | node => cases q3
    | leaf p3 =>
    cases h2 with
    | leaf hk2 hx2 hy2 hR2 hT2 hL2 hh2 hg2 hu2 =>
    cases h3 with
    | leaf hk3 hx3 hy3 hR3 hT3 hL3 hh3 hg3 hu3 =>
    have hp2 := rect_eq hR2
    have hp3 := rect_eq hR3
    have hq2 : Unique sgPde (rect p2.grid) 3 3 := by rw [hp2]; exact unique_of_elliptic (hP 2) (hE' 2) 3 3
    have hq3 : Unique sgPde (rect p3.grid) 3 3 := by rw [hp3]; exact unique_of_elliptic (hP 3) (hE' 3) 3 3
    have hb : ¬ BNonsing 3 4 (Xf TT) := fun hb => hX3 (nonsingularMat_of hX hb)
    have hS := hSol.2 hb
    have hw := hW.2 hb
    have t2' := leaf_trueOp0 lu sgPde (by omega) hx2 hy2 hq2 hL2
    have t3' := leaf_trueOp0 lu sgPde (by omega) hx3 hy3 hq3 hL3
    rw [hp2] at t2'
    rw [hp3] at t3'
    have hi := sg_interface (TT := TT) (by rw [hTT]; exact t2') (by rw [hTT]; exact t3')
    have flux0 : ∀ {q : Patch ℚ} {T : Blk ℚ} {f : Nat → Nat → ℚ}, q.grid.nx = 3 → q.grid.ny = 3 → Unique sgPde (rect q.grid) 3 3 →
        LPs 3 (sgPde.toPatchSolver lu) q.grid T → ((q.grid.nx = 3 → q.grid.ny = 3 → q.f = Vec.ofFn 9 (fun _ => 0)) ∧
          HPs 3 (sgPde.toPatchSolver lu) q.grid q.f f) → ∀ p, p < 4 → ∀ i, i < 3 → f p i = 0 := by
      intro q T f hx hy hq hL hH p hp i hi
      have ht := leaf_trueOp lu sgPde (by omega) hx hy hq hL hH.2 (fun _ _ => 0) (fun _ _ => 0) (by
        rw [hH.1 hx hy]
        refine (solves_zero sgPde (rect q.grid) 3 3).congr (fun _ _ => rfl) (fun _ _ => rfl) (fun _ _ => rfl) (fun _ _ => rfl) ?_
          (fun _ _ _ _ => rfl)
        intro i hi j hj
        exact (getD_listFn (n := 9) (f := fun _ => (0 : ℚ)) (by omega) 0).symm) p hp i hi
      have hd : deriv (rect q.grid) 3 3 (ofB (fun _ _ => (0 : ℚ))) (fun _ _ => 0) p i = 0 := by
        unfold deriv ofB; split <;> simp
      rw [hd] at ht
      simpa [opFlux, app] using ht.symm
    have hw0 : w 3 2 = 0 := by
      rw [hw, hhh]
      show f3 0 2 - f2 1 2 = 0
      rw [flux0 hx2 hy2 hq2 hL2 hh2 1 (by omega) 2 (by omega), flux0 hx3 hy3 hq3 hL3 hh3 0 (by omega) 2 (by omega), sub_self]
    have hG1 : ∀ q, q < 8 → ∀ i, i < 3 → G q i = 1 := by
      intro q hq i hi
      rw [hG]
      have hm6 : 2 * 3 = _ := hm.symm
      refine hγ1 (q / 2) (by omega) (q % 2 * 3 + i) ?_
      omega
    have hu1 : u 3 2 = 12 := by
      rw [hu, hS]
      simp only [hw0, add_zero]
      rw [← hi]
      unfold app
      refine sum_congr rfl fun q hq => sum_congr rfl fun j hj => ?_
      rw [mem_range] at hq hj
      rw [hG1 q hq j hj]
      rfl
    refine ⟨p3, by simp [Tree.leaves], ?_⟩
    intro hleaf
    obtain ⟨V, v1, v2⟩ := FVSolver.solve_ok lu sgPde (by omega) hx3 hy3 (fun k => cd 3 G u (k / 3) (k % 3)) (fun _ => 0)
    have hu' : sgPde.solve lu p3.grid (bv 3 4 (cd 3 G u)) p3.f = .ok p3.u := hu3
    have e1 : bv 3 4 (cd 3 G u) = Vec.ofFn (4 * 3) (fun k => cd 3 G u (k / 3) (k % 3)) := rfl
    rw [e1, hh3.1 hx3 hy3] at hu'
    rw [v1] at hu'
    have eu := (Res.ok_inj.mp hu').symm
    obtain ⟨cW, cE, cS, cN⟩ := flat_ofB (n := 3) (by omega) (cd 3 G u)
    have hV := (v2 hq3).congr cW cE cS cN (fun _ _ _ _ => rfl) (fun _ _ _ _ => rfl)
    rw [hp3] at hV
    have hV1 : ∀ i, i < 3 → ∀ j, j < 3 → V (j + i * 3) = 1 := by
      intro i hi j hj
      have := hleaf i hi j hj
      rw [eu] at this
      exact (getD_listFn (FVSolver.idx_lt hi hj) 0).symm.trans this
    have hb := hV 0 (by omega) 2 (by omega)
    have y1 := hV1 0 (by omega) 2 (by omega)
    have y2 := hV1 1 (by omega) 2 (by omega)
    have y3 := hV1 0 (by omega) 1 (by omega)
    have hN7 : G 7 0 = 1 := hG1 7 (by omega) 0 (by omega)
    norm_num [balance, east, west, north, south, ofB, cd, hu1, hN7, cx, cy, FV.hx, FV.hy, sgPde, sgBeta,
      unitSquare, Rect.quarter] at hb y1 y2 y3
    rw [y1, y2, y3] at hb
    norm_num at hb

/-- C54, what a user sees: with zero load and Dirichlet values one the stages run through, but the solution is not one (the values
C27 promises when the interface systems are nonsingular). -/
theorem C54_constant_wrong : ∃ (s : FVSolver ℚ) (t : Tree (Patch ℚ)) (d : Data ℚ), Init 3 t unitSquare ∧ Proper unitSquare ∧
    EllipticOn s unitSquare ∧ (∀ x y, s.alpha x y = 1 ∧ s.lambda x y = 0) ∧ d.Sized ∧
    (∀ grid, ∀ v ∈ (d.load grid).data, v = 0) ∧ (∀ grid, ∀ v ∈ (d.bdry grid).data, v = 1) ∧
    ∀ (lap : Lapack ℚ) (lu : PetscLU ℚ), ∃ t1 c1 t3,
      buildStage lap (s.toPatchSolver lu) ⟨false, false⟩ t none = .ok (t1, c1) ∧
      run lap (s.toPatchSolver lu) ⟨false, false⟩ d t1 = .ok t3 ∧ ∃ p ∈ t3.leaves, ¬ LeafIs 3 (fun _ _ => 1) p := by
  refine ⟨sgPde, freshTree 3 sgShape unitSquare, sgData, freshTree_init _ _ _, exPde_elliptic_unit.1, sg_elliptic,
    fun _ _ => ⟨rfl, rfl⟩, sgData_sized, ?_, ?_, ?_⟩
  · intro grid v hv
    simp only [sgData, Vec.ofFn, listFn, List.mem_map] at hv
    obtain ⟨_, _, h⟩ := hv
    exact h.symm
  · intro grid v hv
    simp only [sgData, Vec.ofFn, listFn, List.mem_map] at hv
    obtain ⟨_, _, h⟩ := hv
    exact h.symm
  intro lap lu
  have hs := FVSolver.shapes lu sgPde (n := 3) (by omega)
  obtain ⟨t1, m, T, e1, b1, s1, _⟩ := buildStage_ok lap hs (opt := ⟨false, false⟩) rfl
    (by omega) (freshTree_init 3 sgShape unitSquare) (Or.inl (le_refl 3)) none
  have hX1 := sg_built lu b1 (s1.trans rfl)
  obtain ⟨t2, h, e2, u2, _, _, s2, x2⟩ := upwardsStage_okX
    (HP := fun grid f h => (grid.nx = 3 → grid.ny = 3 → f = Vec.ofFn 9 (fun _ => 0)) ∧ HPs 3 (sgPde.toPatchSolver lu) grid f h) lap hs
    ⟨false, false⟩ (Data.setsLoad (N := 3) sgData_sized)
    (fun grid f h a b c d => ⟨fun hx hy => by rw [a]; unfold sgData; simp only [hx, hy], ⟨b, c⟩, d⟩) b1
  obtain ⟨t3, e3, v3, s3, x3⟩ := solveStage_okX hs ⟨false, false⟩ (Data.setsBoundary sgData_sized m) (fun _ _ _ h => h.2.1)
    (fun hom => by cases hom) u2
  refine ⟨t1, none, t3, e1, by unfold run; rw [e2, Res.ok_bind, e3], ?_⟩
  have hsh : t3.shape = sgShape := s3.trans (s2.trans (s1.trans rfl))
  have hr := u2.built.root
  simp only [pow_zero, mul_one] at hr
  have hX3 : ¬ NonsingularMat t3.val.X := by
    have hx : xs t3 = xs t1 := x3.trans x2
    have hsh1 : t1.shape = sgShape := s1.trans rfl
    cases t3 with
    | leaf => cases hsh
    | node p c0 c1 c2 c3 =>
      cases t1 with
      | leaf => cases hsh1
      | node q d0 d1 d2 d3 =>
        simp only [xs, List.cons.injEq] at hx
        show ¬ NonsingularMat p.X
        rw [hx.1]
        exact hX1
  generalize hγ : toBv m (fun k => (sgData.bdry t2.val.grid).data.getD k 0) = γ at v3
  have hγ1 : ∀ p, p < 4 → ∀ i, i < m → γ p i = 1 := by
    intro p hp i hi
    rw [← hγ]
    unfold toBv sgData
    simp only [hr.2.1, hr.2.2.1]
    refine getD_listFn ?_ 0
    have := Mat.idx_lt hp hi
    omega
  exact sg_not_one lu v3 hsh hX3 hγ1

end EF
