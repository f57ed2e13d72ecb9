import Verif.Props.Flux
import Verif.Proofs.Gauss

/-!
# The flux through the boundary of an adaptive mesh balances the load (C85)
-/

namespace EF

open Finset FV HPS

variable {K : Type} [Field K] [LinearOrder K] [IsStrictOrderedRing K] {N : Nat}

/-- Load minus reaction term, divided by alpha, summed over the cells of a leaf. -/
def HPS.leafSource (N : Nat) (s : FVSolver K) (f : K → K → K) (p : Patch K) : K :=
  ∑ i ∈ range N, ∑ j ∈ range N, hx (rect p.grid) N * hy (rect p.grid) N *
    ((f (cx (rect p.grid) N i) (cy (rect p.grid) N j) -
      s.lambda (cx (rect p.grid) N i) (cy (rect p.grid) N j) * p.u.data.getD (j + i * N) 0) / s.alpha (cx (rect p.grid) N i) (cy (rect p.grid) N j))

/-- C85 on adaptive meshes with constant beta, where the interface systems met by the build stage are nonsingular (C19; missing for the
full claim: that they always are, and meshes with a beta that varies). -/
theorem C85_adaptive_partial (lap : Lapack K) (lu : PetscLU K) {s : FVSolver K} {b : K} (hb : ∀ x y, s.beta x y = b) (hN : 2 ≤ N)
    {opt : HPSOptions} (hc : opt.cacheOperators = false) (ho : opt.homogeneousRhs = false) {t : Tree (Patch K)} {R : Rect K} (ht : Init N t R)
    (h3 : 3 ≤ N ∨ ∃ d, Uniform d t) (hR : Proper R) (hE : EllipticOn s R) (f : K → K → K) (bc : BoundaryFn K)
    {t1 t3 : Tree (Patch K)} {c1 : Option (Mat K)} (h1 : buildStage lap (s.toPatchSolver lu) opt t none = .ok (t1, c1))
    (h2 : (Request.functions f bc).run lap (s.toPatchSolver lu) opt t1 = .ok t3) (hX : Branches (fun p => NonsingularMat p.X) t1) :
    ∃ m, 0 < m ∧ t3.val.g.size = 4 * m ∧ (t3.val.T.mulVec t3.val.g >>= fun y => y.add t3.val.h).Returns (fun w =>
      ∑ k ∈ range m, hy R m * (b * w.data.getD (1 * m + k) 0 - b * w.data.getD (0 * m + k) 0) +
        ∑ k ∈ range m, hx R m * (b * w.data.getD (3 * m + k) 0 - b * w.data.getD (2 * m + k) 0) =
      (t3.leaves.map (leafSource N s f)).sum) := by
  have hs := FVSolver.shapes lu s hN
  have hN0 : 0 < N := by omega
  unfold Request.run at h2
  obtain ⟨t2, h2, h3'⟩ := Res.bind_eq_ok.mp h2
  obtain ⟨φ, f1, f2⟩ := sampleLoad_fn f
  rw [upwardsStageAnalytic_eq lap _ opt f1] at h2
  have hφ : SetsLoad N (fun p => .ok { p with f := φ p.grid }) φ :=
    ⟨fun _ => rfl, fun grid hx hy => by have := f2 grid; rwa [hx, hy] at this⟩
  obtain ⟨t1', m, T, e1, b1, s1, _⟩ := buildStage_ok lap hs hc (by omega) ht h3 none
  rw [h1] at e1
  obtain ⟨rfl, rfl⟩ := Prod.mk.inj (Res.ok_inj.mp e1)
  have b2 := b1.leaves (P := fun grid => Proper (rect grid) ∧ EllipticOn s (rect grid)) (by
    rw [buildStage_leaves h1]
    intro grid hg
    obtain ⟨p, hp, rfl⟩ := List.mem_map.mp hg
    exact ht.elliptic hR hE p hp)
  obtain ⟨t2', h, e2, u2, v2, _, s2, x2⟩ := upwardsStage_okX
    (HP := fun grid f h => f = φ grid ∧ HPs N (s.toPatchSolver lu) grid f h) lap hs opt hφ
    (fun grid f h a b c e => ⟨a, ⟨b, c⟩, e⟩) b2
  rw [h2] at e2
  obtain rfl := Res.ok_inj.mp e2
  have hr := u2.built.root
  simp only [pow_zero, mul_one, crsN] at hr
  have hv := v2 ho
  simp only [pow_zero, mul_one] at hv
  have hm0 : 0 < m := by
    obtain ⟨j, hj⟩ := hr.2.2.2.2.2
    rw [hj]; positivity
  obtain ⟨γ, g1, _⟩ := rootDirichlet_ok lap bc hm0 hr.2.1 hr.2.2.2.2.1 hv
  rw [solveStageAnalytic_eq g1] at h3'
  have h3'' := h3'
  obtain ⟨t3', e3, v3, s3, x3⟩ := solveStage_okX hs opt (m := m) (bdry := fun p => .ok { p with g := Vec.ofFn (4 * m) γ })
    (γ := fun _ => Vec.ofFn (4 * m) γ) ⟨fun _ => rfl, fun _ _ _ => ⟨rfl, (Vec.has_ofFn _ _).2.1⟩⟩
    (fun _ _ _ h => h.2.1) (fun h => by rw [ho] at h; cases h) u2
  rw [h3'] at e3
  obtain rfl := Res.ok_inj.mp e3
  have hg := v3.root_g
  simp only [pow_zero, mul_one, proN] at hg
  unfold solveStage at h3''
  obtain ⟨r, er, h3''⟩ := Res.bind_eq_ok.mp h3''
  obtain rfl := Res.ok_inj.mp er
  obtain ⟨kT, kh⟩ := split_root_ops h3''
  have eT : t3.val.T = bm m 4 4 T := by rw [kT]; exact hr.2.2.2.2.1
  have eh : t3.val.h = bv m 4 h := by rw [kh]; exact hv
  set B := toBv m (fun k => (Vec.ofFn (4 * m) γ).data.getD k 0) with hB
  have key : (t3.val.T.mulVec t3.val.g >>= fun y => y.add t3.val.h) = .ok (bv m 4 (opFlux m T B h)) := by
    rw [eT, eh, hg, mulVec_bm hm0 (by omega), Res.ok_bind, add_bv]
    rfl
  rw [branches_xs, ← x2, ← x3, ← branches_xs] at hX
  obtain ⟨w1, w2⟩ := v3.flux (φ := leafDeriv N) (fun p T h g hx hy hL hh hg hu => leafDeriv_eq lu s hN hx hy
    (unique_of_elliptic hL.2.1 hL.2.2 N N) hL.1 hh.2 hg hu) hX
  simp only [pow_zero, mul_one, proN] at w1
  have hres : res N t3 = m := by simpa using v3.res_eq
  refine ⟨m, hm0, by rw [hg]; exact (bv_has m 4 _).1, _, key, ?_⟩
  have hget : ∀ q, q < 4 → ∀ k ∈ range m, (bv m 4 (opFlux m T B h)).data.getD (q * m + k) 0 = sideFlux N (leafDeriv N) t3 q k := by
    intro q hq k hk
    have hk := mem_range.mp hk
    have : (bv m 4 (opFlux m T B h)).data.getD (q * m + k) 0 =
        opFlux m T B h ((q * m + k) / m) ((q * m + k) % m) := getD_listFn (Mat.idx_lt hq hk) 0
    rw [this, Mat.idx_div hk, Mat.idx_mod hk, ← w1 q hq k hk]
  have hmean : ∀ q, q < 4 → sideMean N (leafDeriv N) t3 q * m = ∑ k ∈ range m, (bv m 4 (opFlux m T B h)).data.getD (q * m + k) 0 := by
    intro q hq
    rw [sum_congr rfl (hget q hq), sideMean, hres]
    have : (m : K) ≠ 0 := by exact_mod_cast hm0.ne'
    field_simp
  have total : ∑ k ∈ range m, hy R m * (b * (bv m 4 (opFlux m T B h)).data.getD (1 * m + k) 0 - b * (bv m 4 (opFlux m T B h)).data.getD (0 * m + k) 0) +
        ∑ k ∈ range m, hx R m * (b * (bv m 4 (opFlux m T B h)).data.getD (3 * m + k) 0 - b * (bv m 4 (opFlux m T B h)).data.getD (2 * m + k) 0) =
      b * outflow N (leafDeriv N) R t3 := by
    rw [← mul_sum, ← mul_sum, sum_sub_distrib, sum_sub_distrib, ← mul_sum, ← mul_sum, ← mul_sum, ← mul_sum, ← hmean 0 (by omega),
      ← hmean 1 (by omega), ← hmean 2 (by omega), ← hmean 3 (by omega)]
    have : (m : K) ≠ 0 := by exact_mod_cast hm0.ne'
    unfold hx hy outflow
    field_simp
  refine Eq.trans total ?_
  rw [outflow_leaves hN0 v3.placed w2, ← List.sum_map_mul_left]
  refine congrArg List.sum (List.map_congr_left fun p hp => ?_)
  obtain ⟨hx', hy', T', h', g', hL, hh, hg', hu'⟩ := v3.leaves p hp
  obtain ⟨hP, hPE⟩ := hL.2
  -- the leaf solution
  obtain ⟨ψ, hψ⟩ : ∃ ψ, p.f = Vec.ofFn (N * N) ψ := ⟨_, Vec.has_iff.mp (has_of_wf hh.2.1.1 hh.2.1.2)⟩
  obtain ⟨F, q1, ψ', q2, q3⟩ := C33_load_sampled f p.grid
  rw [f1] at q1
  obtain rfl := Res.ok_inj.mp q1
  rw [← hh.1, hx', hy'] at q2
  rw [hx', hy'] at q3
  have hgHas : p.g.Has (4 * N) (fun k => p.g.data.getD k 0) := by
    rw [hg']
    exact has_of_wf (bv_has N 4 g').1 ((bv_has N 4 g').2.1.trans (bv_has N 4 g').1.symm)
  have hsol : s.solve lu p.grid p.g p.f = .ok p.u := by rw [hg']; exact hu'
  obtain ⟨u', e', U, a1, a2⟩ := C30_leaf_solves lu s hN ⟨hx', hy', hP.1.ne, hP.2.ne⟩ (unique_of_elliptic hP hPE N N) hgHas q2
  rw [hsol] at e'
  obtain rfl := Res.ok_inj.mp e'
  have hU : ∀ i, i < N → ∀ j, j < N → p.u.data.getD (j + i * N) 0 = U (j + i * N) := by
    intro i hi j hj
    rw [Vec.has_iff.mp a1]
    exact getD_listFn (FVSolver.idx_lt hi hj) 0
  have a3 : Solves s (rect p.grid) N N (Bdry.ofFn N (fun k => p.g.data.getD k 0))
      (fun i j => f (cx (rect p.grid) N i) (cy (rect p.grid) N j)) (fun i j => p.u.data.getD (j + i * N) 0) :=
    a2.congr (fun _ _ => rfl) (fun _ _ => rfl) (fun _ _ => rfl) (fun _ _ => rfl) (fun i hi j hj => q3 i hi j hj)
      (fun i hi j hj => (hU i hi j hj).symm)
  have dv := divergence hP hPE hN0 (Bdry.ofFn N (fun k => p.g.data.getD k 0)) (fun i j => p.u.data.getD (j + i * N) 0)
  rw [sum_congr rfl (fun i hi => sum_congr rfl (fun j hj => by rw [a3 i (mem_range.mp hi) j (mem_range.mp hj)]))] at dv
  unfold leafSource
  rw [dv]
  simp only [hb]
  rw [← mul_sum, ← mul_sum, sum_sub_distrib, sum_sub_distrib, ← mul_sum, ← mul_sum, ← mul_sum, ← mul_sum]
  unfold outflow sideMean
  simp only [res, sideFlux]
  have : (N : K) ≠ 0 := by exact_mod_cast hN0.ne'
  unfold hx hy leafDeriv
  field_simp

/-- The hypotheses of `C85_adaptive_partial` hold on sixteen patches, with Robin conditions and a reaction term that varies. -/
example (lap : Lapack ℚ) (lu : PetscLU ℚ) :
    let s : FVSolver ℚ := ⟨fun x _ => 1 + x * x, fun _ _ => 3, fun _ y => -1 - y * y⟩
    ∃ t1 c1 t3, buildStage lap (s.toPatchSolver lu) ⟨false, false⟩ (freshTree 4 exUniform unitSquare) none = .ok (t1, c1) ∧
      (Request.functions (fun x y => x + y) (fun _ x y => (x * y, 2, 1))).run lap (s.toPatchSolver lu) ⟨false, false⟩ t1 = .ok t3 ∧
      ∃ m, 0 < m ∧ t3.val.g.size = 4 * m := by
  intro s
  have hi := freshTree_init (K := ℚ) 4 exUniform unitSquare
  have hE : EllipticOn s unitSquare := by
    intro x y _
    have h1 : 0 < 1 + x * x := by nlinarith [mul_self_nonneg x]
    refine ⟨by norm_num [s], h1.ne', div_nonpos_of_nonpos_of_nonneg ?_ h1.le⟩
    show -1 - y * y ≤ 0
    nlinarith [mul_self_nonneg y]
  obtain ⟨t1, c1, t3, e1, e2, _⟩ := C20_stages_succeed_functions lap (by omega) (FVSolver.shapes lu s (n := 4) (by omega))
    (opt := ⟨false, false⟩) rfl hi (Or.inl (by omega)) (fun x y => x + y) (fun _ x y => (x * y, 2, 1))
  obtain ⟨m, h, h', _⟩ := C85_adaptive_partial lap lu (s := s) (b := 3) (fun _ _ => rfl) (by omega) rfl rfl hi (Or.inl (by omega))
    exPde_elliptic_unit.1 hE (fun x y => x + y) (fun _ x y => (x * y, 2, 1)) e1 e2
    (C19_nonsingular lap lu (by omega) rfl rfl hi (exUniform_uniform 4) exPde_elliptic_unit.1 hE e1).1
  exact ⟨t1, c1, t3, e1, e2, m, h, h'⟩

end EF
