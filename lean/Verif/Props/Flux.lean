import Verif.Props.Converge
import Verif.Proofs.Robin

/-!
# The flux through the boundary of the region (C84)
-/

namespace EF

open Finset FV HPS

section
variable {K : Type} [Field K] [LinearOrder K] [IsStrictOrderedRing K] {N : Nat}

omit [LinearOrder K] [IsStrictOrderedRing K] in
/-- Removing the coarsening changes the boundary values only. -/
theorem HPS.uncoarsen_ops {p q : Patch K} (h : uncoarsen p = .ok q) : q.T = p.T ∧ q.h = p.h := by
  unfold uncoarsen at h
  have key : ∀ n (p q : Patch K), forN n uncoarsenStep p = .ok q → q.T = p.T ∧ q.h = p.h := by
    intro n
    induction n with
    | zero =>
      intro p q h
      rw [forN] at h
      obtain rfl := Res.ok_inj.mp h
      exact ⟨rfl, rfl⟩
    | succ n ih =>
      intro p q h
      rw [forN] at h
      obtain ⟨r, h1, h2⟩ := Res.bind_eq_ok.mp h
      obtain ⟨a, b⟩ := ih p r h1
      unfold uncoarsenStep at h2
      obtain ⟨_, _, h2⟩ := Res.bind_eq_ok.mp h2
      obtain ⟨_, _, h2⟩ := Res.bind_eq_ok.mp h2
      obtain ⟨_, _, h2⟩ := Res.bind_eq_ok.mp h2
      obtain rfl := Res.ok_inj.mp h2
      exact ⟨a, b⟩
  exact key _ _ _ h

omit [LinearOrder K] [IsStrictOrderedRing K] in
/-- The solve stage keeps the operator and the flux vector of the root. -/
theorem HPS.split_root_ops {ps : PatchSolver K} {opt : HPSOptions} {t t' : Tree (Patch K)} {p : Patch K}
    (h : t.splitFrom (leafSolve ps opt) (split1to4 opt) p = .ok t') : t'.val.T = p.T ∧ t'.val.h = p.h := by
  cases t with
  | leaf q =>
    rw [Tree.splitFrom] at h
    obtain ⟨r, h1, h2⟩ := Res.bind_eq_ok.mp h
    obtain rfl := Res.ok_inj.mp h2
    unfold leafSolve at h1
    obtain ⟨u, _, h1⟩ := Res.bind_eq_ok.mp h1
    obtain rfl := Res.ok_inj.mp h1
    simp only [Tree.val]
    split_ifs <;> exact ⟨rfl, rfl⟩
  | node q c0 c1 c2 c3 =>
    rw [Tree.splitFrom] at h
    obtain ⟨F, h1, h2⟩ := Res.bind_eq_ok.mp h
    obtain ⟨_, _, h2⟩ := Res.bind_eq_ok.mp h2
    obtain ⟨_, _, h2⟩ := Res.bind_eq_ok.mp h2
    obtain ⟨_, _, h2⟩ := Res.bind_eq_ok.mp h2
    obtain ⟨_, _, h2⟩ := Res.bind_eq_ok.mp h2
    obtain rfl := Res.ok_inj.mp h2
    simp only [Tree.val]
    unfold split1to4 at h1
    obtain ⟨tau, e1, h1⟩ := Res.bind_eq_ok.mp h1
    have : F.tau = tau := by
      unfold applyS at h1
      iterate 17 obtain ⟨_, _, h1⟩ := Res.bind_eq_ok.mp h1
      obtain rfl := Res.ok_inj.mp h1
      rfl
    rw [this]
    exact uncoarsen_ops e1

/-- The solution solves the problem of the global grid with the root boundary values, and the root operator gives its flux. -/
theorem HPS.root_flux_core (lap : Lapack K) (lu : PetscLU K) {s : FVSolver K} (hN : 2 ≤ N) {opt : HPSOptions}
    (hc : opt.cacheOperators = false) (ho : opt.homogeneousRhs = false) {t : Tree (Patch K)} {R : Rect K} (ht : Init N t R)
    {d : Nat} (hu : Uniform d t) (hR : Proper R) (hE : EllipticOn s R) (f : K → K → K) (bc : BoundaryFn K)
    {t1 t3 : Tree (Patch K)} {c1 : Option (Mat K)} (h1 : buildStage lap (s.toPatchSolver lu) opt t none = .ok (t1, c1))
    (h2 : (Request.functions f bc).run lap (s.toPatchSolver lu) opt t1 = .ok t3) :
    Solves s R (N * 2 ^ d) (N * 2 ^ d) (Bdry.ofFn (N * 2 ^ d) (fun k => t3.val.g.data.getD k 0))
        (fun i j => f (cx R (N * 2 ^ d) i) (cy R (N * 2 ^ d) j)) (gridFn N (·.u) t3) ∧
      t3.val.g.size = 4 * (N * 2 ^ d) ∧ (t3.val.T.mulVec t3.val.g >>= fun y => y.add t3.val.h).Returns (fun w => w.size = 4 * (N * 2 ^ d) ∧ w.data.length = 4 * (N * 2 ^ d) ∧
      ∀ q, q < 4 → ∀ k, k < N * 2 ^ d → w.data.getD (q * (N * 2 ^ d) + k) 0 =
        deriv R (N * 2 ^ d) (N * 2 ^ d) (Bdry.ofFn (N * 2 ^ d) (fun k => t3.val.g.data.getD k 0)) (gridFn N (·.u) t3) q k) := by
  have hs := FVSolver.shapes lu s hN
  have hD := unique_of_elliptic hR hE (N * 2 ^ d) (N * 2 ^ d)
  unfold Request.run at h2
  obtain ⟨t2, h2, h3⟩ := Res.bind_eq_ok.mp h2
  obtain ⟨φ, f1, f2⟩ := sampleLoad_fn f
  rw [upwardsStageAnalytic_eq lap _ opt f1] at h2
  have hφ : SetsLoad N (fun p => .ok { p with f := φ p.grid }) φ :=
    ⟨fun _ => rfl, fun grid hx hy => by have := f2 grid; rwa [hx, hy] at this⟩
  obtain ⟨t1', m, T, e1, b1, s1, hm⟩ := buildStage_ok lap hs hc (by omega) ht (Or.inr ⟨d, hu⟩) none
  rw [h1] at e1
  obtain ⟨rfl, rfl⟩ := Prod.mk.inj (Res.ok_inj.mp e1)
  obtain rfl := hm d hu
  obtain ⟨t2', h, e2, u2, v2, _, s2⟩ := upwardsStage_ok'
    (HP := fun grid f h => f = φ grid ∧ HPs N (s.toPatchSolver lu) grid f h) lap hs opt hφ
    (fun grid f h a b c e => ⟨a, ⟨b, c⟩, e⟩) b1
  rw [h2] at e2
  obtain rfl := Res.ok_inj.mp e2
  have hr := u2.built.root
  simp only [pow_zero, mul_one, crsN] at hr
  have hv := v2 ho
  simp only [pow_zero, mul_one] at hv
  have hm0 : 0 < N * 2 ^ d := by positivity
  obtain ⟨γ, g1, _⟩ := rootDirichlet_ok lap bc hm0 hr.2.1 hr.2.2.2.2.1 hv
  rw [solveStageAnalytic_eq g1] at h3
  have h3' := h3
  obtain ⟨t3', e3, v3, s3⟩ := solveStage_ok hs opt (m := N * 2 ^ d) (bdry := fun p => .ok { p with g := Vec.ofFn (4 * (N * 2 ^ d)) γ })
    (γ := fun _ => Vec.ofFn (4 * (N * 2 ^ d)) γ) ⟨fun _ => rfl, fun _ _ _ => ⟨rfl, (Vec.has_ofFn _ _).2.1⟩⟩
    (fun _ _ _ h => h.2.1) (fun h => by rw [ho] at h; cases h) u2
  rw [h3] at e3
  obtain rfl := Res.ok_inj.mp e3
  have hsh : t3.shape = t.shape := by rw [s3, s2, s1]
  have hu3 : Uniform d t3 := uniform_shape.mp (hsh ▸ uniform_shape.mpr hu)
  obtain ⟨o1, o2, g3, _⟩ := v3.global lu hN (P := fun grid f => f = φ grid) rfl hu3 hR hE
  have hg := v3.root_g
  simp only [pow_zero, mul_one, proN] at hg
  set B := toBv (N * 2 ^ d) (fun k => (Vec.ofFn (4 * (N * 2 ^ d)) γ).data.getD k 0) with hB
  obtain ⟨U, hU⟩ := exists_of_unique hD (ofB B) (gridFn N (·.f) t3)
  have hUu := g3 U hU
  have hS : Solves s R (N * 2 ^ d) (N * 2 ^ d) (ofB B) (gridFn N (·.f) t3) (gridFn N (·.u) t3) :=
    hU.congr (fun _ _ => rfl) (fun _ _ => rfl) (fun _ _ => rfl) (fun _ _ => rfl) (fun _ _ _ _ => rfl)
      (fun i hi j hj => (hUu i hi j hj).symm)
  unfold solveStage at h3'
  obtain ⟨r, er, h3'⟩ := Res.bind_eq_ok.mp h3'
  obtain rfl := Res.ok_inj.mp er
  obtain ⟨kT, kh⟩ := split_root_ops h3'
  have eT : t3.val.T = bm (N * 2 ^ d) 4 4 T := by rw [kT]; exact hr.2.2.2.2.1
  have eh : t3.val.h = bv (N * 2 ^ d) 4 h := by rw [kh]; exact hv
  have key : (t3.val.T.mulVec t3.val.g >>= fun y => y.add t3.val.h) = .ok (bv (N * 2 ^ d) 4 (opFlux (N * 2 ^ d) T B h)) := by
    rw [eT, eh, hg, mulVec_bm hm0 (by omega), Res.ok_bind, add_bv]
    rfl
  have hget : ∀ (b : Nat → Nat → K) q, q < 4 → ∀ k, k < N * 2 ^ d → (bv (N * 2 ^ d) 4 b).data.getD (q * (N * 2 ^ d) + k) 0 = b q k := by
    intro b q hq k hk
    have : (bv (N * 2 ^ d) 4 b).data.getD (q * (N * 2 ^ d) + k) 0 =
        b ((q * (N * 2 ^ d) + k) / (N * 2 ^ d)) ((q * (N * 2 ^ d) + k) % (N * 2 ^ d)) := getD_listFn (Mat.idx_lt hq hk) 0
    rw [this, Mat.idx_div hk, Mat.idx_mod hk]
  have hB : (∀ j, j < N * 2 ^ d → (ofB B).W j = (Bdry.ofFn (N * 2 ^ d) (fun k => t3.val.g.data.getD k 0)).W j) ∧
      (∀ j, j < N * 2 ^ d → (ofB B).E j = (Bdry.ofFn (N * 2 ^ d) (fun k => t3.val.g.data.getD k 0)).E j) ∧
      (∀ j, j < N * 2 ^ d → (ofB B).S j = (Bdry.ofFn (N * 2 ^ d) (fun k => t3.val.g.data.getD k 0)).S j) ∧
      (∀ j, j < N * 2 ^ d → (ofB B).N j = (Bdry.ofFn (N * 2 ^ d) (fun k => t3.val.g.data.getD k 0)).N j) := by
    refine ⟨?_, ?_, ?_, ?_⟩ <;> intro j hj <;> simp only [ofB, Bdry.ofFn, hg]
    · have := hget B 0 (by omega) j hj
      rw [zero_mul, zero_add] at this
      exact this.symm
    · have := hget B 1 (by omega) j hj
      rw [one_mul] at this
      exact this.symm
    · exact (hget B 2 (by omega) j hj).symm
    · exact (hget B 3 (by omega) j hj).symm
  refine ⟨hS.congr hB.1 hB.2.1 hB.2.2.1 hB.2.2.2 ?_ (fun _ _ _ _ => rfl), by rw [hg]; exact (bv_has (N * 2 ^ d) 4 _).1, _, key,
    (bv_has (N * 2 ^ d) 4 _).1, (bv_has (N * 2 ^ d) 4 _).2.1, ?_⟩
  · rw [v3.load ht hsh]
    exact gridFn_sampled (by omega) f1 ht hu
  intro q hq k hk
  rw [hget _ q hq k hk, ← o1 _ _ hS q hq k hk]
  exact deriv_congr hm0 hB.1 hB.2.1 hB.2.2.1 hB.2.2.2 (fun _ _ _ _ => rfl) hk

/-- C84, discrete: on a uniformly refined mesh with any boundary conditions, the root operator applied to the root boundary values plus
the root flux vector is, at every boundary cell, the difference quotient of the solution over half a cell. -/
theorem C84_root_flux (lap : Lapack K) (lu : PetscLU K) {s : FVSolver K} (hN : 2 ≤ N) {opt : HPSOptions}
    (hc : opt.cacheOperators = false) (ho : opt.homogeneousRhs = false) {t : Tree (Patch K)} {R : Rect K} (ht : Init N t R)
    {d : Nat} (hu : Uniform d t) (hR : Proper R) (hE : EllipticOn s R) (f : K → K → K) (bc : BoundaryFn K)
    {t1 t3 : Tree (Patch K)} {c1 : Option (Mat K)} (h1 : buildStage lap (s.toPatchSolver lu) opt t none = .ok (t1, c1))
    (h2 : (Request.functions f bc).run lap (s.toPatchSolver lu) opt t1 = .ok t3) :
    t3.val.g.size = 4 * (N * 2 ^ d) ∧ (t3.val.T.mulVec t3.val.g >>= fun y => y.add t3.val.h).Returns (fun w => w.size = 4 * (N * 2 ^ d) ∧ w.data.length = 4 * (N * 2 ^ d) ∧
      ∀ q, q < 4 → ∀ k, k < N * 2 ^ d → w.data.getD (q * (N * 2 ^ d) + k) 0 =
        deriv R (N * 2 ^ d) (N * 2 ^ d) (Bdry.ofFn (N * 2 ^ d) (fun k => t3.val.g.data.getD k 0)) (gridFn N (·.u) t3) q k) :=
  (root_flux_core lap lu hN hc ho ht hu hR hE f bc h1 h2).2

end

/-- Derivative in coordinate direction across a side: by x on the West and East side, by y on the South and North side. -/
def FV.across (Dx Dy : Nat → ℝ → ℝ → ℝ) (q : Nat) (x y : ℝ) : ℝ := if q < 2 then Dx 1 x y else Dy 1 x y

theorem FV.quotient_near {g D u1 U h M E : ℝ} (h0 : 0 < h) (h1 : |u1 - (g + h / 2 * D)| ≤ M * (h / 2) ^ 2 / 2) (h2 : |U - u1| ≤ E) :
    |(U - g) / (h / 2) - D| ≤ M * h / 4 + 2 * E / h := by
  have e : (U - g) / (h / 2) - D = ((U - u1) + (u1 - (g + h / 2 * D))) / (h / 2) := by field_simp; ring
  rw [e, abs_div, abs_of_pos (by positivity : 0 < h / 2), div_le_iff₀ (by positivity)]
  refine (abs_add_le _ _).trans ((add_le_add h2 h1).trans (le_of_eq ?_))
  field_simp
  ring

/-- The difference quotient over half a cell of values within `E` of a smooth function. -/
theorem FV.deriv_near {R : Rect ℝ} (hR : Proper R) {u : ℝ → ℝ → ℝ} {Dx Dy : Nat → ℝ → ℝ → ℝ} {M : ℝ} (hu : Derivs R u Dx Dy M) {m : Nat}
    (hm : 0 < m) {U : Nat → Nat → ℝ} {E : ℝ} (hU : ∀ i, i < m → ∀ j, j < m → |U i j - u (cx R m i) (cy R m j)| ≤ E) {q k : Nat} (hq : q < 4)
    (hk : k < m) :
    |deriv R m m (trace R m u) U q k - across Dx Dy q (sidePoint R m q k).1 (sidePoint R m q k).2| ≤
      M * (hx R m + hy R m) / 4 + 2 * E / hx R m + 2 * E / hy R m := by
  have hx0 := hx_pos hR hm
  have hy0 := hy_pos hR hm
  have M0 := hu.nonneg hR
  have E0 : 0 ≤ E := (abs_nonneg _).trans (hU k hk k hk)
  obtain ⟨fx1, fx2⟩ := cx_face hR hk
  obtain ⟨fy1, fy2⟩ := cy_face hR hk
  have ix : cx R m k ∈ Set.Icc R.xl R.xu := ⟨by linarith, by linarith⟩
  have iy : cy R m k ∈ Set.Icc R.yl R.yu := ⟨by linarith, by linarith⟩
  obtain ⟨gx1, gx2⟩ := cx_face hR (show 0 < m from hm)
  obtain ⟨gy1, gy2⟩ := cy_face hR (show 0 < m from hm)
  obtain ⟨ux1, ux2⟩ := cx_face hR (show m - 1 < m by omega)
  obtain ⟨uy1, uy2⟩ := cy_face hR (show m - 1 < m by omega)
  have hxm : hx R m * m = R.xu - R.xl := by unfold hx; field_simp
  have hym : hy R m * m = R.yu - R.yl := by unfold hy; field_simp
  have ec : ((m - 1 : Nat) : ℝ) = m - 1 := by rw [Nat.cast_sub (by omega)]; simp
  have e0 : cx R m 0 = R.xl + hx R m / 2 := by unfold cx; push_cast; ring
  have e1 : cx R m (m - 1) = R.xu - hx R m / 2 := by unfold cx; rw [ec]; linear_combination hxm
  have e2 : cy R m 0 = R.yl + hy R m / 2 := by unfold cy; push_cast; ring
  have e3 : cy R m (m - 1) = R.yu - hy R m / 2 := by unfold cy; rw [ec]; linear_combination hym
  have bx : M * hx R m / 4 + 2 * E / hx R m ≤ M * (hx R m + hy R m) / 4 + 2 * E / hx R m + 2 * E / hy R m := by
    have : 0 ≤ M * hy R m / 4 + 2 * E / hy R m := by positivity
    linarith
  have by' : M * hy R m / 4 + 2 * E / hy R m ≤ M * (hx R m + hy R m) / 4 + 2 * E / hx R m + 2 * E / hy R m := by
    have : 0 ≤ M * hx R m / 4 + 2 * E / hx R m := by positivity
    linarith
  rcases (by omega : q = 0 ∨ q = 1 ∨ q = 2 ∨ q = 3) with rfl | rfl | rfl | rfl
  · have t := taylor2 ((hu.inX _ iy).right (a := R.xl) (h := hx R m / 2) le_rfl (by linarith)) (by linarith)
    simp only [add_zero, hu.x0] at t
    rw [← e0] at t
    exact (quotient_near hx0 t (hU 0 hm k hk)).trans bx
  · have t := taylor2 ((hu.inX _ iy).left (a := R.xu) (h := hx R m / 2) (by linarith) le_rfl) (by linarith)
    simp only [sub_zero, pow_zero, one_mul, pow_one, hu.x0] at t
    rw [← e1] at t
    have := (quotient_near hx0 t (hU (m - 1) (by omega) k hk)).trans bx
    rw [← abs_neg]
    refine le_trans (le_of_eq ?_) this
    congr 1
    simp only [deriv, trace, across, sidePoint]
    norm_num
    ring
  · have t := taylor2 ((hu.inY _ ix).right (a := R.yl) (h := hy R m / 2) le_rfl (by linarith)) (by linarith)
    simp only [add_zero, hu.y0] at t
    rw [← e2] at t
    exact (quotient_near hy0 t (hU k hk 0 hm)).trans by'
  · have t := taylor2 ((hu.inY _ ix).left (a := R.yu) (h := hy R m / 2) (by linarith) le_rfl) (by linarith)
    simp only [sub_zero, pow_zero, one_mul, pow_one, hu.y0] at t
    rw [← e3] at t
    have := (quotient_near hy0 t (hU k hk (m - 1) (by omega))).trans by'
    rw [← abs_neg]
    refine le_trans (le_of_eq ?_) this
    congr 1
    simp only [deriv, trace, across, sidePoint]
    norm_num
    ring

/-- C84: for an elliptic problem with smooth coefficient and solution there is a constant such that on every uniformly refined mesh the
root operator applied to the root boundary values plus the root flux vector is, at the centre of every boundary cell, within the constant
divided by the number of cells per side of the derivative of the solution across the side. -/
theorem C84_flux_converges {s : FVSolver ℝ} {R : Rect ℝ} (hR : Proper R) (hE : EllipticOn s R) {Bx By : Nat → ℝ → ℝ → ℝ} {B : ℝ}
    (hβ : Derivs R s.beta Bx By B) {u : ℝ → ℝ → ℝ} {Dx Dy : Nat → ℝ → ℝ → ℝ} {M : ℝ} (hu : Derivs R u Dx Dy M) {f : ℝ → ℝ → ℝ}
    (hf : Classical s R u Dx Dy Bx By f) :
    ∃ C, 0 ≤ C ∧ ∀ (lap : Lapack ℝ) (lu : PetscLU ℝ) (N : Nat), 2 ≤ N → ∀ opt : HPSOptions, opt.cacheOperators = false →
      opt.homogeneousRhs = false → ∀ t : Tree (Patch ℝ), Init N t R → ∀ d, Uniform d t →
      ∃ t1 c1 t3 w, buildStage lap (s.toPatchSolver lu) opt t none = .ok (t1, c1) ∧
        (Request.functions f (fun _ x y => (u x y, 1, 0))).run lap (s.toPatchSolver lu) opt t1 = .ok t3 ∧
        (t3.val.T.mulVec t3.val.g >>= fun y => y.add t3.val.h) = .ok w ∧ w.data.length = 4 * (N * 2 ^ d) ∧
        ∀ q, q < 4 → ∀ k, k < N * 2 ^ d → |w.data.getD (q * (N * 2 ^ d) + k) 0 -
          across Dx Dy q (sidePoint R (N * 2 ^ d) q k).1 (sidePoint R (N * 2 ^ d) q k).2| ≤ C / (N * 2 ^ d) := by
  obtain ⟨b0, h0, hb⟩ := hβ.lower hR (fun x y h => (hE x y h).1)
  have B0 := hβ.nonneg hR
  have M0 := hu.nonneg hR
  have r1 := hR.1
  have r2 := hR.2
  obtain ⟨W, eW⟩ : ∃ W, W = R.xu - R.xl := ⟨_, rfl⟩
  obtain ⟨H, eH⟩ : ∃ H, H = R.yu - R.yl := ⟨_, rfl⟩
  have W0 : 0 < W := by linarith
  have H0 : 0 < H := by linarith
  obtain ⟨C', eC⟩ : ∃ C', C' = (2 / b0 + (1 + (W + H)) ^ 3 * top R b0 B / drop R b0 B) * (B * M) := ⟨_, rfl⟩
  have hC' : 0 ≤ C' := by
    have : 0 ≤ top R b0 B := by unfold top; positivity
    have := drop_pos hR h0 B0
    rw [eC]
    positivity
  refine ⟨M * (W + H) / 4 + 2 * (C' * (W ^ 2 + H ^ 2)) / W + 2 * (C' * (W ^ 2 + H ^ 2)) / H, by positivity, ?_⟩
  intro lap lu N hN opt hc ho t ht d hd
  have hs := FVSolver.shapes lu s hN
  obtain ⟨t1, c1, t3, e1, e2, e3, _⟩ := C20_stages_succeed_functions lap (by omega) hs ho ht (Or.inr ⟨d, hd⟩) f (fun _ x y => (u x y, 1, 0))
  obtain ⟨gs, w, w1, w2, w3, w4⟩ := C84_root_flux lap lu hN hc ho ht hd hR hE f (fun _ x y => (u x y, 1, 0)) e1 e2
  refine ⟨t1, c1, t3, w, e1, e2, w1, w3, ?_⟩
  have hU := C18_global_finite_volume_functions lap lu hN hc ho ht hd hR hE f (fun _ x y => u x y) e1 e2
  have hm : 2 ≤ N * 2 ^ d := hN.trans (Nat.le_mul_of_pos_right _ (by positivity))
  have bound := error_bound hR hE h0 hb hβ hu hf (L := W + H) (by linarith) (by linarith) hm
    (g := dirichletAt R (N * 2 ^ d) (fun _ x y => u x y)) (fun k _ => ⟨rfl, rfl, rfl, rfl⟩) hU
  rw [← eC] at bound
  -- the root boundary values
  have e2' := e2
  unfold Request.run at e2'
  obtain ⟨t2, u2, u3⟩ := Res.bind_eq_ok.mp e2'
  obtain ⟨m, hm0, t3', v3, γ, g1, g2⟩ := C26_dirichlet lap (by omega) hs ho ht (Or.inr ⟨d, hd⟩) e1 u2 (fun _ x y => u x y)
  rw [u3] at v3
  obtain rfl := Res.ok_inj.mp v3
  obtain rfl : m = N * 2 ^ d := by
    have := g1.1
    omega
  have hg : ∀ q, q < 4 → ∀ k, k < N * 2 ^ d → t3.val.g.data.getD (q * (N * 2 ^ d) + k) 0 =
      u (sidePoint R (N * 2 ^ d) q k).1 (sidePoint R (N * 2 ^ d) q k).2 := by
    intro q hq k hk
    rw [Vec.has_iff.mp g1, ← g2 q hq k hk]
    exact getD_listFn (Mat.idx_lt hq hk) 0
  intro q hq k hk
  rw [w4 q hq k hk]
  have key := deriv_near hR hu (by omega : 0 < N * 2 ^ d) bound hq hk
  have ec : deriv R (N * 2 ^ d) (N * 2 ^ d) (Bdry.ofFn (N * 2 ^ d) (fun k => t3.val.g.data.getD k 0)) (gridFn N (·.u) t3) q k =
      deriv R (N * 2 ^ d) (N * 2 ^ d) (trace R (N * 2 ^ d) u) (gridFn N (·.u) t3) q k := by
    refine deriv_congr (by omega) ?_ ?_ ?_ ?_ (fun _ _ _ _ => rfl) hk <;> intro j hj <;> simp only [Bdry.ofFn, trace]
    · have := hg 0 (by omega) j hj
      rwa [zero_mul, zero_add] at this
    · have := hg 1 (by omega) j hj
      rwa [one_mul] at this
    · exact hg 2 (by omega) j hj
    · exact hg 3 (by omega) j hj
  rw [ec]
  refine key.trans (le_of_eq ?_)
  have hmr : ((N * 2 ^ d : Nat) : ℝ) ≠ 0 := by
    have : 0 < N * 2 ^ d := by omega
    exact_mod_cast this.ne'
  unfold hx hy
  rw [← eW, ← eH]
  have em : ((N * 2 ^ d : Nat) : ℝ) = (N : ℝ) * 2 ^ d := by push_cast; ring
  rw [← em]
  generalize ((N * 2 ^ d : Nat) : ℝ) = n at *
  field_simp

/-! ### C85 -/

section
variable {K : Type} [Field K] [LinearOrder K] [IsStrictOrderedRing K] {N : Nat}

/-- The flux differences of a row of cells add up to the difference of the fluxes through its two ends. -/
theorem FV.row_sum {m : Nat} (hm : 0 < m) {a dx gl gr : K} (hd : dx ≠ 0) (β : K → K) (v : Nat → K) :
    ∑ i ∈ range m, (β (a + (i + 1 / 2) * dx + dx / 2) * ((if i + 1 = m then 2 * gr - v i else v (i + 1)) - v i) -
        β (a + (i + 1 / 2) * dx - dx / 2) * (v i - (if i = 0 then 2 * gl - v i else v (i - 1)))) / dx ^ 2 =
      (β (a + m * dx) * ((gr - v (m - 1)) / (dx / 2)) - β a * ((v 0 - gl) / (dx / 2))) / dx := by
  set G : Nat → K := fun i => β (a + i * dx) * (if i = 0 then 2 * (v 0 - gl) else if i = m then 2 * (gr - v (m - 1)) else v i - v (i - 1)) with hG
  have e : ∀ i ∈ range m, (β (a + (i + 1 / 2) * dx + dx / 2) * ((if i + 1 = m then 2 * gr - v i else v (i + 1)) - v i) -
        β (a + (i + 1 / 2) * dx - dx / 2) * (v i - (if i = 0 then 2 * gl - v i else v (i - 1)))) / dx ^ 2 = (G (i + 1) - G i) / dx ^ 2 := by
    intro i hi
    have hi := mem_range.mp hi
    have a1 : a + (i + 1 / 2) * dx + dx / 2 = a + ((i + 1 : Nat) : K) * dx := by push_cast; ring
    have a2 : a + (i + 1 / 2) * dx - dx / 2 = a + (i : K) * dx := by ring
    rw [a1, a2]
    congr 1
    simp only [hG]
    congr 1
    · congr 1
      rw [if_neg (by omega : ¬ i + 1 = 0)]
      split_ifs with h
      · rw [show m - 1 = i by omega]; ring
      · rw [Nat.add_sub_cancel]
    · congr 1
      rw [if_neg (by omega : ¬ i = m)]
      split_ifs with h
      · subst h; ring
      · rfl
  simp only [div_eq_mul_inv _ (dx ^ 2)] at e ⊢
  rw [sum_congr rfl e, ← Finset.sum_mul, Finset.sum_range_sub]
  simp only [hG]
  rw [if_neg (by omega : ¬ m = 0)]
  simp only [if_true, Nat.cast_zero, zero_mul, add_zero]
  field_simp

/-- The discrete divergence theorem for the flux balance. -/
theorem FV.divergence {c : FVSolver K} {R : Rect K} (hR : Proper R) (hc : EllipticOn c R) {m : Nat} (hm : 0 < m) (b : Bdry K) (u : Nat → Nat → K) :
    ∑ i ∈ range m, ∑ j ∈ range m, hx R m * hy R m *
        ((balance c R m m b u i j - c.lambda (cx R m i) (cy R m j) * u i j) / c.alpha (cx R m i) (cy R m j)) =
      ∑ k ∈ range m, hy R m * (c.beta R.xu (cy R m k) * deriv R m m b u 1 k - c.beta R.xl (cy R m k) * deriv R m m b u 0 k) +
        ∑ k ∈ range m, hx R m * (c.beta (cx R m k) R.yu * deriv R m m b u 3 k - c.beta (cx R m k) R.yl * deriv R m m b u 2 k) := by
  have hx0 := hx_pos hR hm
  have hy0 := hy_pos hR hm
  have hxm : (m : K) * hx R m = R.xu - R.xl := by unfold hx; field_simp
  have hym : (m : K) * hy R m = R.yu - R.yl := by unfold hy; field_simp
  have e : ∀ i ∈ range m, ∀ j ∈ range m, hx R m * hy R m *
        ((balance c R m m b u i j - c.lambda (cx R m i) (cy R m j) * u i j) / c.alpha (cx R m i) (cy R m j)) =
      hx R m * hy R m * ((c.beta (cx R m i + hx R m / 2) (cy R m j) * (east m b u i j - u i j) -
          c.beta (cx R m i - hx R m / 2) (cy R m j) * (u i j - west b u i j)) / hx R m ^ 2) +
      hx R m * hy R m * ((c.beta (cx R m i) (cy R m j + hy R m / 2) * (north m b u i j - u i j) -
          c.beta (cx R m i) (cy R m j - hy R m / 2) * (u i j - south b u i j)) / hy R m ^ 2) := by
    intro i hi j hj
    have ha := (hc _ _ (by
      obtain ⟨fx1, fx2⟩ := cx_face hR (mem_range.mp hi)
      obtain ⟨fy1, fy2⟩ := cy_face hR (mem_range.mp hj)
      exact ⟨by linarith, by linarith, by linarith, by linarith⟩ : Inside R (cx R m i) (cy R m j))).2.1
    unfold balance
    dsimp only
    rw [add_sub_cancel_right, mul_div_cancel_left₀ _ ha, mul_add]
  rw [sum_congr rfl (fun i hi => sum_congr rfl (e i hi))]
  simp only [sum_add_distrib]
  congr 1
  · rw [sum_comm]
    refine sum_congr rfl fun j _ => ?_
    rw [← mul_sum]
    have := row_sum hm (a := R.xl) (gl := b.W j) (gr := b.E j) hx0.ne' (fun x => c.beta x (cy R m j)) (fun i => u i j)
    rw [hxm, add_sub_cancel] at this
    refine Eq.trans (congrArg _ this) ?_
    rw [mul_comm (hx R m), mul_assoc, mul_div_cancel₀ _ hx0.ne']
    rfl
  · refine sum_congr rfl fun i _ => ?_
    rw [← mul_sum]
    have := row_sum hm (a := R.yl) (gl := b.S i) (gr := b.N i) hy0.ne' (fun y => c.beta (cx R m i) y) (fun j => u i j)
    rw [hym, add_sub_cancel] at this
    refine Eq.trans (congrArg _ this) ?_
    rw [mul_assoc, mul_div_cancel₀ _ hy0.ne']
    rfl

/-- C85: on a uniformly refined mesh with any boundary conditions, the flux through the boundary of the region, computed from the root
operator, the root boundary values and the root flux vector, equals the load minus the reaction term, both divided by alpha, summed over
all cells. -/
theorem C85_flux_balances_load (lap : Lapack K) (lu : PetscLU K) {s : FVSolver K} (hN : 2 ≤ N) {opt : HPSOptions}
    (hc : opt.cacheOperators = false) (ho : opt.homogeneousRhs = false) {t : Tree (Patch K)} {R : Rect K} (ht : Init N t R)
    {d : Nat} (hu : Uniform d t) (hR : Proper R) (hE : EllipticOn s R) (f : K → K → K) (bc : BoundaryFn K)
    {t1 t3 : Tree (Patch K)} {c1 : Option (Mat K)} (h1 : buildStage lap (s.toPatchSolver lu) opt t none = .ok (t1, c1))
    (h2 : (Request.functions f bc).run lap (s.toPatchSolver lu) opt t1 = .ok t3) {m : Nat} (hm : m = N * 2 ^ d) :
    (t3.val.T.mulVec t3.val.g >>= fun y => y.add t3.val.h).Returns (fun w =>
      ∑ k ∈ range m, hy R m * (s.beta R.xu (cy R m k) * w.data.getD (1 * m + k) 0 - s.beta R.xl (cy R m k) * w.data.getD (0 * m + k) 0) +
        ∑ k ∈ range m, hx R m * (s.beta (cx R m k) R.yu * w.data.getD (3 * m + k) 0 - s.beta (cx R m k) R.yl * w.data.getD (2 * m + k) 0) =
      ∑ i ∈ range m, ∑ j ∈ range m, hx R m * hy R m *
        ((f (cx R m i) (cy R m j) - s.lambda (cx R m i) (cy R m j) * gridFn N (·.u) t3 i j) / s.alpha (cx R m i) (cy R m j))) := by
  subst hm
  obtain ⟨hS, _, w, e, _, _, hw⟩ := root_flux_core lap lu hN hc ho ht hu hR hE f bc h1 h2
  refine ⟨w, e, ?_⟩
  have key := divergence hR hE (by positivity : 0 < N * 2 ^ d) (Bdry.ofFn (N * 2 ^ d) (fun k => t3.val.g.data.getD k 0)) (gridFn N (·.u) t3)
  rw [sum_congr rfl (fun i hi => sum_congr rfl (fun j hj => by rw [hS i (mem_range.mp hi) j (mem_range.mp hj)]))] at key
  rw [key]
  congr 1
  · refine sum_congr rfl fun k hk => ?_
    rw [hw 1 (by omega) k (mem_range.mp hk), hw 0 (by omega) k (mem_range.mp hk)]
  · refine sum_congr rfl fun k hk => ?_
    rw [hw 3 (by omega) k (mem_range.mp hk), hw 2 (by omega) k (mem_range.mp hk)]

end

/-- The hypotheses of `C84_root_flux` and `C85_flux_balances_load` hold for a variable coefficient problem on sixteen patches with Robin
conditions. -/
example (lap : Lapack ℚ) (lu : PetscLU ℚ) : ∃ t1 c1 t3, buildStage lap (exPde.toPatchSolver lu) ⟨false, false⟩
      (freshTree 4 exUniform unitSquare) none = .ok (t1, c1) ∧
    (Request.functions (fun x y => x + y) (fun _ x y => (x * y, 2, 1))).run lap (exPde.toPatchSolver lu) ⟨false, false⟩ t1 = .ok t3 ∧
    (t3.val.T.mulVec t3.val.g >>= fun y => y.add t3.val.h).Returns (fun w => w.data.length = 4 * (4 * 2 ^ 2)) := by
  have hi := freshTree_init (K := ℚ) 4 exUniform unitSquare
  obtain ⟨t1, c1, t3, e1, e2, _⟩ := C20_stages_succeed_functions lap (by omega) (FVSolver.shapes lu exPde (n := 4) (by omega))
    (opt := ⟨false, false⟩) rfl hi (Or.inl (by omega)) (fun x y => x + y) (fun _ x y => (x * y, 2, 1))
  obtain ⟨_, w, a, _, b, _⟩ := C84_root_flux lap lu (by omega) rfl rfl hi (exUniform_uniform 4) exPde_elliptic_unit.1 exPde_elliptic_unit.2
    (fun x y => x + y) (fun _ x y => (x * y, 2, 1)) e1 e2
  exact ⟨t1, c1, t3, e1, e2, w, a, b⟩

/-- The hypotheses of `C84_flux_converges` hold for a problem and a solution that are not polynomials. -/
example : ∃ f, Proper unitSquareR ∧ EllipticOn expPde unitSquareR ∧
    Derivs unitSquareR expPde.beta (fun _ x _ => Real.exp x) (fun k x _ => if k = 0 then Real.exp x else 0) (Real.exp 2) ∧
    Derivs unitSquareR (fun x y => Real.exp (x + y)) (fun _ x y => Real.exp (x + y)) (fun _ x y => Real.exp (x + y)) (Real.exp 2) ∧
    Classical expPde unitSquareR (fun x y => Real.exp (x + y)) (fun _ x y => Real.exp (x + y)) (fun _ x y => Real.exp (x + y))
      (fun _ x _ => Real.exp x) (fun k x _ => if k = 0 then Real.exp x else 0) f :=
  ⟨_, ⟨by norm_num [unitSquareR], by norm_num [unitSquareR]⟩,
    fun x y _ => ⟨Real.exp_pos x, by simp [expPde], by norm_num [expPde]⟩, expPde_beta, expPde_solution, fun _ _ _ => rfl⟩

end EF
