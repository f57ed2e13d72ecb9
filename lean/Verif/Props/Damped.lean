import Verif.Proofs.Reaction
import Verif.Props.Exact
import Verif.Props.Gauss
import Verif.Props.Singular

/-!
# Adaptive meshes when the reaction term dominates

C86, and what it adds to C27, C28, C29 and C85: those hold on adaptive meshes whose interface systems are nonsingular.
-/

namespace EF

open Finset FV HPS

variable {K : Type} [Field K] [LinearOrder K] [IsStrictOrderedRing K] {N : Nat}

theorem HPS.low_shape {P : Type} (t : Tree P) : low t.shape = low t := by
  induction t with
  | leaf => rfl
  | node p c0 c1 c2 c3 i0 i1 i2 i3 => simp only [Tree.shape, low, i0, i1, i2, i3]

theorem HPS.high_shape {P : Type} (t : Tree P) : high t.shape = high t := by
  induction t with
  | leaf => rfl
  | node p c0 c1 c2 c3 i0 i1 i2 i3 => simp only [Tree.shape, high, i0, i1, i2, i3]

/-- The reaction term dominates the diffusion across the finest cells of the mesh, up to a factor for each level by which the leaves
differ; and if they differ by two levels or more, patches can be halved that often. -/
def HPS.Dominated (N : Nat) (s : FVSolver K) (R : Rect K) (t : Tree (Patch K)) : Prop :=
  (∃ B Λ, Damped s R B Λ ∧ 6 * B * (17 / 8) ^ (high t - low t) * (1 / hx R (N * 2 ^ high t) ^ 2 + 1 / hy R (N * 2 ^ high t) ^ 2) < Λ) ∧
    (high t ≤ low t + 1 ∨ 2 ^ (high t - low t) ∣ N)

/-- The operator of the root is close to a diagonal one, and no interface system is singular. -/
theorem HPS.Dominated.both (lu : PetscLU K) {s : FVSolver K} (hN : 3 ≤ N) {t : Tree (Patch K)} {R : Rect K} (hd : Dominated N s R t) (hR : Proper R)
    (hE : EllipticOn s R) {t1 : Tree (Patch K)} {m : Nat} {T : Blk K} (b1 : Built N (LPs N (s.toPatchSolver lu)) t1 R 0 m T)
    (es : t1.shape = t.shape) :
    (∃ (d : Nat → Nat → K) (e : K), 3 * e < 1 ∧ Near m T d e ∧ ∀ p, p < 4 → ∀ i, i < m → 0 < d p i) ∧
      Branches (fun p => NonsingularMat p.X) t1 := by
  obtain ⟨⟨B, Λ, hD, hl⟩, hv⟩ := hd
  have eh : high t1 = high t := by rw [← high_shape t1, es, high_shape]
  have el : low t1 = low t := by rw [← low_shape t1, es, low_shape]
  have hB : 0 ≤ B := by
    have h1 := hR.1
    have h2 := hR.2
    exact ((hE R.xl R.yl ⟨le_rfl, h1.le, le_rfl, h2.le⟩).1.trans_le (hD R.xl R.yl ⟨le_rfl, h1.le, le_rfl, h2.le⟩).1).le
  have hpos : 0 < N * 2 ^ high t := by positivity
  have hx0 := hx_pos hR hpos
  have hy0 := hy_pos hR hpos
  have hw : 0 ≤ widths R (N * 2 ^ high t) := by unfold widths; positivity
  have hΛ : 0 < Λ := lt_of_le_of_lt (by positivity) hl
  have h3 : 3 * ((17 / 8) ^ (high t - low t) * (2 * B * widths R (N * 2 ^ high t) / Λ)) < 1 := by
    have : 3 * ((17 / 8) ^ (high t - low t) * (2 * B * widths R (N * 2 ^ high t) / Λ)) =
        6 * B * (17 / 8) ^ (high t - low t) * widths R (N * 2 ^ high t) / Λ := by ring
    rw [this, div_lt_one hΛ]
    exact hl
  obtain ⟨⟨d, k1, k2, _⟩, k3⟩ := b1.near lu hN (e := 2 * B * widths R (N * 2 ^ high t) / Λ) (by positivity) hB hR hE hD (H := high t) eh.le
    (by rw [div_mul_cancel₀ _ hΛ.ne']) (E := high t - low t) (a := 0) (by rw [eh, el]; have := low_le_high t; omega) h3
    (by rw [zero_add]; exact hv.imp (by omega) id) (Or.inl rfl)
  simp only [pow_zero, mul_one] at k1 k2
  exact ⟨⟨d, _, h3, k1, k2⟩, k3⟩

theorem HPS.Dominated.near (lu : PetscLU K) {s : FVSolver K} (hN : 3 ≤ N) {t : Tree (Patch K)} {R : Rect K} (hd : Dominated N s R t) (hR : Proper R)
    (hE : EllipticOn s R) {t1 : Tree (Patch K)} {m : Nat} {T : Blk K} (b1 : Built N (LPs N (s.toPatchSolver lu)) t1 R 0 m T)
    (es : t1.shape = t.shape) : ∃ (d : Nat → Nat → K) (e : K), 3 * e < 1 ∧ Near m T d e ∧ ∀ p, p < 4 → ∀ i, i < m → 0 < d p i :=
  (hd.both lu hN hR hE b1 es).1

/-- C86: no interface system is singular. -/
theorem C86_nonsingular (lap : Lapack K) (lu : PetscLU K) {s : FVSolver K} (hN : 3 ≤ N) {opt : HPSOptions} (hc : opt.cacheOperators = false)
    {t : Tree (Patch K)} {R : Rect K} (ht : Init N t R) (hR : Proper R) (hE : EllipticOn s R) (hd : Dominated N s R t)
    {t1 : Tree (Patch K)} {c1 : Option (Mat K)} (h1 : buildStage lap (s.toPatchSolver lu) opt t none = .ok (t1, c1)) :
    Branches (fun p => NonsingularMat p.X) t1 := by
  obtain ⟨t1', m, T, e1, b1, es, _⟩ := buildStage_ok lap (FVSolver.shapes lu s (n := N) (by omega)) hc (by omega) ht (Or.inl hN) none
  rw [h1] at e1
  obtain ⟨rfl, rfl⟩ := Prod.mk.inj (Res.ok_inj.mp e1)
  exact (hd.both lu hN hR hE b1 es).2

/-- C86: constants are reproduced exactly, for any `beta`. -/
theorem C86_constant_exact (lap : Lapack K) (lu : PetscLU K) {s : FVSolver K} (hN : 3 ≤ N) {opt : HPSOptions}
    (hc : opt.cacheOperators = false) (ho : opt.homogeneousRhs = false) {t : Tree (Patch K)} {R : Rect K} (ht : Init N t R)
    (hR : Proper R) (hE : EllipticOn s R) (hd : Dominated N s R t) (a : K)
    {t1 t3 : Tree (Patch K)} {c1 : Option (Mat K)} (h1 : buildStage lap (s.toPatchSolver lu) opt t none = .ok (t1, c1))
    (h2 : (Request.functions (fun x y => s.lambda x y * a) (fun _ _ _ => (a, 1, 0))).run lap (s.toPatchSolver lu) opt t1 = .ok t3) :
    ∀ p ∈ t3.leaves, LeafIs N (fun _ _ => a) p := by
  have := functions_linear lap lu (by omega) hc ho ht (Or.inl hN) hR hE (a := a) (b := 0) (c := 0) (fun _ _ _ _ => by simp)
    (fun _ _ _ _ => by simp) (f := fun x y => s.lambda x y * a) (fun x y => by simp) (r := fun _ _ _ => a) (fun _ _ _ => by simp) h1 h2
    (C86_nonsingular lap lu hN hc ht hR hE hd h1)
  simpa using this

/-- C28 on adaptive meshes: with constant beta, linear solutions are reproduced exactly. -/
theorem C28_linear_exact_damped (lap : Lapack K) (lu : PetscLU K) {s : FVSolver K} (hN : 3 ≤ N) {opt : HPSOptions}
    (hc : opt.cacheOperators = false) (ho : opt.homogeneousRhs = false) {t : Tree (Patch K)} {R : Rect K} (ht : Init N t R)
    (hR : Proper R) (hE : EllipticOn s R) (hd : Dominated N s R t) {β : K} (hβ : ∀ x y, s.beta x y = β) (a b c : K)
    {f : K → K → K} (hf : ∀ x y, f x y = s.lambda x y * (a + b * x + c * y)) {t1 t3 : Tree (Patch K)} {c1 : Option (Mat K)}
    (h1 : buildStage lap (s.toPatchSolver lu) opt t none = .ok (t1, c1))
    (h2 : (Request.functions f (fun _ x y => (a + b * x + c * y, 1, 0))).run lap (s.toPatchSolver lu) opt t1 = .ok t3) :
    ∀ p ∈ t3.leaves, LeafIs N (fun x y => a + b * x + c * y) p :=
  C28_linear_exact_partial lap lu (by omega) hc ho ht (Or.inl hN) hR hE hβ a b c hf h1 h2 (C86_nonsingular lap lu hN hc ht hR hE hd h1)

/-- C29 on adaptive meshes: the flux is conserved across every interface. -/
theorem C29_flux_conserved_damped (lap : Lapack K) (lu : PetscLU K) {s : FVSolver K} (hN : 3 ≤ N) {opt : HPSOptions}
    (hc : opt.cacheOperators = false) {t : Tree (Patch K)} {R : Rect K} (ht : Init N t R) (hR : Proper R) (hE : EllipticOn s R)
    (hd : Dominated N s R t) {d : Data K} (hs : d.Sized) {t1 t3 : Tree (Patch K)} {c1 : Option (Mat K)}
    (h1 : buildStage lap (s.toPatchSolver lu) opt t none = .ok (t1, c1)) (h2 : run lap (s.toPatchSolver lu) opt d t1 = .ok t3) :
    Conserved N (leafDeriv N) t3 :=
  C29_flux_conserved_partial lap lu (by omega) hc ht (Or.inl hN)
    (fun p hp => unique_of_elliptic (ht.elliptic hR hE p hp).1 (ht.elliptic hR hE p hp).2 N N) hs h1 h2 (C86_nonsingular lap lu hN hc ht hR hE hd h1)

/-- C85 on adaptive meshes: with constant beta, the flux through the boundary balances the load. -/
theorem C85_adaptive_damped (lap : Lapack K) (lu : PetscLU K) {s : FVSolver K} {b : K} (hb : ∀ x y, s.beta x y = b) (hN : 3 ≤ N)
    {opt : HPSOptions} (hc : opt.cacheOperators = false) (ho : opt.homogeneousRhs = false) {t : Tree (Patch K)} {R : Rect K} (ht : Init N t R)
    (hR : Proper R) (hE : EllipticOn s R) (hd : Dominated N s R t) (f : K → K → K) (bc : BoundaryFn K)
    {t1 t3 : Tree (Patch K)} {c1 : Option (Mat K)} (h1 : buildStage lap (s.toPatchSolver lu) opt t none = .ok (t1, c1))
    (h2 : (Request.functions f bc).run lap (s.toPatchSolver lu) opt t1 = .ok t3) :
    ∃ m, 0 < m ∧ t3.val.g.size = 4 * m ∧ (t3.val.T.mulVec t3.val.g >>= fun y => y.add t3.val.h).Returns (fun w =>
      ∑ k ∈ range m, hy R m * (b * w.data.getD (1 * m + k) 0 - b * w.data.getD (0 * m + k) 0) +
        ∑ k ∈ range m, hx R m * (b * w.data.getD (3 * m + k) 0 - b * w.data.getD (2 * m + k) 0) =
      (t3.leaves.map (leafSource N s f)).sum) :=
  C85_adaptive_partial lap lu hb (by omega) hc ho ht (Or.inl hN) hR hE f bc h1 h2 (C86_nonsingular lap lu hN hc ht hR hE hd h1)

/-- A mesh with leaves on the levels one, two and three. -/
def exThree : Tree Unit :=
  .node () (.leaf ()) (.node () (.leaf ()) (.leaf ()) (.node () (.leaf ()) (.leaf ()) (.leaf ()) (.leaf ())) (.leaf ())) (.leaf ()) (.leaf ())

/-- A problem with variable coefficients on it. -/
def exThreePde : FVSolver ℚ := ⟨fun _ _ => 2, fun x _ => 1 + x, fun _ y => -600000 - y * y⟩

theorem exThree_elliptic : EllipticOn exThreePde unitSquare := by
  intro x y h
  have h1 : (0 : ℚ) ≤ x := h.1
  refine ⟨by simp only [exThreePde]; linarith, by norm_num [exThreePde], div_nonpos_of_nonpos_of_nonneg ?_ (by norm_num [exThreePde])⟩
  simp only [exThreePde]
  nlinarith [mul_self_nonneg y]

theorem exThree_dominated : Dominated 4 exThreePde unitSquare (freshTree 4 exThree unitSquare) := by
  have e1 : high (freshTree (K := ℚ) 4 exThree unitSquare) = 3 := rfl
  have e2 : low (freshTree (K := ℚ) 4 exThree unitSquare) = 1 := rfl
  refine ⟨⟨2, 300000, ?_, ?_⟩, Or.inr ?_⟩
  · intro x y h
    have h1 : x ≤ (1 : ℚ) := h.2.1
    refine ⟨by simp only [exThreePde]; linarith, ?_⟩
    simp only [exThreePde]
    rw [div_le_iff₀ (by norm_num)]
    nlinarith [mul_self_nonneg y]
  · rw [e1, e2]
    norm_num [hx, hy, unitSquare]
  · rw [e1, e2]
    norm_num

/-- The hypotheses hold for it. -/
example (lap : Lapack ℚ) (lu : PetscLU ℚ) :
    ∃ t1 c1, buildStage lap (exThreePde.toPatchSolver lu) ⟨false, false⟩ (freshTree 4 exThree unitSquare) none = .ok (t1, c1) ∧
      Branches (fun p => NonsingularMat p.X) t1 ∧ ¬ ∃ d, Uniform d t1 := by
  have hi := freshTree_init (K := ℚ) 4 exThree unitSquare
  obtain ⟨t1, m, T, e, b1, es, _⟩ := buildStage_ok lap (FVSolver.shapes lu exThreePde (n := 4) (by omega)) (opt := ⟨false, false⟩) rfl
    (by omega) hi (Or.inl (by omega)) none
  refine ⟨t1, none, e, C86_nonsingular lap lu (by omega) rfl hi exPde_elliptic_unit.1 exThree_elliptic exThree_dominated e, ?_⟩
  rintro ⟨d, hu⟩
  have u := uniform_shape.mpr hu
  rw [es] at u
  cases u with
  | node _ u0 u1 _ _ =>
    cases u0
    cases u1
end EF
