import Verif.Props.Composite
import Verif.Props.Singular

/-!
# The composite discretisation may have other solutions (C100)

The example of C54: with zero load and boundary values one, the constant one solves the composite system, and the run leaves something else.
-/

namespace EF

open Finset FV HPS

variable {K : Type} [Field K] [LinearOrder K] [IsStrictOrderedRing K] {N : Nat}

/-- The same value in all cells. -/
def Pieces.all (a : K) : Pieces Unit → Pieces (Nat → Nat → K)
  | .one _ => .one (fun _ _ => a)
  | .four c0 c1 c2 c3 => .four (all a c0) (all a c1) (all a c2) (all a c3)

omit [LinearOrder K] [IsStrictOrderedRing K] in
theorem Pieces.all_alike (a : K) (c : Pieces Unit) : (Pieces.all a c).Alike c := by
  induction c with
  | one => trivial
  | four c0 c1 c2 c3 i0 i1 i2 i3 => exact ⟨i0, i1, i2, i3⟩

theorem finest_const (k m : Nat) (a : K) (i : Nat) : finest k m (fun _ => a) i = a := by
  induction k generalizing i with
  | zero => rfl
  | succ k ih =>
    have : finest k m (fun _ => a) = fun _ => a := funext ih
    show finer (m * 2 ^ k) (finest k m (fun _ => a)) i = a
    rw [this]
    unfold finer
    split_ifs <;> ring

/-- Without load and zeroth order term a constant solves the composite system. -/
theorem composite_const {s : FVSolver K} (hl : ∀ x y, s.lambda x y = 0) (a : K) (c : Pieces Unit) (R : Rect K) :
    ∃ k, Composite s (fun _ _ => 0) N (Pieces.all a c) R (N * 2 ^ k) (fun _ _ => a) (fun _ _ => 0) := by
  induction c generalizing R with
  | one =>
    refine ⟨0, ?_⟩
    rw [pow_zero, mul_one]
    refine Composite.one ?_ ?_
    · intro i hi j hj
      have e : ∀ x : K, 2 * x - x = x := fun x => by ring
      simp only [balance, hl, east, west, north, south, e, ite_self, sub_self, mul_zero, zero_div, add_zero, zero_mul]
    · intro b hb i hi
      unfold FV.deriv
      split <;> simp
  | four c0 c1 c2 c3 i0 i1 i2 i3 =>
    obtain ⟨k0, h0⟩ := i0 (R.quarter 0)
    obtain ⟨k1, h1⟩ := i1 (R.quarter 1)
    obtain ⟨k2, h2⟩ := i2 (R.quarter 2)
    obtain ⟨k3, h3⟩ := i3 (R.quarter 3)
    let k := pick k0 k1 k2 k3
    let n := min (min (k 0) (k 1)) (min (k 2) (k 3))
    have hk : ∀ d, d < 4 → n ≤ k d := by
      intro d hd
      interval_cases d <;> simp only [n] <;> omega
    have hmin : N * 2 ^ n = min (min (N * 2 ^ k 0) (N * 2 ^ k 1)) (min (N * 2 ^ k 2) (N * 2 ^ k 3)) := by
      have hmono : Monotone (fun x : Nat => N * 2 ^ x) := fun x y h => Nat.mul_le_mul_left _ (Nat.pow_le_pow_right (by omega) h)
      have e1 := hmono.map_min (a := min (k 0) (k 1)) (b := min (k 2) (k 3))
      have e2 := hmono.map_min (a := k 0) (b := k 1)
      have e3 := hmono.map_min (a := k 2) (b := k 3)
      beta_reduce at e1 e2 e3
      rw [e2, e3] at e1
      exact e1
    refine ⟨n + 1, ?_⟩
    have e : N * 2 ^ (n + 1) = 2 * (N * 2 ^ n) := by ring
    rw [e]
    refine Composite.four (n := N * 2 ^ n) (m := fun d => N * 2 ^ k d) (gs := fun _ _ _ => a) (qs := fun _ _ _ => 0)
      (E := ⟨fun _ _ _ => a, fun _ _ _ => a⟩) (Q := ⟨fun _ _ _ => 0, fun _ _ _ => 0⟩) h0 h1 h2 h3 hmin ?_ ?_ ?_ ?_
    · intro d hd
      refine ⟨k d - n, ?_, ?_⟩
      · rw [mul_assoc, ← pow_add, Nat.add_sub_cancel' (hk d hd)]
      · intro b hb i hi
        have : (Edges.mk (fun _ _ _ => a) (fun _ _ _ => a) : Edges K).side d b = fun _ => a := by
          unfold Edges.side
          split <;> rfl
        rw [this, finest_const]
    · intro d hd b hb i hi
      unfold meanOver Edges.side
      split <;> simp
    · intro b hb i hi
      unfold Edges.outer
      split <;> rfl
    · intro b hb i hi
      unfold Edges.outer
      split <;> rfl

theorem all_same {t : Tree (Patch K)} {c : Pieces Unit} {a : K} (h : (Pieces.all a c).Same N (treeCells N t)) :
    ∀ p ∈ t.leaves, LeafIs N (fun _ _ => a) p := by
  induction t generalizing c with
  | leaf q =>
    intro p hp
    cases c with
    | one =>
      simp only [Tree.leaves, List.mem_singleton] at hp
      subst hp
      intro i hi j hj
      exact (h i hi j hj).symm
    | four => exact h.elim
  | node q c0 c1 c2 c3 i0 i1 i2 i3 =>
    cases c with
    | one => exact h.elim
    | four d0 d1 d2 d3 =>
      obtain ⟨h0, h1, h2, h3⟩ := h
      intro p hp
      simp only [Tree.leaves, List.mem_append] at hp
      rcases hp with ((hp | hp) | hp) | hp
      · exact i0 h0 p hp
      · exact i1 h1 p hp
      · exact i2 h2 p hp
      · exact i3 h3 p hp

/-- C100 is false without a condition on the interface systems: for an elliptic problem on a mesh with one refined quarter, zero load and
boundary values one, the composite system has a solution which is not what the run leaves, whatever LAPACK and PETSc do. -/
theorem C100_singular_wrong : ∃ (s : FVSolver ℚ) (t : Tree (Patch ℚ)), Init 3 t unitSquare ∧ Proper unitSquare ∧ EllipticOn s unitSquare ∧
    ∀ (lap : Lapack ℚ) (lu : PetscLU ℚ), ∃ t1 c1 t3, buildStage lap (s.toPatchSolver lu) ⟨false, false⟩ t none = .ok (t1, c1) ∧
      (Request.functions (fun _ _ => 0) (fun _ _ _ => (1, 1, 0))).run lap (s.toPatchSolver lu) ⟨false, false⟩ t1 = .ok t3 ∧
      ∃ (M : Pieces (Nat → Nat → ℚ)) (m : Nat) (q : Nat → Nat → ℚ), M.Alike t.cuts ∧ 0 < m ∧
        Composite s (fun _ _ => 0) 3 M unitSquare m (fun _ _ => 1) q ∧ ¬ M.Same 3 (treeCells 3 t3) := by
  refine ⟨sgPde, freshTree 3 sgShape unitSquare, freshTree_init _ _ _, exPde_elliptic_unit.1, sg_elliptic, ?_⟩
  intro lap lu
  have hs := FVSolver.shapes lu sgPde (n := 3) (by omega)
  have hi := freshTree_init (K := ℚ) 3 sgShape unitSquare
  obtain ⟨t1, c1, t3, h1, h2, _⟩ := C20_stages_succeed_functions lap (by omega) hs (opt := ⟨false, false⟩) rfl hi (Or.inl (le_refl 3))
    (fun _ _ => 0) (fun _ _ _ => (1, 1, 0))
  obtain ⟨k, hM⟩ := composite_const (N := 3) (s := sgPde) (fun _ _ => rfl) (1 : ℚ) (freshTree (K := ℚ) 3 sgShape unitSquare).cuts unitSquare
  refine ⟨t1, c1, t3, h1, h2, _, _, _, Pieces.all_alike 1 _, by positivity, hM, fun hsame => ?_⟩
  have hone := all_same hsame
  have h2' := h2
  unfold Request.run at h2'
  obtain ⟨t2, h2', h3'⟩ := Res.bind_eq_ok.mp h2'
  obtain ⟨m', hm', t3', e3', γ', hg', hγ⟩ := C26_dirichlet lap (by omega) hs (opt := ⟨false, false⟩) rfl hi (Or.inl (le_refl 3)) h1 h2'
    (fun _ _ _ => 1)
  rw [h3'] at e3'
  obtain rfl := Res.ok_inj.mp e3'
  have hf := fun grid => C33_load_sampled (fun _ _ => (0 : ℚ)) grid
  choose φ f1 ψ f2 f3 using hf
  rw [upwardsStageAnalytic_eq lap _ _ f1] at h2'
  have hφ : SetsLoad 3 (fun p => .ok { p with f := φ p.grid }) φ :=
    ⟨fun _ => rfl, fun grid hx hy => by have := f2 grid; rw [hx, hy] at this; exact ⟨this.1, this.2.1.trans this.1.symm⟩⟩
  have hφ0 : ∀ grid : Grid ℚ, grid.nx = 3 → grid.ny = 3 → φ grid = Vec.ofFn 9 (fun _ => 0) := by
    intro grid hx hy
    have a := f2 grid
    have b := f3 grid
    rw [hx, hy] at a b
    have e : ∀ k, k < 9 → ψ grid k = 0 := by
      intro k hk
      have := b (k / 3) (by omega) (k % 3) (by omega)
      rwa [show k % 3 + k / 3 * 3 = k by omega] at this
    rw [Vec.has_iff.mp a]
    exact Vec.ofFn_congr e
  obtain ⟨t1', m, T, e1, b1, s1, _⟩ := buildStage_ok lap hs (opt := ⟨false, false⟩) rfl (by omega) hi (Or.inl (le_refl 3)) none
  rw [h1] at e1
  obtain ⟨rfl, rfl⟩ := Prod.mk.inj (Res.ok_inj.mp e1)
  have hX1 := sg_built lu b1 (s1.trans rfl)
  obtain ⟨t2', h, e2, u2, v2, _, s2, x2⟩ := upwardsStage_okX
    (HP := fun grid f h => (grid.nx = 3 → grid.ny = 3 → f = Vec.ofFn 9 (fun _ => 0)) ∧ HPs 3 (sgPde.toPatchSolver lu) grid f h) lap hs
    ⟨false, false⟩ hφ (fun grid f h a b c e => ⟨fun hx hy => by rw [a]; exact hφ0 grid hx hy, ⟨b, c⟩, e⟩) b1
  rw [h2'] at e2
  obtain rfl := Res.ok_inj.mp e2
  have hr := u2.built.root
  simp only [pow_zero, mul_one, crsN] at hr
  have hv := v2 rfl
  simp only [pow_zero, mul_one] at hv
  have hm0 : 0 < m := by
    obtain ⟨j, hj⟩ := hr.2.2.2.2.2
    rw [hj]; positivity
  obtain ⟨γ, g1, g2⟩ := rootDirichlet_ok lap _ hm0 hr.2.1 hr.2.2.2.2.1 hv
  rw [solveStageAnalytic_eq g1] at h3'
  obtain ⟨t3', e3, v3, s3, x3⟩ := solveStage_okX hs ⟨false, false⟩ (m := m) (bdry := fun p => .ok { p with g := Vec.ofFn (4 * m) γ })
    (γ := fun _ => Vec.ofFn (4 * m) γ) ⟨fun _ => rfl, fun _ _ _ => ⟨rfl, (Vec.has_ofFn _ _).2.1⟩⟩
    (fun _ _ _ h => h.2.1) (fun hom => by cases hom) u2
  rw [h3'] at e3
  obtain rfl := Res.ok_inj.mp e3
  have hsh : t3.shape = sgShape := s3.trans (s2.trans (s1.trans rfl))
  have hX3 : ¬ NonsingularMat t3.val.X := by
    have hx : xs t3 = xs t1 := x3.trans x2
    have hsh1 : t1.shape = sgShape := s1.trans rfl
    cases t3 with
    | leaf => cases hsh
    | node p c0 c1 c2 c3 =>
      cases t1 with
      | leaf => cases hsh1
      | node q d0 d1 d2 d3 =>
        simp only [xs, List.cons.injEq] at hx
        show ¬ NonsingularMat p.X
        rw [hx.1]
        exact hX1
  have hg := v3.root_g
  simp only [pow_zero, mul_one, proN] at hg
  have hB : ∀ a, a < 4 → ∀ i, i < m → toBv m (fun k => (Vec.ofFn (4 * m) γ).data.getD k 0) a i = 1 := by
    intro a ha i hi
    have e1 := Vec.has_iff.mp hg'
    have e0 := hg'.1
    rw [hg] at e0 e1
    have em : m' = m := by
      have := (bv_has m 4 (toBv m (fun k => (Vec.ofFn (4 * m) γ).data.getD k 0))).1
      omega
    subst em
    have h1 := congrArg (fun v : Vec ℚ => v.data.getD (a * m' + i) 0) e1
    simp only [bv, Vec.ofFn] at h1
    rw [getD_listFn (by have := Mat.idx_lt ha hi; omega) 0, getD_listFn (Mat.idx_lt ha hi) 0] at h1
    rw [hγ a ha i hi, Mat.idx_div hi, Mat.idx_mod hi] at h1
    exact h1
  obtain ⟨p, hp, hno⟩ := sg_not_one lu v3 hsh hX3 hB
  exact hno (hone p hp)

end EF
