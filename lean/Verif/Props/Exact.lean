import Verif.Proofs.Linear
import Verif.Props.Global

/-!
# Constants and linear functions on adaptive meshes (C27, C28)
-/

namespace EF

open Finset FV HPS

variable {K : Type} [Field K] {N : Nat}

section
variable [CharZero K]

/-- A linear function solves the discretised equation on a rectangle if `beta` is constant or the function is. -/
theorem HPS.solves_linear {s : FVSolver K} {a b c : K} (hb : ∀ x y x' y', s.beta x y * b = s.beta x' y' * b)
    (hc : ∀ x y x' y', s.beta x y * c = s.beta x' y' * c) {R : Rect K} {n : Nat} (hn : 0 < n) {f : Nat → Nat → K}
    (hf : ∀ i, i < n → ∀ j, j < n → f i j = s.lambda (cx R n i) (cy R n j) * (a + b * cx R n i + c * cy R n j)) :
    Solves s R n n (ofB (smp a b c R n)) f (fun i j => a + b * cx R n i + c * cy R n j) := by
  intro i hi j hj
  have h0 : (n : K) ≠ 0 := by exact_mod_cast hn.ne'
  have eE : east n (ofB (smp a b c R n)) (fun i j => a + b * cx R n i + c * cy R n j) i j
      - (a + b * cx R n i + c * cy R n j) = b * hx R n := by
    unfold east ofB
    split_ifs with h
    · simp only [smp_1]
      obtain ⟨i', rfl⟩ : ∃ i', n = i' + 1 := ⟨i, h.symm⟩
      obtain rfl : i = i' := by omega
      unfold cx hx
      push_cast at h0 ⊢
      field_simp
      ring
    · unfold cx; push_cast; ring
  have eW : (a + b * cx R n i + c * cy R n j)
      - west (ofB (smp a b c R n)) (fun i j => a + b * cx R n i + c * cy R n j) i j = b * hx R n := by
    unfold west ofB
    split_ifs with h
    · subst h
      simp only [smp_0]
      unfold cx
      push_cast; ring
    · obtain ⟨i', rfl⟩ : ∃ i', i = i' + 1 := ⟨i - 1, by omega⟩
      simp only [Nat.add_sub_cancel]
      unfold cx; push_cast; ring
  have eN : north n (ofB (smp a b c R n)) (fun i j => a + b * cx R n i + c * cy R n j) i j
      - (a + b * cx R n i + c * cy R n j) = c * hy R n := by
    unfold north ofB
    split_ifs with h
    · simp only [smp_3]
      obtain ⟨i', rfl⟩ : ∃ i', n = i' + 1 := ⟨j, h.symm⟩
      obtain rfl : j = i' := by omega
      unfold cy hy
      push_cast at h0 ⊢
      field_simp
      ring
    · unfold cy; push_cast; ring
  have eS : (a + b * cx R n i + c * cy R n j)
      - south (ofB (smp a b c R n)) (fun i j => a + b * cx R n i + c * cy R n j) i j = c * hy R n := by
    unfold south ofB
    split_ifs with h
    · subst h
      simp only [smp_2]
      unfold cy
      push_cast; ring
    · obtain ⟨i', rfl⟩ : ∃ i', j = i' + 1 := ⟨j - 1, by omega⟩
      simp only [Nat.add_sub_cancel]
      unfold cy; push_cast; ring
  unfold balance
  simp only [eE, eW, eN, eS]
  rw [hf i hi j hj]
  have e1 := hb (cx R n i + hx R n / 2) (cy R n j) (cx R n i - hx R n / 2) (cy R n j)
  have e2 := hc (cx R n i) (cy R n j + hy R n / 2) (cx R n i) (cy R n j - hy R n / 2)
  rw [← mul_assoc, ← mul_assoc, ← mul_assoc, ← mul_assoc, e1, e2, sub_self, sub_self]
  simp

/-- Derivatives of a linear function at the boundary. -/
theorem HPS.deriv_linear (a b c : K) {R : Rect K} {n : Nat} (hn : 0 < n) (hhx : hx R n ≠ 0) (hhy : hy R n ≠ 0) {s : Nat} (hs : s < 4)
    (i : Nat) : deriv R n n (ofB (smp a b c R n)) (fun i j => a + b * cx R n i + c * cy R n j) s i = slope b c s := by
  have h0 : (n : K) ≠ 0 := by exact_mod_cast hn.ne'
  have hxe : R.xu = R.xl + n * hx R n := by unfold hx; field_simp; ring
  have hye : R.yu = R.yl + n * hy R n := by unfold hy; field_simp; ring
  obtain ⟨n', rfl⟩ : ∃ n', n = n' + 1 := ⟨n - 1, by omega⟩
  interval_cases s
  · simp only [deriv, ofB, smp_0, slope, if_pos (show (0 : Nat) < 2 by omega)]
    rw [div_eq_iff (by simpa using hhx)]
    unfold cx; push_cast; ring
  · simp only [deriv, ofB, smp_1, slope, if_pos (show (1 : Nat) < 2 by omega), hxe, Nat.add_sub_cancel]
    rw [div_eq_iff (by simpa using hhx)]
    unfold cx; push_cast; ring
  · simp only [deriv, ofB, smp_2, slope, if_neg (show ¬ (2 : Nat) < 2 by omega)]
    rw [div_eq_iff (by simpa using hhy)]
    unfold cy; push_cast; ring
  · simp only [deriv, ofB, smp_3, slope, if_neg (show ¬ (3 : Nat) < 2 by omega), hye, Nat.add_sub_cancel]
    rw [div_eq_iff (by simpa using hhy)]
    unfold cy; push_cast; ring

end

variable [LinearOrder K] [IsStrictOrderedRing K]

/-- Every cell value of the leaf is the value of `u` at the cell centre. -/
def HPS.LeafIs (N : Nat) (u : K → K → K) (p : Patch K) : Prop :=
  ∀ i, i < N → ∀ j, j < N → p.u.data.getD (j + i * N) 0 = u (cx (rect p.grid) N i) (cy (rect p.grid) N j)

/-- The three stages applied to data of a linear function. -/
theorem HPS.solve_linear (lap : Lapack K) (lu : PetscLU K) {s : FVSolver K} (hN : 2 ≤ N) {opt : HPSOptions}
    (hc : opt.cacheOperators = false) {t : Tree (Patch K)} {R : Rect K} (ht : Init N t R)
    (h3N : 3 ≤ N ∨ ∃ d, Uniform d t) (hR : Proper R) (hE : EllipticOn s R) {a b c : K}
    (ho : opt.homogeneousRhs = false ∨ ∀ x y, s.lambda x y = 0)
    (hb : ∀ x y x' y', s.beta x y * b = s.beta x' y' * b) (hc' : ∀ x y x' y', s.beta x y * c = s.beta x' y' * c)
    {rhs : Patch K → Res (Patch K)} {φ : Grid K → Vec K} (hφ : SetsLoad N rhs φ)
    (hl : ∀ grid, grid.nx = N → grid.ny = N → ∀ i, i < N → ∀ j, j < N → (φ grid).data.getD (j + i * N) 0 =
      s.lambda (cx (rect grid) N i) (cy (rect grid) N j) * (a + b * cx (rect grid) N i + c * cy (rect grid) N j))
    {bdry : Patch K → Res (Patch K)} {γ : Patch K → Vec K}
    {t1 t2 t3 : Tree (Patch K)} {c1 : Option (Mat K)}
    (h1 : buildStage lap (s.toPatchSolver lu) opt t none = .ok (t1, c1))
    (h2 : upwardsStage lap (s.toPatchSolver lu) opt rhs t1 = .ok t2)
    (h3 : solveStage (s.toPatchSolver lu) opt bdry t2 = .ok t3)
    (hγ : ∀ m, t2.val.grid = ⟨m, m, R.xl, R.xu, R.yl, R.yu⟩ → SetsBoundary m bdry γ ∧
      ∀ side, side < 4 → ∀ i, i < m → (γ t2.val).data.getD (side * m + i) 0 = smp a b c R m side i)
    (hX : Branches (fun p => NonsingularMat p.X) t1) :
    ∀ p ∈ t3.leaves, LeafIs N (fun x y => a + b * x + c * y) p := by
  have hs := FVSolver.shapes lu s hN
  obtain ⟨t1', m, T, e1, b1, s1, hm⟩ := buildStage_ok lap hs hc (by omega) ht h3N none
  rw [h1] at e1
  obtain ⟨rfl, rfl⟩ := Prod.mk.inj (Res.ok_inj.mp e1)
  have b2 := b1.leaves (P := fun grid => Unique s (rect grid) N N ∧ FV.hx (rect grid) N ≠ 0 ∧ FV.hy (rect grid) N ≠ 0) (by
    rw [buildStage_leaves h1]
    intro grid hg
    obtain ⟨p, hp, rfl⟩ := List.mem_map.mp hg
    obtain ⟨q1, q2⟩ := ht.elliptic hR hE p hp
    exact ⟨unique_of_elliptic q1 q2 N N, (hx_pos q1 (by omega)).ne', (hy_pos q1 (by omega)).ne'⟩)
  obtain ⟨t2', h, e2, u2, _, _, s2, x2⟩ := upwardsStage_okX
    (HP := fun grid f h => (f.size = N * N ∧ f.WF) ∧ (grid.nx = N → grid.ny = N →
      (∀ i, i < N → ∀ j, j < N → f.data.getD (j + i * N) 0 =
        s.lambda (cx (rect grid) N i) (cy (rect grid) N j) * (a + b * cx (rect grid) N i + c * cy (rect grid) N j)) ∧
      (Unique s (rect grid) N N → (s.toPatchSolver lu).particularNeumannData grid f = .ok (bv N 4 h)))) lap hs opt hφ
    (fun grid f h a b c d => ⟨⟨b, c⟩, fun hx hy => ⟨by rw [a]; exact hl grid hx hy, fun _ => d⟩⟩) b2
  rw [h2] at e2
  obtain rfl := Res.ok_inj.mp e2
  have hr := u2.built.root
  simp only [pow_zero, mul_one] at hr
  obtain ⟨_, r1, r2, ⟨r3, r4, r5, r6⟩, _⟩ := hr
  have hgrid : t2.val.grid = ⟨m, m, R.xl, R.xu, R.yl, R.yu⟩ := by
    cases hg : t2.val.grid
    rw [hg] at r1 r2 r3 r4 r5 r6
    simp only at *
    subst_vars
    rfl
  obtain ⟨hγ1, hγ2⟩ := hγ m hgrid
  obtain ⟨t3', e3, v3, s3, x3⟩ := solveStage_okX hs opt hγ1 (fun _ _ _ h => h.1)
    (fun hom grid _ _ => ⟨⟨rfl, by simp [Vec.WF, Vec.fill]⟩, fun hx hy => ⟨by
      intro i hi j hj
      rcases ho with ho | ho
      · rw [ho] at hom; cases hom
      · rw [ho, zero_mul, Vec.fill_eq (N * N)]
        exact getD_listFn (FVSolver.idx_lt hi hj) 0, fun hq => by
      obtain ⟨H, H1, H2⟩ := (FVSolver.linearLeaf lu s hN hx hy hq).flux'
      rw [Vec.fill_eq (N * N), H1]
      congr 1
      unfold bv
      refine Vec.ofFn_congr fun i hi => ?_
      have := H2 0 0 (fun _ => 0) (fun _ => 0) i hi
      simpa using this⟩⟩) u2
  rw [h3] at e3
  obtain rfl := Res.ok_inj.mp e3
  rw [branches_xs, ← x2, ← x3, ← branches_xs] at hX
  refine (v3.linear a b c (LeafIs N (fun x y => a + b * x + c * y)) ?_ ?_ hX).2 ?_
  · rintro grid T f h hx hy ⟨hL, hq, hhx, hhy⟩ ⟨hf, hH⟩ side hside i hi
    obtain ⟨hl', hH⟩ := hH hx hy
    have := leaf_trueOp lu s hN hx hy hq hL ⟨hf, hH hq⟩ (smp a b c (rect grid) N) _ (solves_linear hb hc' (by omega) hl') side hside i hi
    rw [deriv_linear a b c (by omega) hhx hhy hside] at this
    exact this.symm
  · rintro p g hx hy ⟨T, hL, hq, hhx, hhy⟩ ⟨h, hf, hH⟩ hu hg i hi j hj
    obtain ⟨hl', hH⟩ := hH hx hy
    obtain ⟨f1, f2⟩ := hf
    have hφ : p.f = Vec.ofFn (N * N) _ := Vec.has_iff.mp (has_of_wf f1 f2)
    obtain ⟨V, v1, v2⟩ := FVSolver.solve_ok lu s hN hx hy (fun k => g (k / N) (k % N)) (fun i => p.f.data.getD i 0)
    have hu' : s.solve lu p.grid (bv N 4 g) p.f = .ok p.u := hu
    have e1 : bv N 4 g = Vec.ofFn (4 * N) (fun k => g (k / N) (k % N)) := rfl
    rw [e1, hφ] at hu'
    rw [v1] at hu'
    have eu := (Res.ok_inj.mp hu').symm
    obtain ⟨cW, cE, cS, cN⟩ := flat_ofB (n := N) (by omega) g
    have hV := (v2 hq).congr cW cE cS cN (fun _ _ _ _ => rfl) (fun _ _ _ _ => rfl)
    have hV' := hV.congr (b' := ofB (smp a b c (rect p.grid) N)) (hg 0 (by omega)) (hg 1 (by omega)) (hg 2 (by omega)) (hg 3 (by omega))
      (fun _ _ _ _ => rfl) (fun _ _ _ _ => rfl)
    have := hq _ _ _ _ hV' (solves_linear hb hc' (by omega) hl') i hi j hj
    rw [eu]
    exact (getD_listFn (FVSolver.idx_lt hi hj) 0).trans this
  · intro side hside i hi
    rw [← hγ2 side hside i hi]
    rfl

/-- Loads sampled by `upwardsStage` at the cell centres of a leaf. -/
theorem HPS.sampled_at {f : K → K → K} {φ : Grid K → Vec K} (hφ : ∀ grid, sampleLoad f grid = .ok (φ grid)) {grid : Grid K}
    (hx : grid.nx = N) (hy : grid.ny = N) {i j : Nat} (hi : i < N) (hj : j < N) :
    (φ grid).data.getD (j + i * N) 0 = f (cx (rect grid) N i) (cy (rect grid) N j) := by
  obtain ⟨F, h1, ψ, h2, h3⟩ := C33_load_sampled f grid
  rw [hφ] at h1
  obtain rfl := Res.ok_inj.mp h1
  rw [hx, hy] at h3 h2
  rw [← h3 i hi j hj, Vec.has_iff.mp h2]
  exact getD_listFn (FVSolver.idx_lt hi hj) 0

/-- The three stages with load and Dirichlet values of a linear function. -/
theorem HPS.functions_linear (lap : Lapack K) (lu : PetscLU K) {s : FVSolver K} (hN : 2 ≤ N) {opt : HPSOptions}
    (hc : opt.cacheOperators = false) (ho : opt.homogeneousRhs = false) {t : Tree (Patch K)} {R : Rect K} (ht : Init N t R)
    (h3N : 3 ≤ N ∨ ∃ d, Uniform d t) (hR : Proper R) (hE : EllipticOn s R) {a b c : K}
    (hb : ∀ x y x' y', s.beta x y * b = s.beta x' y' * b) (hc' : ∀ x y x' y', s.beta x y * c = s.beta x' y' * c)
    {f : K → K → K} (hf : ∀ x y, f x y = s.lambda x y * (a + b * x + c * y))
    {r : Nat → K → K → K} (hr : ∀ side x y, r side x y = a + b * x + c * y)
    {t1 t3 : Tree (Patch K)} {c1 : Option (Mat K)}
    (h1 : buildStage lap (s.toPatchSolver lu) opt t none = .ok (t1, c1))
    (h2 : (Request.functions f (fun s x y => (r s x y, 1, 0))).run lap (s.toPatchSolver lu) opt t1 = .ok t3)
    (hX : Branches (fun p => NonsingularMat p.X) t1) :
    ∀ p ∈ t3.leaves, LeafIs N (fun x y => a + b * x + c * y) p := by
  have hs := FVSolver.shapes lu s hN
  unfold Request.run at h2
  obtain ⟨t2, e2, e3⟩ := Res.bind_eq_ok.mp h2
  obtain ⟨φ, f1, f2⟩ := sampleLoad_fn f
  have e2' := e2
  rw [upwardsStageAnalytic_eq lap _ opt f1] at e2
  have hφ : SetsLoad N (fun p => .ok { p with f := φ p.grid }) φ :=
    ⟨fun _ => rfl, fun grid hx hy => by have := f2 grid; rwa [hx, hy] at this⟩
  obtain ⟨m, hm, t3', e3', γ, g1, g2⟩ := C26_dirichlet lap (by omega) hs ho ht h3N h1 e2' r
  rw [e3] at e3'
  obtain rfl := Res.ok_inj.mp e3'
  have e3'' := e3
  unfold solveStageAnalytic at e3
  obtain ⟨g, e4, e5⟩ := Res.bind_eq_ok.mp e3
  rw [solveStageAnalytic_eq e4] at e3''
  obtain ⟨t1', m', T, b0, b1, s1, hm'⟩ := buildStage_ok lap hs hc (by omega) ht h3N none
  rw [h1] at b0
  obtain ⟨rfl, rfl⟩ := Prod.mk.inj (Res.ok_inj.mp b0)
  obtain ⟨t2', h, x2, u2, v2, _, s2⟩ := upwardsStage_ok (HP := HP0 N) lap hs opt hφ (fun grid f h a b _ => ⟨a, b⟩) b1
  rw [e2] at x2
  obtain rfl := Res.ok_inj.mp x2
  have hroot := u2.built.root
  simp only [pow_zero, mul_one, crsN] at hroot
  have hv := v2 ho
  simp only [pow_zero, mul_one] at hv
  have hm0 : 0 < m' := by
    obtain ⟨j, hj⟩ := hroot.2.2.2.2.2
    rw [hj]; positivity
  obtain ⟨γ', w1, _⟩ := rootDirichlet_ok lap (fun s x y => (r s x y, 1, 0)) hm0 hroot.2.1 hroot.2.2.2.2.1 hv
  rw [e4] at w1
  obtain rfl := Res.ok_inj.mp w1
  have hset : SetsBoundary m' (fun p => Res.ok { p with g := Vec.ofFn (4 * m') γ' }) (fun _ => Vec.ofFn (4 * m') γ') :=
    ⟨fun _ => rfl, fun _ _ _ => ⟨rfl, (Vec.has_ofFn _ _).2.1⟩⟩
  -- the data given to the root
  obtain ⟨t3', e6, v6, _⟩ := solveStage_ok hs opt hset (HP := HP0 N) (fun _ _ _ h => h)
    (fun hom => by rw [ho] at hom; cases hom) u2
  rw [e3''] at e6
  obtain rfl := Res.ok_inj.mp e6
  have k2 := v6.root_g
  have k3 : t3.val.g = Vec.ofFn (4 * m') γ' := by
    simp only [pow_zero, mul_one, proN] at k2
    rw [k2]
    unfold bv
    refine Vec.ofFn_congr fun i hi => ?_
    unfold toBv
    have e : i / m' * m' + i % m' = i := Nat.div_add_mod' i m'
    rw [e]
    exact getD_listFn hi 0
  have hmM : m = m' := by
    have h1 := congrArg Vec.size k3
    rw [g1.1] at h1
    simp [Vec.ofFn] at h1
    omega
  subst hmM
  have hγ : ∀ k, k < 4 * m → γ' k = γ k := by
    intro k hk
    have := (Vec.has_iff.mp g1).symm.trans k3
    exact (Vec.ofFn_inj this k hk).symm
  refine solve_linear lap lu hN hc ht h3N hR hE (Or.inl ho) hb hc' hφ ?_ h1 e2 e3'' (γ := fun _ => Vec.ofFn (4 * m) γ') ?_ hX
  · intro grid hx hy i hi j hj
    rw [sampled_at f1 hx hy hi hj, hf]
  · intro M hM
    have : M = m := by
      have := hroot.2.1
      rw [hM] at this
      exact this
    subst this
    refine ⟨hset, ?_⟩
    intro side hside i hi
    have hk : side * M + i < 4 * M := Mat.idx_lt hside hi
    rw [show (Vec.ofFn (4 * M) γ').data.getD (side * M + i) 0 = γ' (side * M + i) from getD_listFn hk 0, hγ _ hk, g2 side hside i hi, hr]
    rfl

/-! ### C28 -/

/-- C28.  On every adaptive quadtree, for an elliptic problem with constant `beta` (and any `alpha`, `lambda`), Dirichlet values
`a + b x + c y` and the load that belongs to that function (zero for the Laplace equation), every cell of every leaf gets the
value of the function at its centre.  Missing for the full claim: that the interface systems of the build stage are nonsingular on
every adaptive mesh (hypothesis `hX`; it holds on uniformly refined meshes by C19). -/
theorem C28_linear_exact_partial (lap : Lapack K) (lu : PetscLU K) {s : FVSolver K} (hN : 2 ≤ N) {opt : HPSOptions}
    (hc : opt.cacheOperators = false) (ho : opt.homogeneousRhs = false) {t : Tree (Patch K)} {R : Rect K} (ht : Init N t R)
    (h3N : 3 ≤ N ∨ ∃ d, Uniform d t) (hR : Proper R) (hE : EllipticOn s R) {β : K} (hβ : ∀ x y, s.beta x y = β) (a b c : K)
    {f : K → K → K} (hf : ∀ x y, f x y = s.lambda x y * (a + b * x + c * y)) {t1 t3 : Tree (Patch K)} {c1 : Option (Mat K)}
    (h1 : buildStage lap (s.toPatchSolver lu) opt t none = .ok (t1, c1))
    (h2 : (Request.functions f (fun _ x y => (a + b * x + c * y, 1, 0))).run lap (s.toPatchSolver lu) opt t1 = .ok t3)
    (hX : Branches (fun p => NonsingularMat p.X) t1) :
    ∀ p ∈ t3.leaves, LeafIs N (fun x y => a + b * x + c * y) p :=
  functions_linear lap lu hN hc ho ht h3N hR hE (fun _ _ _ _ => by rw [hβ, hβ]) (fun _ _ _ _ => by rw [hβ, hβ]) hf
    (r := fun _ x y => a + b * x + c * y) (fun _ _ _ => rfl) h1 h2 hX

/-- C28 for boundary values and loads given per cell, also with the option homogeneous-rhs if `lambda` is zero. -/
theorem C28_linear_exact_data_partial (lap : Lapack K) (lu : PetscLU K) {s : FVSolver K} (hN : 2 ≤ N) {opt : HPSOptions}
    (hc : opt.cacheOperators = false) {t : Tree (Patch K)} {R : Rect K} (ht : Init N t R)
    (h3N : 3 ≤ N ∨ ∃ d, Uniform d t) (hR : Proper R) (hE : EllipticOn s R)
    (ho : opt.homogeneousRhs = false ∨ ∀ x y, s.lambda x y = 0) {β : K} (hβ : ∀ x y, s.beta x y = β) (a b c : K) {d : Data K}
    (hd : d.Sized) (hl : ∀ grid : Grid K, grid.nx = grid.ny → ∀ i, i < grid.nx → ∀ j, j < grid.nx →
      (d.load grid).data.getD (j + i * grid.nx) 0 = s.lambda (cx (rect grid) grid.nx i) (cy (rect grid) grid.nx j) *
        (a + b * cx (rect grid) grid.nx i + c * cy (rect grid) grid.nx j))
    (hbd : ∀ grid : Grid K, grid.nx = grid.ny → ∀ side, side < 4 → ∀ i, i < grid.nx →
      (d.bdry grid).data.getD (side * grid.nx + i) 0 =
        a + b * (sidePoint (rect grid) grid.nx side i).1 + c * (sidePoint (rect grid) grid.nx side i).2)
    {t1 t3 : Tree (Patch K)} {c1 : Option (Mat K)} (h1 : buildStage lap (s.toPatchSolver lu) opt t none = .ok (t1, c1))
    (h2 : run lap (s.toPatchSolver lu) opt d t1 = .ok t3) (hX : Branches (fun p => NonsingularMat p.X) t1) :
    ∀ p ∈ t3.leaves, LeafIs N (fun x y => a + b * x + c * y) p := by
  unfold run at h2
  obtain ⟨t2, e2, e3⟩ := Res.bind_eq_ok.mp h2
  refine solve_linear lap lu hN hc ht h3N hR hE ho (fun _ _ _ _ => by rw [hβ, hβ]) (fun _ _ _ _ => by rw [hβ, hβ])
    (Data.setsLoad hd) ?_ h1 e2 e3 (γ := fun p => d.bdry p.grid) ?_ hX
  · intro grid hx hy i hi j hj
    have := hl grid (by rw [hx, hy]) i (by rw [hx]; exact hi) j (by rw [hx]; exact hj)
    rwa [hx] at this
  · intro m hm
    refine ⟨Data.setsBoundary hd m, ?_⟩
    intro side hside i hi
    have := hbd t2.val.grid (by rw [hm]) side hside i (by rw [hm]; exact hi)
    rw [hm] at this ⊢
    exact this

/-- C28 on uniformly refined meshes of any depth: no assumption on the interface systems. -/
theorem C28_linear_exact_uniform (lap : Lapack K) (lu : PetscLU K) {s : FVSolver K} (hN : 2 ≤ N) {opt : HPSOptions}
    (hc : opt.cacheOperators = false) (ho : opt.homogeneousRhs = false) {t : Tree (Patch K)} {R : Rect K} (ht : Init N t R)
    {d : Nat} (hu : Uniform d t) (hR : Proper R) (hE : EllipticOn s R) {β : K} (hβ : ∀ x y, s.beta x y = β) (a b c : K)
    {f : K → K → K} (hf : ∀ x y, f x y = s.lambda x y * (a + b * x + c * y)) {t1 t3 : Tree (Patch K)} {c1 : Option (Mat K)}
    (h1 : buildStage lap (s.toPatchSolver lu) opt t none = .ok (t1, c1))
    (h2 : (Request.functions f (fun _ x y => (a + b * x + c * y, 1, 0))).run lap (s.toPatchSolver lu) opt t1 = .ok t3) :
    ∀ p ∈ t3.leaves, LeafIs N (fun x y => a + b * x + c * y) p :=
  C28_linear_exact_partial lap lu hN hc ho ht (Or.inr ⟨d, hu⟩) hR hE hβ a b c hf h1 h2
    (C19_nonsingular lap lu hN hc ho ht hu hR hE h1).1

/-! ### C27 -/

/-- C27.  On every adaptive quadtree, for an elliptic problem with any variable `alpha` and `beta` and with `lambda` zero, zero load
and constant Dirichlet values, every cell of every leaf gets the constant.  Missing for the full claim: that the interface systems
of the build stage are nonsingular on every adaptive mesh (hypothesis `hX`). -/
theorem C27_constant_exact_partial (lap : Lapack K) (lu : PetscLU K) {s : FVSolver K} (hN : 2 ≤ N) {opt : HPSOptions}
    (hc : opt.cacheOperators = false) (ho : opt.homogeneousRhs = false) {t : Tree (Patch K)} {R : Rect K} (ht : Init N t R)
    (h3N : 3 ≤ N ∨ ∃ d, Uniform d t) (hR : Proper R) (hE : EllipticOn s R) (hlam : ∀ x y, s.lambda x y = 0) (a : K)
    {t1 t3 : Tree (Patch K)} {c1 : Option (Mat K)} (h1 : buildStage lap (s.toPatchSolver lu) opt t none = .ok (t1, c1))
    (h2 : (Request.functions (fun _ _ => 0) (fun _ _ _ => (a, 1, 0))).run lap (s.toPatchSolver lu) opt t1 = .ok t3)
    (hX : Branches (fun p => NonsingularMat p.X) t1) : ∀ p ∈ t3.leaves, LeafIs N (fun _ _ => a) p := by
  have := functions_linear lap lu hN hc ho ht h3N hR hE (a := a) (b := 0) (c := 0) (fun _ _ _ _ => by simp) (fun _ _ _ _ => by simp)
    (f := fun _ _ => 0) (fun x y => by rw [hlam, zero_mul]) (r := fun _ _ _ => a) (fun _ _ _ => by simp) h1 h2 hX
  simpa using this

/-- C27 on uniformly refined meshes of any depth: no assumption on the interface systems. -/
theorem C27_constant_exact_uniform (lap : Lapack K) (lu : PetscLU K) {s : FVSolver K} (hN : 2 ≤ N) {opt : HPSOptions}
    (hc : opt.cacheOperators = false) (ho : opt.homogeneousRhs = false) {t : Tree (Patch K)} {R : Rect K} (ht : Init N t R)
    {d : Nat} (hu : Uniform d t) (hR : Proper R) (hE : EllipticOn s R) (hlam : ∀ x y, s.lambda x y = 0) (a : K)
    {t1 t3 : Tree (Patch K)} {c1 : Option (Mat K)} (h1 : buildStage lap (s.toPatchSolver lu) opt t none = .ok (t1, c1))
    (h2 : (Request.functions (fun _ _ => 0) (fun _ _ _ => (a, 1, 0))).run lap (s.toPatchSolver lu) opt t1 = .ok t3) :
    ∀ p ∈ t3.leaves, LeafIs N (fun _ _ => a) p :=
  C27_constant_exact_partial lap lu hN hc ho ht (Or.inr ⟨d, hu⟩) hR hE hlam a h1 h2
    (C19_nonsingular lap lu hN hc ho ht hu hR hE h1).1

/-- The hypotheses of C27 and C28 hold on a mesh refined twice: a Helmholtz problem with a linear solution, and a Laplace problem
with variable `alpha` and `beta` and a constant solution.  The stages run through and every leaf has the values of the function. -/
example (lap : Lapack ℚ) (lu : PetscLU ℚ) :
    let s : FVSolver ℚ := ⟨fun x _ => 1 + x * x, fun _ _ => 3, fun _ y => -1 - y * y⟩
    ∃ t1 c1 t3, buildStage lap (s.toPatchSolver lu) ⟨false, false⟩ (freshTree 2 exUniform unitSquare) none = .ok (t1, c1) ∧
      (Request.functions (fun x y => s.lambda x y * (5 + 2 * x + -7 * y)) (fun _ x y => (5 + 2 * x + -7 * y, 1, 0))).run lap
        (s.toPatchSolver lu) ⟨false, false⟩ t1 = .ok t3 ∧
      ∀ p ∈ t3.leaves, LeafIs 2 (fun x y => 5 + 2 * x + -7 * y) p := by
  intro s
  have hi := freshTree_init 2 exUniform unitSquare
  have hE : EllipticOn s unitSquare := by
    intro x y _
    have h1 : 0 < 1 + x * x := by nlinarith [mul_self_nonneg x]
    refine ⟨by norm_num [s], h1.ne', div_nonpos_of_nonpos_of_nonneg ?_ h1.le⟩
    show -1 - y * y ≤ 0
    nlinarith [mul_self_nonneg y]
  obtain ⟨t1, c1, t3, h1, h2, _⟩ := C20_stages_succeed_functions lap (by omega) (FVSolver.shapes lu s (n := 2) (by omega))
      (opt := ⟨false, false⟩) rfl hi (Or.inr ⟨2, exUniform_uniform 2⟩) (fun x y => s.lambda x y * (5 + 2 * x + -7 * y))
      (fun _ x y => (5 + 2 * x + -7 * y, 1, 0))
  exact ⟨t1, c1, t3, h1, h2, C28_linear_exact_uniform lap lu (by omega) rfl rfl hi (exUniform_uniform 2) exPde_elliptic_unit.1 hE
    (fun _ _ => rfl) 5 2 (-7) (fun _ _ => rfl) h1 h2⟩

example (lap : Lapack ℚ) (lu : PetscLU ℚ) :
    let s : FVSolver ℚ := ⟨fun x _ => 1 + x * x, fun x y => 1 + x * x + y * y, fun _ _ => 0⟩
    ∃ t1 c1 t3, buildStage lap (s.toPatchSolver lu) ⟨false, false⟩ (freshTree 2 exUniform unitSquare) none = .ok (t1, c1) ∧
      (Request.functions (fun _ _ => 0) (fun _ _ _ => (4, 1, 0))).run lap (s.toPatchSolver lu) ⟨false, false⟩ t1 = .ok t3 ∧
      ∀ p ∈ t3.leaves, LeafIs 2 (fun _ _ => 4) p := by
  intro s
  have hi := freshTree_init 2 exUniform unitSquare
  have hE : EllipticOn s unitSquare := by
    intro x y _
    have h1 : 0 < 1 + x * x := by nlinarith [mul_self_nonneg x]
    refine ⟨?_, h1.ne', by simp [s]⟩
    show 0 < 1 + x * x + y * y
    nlinarith [mul_self_nonneg y]
  obtain ⟨t1, c1, t3, h1, h2, _⟩ := C20_stages_succeed_functions lap (by omega) (FVSolver.shapes lu s (n := 2) (by omega))
      (opt := ⟨false, false⟩) rfl hi (Or.inr ⟨2, exUniform_uniform 2⟩) (fun _ _ => 0) (fun _ _ _ => (4, 1, 0))
  exact ⟨t1, c1, t3, h1, h2, C27_constant_exact_uniform lap lu (by omega) rfl rfl hi (exUniform_uniform 2) exPde_elliptic_unit.1 hE
    (fun _ _ => rfl) 4 h1 h2⟩

end EF
