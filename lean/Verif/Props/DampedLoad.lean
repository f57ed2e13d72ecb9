import Verif.Proofs.Cache
import Verif.Proofs.ReactionLoad
import Verif.Props.Damped
import Verif.Props.Stable

/-!
# Stability on adaptive meshes when the reaction term dominates

C88: what C83 says of uniform meshes, for adaptive ones.
-/

namespace EF

open Finset FV HPS

variable {K : Type} [Field K] [LinearOrder K] [IsStrictOrderedRing K] {N : Nat}

theorem HPS.Init.inside {t : Tree (Patch K)} {R : Rect K} (h : Init N t R) (hR : Proper R) :
    ∀ p ∈ t.leaves, Proper (rect p.grid) ∧ ∀ x y, Inside (rect p.grid) x y → Inside R x y := by
  induction h with
  | @leaf p R hk hx hy hR' =>
    intro p' hp
    obtain rfl : p' = p := by simpa [Tree.leaves] using hp
    have := rect_eq hR'
    subst this
    exact ⟨hR, fun _ _ h => h⟩
  | node _ _ _ _ _ i0 i1 i2 i3 =>
    intro p hp
    simp only [Tree.leaves, List.mem_append] at hp
    rcases hp with ((hp | hp) | hp) | hp
    · exact ⟨(i0 (proper_quarter hR 0) p hp).1, fun x y h => inside_quarter hR 0 ((i0 (proper_quarter hR 0) p hp).2 x y h)⟩
    · exact ⟨(i1 (proper_quarter hR 1) p hp).1, fun x y h => inside_quarter hR 1 ((i1 (proper_quarter hR 1) p hp).2 x y h)⟩
    · exact ⟨(i2 (proper_quarter hR 2) p hp).1, fun x y h => inside_quarter hR 2 ((i2 (proper_quarter hR 2) p hp).2 x y h)⟩
    · exact ⟨(i3 (proper_quarter hR 3) p hp).1, fun x y h => inside_quarter hR 3 ((i3 (proper_quarter hR 3) p hp).2 x y h)⟩

/-- Diffusion across the finest cells of the mesh, with a factor for each level by which the leaves differ. -/
def HPS.finest (N : Nat) (R : Rect K) (t : Tree (Patch K)) (B : K) : K :=
  6 * B * (17 / 8) ^ (high t - low t) * (1 / hx R (N * 2 ^ high t) ^ 2 + 1 / hy R (N * 2 ^ high t) ^ 2)

/-- C88 for loads and Dirichlet values given per cell. -/
theorem C88_bound_values (lap : Lapack K) (lu : PetscLU K) {s : FVSolver K} (hN : 3 ≤ N) {opt : HPSOptions}
    (hc : opt.cacheOperators = false) (ho : opt.homogeneousRhs = false) {t : Tree (Patch K)} {R : Rect K} (ht : Init N t R)
    (hR : Proper R) (hE : EllipticOn s R) {B Λ M F : K} (hD : Damped s R B Λ) (hl : finest N R t B < Λ)
    (hv : high t ≤ low t + 1 ∨ 2 ^ (high t - low t) ∣ N) {d : Data K} (hd : d.Sized)
    (hf : ∀ p ∈ t.leaves, ∀ i, i < N → ∀ j, j < N →
      |(d.load p.grid).data.getD (j + i * N) 0 / s.alpha (cx (rect p.grid) N i) (cy (rect p.grid) N j)| ≤ F)
    (hM : ∀ grid, rect grid = R → grid.nx = grid.ny → ∀ q, q < 4 → ∀ i, i < grid.nx → |(d.bdry grid).data.getD (q * grid.nx + i) 0| ≤ M)
    {t1 t3 : Tree (Patch K)} {c1 : Option (Mat K)} (h1 : buildStage lap (s.toPatchSolver lu) opt t none = .ok (t1, c1))
    (h2 : run lap (s.toPatchSolver lu) opt d t1 = .ok t3) :
    ∀ p ∈ t3.leaves, ∀ i, i < N → ∀ j, j < N →
      |p.u.data.getD (j + i * N) 0| ≤ finest N R t B / (3 * Λ) * M + F / (Λ - finest N R t B) := by
  have hs := FVSolver.shapes lu s (n := N) (by omega)
  unfold run at h2
  obtain ⟨t2, e2, e3⟩ := Res.bind_eq_ok.mp h2
  obtain ⟨t1', m, T, e1, b1, es, _⟩ := buildStage_ok lap hs hc (by omega) ht (Or.inl hN) none
  rw [h1] at e1
  obtain ⟨rfl, rfl⟩ := Prod.mk.inj (Res.ok_inj.mp e1)
  have hB : 0 ≤ B := by
    have h1 := hR.1
    have h2 := hR.2
    exact ((hE R.xl R.yl ⟨le_rfl, h1.le, le_rfl, h2.le⟩).1.trans_le (hD R.xl R.yl ⟨le_rfl, h1.le, le_rfl, h2.le⟩).1).le
  have hpos : 0 < N * 2 ^ high t := by positivity
  have hx0 := hx_pos hR hpos
  have hy0 := hy_pos hR hpos
  have hQ0 : 0 ≤ finest N R t B := by unfold finest; positivity
  have hΛ : 0 < Λ := lt_of_le_of_lt hQ0 hl
  have eη : Λ * (F / Λ) = F := mul_div_cancel₀ F hΛ.ne'
  have b2 := b1.leaves (P := fun grid => LoadLe s (Λ * (F / Λ)) N grid (d.load grid)) (by
    rw [buildStage_leaves h1, eη]
    intro grid hg
    obtain ⟨p, hp, rfl⟩ := List.mem_map.mp hg
    exact hf p hp)
  obtain ⟨t2', h, e2', u2, _, _, s2, x2⟩ := upwardsStage_okX
    (HP := fun grid f h => f = d.load grid ∧ HPs N (s.toPatchSolver lu) grid f h) lap hs opt (Data.setsLoad hd)
    (fun grid f h a b c e => ⟨a, ⟨b, c⟩, e⟩) b2
  rw [e2] at e2'
  obtain rfl := Res.ok_inj.mp e2'
  have hr := u2.built.root
  simp only [pow_zero, mul_one] at hr
  obtain ⟨_, r1, r2, r3, _, j, hj⟩ := hr
  have hset : SetsBoundary m d.bc (fun p => d.bdry p.grid) := Data.setsBoundary hd m
  obtain ⟨t3', e3', v3, s3, x3⟩ := solveStage_okX hs opt hset (fun _ _ _ h => h.2.1) (fun h => by rw [ho] at h; cases h) u2
  rw [e3] at e3'
  obtain rfl := Res.ok_inj.mp e3'
  have e13 : t3.shape = t.shape := by rw [s3, s2, es]
  have eh : high t3 = high t := by rw [← high_shape t3, e13, high_shape]
  have el : low t3 = low t := by rw [← low_shape t3, e13, low_shape]
  have hm0 : 0 < m := by
    rw [hj]; positivity
  have hgr : rect t2.val.grid = R := rect_eq r3
  have hb : ∀ q, q < 4 → ∀ i, i < m → |(d.bdry t2.val.grid).data.getD (q * m + i) 0| ≤ M := by
    have := hM t2.val.grid hgr (by rw [r1, r2])
    rwa [r1] at this
  have M0 : 0 ≤ M := (abs_nonneg _).trans (hb 0 (by omega) 0 hm0)
  have F0 : 0 ≤ F := by
    obtain ⟨p, l, hp⟩ := List.exists_cons_of_ne_nil t.leaves_ne_nil
    exact (abs_nonneg _).trans (hf p (by rw [hp]; exact List.mem_cons_self) 0 (by omega) 0 (by omega))
  obtain ⟨Q, eQ⟩ : ∃ Q, Q = finest N R t B := ⟨_, rfl⟩
  have e17 : (17 / 8) ^ (high t - low t) * (2 * B * widths R (N * 2 ^ high t) / Λ) = Q / (3 * Λ) := by
    rw [eQ]
    unfold finest widths
    field_simp
    ring
  rw [← eQ] at hl hQ0 ⊢
  have hΛQ : 0 < Λ - Q := by linarith
  have hw : 0 ≤ widths R (N * 2 ^ high t) := by unfold widths; positivity
  have key := (v3.close lu hN (e := 2 * B * widths R (N * 2 ^ high t) / Λ) (η := F / Λ) (by positivity) hB (by positivity) hR hE hD
    (H := high t) eh.le (by rw [div_mul_cancel₀ _ hΛ.ne']) (E := high t - low t) (a := 0) (by rw [eh, el]; have := low_le_high t; omega)
    (by
      rw [e17, ← mul_div_assoc, mul_div_mul_left _ _ (by norm_num : (3 : K) ≠ 0), div_lt_one hΛ]
      exact hl) (by
      rw [zero_add]
      rcases hv with h | h
      · exact Or.inl (by omega)
      · exact Or.inr h) (Or.inl rfl)).2 (M + 3 * F / (Λ - Q)) (by positivity) (by
      rw [e17]
      have a : (1 / 3 - Q / (3 * Λ)) * (3 * F / (Λ - Q)) = F / Λ := by
        field_simp
      have b : 0 ≤ (1 / 3 - Q / (3 * Λ)) * M := by
        have : 1 / 3 - Q / (3 * Λ) = (Λ - Q) / (3 * Λ) := by field_simp
        rw [this]
        positivity
      rw [mul_add, a]
      linarith) (by
      simp only [pow_zero, mul_one, proN]
      intro q hq i hi
      refine (hb q hq i hi).trans ?_
      have : 0 ≤ 3 * F / (Λ - Q) := by positivity
      linarith)
  rw [e17] at key
  have e18 : Q / (3 * Λ) * (M + 3 * F / (Λ - Q)) + F / Λ = Q / (3 * Λ) * M + F / (Λ - Q) := by
    field_simp
    ring
  rw [e18] at key
  exact key

/-- Load and Dirichlet values of two functions, sampled at cell centres and at the middle of boundary cells. -/
def HPS.sampled (f : K → K → K) (r : Nat → K → K → K) : Data K where
  load grid := Vec.ofFn (grid.nx * grid.ny) (fun k => f (cx (rect grid) grid.nx (k / grid.ny)) (cy (rect grid) grid.ny (k % grid.ny)))
  bdry grid := Vec.ofFn (2 * grid.nx + 2 * grid.ny) (fun k =>
    r (k / grid.nx) (sidePoint (rect grid) grid.nx (k / grid.nx) (k % grid.nx)).1 (sidePoint (rect grid) grid.nx (k / grid.nx) (k % grid.nx)).2)

omit [LinearOrder K] [IsStrictOrderedRing K] in
theorem HPS.sampled_sized (f : K → K → K) (r : Nat → K → K → K) : (sampled f r).Sized :=
  ⟨fun _ => ⟨rfl, (Vec.has_ofFn _ _).wf⟩, fun _ => ⟨rfl, (Vec.has_ofFn _ _).wf⟩⟩

omit [LinearOrder K] [IsStrictOrderedRing K] in
theorem HPS.sampled_load {f : K → K → K} {r : Nat → K → K → K} {grid : Grid K} (hx : grid.nx = N) (hy : grid.ny = N) {i j : Nat}
    (hi : i < N) (hj : j < N) : ((sampled f r).load grid).data.getD (j + i * N) 0 = f (cx (rect grid) N i) (cy (rect grid) N j) := by
  unfold sampled
  simp only [hx, hy]
  refine (getD_listFn (FVSolver.idx_lt hi hj) 0).trans ?_
  rw [add_comm, Mat.idx_div hj, Mat.idx_mod hj]

omit [LinearOrder K] [IsStrictOrderedRing K] in
theorem HPS.sampled_bdry {f : K → K → K} {r : Nat → K → K → K} {grid : Grid K} (hxy : grid.nx = grid.ny) {q i : Nat}
    (hq : q < 4) (hi : i < grid.nx) : ((sampled f r).bdry grid).data.getD (q * grid.nx + i) 0 =
      r q (sidePoint (rect grid) grid.nx q i).1 (sidePoint (rect grid) grid.nx q i).2 := by
  unfold sampled
  have := Mat.idx_lt hq hi
  refine (getD_listFn (by omega) 0).trans ?_
  rw [Mat.idx_div hi, Mat.idx_mod hi]

/-- Solving with functions is solving with their values. -/
theorem HPS.functions_sampled (lap : Lapack K) (lu : PetscLU K) {s : FVSolver K} (hN : 2 ≤ N) {opt : HPSOptions}
    (hc : opt.cacheOperators = false) (ho : opt.homogeneousRhs = false) {t : Tree (Patch K)} {R : Rect K} (ht : Init N t R)
    (h3N : 3 ≤ N ∨ ∃ d, Uniform d t) (f : K → K → K) (r : Nat → K → K → K) {t1 t3 : Tree (Patch K)} {c1 : Option (Mat K)}
    (h1 : buildStage lap (s.toPatchSolver lu) opt t none = .ok (t1, c1))
    (h2 : (Request.functions f (fun s x y => (r s x y, 1, 0))).run lap (s.toPatchSolver lu) opt t1 = .ok t3) :
    run lap (s.toPatchSolver lu) opt (sampled f r) t1 = .ok t3 := by
  have hs := FVSolver.shapes lu s hN
  unfold Request.run at h2
  obtain ⟨t2, e2, e3⟩ := Res.bind_eq_ok.mp h2
  have hload : ∀ grid : Grid K, sampleLoad f grid = .ok ((sampled f r).load grid) := by
    intro grid
    obtain ⟨F, e, φ, h3, h4⟩ := C33_load_sampled f grid
    rw [e, Vec.has_iff.mp h3]
    congr 1
    refine Vec.ofFn_congr fun k hk => ?_
    have hny : 0 < grid.ny := by
      rcases Nat.eq_zero_or_pos grid.ny with h | h
      · rw [h] at hk; simp at hk
      · exact h
    have := h4 (k / grid.ny) (Nat.div_lt_of_lt_mul (by rw [mul_comm]; exact hk)) (k % grid.ny) (Nat.mod_lt _ hny)
    rw [← this, add_comm, Nat.div_add_mod' k]
  obtain ⟨m, hm, t3', e3', γ, g1, g2⟩ := C26_dirichlet lap (by omega) hs ho ht h3N h1 e2 r
  rw [e3] at e3'
  obtain rfl := Res.ok_inj.mp e3'
  rw [upwardsStageAnalytic_eq lap _ opt hload] at e2
  have hφ : SetsLoad N (sampled f r).rhs (sampled f r).load := Data.setsLoad (sampled_sized f r)
  have e2 : upwardsStage lap (s.toPatchSolver lu) opt (sampled f r).rhs t1 = .ok t2 := e2
  unfold run
  rw [e2, Res.ok_bind]
  have e3' := e3
  unfold solveStageAnalytic at e3'
  obtain ⟨g, e4, e5⟩ := Res.bind_eq_ok.mp e3'
  rw [solveStageAnalytic_eq e4] at e3
  obtain ⟨t1', m', T, b0, b1, s1, hm'⟩ := buildStage_ok lap hs hc (by omega) ht h3N none
  rw [h1] at b0
  obtain ⟨rfl, rfl⟩ := Prod.mk.inj (Res.ok_inj.mp b0)
  obtain ⟨t2', h, x2, u2, v2, _, s2⟩ := upwardsStage_ok (HP := HP0 N) lap hs opt hφ (fun grid f h a b _ => ⟨a, b⟩) b1
  rw [e2] at x2
  obtain rfl := Res.ok_inj.mp x2
  have hroot := u2.built.root
  simp only [pow_zero, mul_one, crsN] at hroot
  have hv := v2 ho
  simp only [pow_zero, mul_one] at hv
  have hm0 : 0 < m' := by
    obtain ⟨j, hj⟩ := hroot.2.2.2.2.2
    rw [hj]; positivity
  obtain ⟨γ', w1, _⟩ := rootDirichlet_ok lap (fun s x y => (r s x y, 1, 0)) hm0 hroot.2.1 hroot.2.2.2.2.1 hv
  rw [e4] at w1
  obtain rfl := Res.ok_inj.mp w1
  obtain ⟨t3', e6, v6, _⟩ := solveStage_ok hs opt (m := m') (bdry := fun p => Res.ok { p with g := Vec.ofFn (4 * m') γ' })
    (γ := fun _ => Vec.ofFn (4 * m') γ') ⟨fun _ => rfl, fun _ _ _ => ⟨rfl, (Vec.has_ofFn _ _).2.1⟩⟩ (HP := HP0 N) (fun _ _ _ h => h)
    (fun hom => by rw [ho] at hom; cases hom) u2
  rw [e3] at e6
  obtain rfl := Res.ok_inj.mp e6
  have k2 := v6.root_g
  have k3 : t3.val.g = Vec.ofFn (4 * m') γ' := by
    simp only [pow_zero, mul_one, proN] at k2
    rw [k2]
    unfold bv
    refine Vec.ofFn_congr fun i hi => ?_
    unfold toBv
    have e : i / m' * m' + i % m' = i := Nat.div_add_mod' i m'
    rw [e]
    exact getD_listFn hi 0
  have hmM : m = m' := by
    have h1 := congrArg Vec.size k3
    rw [g1.1] at h1
    simp [Vec.ofFn] at h1
    omega
  subst hmM
  have hg : Vec.ofFn (4 * m) γ' = (sampled f r).bdry t2.val.grid := by
    rw [← k3, Vec.has_iff.mp g1]
    unfold sampled
    simp only [hroot.2.1, hroot.2.2.1]
    rw [show 2 * m + 2 * m = 4 * m by ring, rect_eq hroot.2.2.2.1]
    refine Vec.ofFn_congr fun k hk => ?_
    rw [← g2 (k / m) (Nat.div_lt_of_lt_mul (by rw [mul_comm]; exact hk)) (k % m) (Nat.mod_lt _ hm0), Nat.div_add_mod']
  rw [← e3]
  unfold solveStage Data.bc
  rw [← hg]

/-- C88: on an adaptive mesh, the values in the leaves are bounded by the Dirichlet values and the load. -/
theorem C88_bound (lap : Lapack K) (lu : PetscLU K) {s : FVSolver K} (hN : 3 ≤ N) {opt : HPSOptions}
    (hc : opt.cacheOperators = false) (ho : opt.homogeneousRhs = false) {t : Tree (Patch K)} {R : Rect K} (ht : Init N t R)
    (hR : Proper R) (hE : EllipticOn s R) {B Λ M F : K} (hD : Damped s R B Λ) (hl : finest N R t B < Λ)
    (hv : high t ≤ low t + 1 ∨ 2 ^ (high t - low t) ∣ N) {f : K → K → K} {r : Nat → K → K → K}
    (hf : ∀ x y, Inside R x y → |f x y / s.alpha x y| ≤ F) (hM : ∀ k x y, Inside R x y → |r k x y| ≤ M)
    {t1 t3 : Tree (Patch K)} {c1 : Option (Mat K)} (h1 : buildStage lap (s.toPatchSolver lu) opt t none = .ok (t1, c1))
    (h2 : (Request.functions f (fun s x y => (r s x y, 1, 0))).run lap (s.toPatchSolver lu) opt t1 = .ok t3) :
    ∀ p ∈ t3.leaves, ∀ i, i < N → ∀ j, j < N →
      |p.u.data.getD (j + i * N) 0| ≤ finest N R t B / (3 * Λ) * M + F / (Λ - finest N R t B) := by
  refine C88_bound_values lap lu hN hc ho ht hR hE hD hl hv (sampled_sized f r) ?_ ?_ h1
    (functions_sampled lap lu (by omega) hc ho ht (Or.inl hN) f r h1 h2)
  · intro p hp i hi j hj
    obtain ⟨hx, hy⟩ := ht.leaves p hp
    obtain ⟨hP, hin⟩ := ht.inside hR p hp
    rw [sampled_load hx hy hi hj]
    exact hf _ _ (hin _ _ (centre_inside hP hi hj))
  · intro grid hg hxy q hq i hi
    rw [sampled_bdry hxy hq hi, hg]
    exact hM _ _ _ (sidePoint_inside hR hq hi)

theorem HPS.Combined.differ {C : K} {r1 r2 r3 : Tree (Patch K)} (h : Combined 1 (-1) r1 r2 r3)
    (hC : ∀ p ∈ r3.leaves, ∀ i, i < N → ∀ j, j < N → |p.u.data.getD (j + i * N) 0| ≤ C) :
    List.Forall₂ (fun p p' => p.grid = p'.grid ∧ ∀ i, i < N → ∀ j, j < N → |p.u.data.getD (j + i * N) 0 - p'.u.data.getD (j + i * N) 0| ≤ C)
      r1.leaves r2.leaves := by
  induction r1 generalizing r2 r3 with
  | leaf p =>
    cases r2 with
    | node => cases r3 <;> exact h.elim
    | leaf q =>
    cases r3 with
    | node => exact h.elim
    | leaf r =>
      obtain ⟨h1, h2, n, f, g, x, y, z⟩ := h
      refine .cons ⟨h1.trans h2.symm, fun i hi j hj => ?_⟩ .nil
      have := hC r (by simp [Tree.leaves]) i hi j hj
      rw [Vec.has_iff.mp x, Vec.has_iff.mp y]
      rw [Vec.has_iff.mp z] at this
      by_cases hk : j + i * N < n
      · rw [show (Vec.ofFn n f).data.getD (j + i * N) 0 = f (j + i * N) from getD_listFn hk 0,
          show (Vec.ofFn n g).data.getD (j + i * N) 0 = g (j + i * N) from getD_listFn hk 0]
        rw [show (Vec.ofFn n (fun i => 1 * f i + -1 * g i)).data.getD (j + i * N) 0 = 1 * f (j + i * N) + -1 * g (j + i * N) from getD_listFn hk 0] at this
        rwa [one_mul, neg_one_mul, ← sub_eq_add_neg] at this
      · have e : ∀ F : Nat → K, (Vec.ofFn n F).data.getD (j + i * N) 0 = 0 := by
          intro F
          rw [List.getD_eq_getElem?_getD, List.getElem?_eq_none]
          · rfl
          · rw [(Vec.has_ofFn n F).2.1]; omega
        rw [e, e, sub_zero]
        rwa [e] at this
  | node p c0 c1 c2 c3 i0 i1 i2 i3 =>
    cases r2 with
    | leaf => cases r3 <;> exact h.elim
    | node q d0 d1 d2 d3 =>
    cases r3 with
    | leaf => exact h.elim
    | node r e0 e1 e2 e3 =>
      obtain ⟨a0, a1, a2, a3⟩ := h
      simp only [Tree.leaves]
      have hm : ∀ {x : Patch K}, (x ∈ e0.leaves ∨ x ∈ e1.leaves ∨ x ∈ e2.leaves ∨ x ∈ e3.leaves) → x ∈ (Tree.node r e0 e1 e2 e3).leaves := by
        intro x hx
        simp only [Tree.leaves, List.mem_append]
        tauto
      exact List.rel_append (List.rel_append (List.rel_append (i0 a0 fun p hp => hC p (hm (Or.inl hp)))
        (i1 a1 fun p hp => hC p (hm (Or.inr (Or.inl hp))))) (i2 a2 fun p hp => hC p (hm (Or.inr (Or.inr (Or.inl hp))))))
        (i3 a3 fun p hp => hC p (hm (Or.inr (Or.inr (Or.inr hp)))))

/-- C88: perturbations of the Dirichlet values and of the load change the values in the leaves in proportion. -/
theorem C88_stable (lap : Lapack K) (lu : PetscLU K) {s : FVSolver K} (hN : 3 ≤ N) {opt : HPSOptions}
    (hc : opt.cacheOperators = false) (ho : opt.homogeneousRhs = false) {t : Tree (Patch K)} {R : Rect K} (ht : Init N t R)
    (hR : Proper R) (hE : EllipticOn s R) {B Λ δ ε : K} (hD : Damped s R B Λ) (hl : finest N R t B < Λ)
    (hv : high t ≤ low t + 1 ∨ 2 ^ (high t - low t) ∣ N) {f f' : K → K → K} {r r' : Nat → K → K → K}
    (hf : ∀ x y, Inside R x y → |(f x y - f' x y) / s.alpha x y| ≤ ε) (hr : ∀ k x y, Inside R x y → |r k x y - r' k x y| ≤ δ)
    {t1 t3 t3' : Tree (Patch K)} {c1 : Option (Mat K)} (h1 : buildStage lap (s.toPatchSolver lu) opt t none = .ok (t1, c1))
    (h2 : (Request.functions f (fun s x y => (r s x y, 1, 0))).run lap (s.toPatchSolver lu) opt t1 = .ok t3)
    (h2' : (Request.functions f' (fun s x y => (r' s x y, 1, 0))).run lap (s.toPatchSolver lu) opt t1 = .ok t3') :
    List.Forall₂ (fun p p' => p.grid = p'.grid ∧ ∀ i, i < N → ∀ j, j < N → |p.u.data.getD (j + i * N) 0 - p'.u.data.getD (j + i * N) 0| ≤
      finest N R t B / (3 * Λ) * δ + ε / (Λ - finest N R t B)) t3.leaves t3'.leaves := by
  have e := functions_sampled lap lu (by omega) hc ho ht (Or.inl hN) f r h1 h2
  have e' := functions_sampled lap lu (by omega) hc ho ht (Or.inl hN) f' r' h1 h2'
  obtain ⟨r1, r2, r3, x1, x2, x3, hcomb⟩ := C23_linear_finite_volume lap lu (by omega) ht (Or.inl hN) hR hE (a := 1) (b := -1)
    (sampled_sized f r) (sampled_sized f' r') (sampled_sized (fun x y => 1 * f x y + -1 * f' x y) (fun k x y => 1 * r k x y + -1 * r' k x y))
    (fun grid => ⟨⟨_, _, _, Vec.has_ofFn _ _, Vec.has_ofFn _ _, Vec.has_ofFn _ _⟩, ⟨_, _, _, Vec.has_ofFn _ _, Vec.has_ofFn _ _, Vec.has_ofFn _ _⟩⟩) h1
  rw [e] at x1
  rw [e'] at x2
  obtain rfl := Res.ok_inj.mp x1
  obtain rfl := Res.ok_inj.mp x2
  have key := C88_bound_values lap lu hN hc ho ht hR hE hD hl hv
    (sampled_sized (fun x y => 1 * f x y + -1 * f' x y) (fun k x y => 1 * r k x y + -1 * r' k x y)) (F := ε) (M := δ) (by
      intro p hp i hi j hj
      obtain ⟨hx, hy⟩ := ht.leaves p hp
      obtain ⟨hP, hin⟩ := ht.inside hR p hp
      rw [sampled_load hx hy hi hj]
      have := hf _ _ (hin _ _ (centre_inside hP hi hj))
      rwa [sub_eq_add_neg, ← neg_one_mul, ← one_mul (f _ _)] at this) (by
      intro grid hg hxy q hq i hi
      rw [sampled_bdry hxy hq hi, hg]
      have := hr q _ _ (sidePoint_inside hR hq hi)
      rwa [sub_eq_add_neg, ← neg_one_mul, ← one_mul (r _ _ _)] at this) h1 x3
  exact hcomb.differ key

/-- The hypotheses hold on a mesh with leaves on three levels, for a problem with variable coefficients: values between -1 and 1 on the
boundary and a load of at most 100 give values of at most a third and a bit. -/
example (lap : Lapack ℚ) (lu : PetscLU ℚ) :
    let s : FVSolver ℚ := ⟨fun _ _ => 2, fun x _ => 1 + x, fun _ y => -600000 - y * y⟩
    ∃ t1 c1 t3, buildStage lap (s.toPatchSolver lu) ⟨false, false⟩ (freshTree 4 exThree unitSquare) none = .ok (t1, c1) ∧
      (Request.functions (fun x y => 200 * x * y) (fun _ x y => (x - y, 1, 0))).run lap (s.toPatchSolver lu) ⟨false, false⟩ t1 = .ok t3 ∧
      ∀ p ∈ t3.leaves, ∀ i, i < 4 → ∀ j, j < 4 → |p.u.data.getD (j + i * 4) 0| ≤ 1 / 2 := by
  intro s
  have hi := freshTree_init (K := ℚ) 4 exThree unitSquare
  have e1 : high (freshTree (K := ℚ) 4 exThree unitSquare) = 3 := rfl
  have e2 : low (freshTree (K := ℚ) 4 exThree unitSquare) = 1 := rfl
  have hE : EllipticOn s unitSquare := by
    intro x y h
    have h1 : (0 : ℚ) ≤ x := h.1
    refine ⟨by simp only [s]; linarith, by norm_num [s], div_nonpos_of_nonpos_of_nonneg ?_ (by norm_num [s])⟩
    simp only [s]
    nlinarith [mul_self_nonneg y]
  have hD : Damped s unitSquare 2 300000 := by
    intro x y h
    have h1 : x ≤ (1 : ℚ) := h.2.1
    refine ⟨by simp only [s]; linarith, ?_⟩
    simp only [s]
    rw [div_le_iff₀ (by norm_num)]
    nlinarith [mul_self_nonneg y]
  have eQ : finest 4 unitSquare (freshTree (K := ℚ) 4 exThree unitSquare) 2 = 110976 := by
    unfold finest
    rw [e1, e2]
    norm_num [hx, hy, unitSquare]
  obtain ⟨t1, c1, t3, a1, a2, _⟩ := C20_stages_succeed_functions lap (by omega) (FVSolver.shapes lu s (n := 4) (by omega)) (opt := ⟨false, false⟩)
    rfl hi (Or.inl (by omega)) (fun x y => 200 * x * y) (fun _ x y => (x - y, 1, 0))
  refine ⟨t1, c1, t3, a1, a2, fun p hp i h4 j h4' => ?_⟩
  have key := C88_bound lap lu (by omega) rfl rfl hi exPde_elliptic_unit.1 hE hD (by rw [eQ]; norm_num) (Or.inr (by rw [e1, e2]; norm_num))
    (f := fun x y => 200 * x * y) (r := fun _ x y => x - y) (F := 100) (M := 1) (by
      intro x y h
      obtain ⟨q1, q2, q3, q4⟩ := h
      simp only [unitSquare] at q1 q2 q3 q4
      simp only [s]
      rw [abs_le]
      constructor
      · have : 0 ≤ x * y := mul_nonneg q1 q3
        linarith
      · have : x * y ≤ 1 := by nlinarith
        linarith) (by
      intro k x y h
      obtain ⟨q1, q2, q3, q4⟩ := h
      simp only [unitSquare] at q1 q2 q3 q4
      rw [abs_le]
      constructor <;> linarith) a1 a2 p hp i h4 j h4'
  rw [eQ] at key
  refine key.trans ?_
  norm_num

end EF
