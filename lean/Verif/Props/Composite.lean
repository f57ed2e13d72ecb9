import Verif.Proofs.Composite
import Verif.Proofs.Rigid
import Verif.Proofs.Robin
import Verif.Props.Damped

/-!
# The discretised equation on adaptive meshes (C100)
-/

namespace EF

open Finset FV HPS

variable {K : Type} [Field K] [LinearOrder K] [IsStrictOrderedRing K] {N : Nat}

theorem Tree.cuts_shape {P : Type} (t : Tree P) : t.shape.cuts = t.cuts := by
  induction t with
  | leaf => rfl
  | node p c0 c1 c2 c3 i0 i1 i2 i3 => simp only [Tree.shape, Tree.cuts, i0, i1, i2, i3]

/-- What a run with functions leaves behind, with the operators of the root. -/
theorem HPS.functions_ops (lap : Lapack K) (lu : PetscLU K) {s : FVSolver K} (hN : 2 ≤ N) {opt : HPSOptions}
    (hc : opt.cacheOperators = false) (ho : opt.homogeneousRhs = false) {t : Tree (Patch K)} {R : Rect K} (ht : Init N t R)
    (h3 : 3 ≤ N ∨ ∃ d, Uniform d t) (hR : Proper R) (hE : EllipticOn s R) (f : K → K → K) (bc : BoundaryFn K)
    {t1 t3 : Tree (Patch K)} {c1 : Option (Mat K)} (h1 : buildStage lap (s.toPatchSolver lu) opt t none = .ok (t1, c1))
    (h2 : (Request.functions f bc).run lap (s.toPatchSolver lu) opt t1 = .ok t3) (hX : Branches (fun p => NonsingularMat p.X) t1) :
    ∃ m γ q T h, 0 < m ∧ t3.val.g.Has (4 * m) γ ∧ Composite s f N (treeCells N t3) R m (fun a i => γ (a * m + i)) q ∧
      (t3.val.T.mulVec t3.val.g >>= fun y => y.add t3.val.h) = .ok (bv m 4 q) ∧ t3.shape = t.shape ∧
      (Nonsing (4 * m) (fun i j => (if i = j then sideData (·.2.1) bc R m (i / m) (i % m) else 0) +
          sideData (·.2.2) bc R m (i / m) (i % m) * T (i / m) (j / m) (i % m) (j % m)) →
        ∀ a, a < 4 → ∀ i, i < m → sideData (·.2.1) bc R m a i * γ (a * m + i) + sideData (·.2.2) bc R m a i * q a i =
          sideData (·.1) bc R m a i) ∧
      (∀ g, ∃ M : Pieces (Nat → Nat → K), M.Alike t.cuts ∧ Composite s (fun _ _ => 0) N M R m g (app m 4 T g)) ∧
      ∀ M : Pieces (Nat → Nat → K), M.Alike (treeCells N t3) → ∀ m' g' q', Composite s f N M R m' g' q' → m' = m ∧
        (∀ a, a < 4 → ∀ i, i < m → q' a i = opFlux m T g' h a i) ∧
        ((∀ a, a < 4 → ∀ i, i < m → g' a i = γ (a * m + i)) → M.Same N (treeCells N t3)) := by
  have hs := FVSolver.shapes lu s hN
  have hN0 : 0 < N := by omega
  unfold Request.run at h2
  obtain ⟨t2, h2, h3'⟩ := Res.bind_eq_ok.mp h2
  obtain ⟨φ, f1, f2⟩ := sampleLoad_fn f
  rw [upwardsStageAnalytic_eq lap _ opt f1] at h2
  have hφ : SetsLoad N (fun p => .ok { p with f := φ p.grid }) φ :=
    ⟨fun _ => rfl, fun grid hx hy => by have := f2 grid; rwa [hx, hy] at this⟩
  obtain ⟨t1', m, T, e1, b1, s1, _⟩ := buildStage_ok lap hs hc (by omega) ht h3 none
  rw [h1] at e1
  obtain ⟨rfl, rfl⟩ := Prod.mk.inj (Res.ok_inj.mp e1)
  have b2 := b1.leaves (P := fun grid => Proper (rect grid) ∧ EllipticOn s (rect grid)) (by
    rw [buildStage_leaves h1]
    intro grid hg
    obtain ⟨p, hp, rfl⟩ := List.mem_map.mp hg
    exact ht.elliptic hR hE p hp)
  obtain ⟨t2', h, e2, u2, v2, _, s2, x2⟩ := upwardsStage_okX
    (HP := fun grid f h => f = φ grid ∧ HPs N (s.toPatchSolver lu) grid f h) lap hs opt hφ
    (fun grid f h a b c e => ⟨a, ⟨b, c⟩, e⟩) b2
  rw [h2] at e2
  obtain rfl := Res.ok_inj.mp e2
  have hr := u2.built.root
  simp only [pow_zero, mul_one, crsN] at hr
  have hv := v2 ho
  simp only [pow_zero, mul_one] at hv
  have hm0 : 0 < m := by
    obtain ⟨j, hj⟩ := hr.2.2.2.2.2
    rw [hj]; positivity
  obtain ⟨γ, g1, g2⟩ := rootDirichlet_ok lap bc hm0 hr.2.1 hr.2.2.2.2.1 hv
  rw [solveStageAnalytic_eq g1] at h3'
  have h3'' := h3'
  obtain ⟨t3', e3, v3, s3, x3⟩ := solveStage_okX hs opt (m := m) (bdry := fun p => .ok { p with g := Vec.ofFn (4 * m) γ })
    (γ := fun _ => Vec.ofFn (4 * m) γ) ⟨fun _ => rfl, fun _ _ _ => ⟨rfl, (Vec.has_ofFn _ _).2.1⟩⟩
    (fun _ _ _ h => h.2.1) (fun h => by rw [ho] at h; cases h) u2
  rw [h3'] at e3
  obtain rfl := Res.ok_inj.mp e3
  have hg := v3.root_g
  simp only [pow_zero, mul_one, proN] at hg
  unfold solveStage at h3''
  obtain ⟨r, er, h3''⟩ := Res.bind_eq_ok.mp h3''
  obtain rfl := Res.ok_inj.mp er
  obtain ⟨kT, kh⟩ := split_root_ops h3''
  have eT : t3.val.T = bm m 4 4 T := by rw [kT]; exact hr.2.2.2.2.1
  have eh : t3.val.h = bv m 4 h := by rw [kh]; exact hv
  set B := toBv m (fun k => (Vec.ofFn (4 * m) γ).data.getD k 0) with hB
  have hBγ : ∀ a, a < 4 → ∀ i, i < m → B a i = γ (a * m + i) := fun a ha i hi => getD_listFn (Mat.idx_lt ha hi) 0
  have key : (t3.val.T.mulVec t3.val.g >>= fun y => y.add t3.val.h) = .ok (bv m 4 (opFlux m T B h)) := by
    rw [eT, eh, hg, mulVec_bm hm0 (by omega), Res.ok_bind, add_bv]
    rfl
  have hX1 := hX
  rw [branches_xs, ← x2, ← x3, ← branches_xs] at hX
  have hsol : ∀ (p : Patch K) (g : Nat → Nat → K), p.grid.nx = N → p.grid.ny = N → Proper (rect p.grid) ∧ EllipticOn s (rect p.grid) →
      (p.f = φ p.grid ∧ p.f.size = N * N ∧ p.f.WF) → UPs N (s.toPatchSolver lu) p.grid g p.f p.u →
      Solves s (rect p.grid) N N (ofB g) (fun i j => f (cx (rect p.grid) N i) (cy (rect p.grid) N j))
        (fun i j => p.u.data.getD (j + i * N) 0) := by
    rintro p g hx hy ⟨q1, q2⟩ ⟨hf, f1', f2'⟩ hu
    have hφ' : p.f = Vec.ofFn (N * N) _ := Vec.has_iff.mp (has_of_wf f1' f2')
    obtain ⟨V, w1, w2⟩ := FVSolver.solve_ok lu s hN hx hy (fun k => g (k / N) (k % N)) (fun i => p.f.data.getD i 0)
    have hu' : s.solve lu p.grid (bv N 4 g) p.f = .ok p.u := hu
    have e1 : bv N 4 g = Vec.ofFn (4 * N) (fun k => g (k / N) (k % N)) := rfl
    rw [e1, hφ'] at hu'
    rw [w1] at hu'
    have eu := (Res.ok_inj.mp hu').symm
    obtain ⟨cW, cE, cS, cN⟩ := flat_ofB (n := N) hN0 g
    refine (w2 (unique_of_elliptic q1 q2 N N)).congr cW cE cS cN (fun i hi j hj => ?_) (fun i hi j hj => ?_)
    · rw [hf]; exact sampled_at f1 hx hy hi hj
    · rw [eu]; exact (getD_listFn (FVSolver.idx_lt hi hj) 0).symm
  have hflux : ∀ (p : Patch K) (T : Blk K) (h : Nat → Nat → K), p.grid.nx = N → p.grid.ny = N →
      (LPs N (s.toPatchSolver lu) p.grid T ∧ Proper (rect p.grid) ∧ EllipticOn s (rect p.grid)) →
      (p.f = φ p.grid ∧ HPs N (s.toPatchSolver lu) p.grid p.f h) →
      ∀ b U, Solves s (rect p.grid) N N (ofB b) (fun i j => f (cx (rect p.grid) N i) (cy (rect p.grid) N j)) U →
        ∀ a, a < 4 → ∀ i, i < N → deriv (rect p.grid) N N (ofB b) U a i = opFlux N T b h a i := by
    intro p T h hx hy hL hH b U hU a ha i hi
    refine leaf_trueOp lu s hN hx hy (unique_of_elliptic hL.2.1 hL.2.2 N N) hL.1 hH.2 b U (hU.congr (fun _ _ => rfl) (fun _ _ => rfl)
      (fun _ _ => rfl) (fun _ _ => rfl) (fun i hi j hj => ?_) (fun _ _ _ _ => rfl)) a ha i hi
    rw [hH.1]; exact (sampled_at f1 hx hy hi hj).symm
  have hC := v3.composite (s := s) (f := f) (fun p T h g hx hy hL hH hg hu => by
    have := hsol p g hx hy hL.2 ⟨hH.1, hH.2.1⟩ hu
    exact ⟨this, fun a ha i hi => (hflux p T h hx hy hL hH g _ this a ha i hi).symm⟩) hX
  have hO := fun {M} hM {m'} {g'} {q'} => v3.only (s := s) (f := f) hflux (fun p T h g hx hy hL hH hu b U hb hU => by
    have h1 := hsol p g hx hy hL.2 ⟨hH.1, hH.2.1⟩ hu
    have h2 := hU.congr (b' := ofB g) (hb 0 (by omega)) (hb 1 (by omega)) (hb 2 (by omega)) (hb 3 (by omega))
      (fun _ _ _ _ => rfl) (fun _ _ _ _ => rfl)
    exact unique_of_elliptic hL.2.1 hL.2.2 N N _ _ _ _ h2 h1) hX (M := M) hM (m' := m') (g' := g') (q' := q')
  simp only [pow_zero, mul_one, proN] at hC hO
  have hrect : rect t2.val.grid = R := by
    obtain ⟨x1, x2, x3, x4⟩ := hr.2.2.2.1
    unfold rect
    rw [x1, x2, x3, x4]
  have hb : ∀ (pick : K × K × K → K) k, k < 4 * m → bval pick bc t2.val.grid m k = sideData pick bc R m (k / m) (k % m) := by
    intro pick k hk
    unfold bval sideData
    rw [boundaryPoint_eq hr.2.1 hr.2.2.1 (Mat.div_lt' hk), hrect]
  refine ⟨m, γ, _, T, h, hm0, ?_, hC.congr hBγ, key, ?_, ?_, ?_, ?_⟩
  · rw [Vec.has_iff, hg]
    unfold bv
    refine Vec.ofFn_congr fun i hi => ?_
    rw [hBγ _ (Mat.div_lt' hi) _ (Mat.mod_lt' hi), Nat.div_add_mod']
  · rw [s3, s2, s1]
  · intro hns a ha i hi
    have := g2 (hns.congr fun i hi j hj => by rw [hb _ i hi, hb _ i hi]) _ (Mat.idx_lt ha hi)
    rw [hb _ _ (Mat.idx_lt ha hi), hb _ _ (Mat.idx_lt ha hi), hb _ _ (Mat.idx_lt ha hi), Mat.idx_div hi, Mat.idx_mod hi] at this
    rw [← this]
    congr 2
    unfold opFlux app
    rw [sum_range_mul]
    congr 1
    refine sum_congr rfl fun q' hq' => sum_congr rfl fun j hj => ?_
    have hj := mem_range.mp hj
    rw [Mat.idx_div hj, Mat.idx_mod hj, hBγ q' (mem_range.mp hq') j hj]
  · intro g
    rw [← t.cuts_shape, ← s1, t1.cuts_shape]
    have := b2.solution (s := s) (fun p T hx hy hL g => by
      obtain ⟨V, w1, w2⟩ := FVSolver.solve_ok lu s hN hx hy (fun k => g (k / N) (k % N)) (fun _ => 0)
      obtain ⟨cW, cE, cS, cN⟩ := flat_ofB (n := N) hN0 g
      have := (w2 (unique_of_elliptic hL.2.1 hL.2.2 N N)).congr cW cE cS cN (f' := fun _ _ => 0) (fun _ _ _ _ => rfl) (fun _ _ _ _ => rfl)
      refine ⟨_, this, fun a ha i hi => ?_⟩
      rw [leaf_trueOp0 lu s hN hx hy (unique_of_elliptic hL.2.1 hL.2.2 N N) hL.1 g _ this a ha i hi, opFlux, add_zero]) hX1 g
    simpa only [pow_zero, mul_one] using this
  · intro M hM m' g' q' h
    obtain ⟨rfl, h'', h'⟩ := hO hM h
    refine ⟨rfl, h'', fun hb => h' fun a ha i hi => ?_⟩
    rw [hb a ha i hi, hBγ a ha i hi]

/-- What a run with functions leaves behind, seen as a solution of the discretised equation on the mesh. -/
theorem HPS.functions_composite (lap : Lapack K) (lu : PetscLU K) {s : FVSolver K} (hN : 2 ≤ N) {opt : HPSOptions}
    (hc : opt.cacheOperators = false) (ho : opt.homogeneousRhs = false) {t : Tree (Patch K)} {R : Rect K} (ht : Init N t R)
    (h3 : 3 ≤ N ∨ ∃ d, Uniform d t) (hR : Proper R) (hE : EllipticOn s R) (f : K → K → K) (bc : BoundaryFn K)
    {t1 t3 : Tree (Patch K)} {c1 : Option (Mat K)} (h1 : buildStage lap (s.toPatchSolver lu) opt t none = .ok (t1, c1))
    (h2 : (Request.functions f bc).run lap (s.toPatchSolver lu) opt t1 = .ok t3) (hX : Branches (fun p => NonsingularMat p.X) t1) :
    ∃ m γ q, 0 < m ∧ t3.val.g.Has (4 * m) γ ∧ Composite s f N (treeCells N t3) R m (fun a i => γ (a * m + i)) q ∧
      (t3.val.T.mulVec t3.val.g >>= fun y => y.add t3.val.h) = .ok (bv m 4 q) ∧ t3.shape = t.shape ∧
      ∀ M : Pieces (Nat → Nat → K), M.Alike (treeCells N t3) → ∀ m' g' q', Composite s f N M R m' g' q' → m' = m ∧
        ((∀ a, a < 4 → ∀ i, i < m → g' a i = γ (a * m + i)) → M.Same N (treeCells N t3)) := by
  obtain ⟨m, γ, q, T, h, hm, hg, hC, hk, hs, _, _, hO⟩ := functions_ops lap lu hN hc ho ht h3 hR hE f bc h1 h2 hX
  refine ⟨m, γ, q, hm, hg, hC, hk, hs, fun M hM m' g' q' h => ?_⟩
  obtain ⟨e, _, h'⟩ := hO M hM m' g' q' h
  exact ⟨e, h'⟩

theorem treeCells_alike {A : Type} (M : Pieces A) {t t' : Tree (Patch K)} (h : t.shape = t'.shape) (hM : M.Alike (treeCells N t)) :
    M.Alike (treeCells N t') := by
  induction t generalizing M t' with
  | leaf p =>
    cases t' with
    | leaf p' => cases M <;> exact hM
    | node => cases h
  | node p c0 c1 c2 c3 i0 i1 i2 i3 =>
    cases t' with
    | leaf p' => cases h
    | node p' d0 d1 d2 d3 =>
      cases M with
      | one => exact hM.elim
      | four M0 M1 M2 M3 =>
        injection h with _ e0 e1 e2 e3
        exact ⟨i0 M0 e0 hM.1, i1 M1 e1 hM.2.1, i2 M2 e2 hM.2.2.1, i3 M3 e3 hM.2.2.2⟩

/-- C100, missing: that the merge systems are nonsingular on every adaptive mesh (`C100_uniform` and `C100_damped` prove it in two cases).
Whatever the boundary conditions are, a run leaves the solution of the discretised equation on the mesh, for the values at the boundary it
has determined; its cell values are the only ones. -/
theorem C100_any_condition_partial (lap : Lapack K) (lu : PetscLU K) {s : FVSolver K} (hN : 2 ≤ N) {opt : HPSOptions}
    (hc : opt.cacheOperators = false) (ho : opt.homogeneousRhs = false) {t : Tree (Patch K)} {R : Rect K} (ht : Init N t R)
    (h3 : 3 ≤ N ∨ ∃ d, Uniform d t) (hR : Proper R) (hE : EllipticOn s R) (f : K → K → K) (bc : BoundaryFn K)
    {t1 t3 : Tree (Patch K)} {c1 : Option (Mat K)} (h1 : buildStage lap (s.toPatchSolver lu) opt t none = .ok (t1, c1))
    (h2 : (Request.functions f bc).run lap (s.toPatchSolver lu) opt t1 = .ok t3) (hX : Branches (fun p => NonsingularMat p.X) t1) :
    ∃ m γ q, 0 < m ∧ t3.val.g.Has (4 * m) γ ∧ Composite s f N (treeCells N t3) R m (fun a i => γ (a * m + i)) q ∧
      ∀ M : Pieces (Nat → Nat → K), M.Alike (treeCells N t) → ∀ m' q', Composite s f N M R m' (fun a i => γ (a * m + i)) q' →
        M.Same N (treeCells N t3) := by
  obtain ⟨m, γ, q, hm, hg, hC, _, hs, hO⟩ := functions_composite lap lu hN hc ho ht h3 hR hE f bc h1 h2 hX
  refine ⟨m, γ, q, hm, hg, hC, fun M hM m' q' h => ?_⟩
  exact (hO M (treeCells_alike M hs.symm hM) m' _ q' h).2 fun _ _ _ _ => rfl

/-- C100, missing: that the merge systems are nonsingular on every adaptive mesh (`C100_uniform` and `C100_damped` prove it in two cases).
With prescribed values at the boundary, a run leaves the one and only solution of the discretised equation on the mesh. -/
theorem C100_solution_partial (lap : Lapack K) (lu : PetscLU K) {s : FVSolver K} (hN : 2 ≤ N) {opt : HPSOptions}
    (hc : opt.cacheOperators = false) (ho : opt.homogeneousRhs = false) {t : Tree (Patch K)} {R : Rect K} (ht : Init N t R)
    (h3 : 3 ≤ N ∨ ∃ d, Uniform d t) (hR : Proper R) (hE : EllipticOn s R) (f : K → K → K) (r : Nat → K → K → K)
    {t1 t3 : Tree (Patch K)} {c1 : Option (Mat K)} (h1 : buildStage lap (s.toPatchSolver lu) opt t none = .ok (t1, c1))
    (h2 : (Request.functions f (fun a x y => (r a x y, 1, 0))).run lap (s.toPatchSolver lu) opt t1 = .ok t3)
    (hX : Branches (fun p => NonsingularMat p.X) t1) :
    ∃ m, 0 < m ∧ (∃ q, Composite s f N (treeCells N t3) R m (fun a i => r a (sidePoint R m a i).1 (sidePoint R m a i).2) q) ∧
      ∀ M : Pieces (Nat → Nat → K), M.Alike (treeCells N t) → ∀ m' q',
        Composite s f N M R m' (fun a i => r a (sidePoint R m' a i).1 (sidePoint R m' a i).2) q' → M.Same N (treeCells N t3) := by
  obtain ⟨m, γ, q, hm, hg, hC, _, hs, hO⟩ := functions_composite lap lu hN hc ho ht h3 hR hE f _ h1 h2 hX
  unfold Request.run at h2
  obtain ⟨t2, e2, e3⟩ := Res.bind_eq_ok.mp h2
  obtain ⟨m', hm', t3', e3', γ', hg', hγ⟩ := C26_dirichlet lap (by omega) (FVSolver.shapes lu s hN) ho ht h3 h1 e2 r
  rw [e3] at e3'
  obtain rfl := Res.ok_inj.mp e3'
  have em : m' = m := by
    have := hg.1.symm.trans hg'.1
    omega
  subst em
  have hγ' : ∀ a, a < 4 → ∀ i, i < m' → γ (a * m' + i) = r a (sidePoint R m' a i).1 (sidePoint R m' a i).2 := by
    intro a ha i hi
    rw [← hγ a ha i hi]
    have e1 := Vec.has_iff.mp hg
    have e2 := Vec.has_iff.mp hg'
    have h1 := congrArg (fun v : Vec K => v.data.getD (a * m' + i) 0) (e1.symm.trans e2)
    simp only [Vec.ofFn] at h1
    rwa [getD_listFn (Mat.idx_lt ha hi) 0, getD_listFn (Mat.idx_lt ha hi) 0] at h1
  refine ⟨m', hm, ⟨q, hC.congr hγ'⟩, fun M hM m'' q' h => ?_⟩
  obtain ⟨rfl, h'⟩ := hO M (treeCells_alike M hs.symm hM) m'' _ q' h
  exact h' fun a ha i hi => (hγ' a ha i hi).symm

/-- C100 on uniform meshes. -/
theorem C100_uniform (lap : Lapack K) (lu : PetscLU K) {s : FVSolver K} (hN : 2 ≤ N) {opt : HPSOptions}
    (hc : opt.cacheOperators = false) (ho : opt.homogeneousRhs = false) {t : Tree (Patch K)} {R : Rect K} (ht : Init N t R) {d : Nat}
    (hu : Uniform d t) (hR : Proper R) (hE : EllipticOn s R) (f : K → K → K) (r : Nat → K → K → K) {t1 t3 : Tree (Patch K)}
    {c1 : Option (Mat K)} (h1 : buildStage lap (s.toPatchSolver lu) opt t none = .ok (t1, c1))
    (h2 : (Request.functions f (fun a x y => (r a x y, 1, 0))).run lap (s.toPatchSolver lu) opt t1 = .ok t3) :
    ∃ m, 0 < m ∧ (∃ q, Composite s f N (treeCells N t3) R m (fun a i => r a (sidePoint R m a i).1 (sidePoint R m a i).2) q) ∧
      ∀ M : Pieces (Nat → Nat → K), M.Alike (treeCells N t) → ∀ m' q',
        Composite s f N M R m' (fun a i => r a (sidePoint R m' a i).1 (sidePoint R m' a i).2) q' → M.Same N (treeCells N t3) :=
  C100_solution_partial lap lu hN hc ho ht (Or.inr ⟨d, hu⟩) hR hE f r h1 h2 (C19_nonsingular lap lu hN hc ho ht hu hR hE h1).1

/-- C100 on adaptive meshes, if the reaction term dominates. -/
theorem C100_damped (lap : Lapack K) (lu : PetscLU K) {s : FVSolver K} (hN : 3 ≤ N) {opt : HPSOptions}
    (hc : opt.cacheOperators = false) (ho : opt.homogeneousRhs = false) {t : Tree (Patch K)} {R : Rect K} (ht : Init N t R)
    (hR : Proper R) (hE : EllipticOn s R) (hd : Dominated N s R t) (f : K → K → K) (r : Nat → K → K → K) {t1 t3 : Tree (Patch K)}
    {c1 : Option (Mat K)} (h1 : buildStage lap (s.toPatchSolver lu) opt t none = .ok (t1, c1))
    (h2 : (Request.functions f (fun a x y => (r a x y, 1, 0))).run lap (s.toPatchSolver lu) opt t1 = .ok t3) :
    ∃ m, 0 < m ∧ (∃ q, Composite s f N (treeCells N t3) R m (fun a i => r a (sidePoint R m a i).1 (sidePoint R m a i).2) q) ∧
      ∀ M : Pieces (Nat → Nat → K), M.Alike (treeCells N t) → ∀ m' q',
        Composite s f N M R m' (fun a i => r a (sidePoint R m' a i).1 (sidePoint R m' a i).2) q' → M.Same N (treeCells N t3) :=
  C100_solution_partial lap lu (by omega) hc ho ht (Or.inl hN) hR hE f r h1 h2 (C86_nonsingular lap lu hN hc ht hR hE hd h1)

/-- The hypotheses hold on a mesh with leaves on three levels. -/
example (lap : Lapack ℚ) (lu : PetscLU ℚ) :
    ∃ t1 c1 t3, buildStage lap (exThreePde.toPatchSolver lu) ⟨false, false⟩ (freshTree 4 exThree unitSquare) none = .ok (t1, c1) ∧
      (Request.functions (fun x y => x + y) (fun a x y => ((a : ℚ) + x * y, 1, 0))).run lap (exThreePde.toPatchSolver lu) ⟨false, false⟩ t1 = .ok t3 ∧
      ∃ m q, Composite exThreePde (fun x y => x + y) 4 (treeCells 4 t3) unitSquare m
        (fun a i => (a : ℚ) + (sidePoint unitSquare m a i).1 * (sidePoint unitSquare m a i).2) q := by
  have hi := freshTree_init (K := ℚ) 4 exThree unitSquare
  obtain ⟨t1, c1, t3, e1, e2, _⟩ := C20_stages_succeed_functions lap (by omega) (FVSolver.shapes lu exThreePde (n := 4) (by omega))
    (opt := ⟨false, false⟩) rfl hi (Or.inl (by omega)) (fun x y => x + y) (fun a x y => ((a : ℚ) + x * y, 1, 0))
  obtain ⟨m, _, ⟨q, h⟩, _⟩ := C100_damped lap lu (by omega) rfl rfl hi exPde_elliptic_unit.1 exThree_elliptic exThree_dominated
    (fun x y => x + y) (fun a x y => (a : ℚ) + x * y) e1 e2
  exact ⟨t1, c1, t3, e1, e2, m, q, h⟩

end EF
