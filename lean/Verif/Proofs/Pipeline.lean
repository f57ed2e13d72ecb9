import Verif.Proofs.FluxLemmas

/-!
# The three stages one after the other
-/

namespace EF
namespace HPS

open Finset

variable {K : Type} [Field K] {N : Nat} {LP : Grid K → Blk K → Prop}

/-- Block form of an operator given by its entries. -/
def toBlk (n : Nat) (a : Nat → Nat → K) : Blk K := fun p q i j => a (p * n + i) (q * n + j)

/-- Block form of a vector given by its entries. -/
def toBv (n : Nat) (b : Nat → K) : Nat → Nat → K := fun p i => b (p * n + i)

omit [Field K] in
theorem has_bm {A : Mat K} {n r c : Nat} {a : Nat → Nat → K} (h : A.Has (r * n) (c * n) a) : A = bm n r c (toBlk n a) := by
  rw [Mat.has_iff.mp h, ofFn_eq_bm]; rfl

omit [Field K] in
theorem has_bv {v : Vec K} {n r : Nat} {b : Nat → K} (h : v.Has (r * n) b) : v = bv n r (toBv n b) := by
  rw [Vec.has_iff.mp h, ofFn_eq_bv]; rfl

omit [Field K] in
theorem bm_has (n r c : Nat) (B : Blk K) : (bm n r c B).Has (r * n) (c * n) (fun i j => B (i / n) (j / n) (i % n) (j % n)) :=
  Mat.has_ofFn _ _ _

omit [Field K] in
theorem bv_has (n r : Nat) (b : Nat → Nat → K) : (bv n r b).Has (r * n) (fun k => b (k / n) (k % n)) :=
  Vec.has_ofFn _ _

/-- A well-formed vector has its entries. -/
theorem has_of_wf {v : Vec K} {n : Nat} (h1 : v.size = n) (h2 : v.WF) : v.Has n (fun i => v.data.getD i 0) := by
  unfold Vec.WF at h2
  refine ⟨h1, by rw [h2, h1], ?_⟩
  intro i hi
  unfold Vec.get rd
  rw [if_neg (by omega)]
  have : i < v.data.length := by omega
  simp [this]

/-- Leaf operators as computed by the leaf solver. -/
def LPs (N : Nat) (ps : PatchSolver K) (grid : Grid K) (T : Blk K) : Prop := ps.buildD2N grid = .ok (bm N 4 4 T)

/-- Leaf fluxes as computed by the leaf solver. -/
def HPs (N : Nat) (ps : PatchSolver K) (grid : Grid K) (f : Vec K) (h : Nat → Nat → K) : Prop :=
  (f.size = N * N ∧ f.WF) ∧ ps.particularNeumannData grid f = .ok (bv N 4 h)

/-- Only the shape of the load. -/
def HP0 (N : Nat) (_grid : Grid K) (f : Vec K) (_h : Nat → Nat → K) : Prop := f.size = N * N ∧ f.WF

/-- Leaf solutions as computed by the leaf solver. -/
def UPs (N : Nat) (ps : PatchSolver K) (grid : Grid K) (g : Nat → Nat → K) (f u : Vec K) : Prop :=
  ps.solve grid (bv N 4 g) f = .ok u

/-- The build stage without cached operators. -/
theorem buildStage_ok [NeZero (2 : K)] (lap : Lapack K) {ps : PatchSolver K} (hs : SolverShapes N ps) {opt : HPSOptions}
    (hc : opt.cacheOperators = false) (hN : 0 < N) {t : Tree (Patch K)} {R : Rect K} (ht : Init N t R)
    (h3 : 3 ≤ N ∨ ∃ d, Uniform d t) (cache : Option (Mat K)) :
    ∃ t1 m T, buildStage lap ps opt t cache = .ok (t1, cache) ∧ Built N (LPs N ps) t1 R 0 m T ∧ t1.shape = t.shape ∧
      (∀ d, Uniform d t → m = N * 2 ^ d) := by
  obtain ⟨t1, s', m, T, h1, h2, h3', h4, h5⟩ := build_ok (LP := LPs N ps) lap hN (buildLeaf ps opt) (fun s => s = cache)
    (by
      intro p s hI hx hy
      obtain ⟨A, hA, a, ha⟩ := hs.d2n p.grid hx hy
      refine ⟨toBlk N a, s, ?_, ?_, hI⟩
      · unfold buildLeaf
        rw [hc, if_neg (by simp), hA, Res.ok_bind, has_bm ha]
        rfl
      · unfold LPs
        rw [hA, has_bm ha]) ht h3 rfl
  subst h3'
  exact ⟨t1, m, T, h1, h2, h4, h5⟩

/-- The build stage with any setting of the cache option. -/
theorem buildStage_any [NeZero (2 : K)] (lap : Lapack K) {ps : PatchSolver K} (hs : SolverShapes N ps) (opt : HPSOptions)
    (hN : 0 < N) {t : Tree (Patch K)} {R : Rect K} (ht : Init N t R) (h3 : 3 ≤ N ∨ ∃ d, Uniform d t)
    {cache : Option (Mat K)} (hcache : ∀ A, cache = some A → ∃ a, A.Has (4 * N) (4 * N) a) :
    ∃ t1 c1 m T, buildStage lap ps opt t cache = .ok (t1, c1) ∧ Built N (fun _ _ => True) t1 R 0 m T ∧
      (∀ A, c1 = some A → ∃ a, A.Has (4 * N) (4 * N) a) ∧ t1.shape = t.shape ∧ (∀ d, Uniform d t → m = N * 2 ^ d) := by
  obtain ⟨t1, s', m, T, h1, h2, h3', h4, h5⟩ := build_ok (LP := fun _ _ => True) lap hN (buildLeaf ps opt)
    (fun c => ∀ A, c = some A → ∃ a, A.Has (4 * N) (4 * N) a)
    (by
      intro p s hI hx hy
      obtain ⟨A, hA, a, ha⟩ := hs.d2n p.grid hx hy
      cases hc : opt.cacheOperators with
      | false =>
        refine ⟨toBlk N a, s, ?_, trivial, hI⟩
        unfold buildLeaf
        rw [hc, if_neg (by simp), hA, Res.ok_bind, has_bm ha]
        rfl
      | true =>
        cases s with
        | none =>
          refine ⟨toBlk N a, some A, ?_, trivial, fun B hB => ⟨a, by cases hB; exact ha⟩⟩
          unfold buildLeaf
          rw [hc, if_pos rfl]
          simp only []
          rw [hA, Res.ok_bind, ← has_bm ha]
          rfl
        | some B =>
          obtain ⟨b, hb⟩ := hI B rfl
          refine ⟨toBlk N b, some B, ?_, trivial, hI⟩
          unfold buildLeaf
          rw [hc, if_pos rfl, ← has_bm hb]
          rfl) ht h3 hcache
  exact ⟨t1, s', m, T, h1, h2, h3', h4, h5⟩

/-- The upwards stage in homogeneous mode keeps a built tree. -/
theorem upwards_hom_ok (lap : Lapack K) (opt : HPSOptions) (ho : opt.homogeneousRhs = true)
    (leafF : Patch K → Res (Patch K))
    (hleaf : ∀ p, p.grid.nx = N → p.grid.ny = N → ∃ q, leafF p = .ok q ∧ SameOps p q)
    {t : Tree (Patch K)} {R : Rect K} {k m : Nat} {T : Blk K} (ht : Built N LP t R k m T) :
    ∃ t', t.merge leafF (upwards4to1 lap opt) = .ok t' ∧ Built N LP t' R k m T ∧ t'.shape = t.shape ∧ xs t' = xs t := by
  induction ht with
  | @leaf p R T hk hx hy hR hT hL =>
    obtain ⟨q, e, q1, q2, q3, q4, q5, q6⟩ := hleaf p hx hy
    refine ⟨.leaf q, ?_, ?_, rfl, rfl⟩
    · rw [Tree.merge, e]; rfl
    · refine .leaf (by rw [q1, hk]) (by rw [q2, hx]) (by rw [q2, hy]) ?_ (by rw [q6, hT]) (by rw [q2]; exact hL)
      unfold InRect; rw [q2]; exact hR
  | @node p R c0 c1 c2 c3 n k m k0 k1 k2 k3 T0 T1 T2 T3 S TT h0 h1 h2 h3 hTT hz hn hm hN h3m hk hx hy hR hX hH hS
      hSol hT i0 i1 i2 i3 =>
    obtain ⟨t0, e0, u0, s0, x0⟩ := i0
    obtain ⟨t1, e1, u1, s1, x1⟩ := i1
    obtain ⟨t2, e2, u2, s2, x2⟩ := i2
    obtain ⟨t3, e3, u3, s3, x3⟩ := i3
    have hsv : ∀ c : Tree (Patch K), c.setVal c.val = c := by intro c; cases c <;> rfl
    refine ⟨.node p t0 t1 t2 t3, ?_, .node u0 u1 u2 u3 hTT hz hn hm hN h3m hk hx hy hR hX hH hS hSol hT, ?_, ?_⟩
    · rw [Tree.merge, e0, Res.ok_bind, e1, Res.ok_bind, e2, Res.ok_bind, e3, Res.ok_bind]
      unfold upwards4to1
      rw [ho, if_pos rfl, Res.pure_def, Res.ok_bind]
      simp only [hsv]
      rfl
    · simp only [Tree.shape, s0, s1, s2, s3]
    · rw [xs, xs, x0, x1, x2, x3]

/-- The upwards stage on a built tree, both settings of the option. -/
theorem upwardsStage_okX (lap : Lapack K) {ps : PatchSolver K} (hs : SolverShapes N ps) (opt : HPSOptions)
    {rhs : Patch K → Res (Patch K)} {φ : Grid K → Vec K} (hφ : SetsLoad N rhs φ)
    {HP : Grid K → Vec K → (Nat → Nat → K) → Prop}
    (hHP : ∀ grid f h, f = φ grid → f.size = N * N → f.WF → ps.particularNeumannData grid f = .ok (bv N 4 h) → HP grid f h)
    {t : Tree (Patch K)} {R : Rect K} {k m : Nat} {T : Blk K} (ht : Built N LP t R k m T) :
    ∃ t2 h, upwardsStage lap ps opt rhs t = .ok t2 ∧ Upd N LP HP opt.homogeneousRhs t2 R k m T h ∧
      (opt.homogeneousRhs = false → t2.val.h = bv (m * 2 ^ k) 4 h) ∧
      (opt.homogeneousRhs = true → h = fun _ _ => 0) ∧ t2.shape = t.shape ∧ xs t2 = xs t := by
  have hl : ∀ p : Patch K, p.grid.nx = N → p.grid.ny = N →
      ∃ q h, upwardsLeaf ps rhs p = .ok q ∧ SameOps p q ∧ q.h = bv N 4 h ∧ HP q.grid q.f h := by
    intro p hx hy
    obtain ⟨f1, f2⟩ := hφ.2 p.grid hx hy
    obtain ⟨v, hv, b, hb⟩ := hs.flux p.grid (φ p.grid) hx hy f1 f2
    refine ⟨{ p with f := φ p.grid, h := bv N 4 (toBv N b) }, toBv N b, ?_, ⟨rfl, rfl, rfl, rfl, rfl, rfl⟩, rfl, ?_⟩
    · unfold upwardsLeaf
      rw [hφ.1, Res.ok_bind]
      simp only []
      rw [hv, Res.ok_bind, ← has_bv hb]
      rfl
    · exact hHP _ _ _ rfl f1 f2 (by rw [hv, has_bv hb])
  unfold upwardsStage
  cases ho : opt.homogeneousRhs with
  | false =>
    obtain ⟨t2, h, e1, e2, e3, e4⟩ := upwards_ok (HP := HP) lap opt ho (upwardsLeaf ps rhs) hl ht
    exact ⟨t2, h, e1, e2, fun _ => e3, by simp, e4⟩
  | true =>
    obtain ⟨t2, e1, e2, e3, e6⟩ := upwards_hom_ok lap opt ho (upwardsLeaf ps rhs) (fun p hx hy => by
      obtain ⟨q, h, a, b, _⟩ := hl p hx hy
      exact ⟨q, a, b⟩) ht
    obtain ⟨h, e4, e5⟩ := e2.upd_hom (HP := HP)
    exact ⟨t2, h, e1, e4, by simp, fun _ => e5, e3, e6⟩

/-- The upwards stage on a built tree. -/
theorem upwardsStage_ok' (lap : Lapack K) {ps : PatchSolver K} (hs : SolverShapes N ps) (opt : HPSOptions)
    {rhs : Patch K → Res (Patch K)} {φ : Grid K → Vec K} (hφ : SetsLoad N rhs φ)
    {HP : Grid K → Vec K → (Nat → Nat → K) → Prop}
    (hHP : ∀ grid f h, f = φ grid → f.size = N * N → f.WF → ps.particularNeumannData grid f = .ok (bv N 4 h) → HP grid f h)
    {t : Tree (Patch K)} {R : Rect K} {k m : Nat} {T : Blk K} (ht : Built N LP t R k m T) :
    ∃ t2 h, upwardsStage lap ps opt rhs t = .ok t2 ∧ Upd N LP HP opt.homogeneousRhs t2 R k m T h ∧
      (opt.homogeneousRhs = false → t2.val.h = bv (m * 2 ^ k) 4 h) ∧
      (opt.homogeneousRhs = true → h = fun _ _ => 0) ∧ t2.shape = t.shape := by
  obtain ⟨t2, h, a, b, c, d, e, _⟩ := upwardsStage_okX lap hs opt hφ hHP ht
  exact ⟨t2, h, a, b, c, d, e⟩

/-- The upwards stage on a built tree, both settings of the option; nothing is kept about the origin of the load. -/
theorem upwardsStage_ok (lap : Lapack K) {ps : PatchSolver K} (hs : SolverShapes N ps) (opt : HPSOptions)
    {rhs : Patch K → Res (Patch K)} {φ : Grid K → Vec K} (hφ : SetsLoad N rhs φ)
    {HP : Grid K → Vec K → (Nat → Nat → K) → Prop}
    (hHP : ∀ grid f h, f.size = N * N → f.WF → ps.particularNeumannData grid f = .ok (bv N 4 h) → HP grid f h)
    {t : Tree (Patch K)} {R : Rect K} {k m : Nat} {T : Blk K} (ht : Built N LP t R k m T) :
    ∃ t2 h, upwardsStage lap ps opt rhs t = .ok t2 ∧ Upd N LP HP opt.homogeneousRhs t2 R k m T h ∧
      (opt.homogeneousRhs = false → t2.val.h = bv (m * 2 ^ k) 4 h) ∧
      (opt.homogeneousRhs = true → h = fun _ _ => 0) ∧ t2.shape = t.shape :=
  upwardsStage_ok' lap hs opt hφ (fun grid f h _ => hHP grid f h) ht

/-- The solve stage on an updated tree. -/
theorem solveStage_okX {ps : PatchSolver K} (hs : SolverShapes N ps) (opt : HPSOptions) {m : Nat}
    {bdry : Patch K → Res (Patch K)} {γ : Patch K → Vec K} (hγ : SetsBoundary m bdry γ)
    {HP : Grid K → Vec K → (Nat → Nat → K) → Prop} (hHP : ∀ grid f h, HP grid f h → f.size = N * N ∧ f.WF)
    (hH0 : opt.homogeneousRhs = true → ∀ grid : Grid K, grid.nx = N → grid.ny = N →
      HP grid (Vec.fill (N * N) 0) (fun _ _ => 0))
    {t : Tree (Patch K)} {R : Rect K} {T : Blk K} {h : Nat → Nat → K}
    (ht : Upd N LP HP opt.homogeneousRhs t R 0 m T h) :
    ∃ t3, solveStage ps opt bdry t = .ok t3 ∧
      Slv N LP HP (UPs N ps) t3 R 0 m T h (toBv m (fun k => (γ t.val).data.getD k 0)) ∧ t3.shape = t.shape ∧ xs t3 = xs t := by
  have hr := ht.built.root
  obtain ⟨g1, g2⟩ := hγ.2 t.val (by simpa using hr.2.1) (by simpa using hr.2.2.1)
  have hg := has_of_wf g1 g2
  obtain ⟨t3, e1, e2, e3, e4⟩ := split_ok (UP := UPs N ps) opt (leafSolve ps opt)
    (by
      intro p g hx hy hg ho h hh
      obtain ⟨f1, f2⟩ := hHP _ _ _ hh
      obtain ⟨u, hu, _⟩ := hs.solve p.grid p.g p.f hx hy (by rw [hg]; rfl)
        (by rw [hg]; exact (bv_has N 4 g).2.1.trans (bv_has N 4 g).1.symm) f1 f2
      refine ⟨u, ?_, by unfold UPs; rw [← hg]; exact hu⟩
      unfold leafSolve
      rw [ho]
      simp only [Bool.false_eq_true, if_false]
      rw [hu]
      rfl)
    (by
      intro p g hx hy hg ho
      have hf : (Vec.fill (N * N) 0 : Vec K).size = N * N ∧ (Vec.fill (N * N) 0 : Vec K).WF :=
        ⟨rfl, by simp [Vec.WF, Vec.fill]⟩
      obtain ⟨u, hu, _⟩ := hs.solve p.grid p.g (Vec.fill (N * N) 0) hx hy (by rw [hg]; rfl)
        (by rw [hg]; exact (bv_has N 4 g).2.1.trans (bv_has N 4 g).1.symm) hf.1 hf.2
      refine ⟨u, Vec.fill (N * N) 0, ?_, by unfold UPs; rw [← hg]; exact hu, hH0 ho _ hx hy⟩
      unfold leafSolve
      rw [ho]
      simp only [if_true]
      rw [hx, hy, hu]
      rfl) ht (q := { t.val with g := γ t.val }) ⟨rfl, rfl, rfl, rfl, rfl, rfl⟩ rfl rfl (has_bv hg)
  refine ⟨t3, ?_, e2, e3, e4⟩
  unfold solveStage
  rw [hγ.1, Res.ok_bind]
  exact e1

/-- The solve stage on an updated tree. -/
theorem solveStage_ok {ps : PatchSolver K} (hs : SolverShapes N ps) (opt : HPSOptions) {m : Nat}
    {bdry : Patch K → Res (Patch K)} {γ : Patch K → Vec K} (hγ : SetsBoundary m bdry γ)
    {HP : Grid K → Vec K → (Nat → Nat → K) → Prop} (hHP : ∀ grid f h, HP grid f h → f.size = N * N ∧ f.WF)
    (hH0 : opt.homogeneousRhs = true → ∀ grid : Grid K, grid.nx = N → grid.ny = N →
      HP grid (Vec.fill (N * N) 0) (fun _ _ => 0))
    {t : Tree (Patch K)} {R : Rect K} {T : Blk K} {h : Nat → Nat → K}
    (ht : Upd N LP HP opt.homogeneousRhs t R 0 m T h) :
    ∃ t3, solveStage ps opt bdry t = .ok t3 ∧
      Slv N LP HP (UPs N ps) t3 R 0 m T h (toBv m (fun k => (γ t.val).data.getD k 0)) ∧ t3.shape = t.shape := by
  obtain ⟨t3, a, b, c, _⟩ := solveStage_okX hs opt hγ hHP hH0 ht
  exact ⟨t3, a, b, c⟩

/-- Conditions on the interface systems of a tree. -/
theorem branches_xs {Q : Mat K → Prop} {t : Tree (Patch K)} : Branches (fun p => Q p.X) t ↔ ∀ A ∈ xs t, Q A := by
  induction t with
  | leaf => simp [Branches, xs]
  | node p c0 c1 c2 c3 i0 i1 i2 i3 =>
    simp only [Branches, xs, i0, i1, i2, i3, List.mem_cons, List.mem_append]
    constructor
    · rintro ⟨h, h0, h1, h2, h3⟩ A (rfl | ((hA | hA) | hA) | hA)
      · exact h
      · exact h0 _ hA
      · exact h1 _ hA
      · exact h2 _ hA
      · exact h3 _ hA
    · intro h
      exact ⟨h _ (Or.inl rfl), fun A hA => h A (by simp [hA]), fun A hA => h A (by simp [hA]), fun A hA => h A (by simp [hA]),
        fun A hA => h A (by simp [hA])⟩

end HPS
end EF
