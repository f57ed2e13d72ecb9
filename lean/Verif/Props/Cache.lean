import Verif.Proofs.Cache

/-!
# The option cache-operators (C25)
-/

namespace EF

open Finset FV HPS

variable {K : Type} [Field K] {N : Nat}

/-- The two builds give the same tree of patches (or fail in the same way). -/
def HPS.SameTree (a b : Res (Tree (Patch K) × Option (Mat K))) : Prop := (a >>= fun r => Res.ok r.1) = (b >>= fun r => Res.ok r.1)

/-! ### What the option does -/

/-- C25, actual behaviour.  With the option set, and `A` being the operator in the cache or, if the cache is empty, the operator of
the first leaf, the build stage does what it does without the option for a leaf solver whose operator is `A` on every leaf. -/
theorem C25_cached_actual (lap : Lapack K) (ps : PatchSolver K) {opt : HPSOptions} (hc : opt.cacheOperators = true) {t : Tree (Patch K)}
    {cache : Option (Mat K)} {A : Mat K} {p : Patch K} {l : List (Patch K)} (hp : t.leaves = p :: l)
    (hA : cache = some A ∨ cache = none ∧ ps.buildD2N p.grid = .ok A) :
    SameTree (buildStage lap ps opt t cache)
        (buildStage lap { ps with buildD2N := fun _ => .ok A } { opt with cacheOperators := false } t none) ∧
      ∀ t1 c1, buildStage lap ps opt t cache = .ok (t1, c1) → c1 = some A := by
  have key : buildStage lap ps opt t cache = buildStage lap ps opt t (some A) := by
    rcases hA with rfl | ⟨rfl, hA⟩
    · rfl
    · rw [buildStage_first lap ps hc hp, hA, Res.ok_bind]
  rw [key, buildStage_cached lap ps hc A t none]
  refine ⟨?_, ?_⟩
  · unfold SameTree
    simp only [bind_assoc, Res.ok_bind]
  · intro t1 c1 h
    obtain ⟨r, _, h⟩ := Res.bind_eq_ok.mp h
    exact (Prod.mk.inj (Res.ok_inj.mp h)).2.symm

/-- C25, exactly when the claim holds: for a leaf solver with operators of the right size, on every adaptive tree, the option changes
nothing iff all leaf operators are equal to the one that is cached. -/
theorem C25_same_iff [NeZero (2 : K)] (lap : Lapack K) {ps : PatchSolver K} (hs : SolverShapes N ps) (hN : 0 < N) (hom : Bool)
    {t : Tree (Patch K)} {R : Rect K} (ht : Init N t R) (h3 : 3 ≤ N ∨ ∃ d, Uniform d t) {cache : Option (Mat K)} {A : Mat K}
    {p : Patch K} {l : List (Patch K)} (hp : t.leaves = p :: l)
    (hA : cache = some A ∧ (∃ a, A.Has (4 * N) (4 * N) a) ∨ cache = none ∧ ps.buildD2N p.grid = .ok A) :
    SameTree (buildStage lap ps ⟨true, hom⟩ t cache) (buildStage lap ps ⟨false, hom⟩ t cache) ↔
      ∀ q ∈ t.leaves, ps.buildD2N q.grid = .ok A := by
  obtain ⟨e, -⟩ := C25_cached_actual lap ps (opt := ⟨true, hom⟩) rfl (cache := cache) hp (hA.imp (·.1) id)
  have hAs : ∃ a, A.Has (4 * N) (4 * N) a := by
    rcases hA with ⟨_, h⟩ | ⟨_, h⟩
    · exact h
    · obtain ⟨hx, hy⟩ := ht.leaves p (by rw [hp]; simp)
      obtain ⟨A', h', k⟩ := hs.d2n p.grid hx hy
      rw [h] at h'
      obtain rfl := Res.ok_inj.mp h'
      exact k
  have hs' : SolverShapes N { ps with buildD2N := fun _ => .ok A } := ⟨fun _ _ _ => ⟨A, rfl, hAs⟩, hs.flux, hs.solve⟩
  obtain ⟨t1, m, T, b1, b2, _⟩ := buildStage_ok lap hs' (opt := ⟨false, hom⟩) rfl hN ht h3 none
  obtain ⟨t2, m', T', d1, d2, _⟩ := buildStage_ok lap hs (opt := ⟨false, hom⟩) rfl hN ht h3 cache
  unfold SameTree at e ⊢
  rw [e, b1]
  constructor
  · intro h
    rw [d1] at h
    simp only [Res.ok_bind, Res.ok_inj] at h
    subst h
    intro q hq
    have hg : q.grid ∈ t1.leaves.map (·.grid) := by
      rw [buildStage_leaves b1]
      exact List.mem_map_of_mem hq
    obtain ⟨q', hq', hg'⟩ := List.mem_map.mp hg
    obtain ⟨T1, x1, x2⟩ := b2.leafT q' hq'
    obtain ⟨T2, y1, y2⟩ := d2.leafT q' hq'
    unfold LPs at x2 y2
    rw [← hg', y2, ← y1, x1]
    exact x2.symm
  · intro h
    have : ∀ (t : Tree (Patch K)) (c : Option (Mat K)), (∀ q ∈ t.leaves, ps.buildD2N q.grid = .ok A) →
        buildStage lap ps ⟨false, hom⟩ t c = buildStage lap { ps with buildD2N := fun _ => .ok A } ⟨false, hom⟩ t c := by
      intro t
      unfold buildStage
      induction t with
      | leaf p =>
        intro c h
        simp [Tree.mergeSt, buildLeaf, h p (by simp [Tree.leaves])]
      | node p c0 c1 c2 c3 i0 i1 i2 i3 =>
        intro c h
        simp only [Tree.leaves, List.mem_append] at h
        simp only [Tree.mergeSt]
        rw [i0 c fun q hq => h q (by simp [hq])]
        refine bind_congr fun r0 => ?_
        rw [i1 _ fun q hq => h q (by simp [hq])]
        refine bind_congr fun r1 => ?_
        rw [i2 _ fun q hq => h q (by simp [hq])]
        refine bind_congr fun r2 => ?_
        rw [i3 _ fun q hq => h q (by simp [hq])]
    rw [this t cache h] at d1 ⊢
    have hcs := C25_cached_actual lap { ps with buildD2N := fun _ => .ok A } (opt := ⟨true, hom⟩) rfl (cache := cache) hp
      (by rcases hA with ⟨h, _⟩ | ⟨h, _⟩; exacts [Or.inl h, Or.inr ⟨h, rfl⟩])
    rw [d1]
    have hc := buildStage_cached lap { ps with buildD2N := fun _ => .ok A } (opt := ⟨true, hom⟩) rfl A t none
    have hc' := buildStage_cached lap { ps with buildD2N := fun _ => .ok A } (opt := ⟨true, hom⟩) rfl A t cache
    rw [hc] at hc'
    simp only at hc'
    rw [b1, d1] at hc'
    simp only [Res.ok_bind, Res.ok_inj, Prod.mk.injEq, and_true] at hc' ⊢
    exact hc'

/-! ### The finite volume solver -/

/-- The coefficients are constants. -/
def FVSolver.Constant (s : FVSolver K) : Prop :=
  ∃ a b c, s = ⟨fun _ _ => a, fun _ _ => b, fun _ _ => c⟩

/-- With constant coefficients the leaf operator depends on the cell sizes only. -/
theorem FVSolver.buildD2N_congr (lu : PetscLU K) {s : FVSolver K} (hs : s.Constant) {g g' : Grid K} (hx : g.nx = g'.nx)
    (hy : g.ny = g'.ny) (hdx : g.dx = g'.dx) (hdy : g.dy = g'.dy) : s.buildD2N lu g = s.buildD2N lu g' := by
  obtain ⟨a, b, c, rfl⟩ := hs
  have h1 : ∀ i j, FVSolver.coef (⟨fun _ _ => a, fun _ _ => b, fun _ _ => c⟩ : FVSolver K) g i j =
      FVSolver.coef ⟨fun _ _ => a, fun _ _ => b, fun _ _ => c⟩ g' i j := by
    intro i j
    simp only [coef, hdx, hdy]
  have h2 : ∀ gs rhs, FVSolver.assemble (⟨fun _ _ => a, fun _ _ => b, fun _ _ => c⟩ : FVSolver K) g gs rhs =
      FVSolver.assemble ⟨fun _ _ => a, fun _ _ => b, fun _ _ => c⟩ g' gs rhs := by
    intro gs rhs
    simp only [assemble, cellStep, h1, hx, hy]
  simp only [buildD2N, buildD2NWith, mapD2N, mapD2NWith, solve, sides, h2, hx, hy, hdx, hdy]

/-- With constant coefficients and no zeroth order term the leaf operator determines the cell sizes. -/
theorem FVSolver.buildD2N_inj [CharZero K] (lu : PetscLU K) {s : FVSolver K} (hN : 2 ≤ N) {β : K} (hβ : ∀ x y, s.beta x y = β)
    (hl : ∀ x y, s.lambda x y = 0) {g g' : Grid K} (hx : g.nx = N) (hy : g.ny = N) (hx' : g'.nx = N) (hy' : g'.ny = N)
    (hq : Unique s (rect g) N N) (hq' : Unique s (rect g') N N) (h1 : g.dx ≠ 0) (h2 : g.dy ≠ 0) (h1' : g'.dx ≠ 0)
    (h2' : g'.dy ≠ 0) (h : s.buildD2N lu g = s.buildD2N lu g') : g.dx = g'.dx := by
  obtain ⟨A, hA, a, ha⟩ := (FVSolver.shapes lu s hN).d2n g hx hy
  have hA : s.buildD2N lu g = .ok A := hA
  rw [has_bm ha] at hA
  have o1 := leaf_trueOp0 lu s hN hx hy hq (T := toBlk N a) hA
  have o2 := leaf_trueOp0 lu s hN hx' hy' hq' (T := toBlk N a) (by unfold LPs; rw [← hA, h]; rfl)
  have k1 : FV.hx (rect g) N ≠ 0 := by unfold Grid.dx at h1; rw [hx] at h1; exact h1
  have k2 : FV.hy (rect g) N ≠ 0 := by unfold Grid.dy at h2; rw [hy] at h2; exact h2
  have k1' : FV.hx (rect g') N ≠ 0 := by unfold Grid.dx at h1'; rw [hx'] at h1'; exact h1'
  have k2' : FV.hy (rect g') N ≠ 0 := by unfold Grid.dy at h2'; rw [hy'] at h2'; exact h2'
  have e : g.dx = FV.hx (rect g) N := by unfold Grid.dx FV.hx; rw [hx]; rfl
  have e' : g'.dx = FV.hx (rect g') N := by unfold Grid.dx FV.hx; rw [hx']; rfl
  have hN0 : (N : K) ≠ 0 := by exact_mod_cast (by omega : N ≠ 0)
  have hb : ∀ b : K, ∀ x y x' y', s.beta x y * b = s.beta x' y' * b := fun _ _ _ _ _ => by rw [hβ, hβ]
  -- the function x - xl on the first rectangle and its multiple with the same values on the second
  set r : K := FV.hx (rect g) N / FV.hx (rect g') N with hr
  have s1 := solves_linear (s := s) (a := -(rect g).xl) (b := 1) (c := 0) (hb 1) (hb 0) (R := rect g) (n := N) (by omega)
    (f := fun _ _ => 0) (fun _ _ _ _ => by rw [hl, zero_mul])
  have s2 := solves_linear (s := s) (a := -(r * (rect g').xl)) (b := r) (c := 0) (hb r) (hb 0) (R := rect g') (n := N) (by omega)
    (f := fun _ _ => 0) (fun _ _ _ _ => by rw [hl, zero_mul])
  have f1 := o1 _ _ s1 0 (by omega) 0 (by omega)
  have f2 := o2 _ _ s2 0 (by omega) 0 (by omega)
  rw [deriv_linear _ _ _ (by omega) k1 k2 (by omega)] at f1
  rw [deriv_linear _ _ _ (by omega) k1' k2' (by omega)] at f2
  have hsame : ∀ q, q < 4 → ∀ j, j < N → smp (-(rect g).xl) 1 0 (rect g) N q j = smp (-(r * (rect g').xl)) r 0 (rect g') N q j := by
    have w1 : (rect g).xu = (rect g).xl + N * FV.hx (rect g) N := by unfold FV.hx; field_simp; ring
    have w2 : (rect g').xu = (rect g').xl + N * FV.hx (rect g') N := by unfold FV.hx; field_simp; ring
    have w3 : r * FV.hx (rect g') N = FV.hx (rect g) N := by rw [hr]; field_simp
    intro q hq j _
    interval_cases q
    · rw [smp_0, smp_0]; ring
    · rw [smp_1, smp_1, w1, w2]; linear_combination -(N : K) * w3
    · rw [smp_2, smp_2]; unfold cx; linear_combination -((j : K) + 1 / 2) * w3
    · rw [smp_3, smp_3]; unfold cx; linear_combination -((j : K) + 1 / 2) * w3
  unfold opFlux at f1 f2
  rw [app_congr hsame] at f1
  rw [← f1] at f2
  simp only [slope, if_pos (show (0 : Nat) < 2 by omega)] at f2
  rw [e, e']
  rw [hr, div_eq_one_iff_eq k1'] at f2
  exact f2

theorem Rect.quarter_width (R : Rect K) {k : Nat} (hk : k < 4) [NeZero (2 : K)] :
    (R.quarter k).xu - (R.quarter k).xl = (R.xu - R.xl) / 2 ∧ (R.quarter k).yu - (R.quarter k).yl = (R.yu - R.yl) / 2 := by
  have h2 : (2 : K) ≠ 0 := NeZero.ne _
  interval_cases k <;> simp [Rect.quarter] <;> constructor <;> field_simp <;> ring

/-- The leaves of a uniform tree have the same cell sizes. -/
theorem HPS.uniform_sizes [NeZero (2 : K)] {t : Tree (Patch K)} {R : Rect K} (ht : Init N t R) {d : Nat} (hu : Uniform d t) :
    ∀ p ∈ t.leaves, p.grid.dx = (R.xu - R.xl) / 2 ^ d / N ∧ p.grid.dy = (R.yu - R.yl) / 2 ^ d / N := by
  induction ht generalizing d with
  | leaf hk hx hy hR =>
    cases hu
    intro p hp
    simp only [Tree.leaves, List.mem_singleton] at hp
    subst hp
    obtain ⟨r1, r2, r3, r4⟩ := hR
    simp [Grid.dx, Grid.dy, hx, hy, r1, r2, r3, r4]
  | @node q R c0 c1 c2 c3 hk h0 h1 h2 h3 i0 i1 i2 i3 =>
    cases hu with
    | @node d _ _ _ _ _ u0 u1 u2 u3 =>
      intro p hp
      have e : ∀ k, k < 4 → ((R.quarter k).xu - (R.quarter k).xl) / 2 ^ d / N = (R.xu - R.xl) / 2 ^ (d + 1) / N ∧
          ((R.quarter k).yu - (R.quarter k).yl) / 2 ^ d / N = (R.yu - R.yl) / 2 ^ (d + 1) / N := by
        intro k hk
        rw [(R.quarter_width hk).1, (R.quarter_width hk).2, pow_succ', div_div _ 2, div_div _ 2]
        exact ⟨rfl, rfl⟩
      simp only [Tree.leaves, List.mem_append] at hp
      rcases hp with ((hp | hp) | hp) | hp
      · have := i0 u0 p hp; rwa [(e 0 (by omega)).1, (e 0 (by omega)).2] at this
      · have := i1 u1 p hp; rwa [(e 1 (by omega)).1, (e 1 (by omega)).2] at this
      · have := i2 u2 p hp; rwa [(e 2 (by omega)).1, (e 2 (by omega)).2] at this
      · have := i3 u3 p hp; rwa [(e 3 (by omega)).1, (e 3 (by omega)).2] at this

/-- If all leaves have the same cell width the tree is uniform. -/
theorem HPS.uniform_of_sizes [CharZero K] (hN : 0 < N) {t : Tree (Patch K)} {R : Rect K} (ht : Init N t R) (hR : R.xu - R.xl ≠ 0)
    {δ : K} (h : ∀ p ∈ t.leaves, p.grid.dx = δ) : ∃ d, Uniform d t ∧ R.xu - R.xl = δ * N * 2 ^ d := by
  have hN0 : (N : K) ≠ 0 := by exact_mod_cast hN.ne'
  induction ht with
  | leaf hk hx hy hI =>
    obtain ⟨r1, r2, r3, r4⟩ := hI
    have := h _ (by simp [Tree.leaves]; rfl)
    refine ⟨0, .leaf _, ?_⟩
    rw [← this, Grid.dx, hx, r1, r2]
    field_simp
  | @node q R c0 c1 c2 c3 hk h0 h1 h2 h3 i0 i1 i2 i3 =>
    simp only [Tree.leaves, List.mem_append] at h
    have e : ∀ k, k < 4 → (R.quarter k).xu - (R.quarter k).xl = (R.xu - R.xl) / 2 := fun k hk => (R.quarter_width hk).1
    have ne : ∀ k, k < 4 → (R.quarter k).xu - (R.quarter k).xl ≠ 0 := by
      intro k hk; rw [e k hk]; exact div_ne_zero hR two_ne_zero
    obtain ⟨d0, a0, b0⟩ := i0 (ne 0 (by omega)) fun p hp => h p (by simp [hp])
    obtain ⟨d1, a1, b1⟩ := i1 (ne 1 (by omega)) fun p hp => h p (by simp [hp])
    obtain ⟨d2, a2, b2⟩ := i2 (ne 2 (by omega)) fun p hp => h p (by simp [hp])
    obtain ⟨d3, a3, b3⟩ := i3 (ne 3 (by omega)) fun p hp => h p (by simp [hp])
    rw [e _ (by omega)] at b0 b1 b2 b3
    have hne : δ * N ≠ 0 := by
      intro hz
      rw [hz, zero_mul] at b0
      exact hR (by simpa using b0)
    have inj : ∀ a b : Nat, δ * N * 2 ^ a = δ * N * 2 ^ b → a = b := by
      intro a b hab
      have := mul_left_cancel₀ hne hab
      exact Nat.pow_right_injective (le_refl 2) (by exact_mod_cast this)
    obtain rfl := inj d1 d0 (b1.symm.trans b0)
    obtain rfl := inj d2 d1 (b2.symm.trans b0)
    obtain rfl := inj d3 d2 (b3.symm.trans b0)
    refine ⟨d3 + 1, .node _ a0 a1 a2 a3, ?_⟩
    rw [pow_succ]
    linear_combination 2 * b0

/-- C25 where it holds for the finite volume solver: constant coefficients, uniform tree, a cache that is empty (or was filled by
such a tree). -/
theorem C25_uniform_constant_partial [NeZero (2 : K)] (lap : Lapack K) (lu : PetscLU K) {s : FVSolver K} (hs : s.Constant)
    (hN : 2 ≤ N) (hom : Bool) {t : Tree (Patch K)} {R : Rect K} (ht : Init N t R) {d : Nat} (hu : Uniform d t) {cache : Option (Mat K)}
    (hcache : ∀ A, cache = some A → ∀ p ∈ t.leaves, s.buildD2N lu p.grid = .ok A) :
    SameTree (buildStage lap (s.toPatchSolver lu) ⟨true, hom⟩ t cache) (buildStage lap (s.toPatchSolver lu) ⟨false, hom⟩ t cache) := by
  obtain ⟨p, l, hp⟩ := List.exists_cons_of_ne_nil t.leaves_ne_nil
  have hpm : p ∈ t.leaves := by rw [hp]; simp
  obtain ⟨px, py⟩ := ht.leaves p hpm
  obtain ⟨A, hA, ha⟩ := (FVSolver.shapes lu s hN).d2n p.grid px py
  have hall : ∀ q ∈ t.leaves, s.buildD2N lu q.grid = .ok A := by
    intro q hq
    obtain ⟨qx, qy⟩ := ht.leaves q hq
    rw [← hA]
    exact FVSolver.buildD2N_congr lu hs (by rw [px, qx]) (by rw [py, qy])
      (by rw [(uniform_sizes ht hu q hq).1, (uniform_sizes ht hu p hpm).1]) (by rw [(uniform_sizes ht hu q hq).2, (uniform_sizes ht hu p hpm).2])
  refine (C25_same_iff lap (FVSolver.shapes lu s hN) (by omega) hom ht (Or.inr ⟨d, hu⟩) (A := A) hp ?_).mpr hall
  cases cache with
  | none => exact Or.inr ⟨rfl, hA⟩
  | some B =>
    left
    have := (hcache B rfl p hpm).symm.trans hA
    rw [Res.ok_inj.mp this]
    exact ⟨rfl, ha⟩

/-- C25 fails on every mesh that is not uniform, for every problem with constant coefficients and no zeroth order term: with an empty
cache the option changes nothing iff the mesh is uniform. -/
theorem C25_laplace_iff_uniform {K : Type} [Field K] [LinearOrder K] [IsStrictOrderedRing K] (lap : Lapack K) (lu : PetscLU K)
    {s : FVSolver K} (hs : s.Constant) (hl : ∀ x y, s.lambda x y = 0) (hN : 3 ≤ N) (hom : Bool) {t : Tree (Patch K)} {R : Rect K}
    (ht : Init N t R) (hR : Proper R) (hE : EllipticOn s R) :
    SameTree (buildStage lap (s.toPatchSolver lu) ⟨true, hom⟩ t none) (buildStage lap (s.toPatchSolver lu) ⟨false, hom⟩ t none) ↔
      ∃ d, Uniform d t := by
  constructor
  · intro h
    obtain ⟨p, l, hp⟩ := List.exists_cons_of_ne_nil t.leaves_ne_nil
    have hpm : p ∈ t.leaves := by rw [hp]; simp
    obtain ⟨px, py⟩ := ht.leaves p hpm
    obtain ⟨A, hA, ha⟩ := (FVSolver.shapes lu s (by omega : 2 ≤ N)).d2n p.grid px py
    have hall := (C25_same_iff lap (FVSolver.shapes lu s (by omega)) (by omega) hom ht (Or.inl hN) (A := A) hp (Or.inr ⟨rfl, hA⟩)).mp h
    obtain ⟨α, β, l0, rfl⟩ := id hs
    have hpos : ∀ q ∈ t.leaves, q.grid.dx ≠ 0 ∧ q.grid.dy ≠ 0 := by
      intro q hq
      obtain ⟨qx, qy⟩ := ht.leaves q hq
      obtain ⟨⟨r1, r2⟩, _⟩ := ht.elliptic hR hE q hq
      have hN0 : (N : K) ≠ 0 := by exact_mod_cast (by omega : N ≠ 0)
      unfold Grid.dx Grid.dy
      rw [qx, qy]
      exact ⟨div_ne_zero (sub_ne_zero.mpr r1.ne') hN0, div_ne_zero (sub_ne_zero.mpr r2.ne') hN0⟩
    have huq : ∀ q ∈ t.leaves, Unique (⟨fun _ _ => α, fun _ _ => β, fun _ _ => l0⟩ : FVSolver K) (rect q.grid) N N := by
      intro q hq
      obtain ⟨p1, p2⟩ := ht.elliptic hR hE q hq
      exact unique_of_elliptic p1 p2 N N
    obtain ⟨d, hd, _⟩ := uniform_of_sizes (by omega) ht (sub_ne_zero.mpr hR.1.ne') (δ := p.grid.dx) (by
      intro q hq
      obtain ⟨qx, qy⟩ := ht.leaves q hq
      exact FVSolver.buildD2N_inj lu (by omega) (β := β) (fun _ _ => rfl) hl qx qy px py (huq q hq) (huq p hpm) (hpos q hq).1
        (hpos q hq).2 (hpos p hpm).1 (hpos p hpm).2 ((hall q hq).trans (hall p hpm).symm))
    exact ⟨d, hd⟩
  · rintro ⟨d, hd⟩
    exact C25_uniform_constant_partial lap lu hs (by omega) hom ht hd (by simp)

/-- C25 is false: for the Laplace equation on a mesh with one refined quarter the option changes the operators. -/
theorem C25_pure_optimisation_wrong (lap : Lapack ℚ) (lu : PetscLU ℚ) :
    ∃ (s : FVSolver ℚ) (N : Nat) (t : Tree (Patch ℚ)), 3 ≤ N ∧ Init N t unitSquare ∧ EllipticOn s unitSquare ∧
      ¬ SameTree (buildStage lap (s.toPatchSolver lu) ⟨true, false⟩ t none) (buildStage lap (s.toPatchSolver lu) ⟨false, false⟩ t none) := by
  have hE : EllipticOn (⟨fun _ _ => 1, fun _ _ => 1, fun _ _ => 0⟩ : FVSolver ℚ) unitSquare := by
    intro x y _; norm_num
  refine ⟨⟨fun _ _ => 1, fun _ _ => 1, fun _ _ => 0⟩, 4, freshTree 4 (.node () (.node () (.leaf ()) (.leaf ()) (.leaf ()) (.leaf ()))
    (.leaf ()) (.leaf ()) (.leaf ())) unitSquare, by omega, freshTree_init _ _ _, hE, ?_⟩
  rw [C25_laplace_iff_uniform lap lu ⟨1, 1, 0, rfl⟩ (fun _ _ => rfl) (by omega) false (freshTree_init _ _ _) exPde_elliptic_unit.1 hE]
  rintro ⟨d, hd⟩
  simp only [freshTree] at hd
  cases hd with
  | node _ h0 h1 _ _ =>
    cases h1
    cases h0

/-- A cache that outlives a change of the mesh (the member `matrixCache` is never cleared): after a build on a mesh refined `d` times
everywhere, a build of the same object on a mesh refined `d'` times everywhere is what it is without the option iff `d' = d`. -/
theorem C25_stale_iff {K : Type} [Field K] [LinearOrder K] [IsStrictOrderedRing K] (lap : Lapack K) (lu : PetscLU K)
    {s : FVSolver K} (hs : s.Constant) (hl : ∀ x y, s.lambda x y = 0) (hN : 2 ≤ N) (hom : Bool) {t t' : Tree (Patch K)} {R : Rect K}
    (ht : Init N t R) (ht' : Init N t' R) (hR : Proper R) (hE : EllipticOn s R) {d d' : Nat} (hu : Uniform d t) (hu' : Uniform d' t')
    {t1 : Tree (Patch K)} {c1 : Option (Mat K)} (h1 : buildStage lap (s.toPatchSolver lu) ⟨true, hom⟩ t none = .ok (t1, c1)) :
    SameTree (buildStage lap (s.toPatchSolver lu) ⟨true, hom⟩ t' c1) (buildStage lap (s.toPatchSolver lu) ⟨false, hom⟩ t' c1) ↔
      d' = d := by
  obtain ⟨p, l, hp⟩ := List.exists_cons_of_ne_nil t.leaves_ne_nil
  obtain ⟨p', l', hp'⟩ := List.exists_cons_of_ne_nil t'.leaves_ne_nil
  have hpm : p ∈ t.leaves := by rw [hp]; simp
  have hpm' : p' ∈ t'.leaves := by rw [hp']; simp
  obtain ⟨px, py⟩ := ht.leaves p hpm
  obtain ⟨A, hA, ha⟩ := (FVSolver.shapes lu s hN).d2n p.grid px py
  obtain rfl := (C25_cached_actual lap (s.toPatchSolver lu) (opt := ⟨true, hom⟩) rfl hp (Or.inr ⟨rfl, hA⟩)).2 t1 c1 h1
  have sz := uniform_sizes ht hu p hpm
  rw [C25_same_iff lap (FVSolver.shapes lu s hN) (by omega) hom ht' (Or.inr ⟨d', hu'⟩) (A := A) hp' (Or.inl ⟨rfl, ha⟩)]
  have hN0 : (N : K) ≠ 0 := by exact_mod_cast (by omega : N ≠ 0)
  have hpos : ∀ (t : Tree (Patch K)), Init N t R → ∀ q ∈ t.leaves, q.grid.dx ≠ 0 ∧ q.grid.dy ≠ 0 := by
    intro t ht q hq
    obtain ⟨qx, qy⟩ := ht.leaves q hq
    obtain ⟨⟨r1, r2⟩, _⟩ := ht.elliptic hR hE q hq
    unfold Grid.dx Grid.dy
    rw [qx, qy]
    exact ⟨div_ne_zero (sub_ne_zero.mpr r1.ne') hN0, div_ne_zero (sub_ne_zero.mpr r2.ne') hN0⟩
  have huq : ∀ (t : Tree (Patch K)), Init N t R → ∀ q ∈ t.leaves, Unique s (rect q.grid) N N := by
    intro t ht q hq
    obtain ⟨p1, p2⟩ := ht.elliptic hR hE q hq
    exact unique_of_elliptic p1 p2 N N
  constructor
  · intro h
    obtain ⟨px', py'⟩ := ht'.leaves p' hpm'
    have sz' := uniform_sizes ht' hu' p' hpm'
    obtain ⟨a, β, c, rfl⟩ := id hs
    have hd := FVSolver.buildD2N_inj lu hN (β := β) (fun _ _ => rfl) hl px' py' px py (huq t' ht' p' hpm') (huq t ht p hpm)
      (hpos t' ht' p' hpm').1 (hpos t' ht' p' hpm').2 (hpos t ht p hpm).1 (hpos t ht p hpm).2 ((h p' hpm').trans hA.symm)
    have hw : R.xu - R.xl ≠ 0 := sub_ne_zero.mpr hR.1.ne'
    rw [sz.1, sz'.1, div_left_inj' hN0, div_eq_div_iff (by positivity) (by positivity)] at hd
    have := mul_left_cancel₀ hw hd
    exact (Nat.pow_right_injective (le_refl 2) (by exact_mod_cast this)).symm
  · rintro rfl q hq
    obtain ⟨qx, qy⟩ := ht'.leaves q hq
    have sz' := uniform_sizes ht' hu' q hq
    rw [← hA]
    exact FVSolver.buildD2N_congr lu hs (by rw [px, qx]) (by rw [py, qy]) (by rw [sz.1, sz'.1]) (by rw [sz.2, sz'.2])

/-- The hypotheses of `C25_stale_iff` and `C25_uniform_constant_partial` hold for the Laplace equation on meshes refined twice and not
at all. -/
example (lap : Lapack ℚ) (lu : PetscLU ℚ) :
    let s : FVSolver ℚ := ⟨fun _ _ => 1, fun _ _ => 1, fun _ _ => 0⟩
    ∃ t1 c1, s.Constant ∧ EllipticOn s unitSquare ∧ Init 2 (freshTree 2 exUniform unitSquare) unitSquare ∧
      Uniform 2 (freshTree 2 exUniform unitSquare) ∧ Init 2 (freshTree 2 (.leaf ()) unitSquare) unitSquare ∧
      Uniform 0 (freshTree 2 (.leaf ()) unitSquare) ∧
      buildStage lap (s.toPatchSolver lu) ⟨true, false⟩ (freshTree 2 exUniform unitSquare) none = .ok (t1, c1) := by
  intro s
  obtain ⟨t1, c1, _, h, _⟩ := C20_stages_succeed lap (by omega) (FVSolver.shapes lu s (n := 2) (by omega)) ⟨true, false⟩
    (freshTree_init 2 exUniform unitSquare) (Or.inr ⟨2, exUniform_uniform 2⟩) exData_sized
  exact ⟨t1, c1, ⟨1, 1, 0, rfl⟩, fun x y _ => by norm_num [s], freshTree_init _ _ _, exUniform_uniform 2, freshTree_init _ _ _, .leaf _, h⟩

end EF
