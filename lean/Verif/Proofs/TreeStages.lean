import Verif.Proofs.TreeInv

/-!
# The three stages on trees: they succeed and establish the invariants
-/

namespace EF

@[simp] theorem Tree.shape_setVal {P : Type} (t : Tree P) (q : P) : (t.setVal q).shape = t.shape := by
  cases t <;> rfl

namespace HPS

open Finset

variable {K : Type} [Field K] {N : Nat} {LP : Grid K → Blk K → Prop}

theorem uniform_shape {P : Type} {d : Nat} {t : Tree P} : Uniform d t.shape ↔ Uniform d t := by
  constructor
  · intro h
    induction t generalizing d with
    | leaf p => cases h; exact .leaf p
    | node p c0 c1 c2 c3 i0 i1 i2 i3 =>
      cases h with
      | node _ h0 h1 h2 h3 => exact .node p (i0 h0) (i1 h1) (i2 h2) (i3 h3)
  · intro h
    induction h with
    | leaf p => exact .leaf ()
    | node p _ _ _ _ i0 i1 i2 i3 => exact .node () i0 i1 i2 i3

/-- The build stage succeeds and leaves a built tree. -/
theorem build_ok {σ : Type} [NeZero (2 : K)] (lap : Lapack K) (hN : 0 < N)
    (leafF : Patch K → σ → Res (Patch K × σ)) (I : σ → Prop)
    (hleaf : ∀ p s, I s → p.grid.nx = N → p.grid.ny = N →
      ∃ T s', leafF p s = .ok ({ p with T := bm N 4 4 T }, s') ∧ LP p.grid T ∧ I s')
    {t : Tree (Patch K)} {R : Rect K} (ht : Init N t R) (h3 : 3 ≤ N ∨ ∃ d, Uniform d t) {s : σ} (hs : I s) :
    ∃ t' s' m T, t.mergeSt leafF (merge4to1 lap) s = .ok (t', s') ∧ Built N LP t' R 0 m T ∧ I s' ∧
      t'.shape = t.shape ∧ (∀ d, Uniform d t → m = N * 2 ^ d) := by
  induction ht generalizing s with
  | @leaf p R hk hx hy hR =>
    obtain ⟨T, s', h1, h2, h3'⟩ := hleaf p s hs hx hy
    refine ⟨.leaf { p with T := bm N 4 4 T }, s', N, T, ?_, .leaf hk hx hy hR rfl h2, h3', rfl, ?_⟩
    · rw [Tree.mergeSt, h1]; rfl
    · intro d hd; cases hd; simp
  | @node p R c0 c1 c2 c3 hk _ _ _ _ i0 i1 i2 i3 =>
    have hu : ∀ c, (c = c0 ∨ c = c1 ∨ c = c2 ∨ c = c3) → 3 ≤ N ∨ ∃ d, Uniform d c := by
      intro c hc
      rcases h3 with h | ⟨d, hd⟩
      · exact Or.inl h
      · right
        cases hd with
        | @node d' _ _ _ _ _ u0 u1 u2 u3 =>
          rcases hc with rfl | rfl | rfl | rfl
          · exact ⟨d', u0⟩
          · exact ⟨d', u1⟩
          · exact ⟨d', u2⟩
          · exact ⟨d', u3⟩
    obtain ⟨t0, s0, m0, T0, e0, b0, I0', sh0, u0⟩ := i0 (hu _ (by simp)) hs
    obtain ⟨t1, s1, m1, T1, e1, b1, I1', sh1, u1⟩ := i1 (hu _ (by simp)) I0'
    obtain ⟨t2, s2, m2, T2, e2, b2, I2', sh2, u2⟩ := i2 (hu _ (by simp)) I1'
    obtain ⟨t3, s3, m3, T3, e3, b3, I3', sh3, u3⟩ := i3 (hu _ (by simp)) I2'
    have hm : ∀ d, Uniform d (Tree.node p c0 c1 c2 c3) →
        (m0 = m1 ∧ m1 = m2 ∧ m2 = m3) ∧ N * 2 ^ d = 2 * m0 := by
      intro d hd
      cases hd with
      | @node d' _ _ _ _ _ v0 v1 v2 v3 =>
        have a0 := u0 _ v0
        have a1 := u1 _ v1
        have a2 := u2 _ v2
        have a3 := u3 _ v3
        refine ⟨by omega, ?_⟩
        rw [a0, pow_succ]; ring
    obtain ⟨F, m, T, eF, bF, hmm⟩ := merge4to1_ok lap hN hk b0 b1 b2 b3 (by
      rcases h3 with h | ⟨d, hd⟩
      · exact Or.inl h
      · exact Or.inr (hm d hd).1)
    refine ⟨_, s3, m, T, ?_, bF, I3', ?_, ?_⟩
    · rw [Tree.mergeSt, e0, Res.ok_bind]
      simp only []
      rw [e1, Res.ok_bind]
      simp only []
      rw [e2, Res.ok_bind]
      simp only []
      rw [e3, Res.ok_bind]
      simp only []
      rw [eF, Res.ok_bind]
      rfl
    · simp only [Tree.shape, Tree.shape_setVal, sh0, sh1, sh2, sh3]
    · intro d hd
      have := hm d hd
      rw [hmm this.1, this.2]

/-! ### Upwards -/

/-- The interface systems kept by the branches. -/
def xs : Tree (Patch K) → List (Mat K)
  | .leaf _ => []
  | .node p c0 c1 c2 c3 => p.X :: (xs c0 ++ xs c1 ++ xs c2 ++ xs c3)

omit [Field K] in
theorem xs_setVal {t : Tree (Patch K)} {q : Patch K} (h : q.X = t.val.X) : xs (t.setVal q) = xs t := by
  cases t with
  | leaf => rfl
  | node p c0 c1 c2 c3 =>
    have h : q.X = p.X := h
    simp only [Tree.setVal, xs, h]

/-- Pairs of blocks of a vector as blocks of twice the size. -/
def dblv (n : Nat) (b : Nat → Nat → K) : Nat → Nat → K := fun p i => b (p * 2 + i / n) (i % n)

/-- Blocks of a vector cut in halves. -/
def hlv (n : Nat) (b : Nat → Nat → K) : Nat → Nat → K := fun p i => b (p / 2) (p % 2 * n + i)

/-- The four coarsened fluxes. -/
def flx4 (n : Nat) (k0 k1 k2 k3 : Nat) (h0 h1 h2 h3 : Nat → Nat → K) : Nat → Nat → Nat → K := fun j =>
  match j with
  | 0 => rstN k0 n h0
  | 1 => rstN k1 n h1
  | 2 => rstN k2 n h2
  | _ => rstN k3 n h3

/-- What the interface solve of the upwards stage returns. -/
def WCond (n : Nat) (TT : Ops K) (hh : Nat → Nat → Nat → K) (w : Nat → Nat → K) : Prop :=
  (BNonsing n 4 (Xf TT) → ∀ r, r < 4 → ∀ i, i < n →
    ∑ l ∈ range 4, ∑ s ∈ range n, Xf TT r l i s * w l s = hjump hh r i) ∧
  (¬ BNonsing n 4 (Xf TT) → w = hjump hh)

/-- A tree after the upwards stage.  Nothing is said about the `g`, `u`, `h` of the root. -/
inductive Upd (N : Nat) (LP : Grid K → Blk K → Prop) (HP : Grid K → Vec K → (Nat → Nat → K) → Prop) (hom : Bool) :
    Tree (Patch K) → Rect K → Nat → Nat → Blk K → (Nat → Nat → K) → Prop
  | leaf {p : Patch K} {R : Rect K} {T : Blk K} {h : Nat → Nat → K}
      (hk : p.nCoarsens = 0) (hx : p.grid.nx = N) (hy : p.grid.ny = N)
      (hR : InRect p R) (hT : p.T = bm N 4 4 T) (hL : LP p.grid T) (hh : hom = false → HP p.grid p.f h)
      (h0 : hom = true → h = fun _ _ => 0) :
      Upd N LP HP hom (.leaf p) R 0 N T h
  | node {p : Patch K} {R : Rect K} {c0 c1 c2 c3 : Tree (Patch K)} {n k m k0 k1 k2 k3 : Nat}
      {T0 T1 T2 T3 S : Blk K} {TT : Ops K} {f0 f1 f2 f3 w : Nat → Nat → K} {hh : Nat → Nat → Nat → K}
      (h0 : Upd N LP HP hom c0 (R.quarter 0) k0 n T0 f0) (h1 : Upd N LP HP hom c1 (R.quarter 1) k1 n T1 f1)
      (h2 : Upd N LP HP hom c2 (R.quarter 2) k2 n T2 f2) (h3 : Upd N LP HP hom c3 (R.quarter 3) k3 n T3 f3)
      (hTT : TT = ops4 n k0 k1 k2 k3 T0 T1 T2 T3) (hhh : hh = flx4 n k0 k1 k2 k3 f0 f1 f2 f3)
      (hz : k0 = 0 ∨ k1 = 0 ∨ k2 = 0 ∨ k3 = 0) (hn : 0 < n) (hm : m * 2 ^ k = 2 * n) (hN : ∃ j, m = N * 2 ^ j) (h3m : k = 0 ∨ 3 ≤ m)
      (hk : p.nCoarsens = k) (hx : p.grid.nx = 2 * n) (hy : p.grid.ny = 2 * n) (hR : InRect p R)
      (hX : p.X = bm n 4 4 (Xf TT)) (hH : p.H = bm n 8 4 (Hf TT)) (hS : p.S = bm n 4 8 S) (hSol : SolCond n TT S)
      (hT : p.T = bm m 4 4 (crsN k m (dbl n (Tp n TT S))))
      (hw : hom = false → p.w = bv n 4 w) (hW : WCond n TT hh w) (hw0 : hom = true → w = fun _ _ => 0)
      (hch : hom = false → c0.val.h = bv n 4 (hh 0) ∧ c1.val.h = bv n 4 (hh 1) ∧ c2.val.h = bv n 4 (hh 2) ∧
        c3.val.h = bv n 4 (hh 3)) :
      Upd N LP HP hom (.node p c0 c1 c2 c3) R k m (dbl n (Tp n TT S)) (dblv n (hp n TT hh w))

variable {HP : Grid K → Vec K → (Nat → Nat → K) → Prop} {hom : Bool}

/-- An updated tree is a built tree. -/
theorem Upd.built {t : Tree (Patch K)} {R : Rect K} {k m : Nat} {T : Blk K} {h : Nat → Nat → K}
    (hu : Upd N LP HP hom t R k m T h) : Built N LP t R k m T := by
  induction hu with
  | leaf hk hx hy hR hT hL _ _ => exact .leaf hk hx hy hR hT hL
  | node _ _ _ _ hTT _ hz hn hm hN h3m hk hx hy hR hX hH hS hSol hT _ _ _ _ i0 i1 i2 i3 =>
    exact .node i0 i1 i2 i3 hTT hz hn hm hN h3m hk hx hy hR hX hH hS hSol hT

/-- The fields of a patch that `Upd` speaks of. -/
def SameOps (p q : Patch K) : Prop :=
  q.nCoarsens = p.nCoarsens ∧ q.grid = p.grid ∧ q.X = p.X ∧ q.H = p.H ∧ q.S = p.S ∧ q.T = p.T

theorem Upd.setVal {t : Tree (Patch K)} {R : Rect K} {k m : Nat} {T : Blk K} {h : Nat → Nat → K}
    (hu : Upd N LP HP hom t R k m T h) {q : Patch K} (hq : SameOps t.val q) (hf : q.f = t.val.f)
    (hw' : q.w = t.val.w) : Upd N LP HP hom (t.setVal q) R k m T h := by
  obtain ⟨q1, q2, q3, q4, q5, q6⟩ := hq
  cases hu with
  | leaf hk hx hy hR hT hL hh h0 =>
    simp only [Tree.val] at *
    refine .leaf (by rw [q1, hk]) (by rw [q2, hx]) (by rw [q2, hy]) ?_ (by rw [q6, hT]) (by rw [q2]; exact hL)
      (by rw [q2, hf]; exact hh) h0
    unfold InRect; rw [q2]; exact hR
  | node h0 h1 h2 h3 hTT hhh hz hn hm hN h3m hk hx hy hR hX hH hS hSol hT hw hW hw0 hch =>
    simp only [Tree.val] at *
    refine .node h0 h1 h2 h3 hTT hhh hz hn hm hN h3m (by rw [q1, hk]) (by rw [q2, hx]) (by rw [q2, hy]) ?_
      (by rw [q3, hX]) (by rw [q4, hH]) (by rw [q5, hS]) hSol (by rw [q6, hT]) (by rw [hw']; exact hw) hW hw0 hch
    unfold InRect; rw [q2]; exact hR

theorem Upd.setVal_leaf {p : Patch K} {R : Rect K} {k m : Nat} {T : Blk K} {h h' : Nat → Nat → K}
    (hu : Upd N LP HP hom (.leaf p) R k m T h) {q : Patch K} (hq : SameOps p q)
    (hh : hom = false → HP q.grid q.f h') (h0 : hom = true → h' = fun _ _ => 0) :
    Upd N LP HP hom (.leaf q) R k m T h' := by
  obtain ⟨q1, q2, q3, q4, q5, q6⟩ := hq
  cases hu with
  | leaf hk hx hy hR hT hL _ _ =>
    refine .leaf (by rw [q1, hk]) (by rw [q2, hx]) (by rw [q2, hy]) ?_ (by rw [q6, hT]) (by rw [q2]; exact hL)
      hh h0
    unfold InRect; rw [q2]; exact hR

/-- One family in the upwards stage. -/
theorem upwards4to1_ok (lap : Lapack K) (opt : HPSOptions) (ho : opt.homogeneousRhs = false)
    {p : Patch K} {c0 c1 c2 c3 : Tree (Patch K)} {R : Rect K} {n k0 k1 k2 k3 : Nat}
    {T0 T1 T2 T3 : Blk K} {f0 f1 f2 f3 : Nat → Nat → K} (hn : 0 < n)
    (h0 : Upd N LP HP false c0 (R.quarter 0) k0 n T0 f0) (h1 : Upd N LP HP false c1 (R.quarter 1) k1 n T1 f1)
    (h2 : Upd N LP HP false c2 (R.quarter 2) k2 n T2 f2) (h3 : Upd N LP HP false c3 (R.quarter 3) k3 n T3 f3)
    (g0 : c0.val.h = bv (n * 2 ^ k0) 4 f0) (g1 : c1.val.h = bv (n * 2 ^ k1) 4 f1)
    (g2 : c2.val.h = bv (n * 2 ^ k2) 4 f2) (g3 : c3.val.h = bv (n * 2 ^ k3) 4 f3)
    (hH : p.H = bm n 8 4 (Hf (ops4 n k0 k1 k2 k3 T0 T1 T2 T3))) :
    ∃ w, upwards4to1 lap opt ⟨p, c0.val, c1.val, c2.val, c3.val⟩ = .ok
        ⟨{ p with X := bm n 4 4 (Xf (ops4 n k0 k1 k2 k3 T0 T1 T2 T3)), w := bv n 4 w,
                  h := bv (2 * n) 4 (dblv n (hp n (ops4 n k0 k1 k2 k3 T0 T1 T2 T3)
                    (flx4 n k0 k1 k2 k3 f0 f1 f2 f3) w)) },
          { c0.val with h := bv n 4 (rstN k0 n f0) }, { c1.val with h := bv n 4 (rstN k1 n f1) },
          { c2.val with h := bv n 4 (rstN k2 n f2) }, { c3.val with h := bv n 4 (rstN k3 n f3) }⟩ ∧
      WCond n (ops4 n k0 k1 k2 k3 T0 T1 T2 T3) (flx4 n k0 k1 k2 k3 f0 f1 f2 f3) w := by
  have r0 := h0.built.root
  have r1 := h1.built.root
  have r2 := h2.built.root
  have r3 := h3.built.root
  obtain ⟨w, e, hW1, hW2⟩ := upEq_ok lap hn (TT := ops4 n k0 k1 k2 k3 T0 T1 T2 T3)
    (hh := flx4 n k0 k1 k2 k3 f0 f1 f2 f3)
    (F := ⟨p, { c0.val with h := bv n 4 (rstN k0 n f0) }, { c1.val with h := bv n 4 (rstN k1 n f1) },
          { c2.val with h := bv n 4 (rstN k2 n f2) }, { c3.val with h := bv n 4 (rstN k3 n f3) }⟩)
    ⟨r0.2.2.2.2.1, r1.2.2.2.2.1, r2.2.2.2.2.1, r3.2.2.2.2.1⟩ ⟨rfl, rfl, rfl, rfl⟩
    ⟨h0.built.size, h1.built.size, h2.built.size, h3.built.size⟩ hH
  refine ⟨w, ?_, hW1, hW2⟩
  rw [upwards4to1_eq lap opt _ ho]
  unfold coarsenUp
  rw [coarsenUpPatch_eq hn r0.1 r0.2.1 g0, Res.ok_bind, coarsenUpPatch_eq hn r1.1 r1.2.1 g1, Res.ok_bind,
    coarsenUpPatch_eq hn r2.1 r2.2.1 g2, Res.ok_bind, coarsenUpPatch_eq hn r3.1 r3.2.1 g3, Res.ok_bind,
    Res.pure_def, Res.ok_bind, e]
  simp only [Res.ok_inj]
  rw [show (8 : Nat) = 4 * 2 from rfl, bv_double]
  rfl

/-- The upwards stage (with a load) on a built tree. -/
theorem upwards_ok (lap : Lapack K) (opt : HPSOptions) (ho : opt.homogeneousRhs = false)
    (leafF : Patch K → Res (Patch K))
    (hleaf : ∀ p, p.grid.nx = N → p.grid.ny = N →
      ∃ q h, leafF p = .ok q ∧ SameOps p q ∧ q.h = bv N 4 h ∧ HP q.grid q.f h)
    {t : Tree (Patch K)} {R : Rect K} {k m : Nat} {T : Blk K} (ht : Built N LP t R k m T) :
    ∃ t' h, t.merge leafF (upwards4to1 lap opt) = .ok t' ∧ Upd N LP HP false t' R k m T h ∧
      t'.val.h = bv (m * 2 ^ k) 4 h ∧ t'.shape = t.shape ∧ xs t' = xs t := by
  induction ht with
  | @leaf p R T hk hx hy hR hT hL =>
    obtain ⟨q, h, e, ⟨q1, q2, q3, q4, q5, q6⟩, hq, hf⟩ := hleaf p hx hy
    refine ⟨.leaf q, h, ?_, ?_, by simpa [Tree.val] using hq, rfl, rfl⟩
    · rw [Tree.merge, e]; rfl
    · refine .leaf (by rw [q1, hk]) (by rw [q2, hx]) (by rw [q2, hy]) ?_ (by rw [q6, hT]) (by rw [q2]; exact hL)
        (fun _ => hf) (by simp)
      unfold InRect; rw [q2]; exact hR
  | @node p R c0 c1 c2 c3 n k m k0 k1 k2 k3 T0 T1 T2 T3 S TT h0 h1 h2 h3 hTT hz hn hm hN h3m hk hx hy hR hX hH hS
      hSol hT i0 i1 i2 i3 =>
    obtain ⟨t0, f0, e0, u0, v0, s0, x0⟩ := i0
    obtain ⟨t1, f1, e1, u1, v1, s1, x1⟩ := i1
    obtain ⟨t2, f2, e2, u2, v2, s2, x2⟩ := i2
    obtain ⟨t3, f3, e3, u3, v3, s3, x3⟩ := i3
    subst hTT
    obtain ⟨w, e, hW⟩ := upwards4to1_ok lap opt ho (p := p) hn u0 u1 u2 u3 v0 v1 v2 v3 hH
    refine ⟨_, dblv n (hp n (ops4 n k0 k1 k2 k3 T0 T1 T2 T3) (flx4 n k0 k1 k2 k3 f0 f1 f2 f3) w), by
      rw [Tree.merge, e0, Res.ok_bind, e1, Res.ok_bind, e2, Res.ok_bind, e3, Res.ok_bind, e, Res.ok_bind]
      rfl, ?_, ?_, ?_, ?_⟩
    · refine .node (u0.setVal ⟨rfl, rfl, rfl, rfl, rfl, rfl⟩ rfl rfl) (u1.setVal ⟨rfl, rfl, rfl, rfl, rfl, rfl⟩ rfl rfl)
        (u2.setVal ⟨rfl, rfl, rfl, rfl, rfl, rfl⟩ rfl rfl) (u3.setVal ⟨rfl, rfl, rfl, rfl, rfl, rfl⟩ rfl rfl)
        rfl rfl hz hn hm hN h3m hk hx hy hR rfl hH hS hSol hT (fun _ => rfl) hW (by simp) ?_
      intro _
      simp only [Tree.val_setVal]
      exact ⟨rfl, rfl, rfl, rfl⟩
    · rw [hm]; rfl
    · simp only [Tree.shape, Tree.shape_setVal, s0, s1, s2, s3]
    · rw [xs, xs, ← x0, ← x1, ← x2, ← x3, hX]
      refine congrArg₂ _ rfl ?_
      refine congrArg₂ _ (congrArg₂ _ (congrArg₂ _ ?_ ?_) ?_) ?_ <;> exact xs_setVal rfl

/-- A built tree with no load. -/
theorem Built.upd_hom {t : Tree (Patch K)} {R : Rect K} {k m : Nat} {T : Blk K} (ht : Built N LP t R k m T) :
    ∃ h, Upd N LP HP true t R k m T h ∧ h = fun _ _ => 0 := by
  induction ht with
  | leaf hk hx hy hR hT hL => exact ⟨_, .leaf hk hx hy hR hT hL (by simp) (fun _ => rfl), rfl⟩
  | @node p R c0 c1 c2 c3 n k m k0 k1 k2 k3 T0 T1 T2 T3 S TT h0 h1 h2 h3 hTT hz hn hm hN h3m hk hx hy hR hX hH hS
      hSol hT i0 i1 i2 i3 =>
    obtain ⟨f0, u0, z0⟩ := i0
    obtain ⟨f1, u1, z1⟩ := i1
    obtain ⟨f2, u2, z2⟩ := i2
    obtain ⟨f3, u3, z3⟩ := i3
    have hzz : ∀ k n, (rstN k n (fun _ _ => 0) : Nat → Nat → K) = fun _ _ => 0 := by
      intro k
      induction k with
      | zero => intro n; rfl
      | succ k ih =>
        intro n
        rw [rstN, ih]
        funext p i
        simp [rst]
    have hfl : flx4 n k0 k1 k2 k3 f0 f1 f2 f3 = fun _ _ _ => 0 := by
      subst z0 z1 z2 z3
      funext j
      unfold flx4
      split <;> rw [hzz]
    have hj : hjump (flx4 n k0 k1 k2 k3 f0 f1 f2 f3) = fun _ _ => 0 := by
      rw [hfl]; funext r i; simp [hjump]
    refine ⟨_, .node (w := fun _ _ => 0) u0 u1 u2 u3 hTT rfl hz hn hm hN h3m hk hx hy hR hX hH hS hSol hT (by simp)
      ⟨?_, ?_⟩ (fun _ => rfl) (by simp), ?_⟩
    · intro _ r _ i _
      rw [hj]; simp
    · intro _; rw [hj]
    · rw [hfl]
      funext p i
      simp [dblv, hp, app]

/-! ### Solve -/

/-- A tree after the solve stage, `g` being the data given to the (coarsened) root. -/
inductive Slv (N : Nat) (LP : Grid K → Blk K → Prop) (HP : Grid K → Vec K → (Nat → Nat → K) → Prop)
    (UP : Grid K → (Nat → Nat → K) → Vec K → Vec K → Prop) :
    Tree (Patch K) → Rect K → Nat → Nat → Blk K → (Nat → Nat → K) → (Nat → Nat → K) → Prop
  | leaf {p : Patch K} {R : Rect K} {T : Blk K} {h g : Nat → Nat → K}
      (hk : p.nCoarsens = 0) (hx : p.grid.nx = N) (hy : p.grid.ny = N)
      (hR : InRect p R) (hT : p.T = bm N 4 4 T) (hL : LP p.grid T) (hh : HP p.grid p.f h)
      (hg : p.g = bv N 4 g) (hu : UP p.grid g p.f p.u) :
      Slv N LP HP UP (.leaf p) R 0 N T h g
  | node {p : Patch K} {R : Rect K} {c0 c1 c2 c3 : Tree (Patch K)} {n k m k0 k1 k2 k3 : Nat}
      {T0 T1 T2 T3 S : Blk K} {TT : Ops K} {f0 f1 f2 f3 w g G u : Nat → Nat → K} {hh : Nat → Nat → Nat → K}
      (h0 : Slv N LP HP UP c0 (R.quarter 0) k0 n T0 f0 (cd 0 G u))
      (h1 : Slv N LP HP UP c1 (R.quarter 1) k1 n T1 f1 (cd 1 G u))
      (h2 : Slv N LP HP UP c2 (R.quarter 2) k2 n T2 f2 (cd 2 G u))
      (h3 : Slv N LP HP UP c3 (R.quarter 3) k3 n T3 f3 (cd 3 G u))
      (hTT : TT = ops4 n k0 k1 k2 k3 T0 T1 T2 T3) (hhh : hh = flx4 n k0 k1 k2 k3 f0 f1 f2 f3)
      (hz : k0 = 0 ∨ k1 = 0 ∨ k2 = 0 ∨ k3 = 0) (hn : 0 < n) (hm : m * 2 ^ k = 2 * n) (hN : ∃ j, m = N * 2 ^ j) (h3m : k = 0 ∨ 3 ≤ m)
      (hk : p.nCoarsens = k) (hx : p.grid.nx = 2 * n) (hy : p.grid.ny = 2 * n) (hR : InRect p R)
      (hX : p.X = bm n 4 4 (Xf TT)) (hSol : SolCond n TT S) (hW : WCond n TT hh w)
      (hG : G = hlv n (proN k m g)) (hu : u = fun l s => app n 8 S G l s + w l s)
      (hg : p.g = bv (m * 2 ^ k) 4 (proN k m g)) :
      Slv N LP HP UP (.node p c0 c1 c2 c3) R k m (dbl n (Tp n TT S)) (dblv n (hp n TT hh w)) g

variable {UP : Grid K → (Nat → Nat → K) → Vec K → Vec K → Prop}

/-- The solve stage on an updated tree. -/
theorem split_ok (opt : HPSOptions) (leafF : Patch K → Res (Patch K))
    (hleaf : ∀ p g, p.grid.nx = N → p.grid.ny = N → p.g = bv N 4 g → opt.homogeneousRhs = false →
      ∀ h, HP p.grid p.f h → ∃ u, leafF p = .ok { p with u := u } ∧ UP p.grid g p.f u)
    (hleaf' : ∀ p g, p.grid.nx = N → p.grid.ny = N → p.g = bv N 4 g → opt.homogeneousRhs = true →
      ∃ u f, leafF p = .ok { p with u := u, f := f } ∧ UP p.grid g f u ∧ HP p.grid f (fun _ _ => 0))
    {t : Tree (Patch K)} {R : Rect K} {k m : Nat} {T : Blk K} {h : Nat → Nat → K}
    (ht : Upd N LP HP opt.homogeneousRhs t R k m T h) {q : Patch K} {g : Nat → Nat → K}
    (hq : SameOps t.val q) (hf : q.f = t.val.f) (hw' : q.w = t.val.w) (hg : q.g = bv m 4 g) :
    ∃ t', t.splitFrom leafF (split1to4 opt) q = .ok t' ∧ Slv N LP HP UP t' R k m T h g ∧ t'.shape = t.shape ∧ xs t' = xs t := by
  induction ht generalizing q g with
  | @leaf p R T h hk hx hy hR hT hL hh h0 =>
    obtain ⟨q1, q2, q3, q4, q5, q6⟩ := hq
    simp only [Tree.val] at *
    cases ho : opt.homogeneousRhs with
    | false =>
      obtain ⟨u, e, hu⟩ := hleaf q g (by rw [q2, hx]) (by rw [q2, hy]) hg ho h (by rw [q2, hf]; exact hh ho)
      refine ⟨.leaf { q with u := u }, by rw [Tree.splitFrom, e]; rfl, ?_, rfl, rfl⟩
      refine .leaf (by rw [← hk]; exact q1) (by rw [← hx, ← q2]) (by rw [← hy, ← q2]) ?_ (by rw [← hT]; exact q6)
        (by rw [← q2] at hL; exact hL) (by have := hh ho; rw [← q2, ← hf] at this; exact this) hg hu
      have : InRect q R := by unfold InRect; rw [q2]; exact hR
      exact this
    | true =>
      obtain ⟨u, f, e, hu, hz⟩ := hleaf' q g (by rw [q2, hx]) (by rw [q2, hy]) hg ho
      refine ⟨.leaf { q with u := u, f := f }, by rw [Tree.splitFrom, e]; rfl, ?_, rfl, rfl⟩
      refine .leaf (by rw [← hk]; exact q1) (by rw [← hx, ← q2]) (by rw [← hy, ← q2]) ?_ (by rw [← hT]; exact q6)
        (by rw [← q2] at hL; exact hL) (by rw [h0 ho]; exact hz) hg hu
      have : InRect q R := by unfold InRect; rw [q2]; exact hR
      exact this
  | @node p R c0 c1 c2 c3 n k m k0 k1 k2 k3 T0 T1 T2 T3 S TT f0 f1 f2 f3 w hh h0 h1 h2 h3 hTT hhh hz hn hm hN h3m hk
      hx hy hR hX hH hS hSol hT hw hW hw0 hch i0 i1 i2 i3 =>
    obtain ⟨q1, q2, q3, q4, q5, q6⟩ := hq
    simp only [Tree.val] at q1 q2 q3 q4 q5 q6 hf hw'
    have e1 : uncoarsen q = .ok { q with g := bv (m * 2 ^ k) 4 (proN k m g) } :=
      uncoarsen_eq h3m (by rw [q1, hk]) (by rw [q2, hx, hm]) hg
    have hG : bv (m * 2 ^ k) 4 (proN k m g) = bv n 8 (hlv n (proN k m g)) := by
      rw [hm, bv_halve]; rfl
    have e2 := applyS_ok opt (n := n) hn
      (F := ⟨{ q with g := bv (m * 2 ^ k) 4 (proN k m g) }, c0.val, c1.val, c2.val, c3.val⟩)
      h0.built.size (S := S) (by rw [← hS]; exact q5) (G := hlv n (proN k m g)) hG (w := w)
      (fun ho => by rw [← hw ho]; exact hw') (u := fun l s => app n 8 S (hlv n (proN k m g)) l s + w l s) (by
        cases ho : opt.homogeneousRhs with
        | false => rfl
        | true =>
          rw [hw0 ho]
          simp)
    obtain ⟨t0, a0, b0, s0, x0⟩ := i0 (q := { c0.val with g := bv n 4 (cd 0 (hlv n (proN k m g))
      (fun l s => app n 8 S (hlv n (proN k m g)) l s + w l s)) }) ⟨rfl, rfl, rfl, rfl, rfl, rfl⟩ rfl rfl rfl
    obtain ⟨t1, a1, b1, s1, x1⟩ := i1 (q := { c1.val with g := bv n 4 (cd 1 (hlv n (proN k m g))
      (fun l s => app n 8 S (hlv n (proN k m g)) l s + w l s)) }) ⟨rfl, rfl, rfl, rfl, rfl, rfl⟩ rfl rfl rfl
    obtain ⟨t2, a2, b2, s2, x2⟩ := i2 (q := { c2.val with g := bv n 4 (cd 2 (hlv n (proN k m g))
      (fun l s => app n 8 S (hlv n (proN k m g)) l s + w l s)) }) ⟨rfl, rfl, rfl, rfl, rfl, rfl⟩ rfl rfl rfl
    obtain ⟨t3, a3, b3, s3, x3⟩ := i3 (q := { c3.val with g := bv n 4 (cd 3 (hlv n (proN k m g))
      (fun l s => app n 8 S (hlv n (proN k m g)) l s + w l s)) }) ⟨rfl, rfl, rfl, rfl, rfl, rfl⟩ rfl rfl rfl
    refine ⟨.node { q with g := bv (m * 2 ^ k) 4 (proN k m g) } t0 t1 t2 t3, ?_, ?_, ?_, ?_⟩
    · have e3 : split1to4 opt ⟨q, c0.val, c1.val, c2.val, c3.val⟩ =
          applyS opt ⟨{ q with g := bv (m * 2 ^ k) 4 (proN k m g) }, c0.val, c1.val, c2.val, c3.val⟩ := by
        unfold split1to4
        simp only []
        rw [e1, Res.ok_bind]
      rw [e2] at e3
      rw [Tree.splitFrom, e3, Res.ok_bind]
      refine (congrArg (· >>= _) a0).trans ?_
      rw [Res.ok_bind]
      refine (congrArg (· >>= _) a1).trans ?_
      rw [Res.ok_bind]
      refine (congrArg (· >>= _) a2).trans ?_
      rw [Res.ok_bind]
      refine (congrArg (· >>= _) a3).trans ?_
      rfl
    · refine .node b0 b1 b2 b3 hTT hhh hz hn hm hN h3m (by rw [← hk]; exact q1) (by rw [← hx, ← q2]) (by rw [← hy, ← q2])
        ?_ (by rw [← hX]; exact q3) hSol hW rfl rfl rfl
      have : InRect q R := by unfold InRect; rw [q2]; exact hR
      exact this
    · simp only [Tree.shape, s0, s1, s2, s3]
    · rw [xs, xs, x0, x1, x2, x3, ← q3]

end HPS
end EF
