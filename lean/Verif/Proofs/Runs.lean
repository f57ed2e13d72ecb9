import Verif.Proofs.Pipeline

/-!
# Comparing runs on one built tree

A run is described by a data tree: the interface operators and contributions of the branches and the loads of the
leaves.  Runs on one built tree have data trees that differ in loads and contributions only.
-/

namespace EF
namespace HPS

open Finset

variable {K : Type} [Field K]

/-- A linear combination of block vectors. -/
def lin (a b : K) (x y : Nat → Nat → K) : Nat → Nat → K := fun p i => a * x p i + b * y p i

/-- A linear combination of vectors. -/
def lin1 (a b : K) (x y : Nat → K) : Nat → K := fun i => a * x i + b * y i

theorem lin_zero (a b : K) : lin a b (fun _ _ => 0) (fun _ _ => 0) = fun _ _ => 0 := by
  funext p i; simp [lin]

theorem rst_lin (m : Nat) (a b : K) (x y : Nat → Nat → K) : rst m (lin a b x y) = lin a b (rst m x) (rst m y) := by
  funext p i
  simp only [rst, lin, mul_sum, ← sum_add_distrib]
  exact sum_congr rfl fun _ _ => by ring

theorem rstN_lin (k m : Nat) (a b : K) (x y : Nat → Nat → K) :
    rstN k m (lin a b x y) = lin a b (rstN k m x) (rstN k m y) := by
  induction k generalizing m with
  | zero => rfl
  | succ k ih => rw [rstN, rstN, rstN, ih, rst_lin]

theorem pro_lin (m : Nat) (a b : K) (x y : Nat → Nat → K) : pro m (lin a b x y) = lin a b (pro m x) (pro m y) := by
  funext p i
  simp only [pro, lin, mul_sum, ← sum_add_distrib]
  exact sum_congr rfl fun _ _ => by ring

theorem proN_lin (k m : Nat) (a b : K) (x y : Nat → Nat → K) :
    proN k m (lin a b x y) = lin a b (proN k m x) (proN k m y) := by
  induction k generalizing m with
  | zero => rfl
  | succ k ih => rw [proN, proN, proN, ih, pro_lin]

theorem app_lin (n c : Nat) (B : Blk K) (a b : K) (x y : Nat → Nat → K) :
    app n c B (lin a b x y) = lin a b (app n c B x) (app n c B y) := by
  funext p i
  simp only [app, lin, mul_sum, ← sum_add_distrib]
  exact sum_congr rfl fun _ _ => sum_congr rfl fun _ _ => by ring

theorem flx4_lin (n k0 k1 k2 k3 : Nat) (a b : K) (f0 f1 f2 f3 g0 g1 g2 g3 : Nat → Nat → K) (j : Nat) :
    flx4 n k0 k1 k2 k3 (lin a b f0 g0) (lin a b f1 g1) (lin a b f2 g2) (lin a b f3 g3) j =
      lin a b (flx4 n k0 k1 k2 k3 f0 f1 f2 f3 j) (flx4 n k0 k1 k2 k3 g0 g1 g2 g3 j) := by
  unfold flx4
  split <;> exact rstN_lin _ _ _ _ _ _

theorem hjump_lin (a b : K) (x y z : Nat → Nat → Nat → K) (h : ∀ j, z j = lin a b (x j) (y j)) :
    hjump z = lin a b (hjump x) (hjump y) := by
  funext r i
  simp only [hjump, h, lin]
  ring

theorem hp_lin (n : Nat) (TT : Ops K) (a b : K) (x y z : Nat → Nat → Nat → K) (h : ∀ j, z j = lin a b (x j) (y j))
    (w v : Nat → Nat → K) : hp n TT z (lin a b w v) = lin a b (hp n TT x w) (hp n TT y v) := by
  funext p i
  simp only [hp, app_lin, h]
  simp only [lin, hp]
  ring

theorem WCond.lin {n : Nat} {TT : Ops K} {a b : K} {x y z : Nat → Nat → Nat → K} (h : ∀ j, z j = lin a b (x j) (y j))
    {w v : Nat → Nat → K} (hw : WCond n TT x w) (hv : WCond n TT y v) : WCond n TT z (HPS.lin a b w v) := by
  refine ⟨fun hn r hr i hi => ?_, fun hn => ?_⟩
  · have e := app_lin n 4 (Xf TT) a b w v
    have e := congrFun (congrFun e r) i
    simp only [app] at e
    rw [e, hjump_lin a b x y z h]
    simp only [HPS.lin, hw.1 hn r hr i hi, hv.1 hn r hr i hi, app]
  · rw [hjump_lin a b x y z h, hw.2 hn, hv.2 hn]

theorem cd_lin (k : Nat) (a b : K) (G H u v : Nat → Nat → K) :
    cd k (lin a b G H) (lin a b u v) = lin a b (cd k G u) (cd k H v) := by
  funext q j
  simp only [lin]
  unfold cd
  split <;> first | rfl | simp

theorem hlv_lin (n : Nat) (a b : K) (x y : Nat → Nat → K) : hlv n (lin a b x y) = lin a b (hlv n x) (hlv n y) := rfl

/-! ### Data trees -/

/-- What the solve stage reads from a tree. -/
inductive DTree (K : Type)
  | leaf (grid : Grid K) (φ : Nat → K)
  | node (n k m : Nat) (S : Blk K) (w : Nat → Nat → K) (d0 d1 d2 d3 : DTree K)

/-- The tree holds the data; in homogeneous mode the loads and contributions count as zero. -/
inductive Rep (N : Nat) (P : Grid K → Prop) (hom : Bool) : Tree (Patch K) → DTree K → Nat → Nat → Prop
  | leaf {p : Patch K} {φ : Nat → K} (hk : p.nCoarsens = 0) (hx : p.grid.nx = N) (hy : p.grid.ny = N) (hP : P p.grid)
      (hf : hom = false → p.f = Vec.ofFn (N * N) φ) (hf0 : hom = true → φ = fun _ => 0) :
      Rep N P hom (.leaf p) (.leaf p.grid φ) 0 N
  | node {p : Patch K} {c0 c1 c2 c3 : Tree (Patch K)} {d0 d1 d2 d3 : DTree K} {n k m k0 k1 k2 k3 : Nat} {S : Blk K}
      {w : Nat → Nat → K} (h0 : Rep N P hom c0 d0 k0 n) (h1 : Rep N P hom c1 d1 k1 n) (h2 : Rep N P hom c2 d2 k2 n)
      (h3 : Rep N P hom c3 d3 k3 n) (hn : 0 < n) (hm : m * 2 ^ k = 2 * n) (h3m : k = 0 ∨ 3 ≤ m) (hk : p.nCoarsens = k)
      (hx : p.grid.nx = 2 * n) (hsz : c0.val.size = n) (hS : p.S = bm n 4 8 S) (hw : hom = false → p.w = bv n 4 w)
      (hw0 : hom = true → w = fun _ _ => 0) :
      Rep N P hom (.node p c0 c1 c2 c3) (.node n k m S w d0 d1 d2 d3) k m

variable {N : Nat} {P : Grid K → Prop} {hom : Bool}

theorem Rep.setVal {t : Tree (Patch K)} {D : DTree K} {k m : Nat} (h : Rep N P hom t D k m) {q : Patch K}
    (hq : SameOps t.val q) (hf : q.f = t.val.f) (hw : q.w = t.val.w) : Rep N P hom (t.setVal q) D k m := by
  obtain ⟨q1, q2, q3, q4, q5, q6⟩ := hq
  cases h with
  | @leaf p φ hk hx hy hP hf1 hf0 =>
    simp only [Tree.val, Tree.setVal] at *
    rw [← q2]
    exact .leaf (by rw [q1, hk]) (by rw [q2, hx]) (by rw [q2, hy]) (by rw [q2]; exact hP)
      (fun ho => by rw [hf, hf1 ho]) hf0
  | @node p c0 c1 c2 c3 d0 d1 d2 d3 n k m k0 k1 k2 k3 S w h0 h1 h2 h3 hn hm h3m hk hx hsz hS hw1 hw0 =>
    simp only [Tree.val, Tree.setVal] at *
    exact .node h0 h1 h2 h3 hn hm h3m (by rw [q1, hk]) (by rw [q2, hx]) hsz (by rw [q5, hS]) (fun ho => by rw [hw, hw1 ho]) hw0

/-- The tree holds the solution for the data and the boundary values. -/
def Sol (N : Nat) (ps : PatchSolver K) : Tree (Patch K) → DTree K → (Nat → Nat → K) → Prop
  | .leaf p, .leaf grid φ, g => p.grid = grid ∧ ps.solve grid (bv N 4 g) (Vec.ofFn (N * N) φ) = .ok p.u
  | .node _ c0 c1 c2 c3, .node n k m S w d0 d1 d2 d3, g =>
    let G := hlv n (proN k m g)
    let u := fun l s => app n 8 S G l s + w l s
    Sol N ps c0 d0 (cd 0 G u) ∧ Sol N ps c1 d1 (cd 1 G u) ∧ Sol N ps c2 d2 (cd 2 G u) ∧ Sol N ps c3 d3 (cd 3 G u)
  | _, _, _ => False

theorem Rep.solve {ps : PatchSolver K} (opt : HPSOptions)
    (hs : ∀ grid, P grid → grid.nx = N → grid.ny = N → ∀ g φ, ∃ u, ps.solve grid (bv N 4 g) (Vec.ofFn (N * N) φ) = .ok u)
    {t : Tree (Patch K)} {D : DTree K} {k m : Nat} (h : Rep N P opt.homogeneousRhs t D k m) {q : Patch K}
    {g : Nat → Nat → K} (hq : SameOps t.val q) (hf : q.f = t.val.f) (hw' : q.w = t.val.w) (hg : q.g = bv m 4 g) :
    ∃ t', t.splitFrom (leafSolve ps opt) (split1to4 opt) q = .ok t' ∧ Sol N ps t' D g := by
  induction h generalizing q g with
  | @leaf p φ hk hx hy hP hf1 hf0 =>
    obtain ⟨q1, q2, q3, q4, q5, q6⟩ := hq
    simp only [Tree.val] at *
    obtain ⟨u, hu⟩ := hs p.grid hP hx hy g φ
    cases ho : opt.homogeneousRhs with
    | false =>
      refine ⟨.leaf { q with u := u }, ?_, q2, hu⟩
      rw [Tree.splitFrom]
      unfold leafSolve
      simp only [ho, Bool.false_eq_true, if_false]
      rw [hg, hf, hf1 ho, q2, hu]
      rfl
    | true =>
      rw [hf0 ho] at hu ⊢
      refine ⟨.leaf { q with u := u, f := Vec.fill (N * N) 0 }, ?_, q2, hu⟩
      rw [Tree.splitFrom]
      unfold leafSolve
      simp only [ho, if_true]
      rw [hg, q2, hx, hy, Vec.fill_eq (N * N), hu]
      rfl
  | @node p c0 c1 c2 c3 d0 d1 d2 d3 n k m k0 k1 k2 k3 S w h0 h1 h2 h3 hn hm h3m hk hx hsz hS hw1 hw0 i0 i1 i2 i3 =>
    obtain ⟨q1, q2, q3, q4, q5, q6⟩ := hq
    simp only [Tree.val] at q1 q2 q3 q4 q5 q6 hf hw'
    have e1 : uncoarsen q = .ok { q with g := bv (m * 2 ^ k) 4 (proN k m g) } :=
      uncoarsen_eq h3m (by rw [q1, hk]) (by rw [q2, hx, hm]) hg
    have hG : bv (m * 2 ^ k) 4 (proN k m g) = bv n 8 (hlv n (proN k m g)) := by
      rw [hm, bv_halve]; rfl
    have e2 := applyS_ok opt (n := n) hn
      (F := ⟨{ q with g := bv (m * 2 ^ k) 4 (proN k m g) }, c0.val, c1.val, c2.val, c3.val⟩)
      hsz (S := S) (by rw [← hS]; exact q5) (G := hlv n (proN k m g)) hG (w := w)
      (fun ho => by rw [← hw1 ho]; exact hw') (u := fun l s => app n 8 S (hlv n (proN k m g)) l s + w l s) (by
        cases ho : opt.homogeneousRhs with
        | false => rfl
        | true =>
          rw [hw0 ho]
          simp)
    obtain ⟨t0, a0, b0⟩ := i0 (q := { c0.val with g := bv n 4 (cd 0 (hlv n (proN k m g))
      (fun l s => app n 8 S (hlv n (proN k m g)) l s + w l s)) }) ⟨rfl, rfl, rfl, rfl, rfl, rfl⟩ rfl rfl rfl
    obtain ⟨t1, a1, b1⟩ := i1 (q := { c1.val with g := bv n 4 (cd 1 (hlv n (proN k m g))
      (fun l s => app n 8 S (hlv n (proN k m g)) l s + w l s)) }) ⟨rfl, rfl, rfl, rfl, rfl, rfl⟩ rfl rfl rfl
    obtain ⟨t2, a2, b2⟩ := i2 (q := { c2.val with g := bv n 4 (cd 2 (hlv n (proN k m g))
      (fun l s => app n 8 S (hlv n (proN k m g)) l s + w l s)) }) ⟨rfl, rfl, rfl, rfl, rfl, rfl⟩ rfl rfl rfl
    obtain ⟨t3, a3, b3⟩ := i3 (q := { c3.val with g := bv n 4 (cd 3 (hlv n (proN k m g))
      (fun l s => app n 8 S (hlv n (proN k m g)) l s + w l s)) }) ⟨rfl, rfl, rfl, rfl, rfl, rfl⟩ rfl rfl rfl
    refine ⟨.node { q with g := bv (m * 2 ^ k) 4 (proN k m g) } t0 t1 t2 t3, ?_, b0, b1, b2, b3⟩
    have e3 : split1to4 opt ⟨q, c0.val, c1.val, c2.val, c3.val⟩ =
        applyS opt ⟨{ q with g := bv (m * 2 ^ k) 4 (proN k m g) }, c0.val, c1.val, c2.val, c3.val⟩ := by
      unfold split1to4
      simp only []
      rw [e1, Res.ok_bind]
    rw [e2] at e3
    rw [Tree.splitFrom, e3, Res.ok_bind]
    refine (congrArg (· >>= _) a0).trans ?_
    rw [Res.ok_bind]
    refine (congrArg (· >>= _) a1).trans ?_
    rw [Res.ok_bind]
    refine (congrArg (· >>= _) a2).trans ?_
    rw [Res.ok_bind]
    refine (congrArg (· >>= _) a3).trans ?_
    rfl

/-! ### The upwards stage of one run -/

theorem WCond.bv_eq {n : Nat} {TT : Ops K} {hh : Nat → Nat → Nat → K} {w v : Nat → Nat → K} (hw : WCond n TT hh w)
    (hv : WCond n TT hh v) : ∀ p, p < 4 → ∀ i, i < n → w p i = v p i := by
  by_cases h : BNonsing n 4 (Xf TT)
  · intro p hp i hi
    have := h (fun p i => w p i - v p i) (fun r hr i hi => by
      have e1 := hw.1 h r hr i hi
      have e2 := hv.1 h r hr i hi
      simp only [mul_sub, sum_sub_distrib]
      rw [e1, e2, sub_self]) p hp i hi
    exact sub_eq_zero.mp this
  · intro p _ i _
    rw [hw.2 h, hv.2 h]

omit [Field K] in
theorem bv_congr' {n r : Nat} {b b' : Nat → Nat → K} (h : ∀ p, p < r → ∀ i, i < n → b p i = b' p i) :
    bv n r b = bv n r b' := by
  refine Vec.ofFn_congr fun k hk => ?_
  have hn : 0 < n := by
    rcases Nat.eq_zero_or_pos n with h | h
    · subst h; omega
    · exact h
  exact h _ (Nat.div_lt_of_lt_mul (by rwa [Nat.mul_comm])) _ (Nat.mod_lt _ hn)

/-- The leaf callback of one run. -/
structure LeafRun (N : Nat) (P : Grid K → Prop) (hom : Bool) (leafF : Patch K → Res (Patch K))
    (Φ : Grid K → Nat → K) (η : Grid K → Nat → Nat → K) : Prop where
  run : ∀ p, p.grid.nx = N → p.grid.ny = N → P p.grid → ∃ q, leafF p = .ok q ∧ SameOps p q ∧
    (hom = false → q.h = bv N 4 (η p.grid) ∧ q.f = Vec.ofFn (N * N) (Φ p.grid))
  zero : hom = true → ∀ grid, Φ grid = (fun _ => 0) ∧ η grid = fun _ _ => 0

/-- The state of a subtree after the upwards stage. -/
structure UpState (N : Nat) (LP : Grid K → Blk K → Prop) (P : Grid K → Prop) (hom : Bool) (t' : Tree (Patch K)) (R : Rect K)
    (k m : Nat) (T : Blk K) (h : Nat → Nat → K) (D : DTree K) (grid : Grid K) : Prop where
  upd : Upd N LP (fun _ _ _ => True) hom t' R k m T h
  rep : Rep N P hom t' D k m
  flux : hom = false → t'.val.h = bv (m * 2 ^ k) 4 h
  flux0 : hom = true → h = fun _ _ => 0
  grid : t'.val.grid = grid

variable {LP : Grid K → Blk K → Prop}

/-- One family in the upwards stage of one run. -/
theorem node_run (lap : Lapack K) (opt : HPSOptions) (ho : opt.homogeneousRhs = hom)
    {p : Patch K} {t0 t1 t2 t3 : Tree (Patch K)} {R : Rect K} {n k m k0 k1 k2 k3 : Nat} {T0 T1 T2 T3 S : Blk K}
    {f0 f1 f2 f3 : Nat → Nat → K} {D0 D1 D2 D3 : DTree K} {G0 G1 G2 G3 : Grid K}
    (u0 : UpState N LP P hom t0 (R.quarter 0) k0 n T0 f0 D0 G0) (u1 : UpState N LP P hom t1 (R.quarter 1) k1 n T1 f1 D1 G1)
    (u2 : UpState N LP P hom t2 (R.quarter 2) k2 n T2 f2 D2 G2) (u3 : UpState N LP P hom t3 (R.quarter 3) k3 n T3 f3 D3 G3)
    (hz : k0 = 0 ∨ k1 = 0 ∨ k2 = 0 ∨ k3 = 0) (hn : 0 < n) (hm : m * 2 ^ k = 2 * n) (hN : ∃ j, m = N * 2 ^ j)
    (h3m : k = 0 ∨ 3 ≤ m) (hk : p.nCoarsens = k) (hx : p.grid.nx = 2 * n) (hy : p.grid.ny = 2 * n) (hR : InRect p R)
    (hX : p.X = bm n 4 4 (Xf (ops4 n k0 k1 k2 k3 T0 T1 T2 T3))) (hH : p.H = bm n 8 4 (Hf (ops4 n k0 k1 k2 k3 T0 T1 T2 T3)))
    (hS : p.S = bm n 4 8 S) (hSol : SolCond n (ops4 n k0 k1 k2 k3 T0 T1 T2 T3) S)
    (hT : p.T = bm m 4 4 (crsN k m (dbl n (Tp n (ops4 n k0 k1 k2 k3 T0 T1 T2 T3) S)))) :
    (∃ w, WCond n (ops4 n k0 k1 k2 k3 T0 T1 T2 T3) (flx4 n k0 k1 k2 k3 f0 f1 f2 f3) w ∧ (hom = true → w = fun _ _ => 0)) ∧
    ∀ w, WCond n (ops4 n k0 k1 k2 k3 T0 T1 T2 T3) (flx4 n k0 k1 k2 k3 f0 f1 f2 f3) w → (hom = true → w = fun _ _ => 0) →
      ∃ t', (do
        let F ← upwards4to1 lap opt ⟨p, t0.val, t1.val, t2.val, t3.val⟩
        pure (Tree.node F.tau (t0.setVal F.a) (t1.setVal F.b) (t2.setVal F.c) (t3.setVal F.d))) = .ok t' ∧
      UpState N LP P hom t' R k m (dbl n (Tp n (ops4 n k0 k1 k2 k3 T0 T1 T2 T3) S))
        (dblv n (hp n (ops4 n k0 k1 k2 k3 T0 T1 T2 T3) (flx4 n k0 k1 k2 k3 f0 f1 f2 f3) w))
        (.node n k m S w D0 D1 D2 D3) p.grid := by
  have hzz : ∀ k n, (rstN k n (fun _ _ => 0) : Nat → Nat → K) = fun _ _ => 0 := by
    intro k n
    have := rstN_lin k n 0 0 (fun _ _ => (0 : K)) (fun _ _ => 0)
    rw [lin_zero] at this
    rw [this]
    funext p i
    simp [lin]
  have hfl : hom = true → flx4 n k0 k1 k2 k3 f0 f1 f2 f3 = fun _ _ _ => 0 := by
    intro h
    rw [u0.flux0 h, u1.flux0 h, u2.flux0 h, u3.flux0 h]
    funext j
    unfold flx4
    split <;> rw [hzz]
  cases hom with
  | false =>
    obtain ⟨v, e, hv⟩ := upwards4to1_ok lap opt ho (p := p) hn u0.upd u1.upd u2.upd u3.upd (u0.flux rfl) (u1.flux rfl) (u2.flux rfl)
      (u3.flux rfl) hH
    refine ⟨⟨v, hv, by simp⟩, ?_⟩
    intro w hw _
    have hwv := hw.bv_eq hv
    have e1 : bv n 4 v = bv n 4 w := bv_congr' fun p hp i hi => (hwv p hp i hi).symm
    have e2 : hp n (ops4 n k0 k1 k2 k3 T0 T1 T2 T3) (flx4 n k0 k1 k2 k3 f0 f1 f2 f3) v =
        hp n (ops4 n k0 k1 k2 k3 T0 T1 T2 T3) (flx4 n k0 k1 k2 k3 f0 f1 f2 f3) w := by
      funext p i
      unfold hp app
      congr 1
      exact sum_congr rfl fun q hq => sum_congr rfl fun j hj => by
        rw [hwv q (mem_range.mp hq) j (mem_range.mp hj)]
    rw [e1, e2] at e
    refine ⟨_, by rw [e]; rfl, ?_, ?_, ?_, by simp, rfl⟩
    · refine .node (u0.upd.setVal ⟨rfl, rfl, rfl, rfl, rfl, rfl⟩ rfl rfl) (u1.upd.setVal ⟨rfl, rfl, rfl, rfl, rfl, rfl⟩ rfl rfl)
        (u2.upd.setVal ⟨rfl, rfl, rfl, rfl, rfl, rfl⟩ rfl rfl) (u3.upd.setVal ⟨rfl, rfl, rfl, rfl, rfl, rfl⟩ rfl rfl)
        rfl rfl hz hn hm hN h3m hk hx hy hR rfl hH hS hSol hT (fun _ => rfl) hw (by simp) ?_
      intro _
      simp only [Tree.val_setVal]
      exact ⟨rfl, rfl, rfl, rfl⟩
    · refine .node (u0.rep.setVal ⟨rfl, rfl, rfl, rfl, rfl, rfl⟩ rfl rfl) (u1.rep.setVal ⟨rfl, rfl, rfl, rfl, rfl, rfl⟩ rfl rfl)
        (u2.rep.setVal ⟨rfl, rfl, rfl, rfl, rfl, rfl⟩ rfl rfl) (u3.rep.setVal ⟨rfl, rfl, rfl, rfl, rfl, rfl⟩ rfl rfl)
        hn hm h3m hk hx ?_ hS (fun _ => rfl) (by simp)
      rw [Tree.val_setVal]
      exact u0.upd.built.size
    · intro _
      rw [hm]; rfl
  | true =>
    have hj : hjump (flx4 n k0 k1 k2 k3 f0 f1 f2 f3) = fun _ _ => 0 := by
      rw [hfl rfl]; funext r i; simp [hjump]
    have hsv : ∀ c : Tree (Patch K), c.setVal c.val = c := by intro c; cases c <;> rfl
    refine ⟨⟨fun _ _ => 0, ⟨?_, ?_⟩, fun _ => rfl⟩, ?_⟩
    · intro _ r _ i _
      rw [hj]; simp
    · intro _; rw [hj]
    · intro w hw h0
      refine ⟨.node p t0 t1 t2 t3, ?_, ?_, ?_, by simp, ?_, rfl⟩
      · unfold upwards4to1
        rw [ho, if_pos rfl, Res.pure_def, Res.ok_bind]
        simp only [hsv]
        rfl
      · exact .node u0.upd u1.upd u2.upd u3.upd rfl rfl hz hn hm hN h3m hk hx hy hR hX hH hS hSol hT (by simp) hw h0 (by simp)
      · exact .node u0.rep u1.rep u2.rep u3.rep hn hm h3m hk hx u0.upd.built.size hS (by simp) h0
      · intro _
        rw [hfl rfl, h0 rfl]
        funext p i
        simp [dblv, hp, app]

/-- Same operators; loads and contributions of the third are the linear combination of those of the first two. -/
inductive LinD (a b : K) : DTree K → DTree K → DTree K → Prop
  | leaf {grid : Grid K} {φ ψ : Nat → K} : LinD a b (.leaf grid φ) (.leaf grid ψ) (.leaf grid (lin1 a b φ ψ))
  | node {n k m : Nat} {S : Blk K} {w v : Nat → Nat → K} {d0 d1 d2 d3 e0 e1 e2 e3 f0 f1 f2 f3 : DTree K}
      (h0 : LinD a b d0 e0 f0) (h1 : LinD a b d1 e1 f1) (h2 : LinD a b d2 e2 f2) (h3 : LinD a b d3 e3 f3) :
      LinD a b (.node n k m S w d0 d1 d2 d3) (.node n k m S v e0 e1 e2 e3) (.node n k m S (lin a b w v) f0 f1 f2 f3)

/-- Three upwards stages on one built tree. -/
theorem upwards3 (lap : Lapack K) {o1 o2 o3 : HPSOptions} {L1 L2 L3 : Patch K → Res (Patch K)} {a b : K}
    {Φ1 Φ2 : Grid K → Nat → K} {η1 η2 : Grid K → Nat → Nat → K}
    (l1 : LeafRun N P o1.homogeneousRhs L1 Φ1 η1) (l2 : LeafRun N P o2.homogeneousRhs L2 Φ2 η2)
    (l3 : LeafRun N P o3.homogeneousRhs L3 (fun g => lin1 a b (Φ1 g) (Φ2 g)) (fun g => lin a b (η1 g) (η2 g)))
    (h123 : o3.homogeneousRhs = true → o1.homogeneousRhs = true ∧ o2.homogeneousRhs = true)
    {t : Tree (Patch K)} {R : Rect K} {k m : Nat} {T : Blk K} (ht : Built N LP t R k m T)
    (hP : ∀ grid T, LP grid T → P grid) :
    ∃ t1 t2 t3 h1 h2 D1 D2 D3,
      t.merge L1 (upwards4to1 lap o1) = .ok t1 ∧ t.merge L2 (upwards4to1 lap o2) = .ok t2 ∧
      t.merge L3 (upwards4to1 lap o3) = .ok t3 ∧
      UpState N LP P o1.homogeneousRhs t1 R k m T h1 D1 t.val.grid ∧
      UpState N LP P o2.homogeneousRhs t2 R k m T h2 D2 t.val.grid ∧
      UpState N LP P o3.homogeneousRhs t3 R k m T (lin a b h1 h2) D3 t.val.grid ∧ LinD a b D1 D2 D3 := by
  induction ht with
  | @leaf p R T hk hx hy hR hT hL =>
    have one : ∀ {hom : Bool} {leafF : Patch K → Res (Patch K)} {Φ : Grid K → Nat → K} {η : Grid K → Nat → Nat → K},
        LeafRun N P hom leafF Φ η → ∀ fam, ∃ t', (Tree.leaf p).merge leafF fam = .ok t' ∧
          UpState N LP P hom t' R 0 N T (η p.grid) (.leaf p.grid (Φ p.grid)) p.grid := by
      intro hom leafF Φ η l fam
      obtain ⟨q, e, ⟨q1, q2, q3, q4, q5, q6⟩, hh⟩ := l.run p hx hy (hP _ _ hL)
      refine ⟨.leaf q, ?_, ?_, ?_, ?_, ?_, q2⟩
      · rw [Tree.merge, e]; rfl
      · refine .leaf (by rw [q1, hk]) (by rw [q2, hx]) (by rw [q2, hy]) ?_ (by rw [q6, hT]) (by rw [q2]; exact hL)
          (fun _ => trivial) (fun ho => (l.zero ho _).2)
        unfold InRect; rw [q2]; exact hR
      · have := Rep.leaf (N := N) (P := P) (hom := hom) (p := q) (φ := Φ p.grid) (by rw [q1, hk]) (by rw [q2, hx])
          (by rw [q2, hy]) (by rw [q2]; exact hP _ _ hL) (fun ho => (hh ho).2) (fun ho => (l.zero ho _).1)
        rw [q2] at this
        exact this
      · intro ho
        simp only [pow_zero, mul_one]
        exact (hh ho).1
      · exact fun ho => (l.zero ho _).2
    obtain ⟨t1, e1, u1⟩ := one l1 (upwards4to1 lap o1)
    obtain ⟨t2, e2, u2⟩ := one l2 (upwards4to1 lap o2)
    obtain ⟨t3, e3, u3⟩ := one l3 (upwards4to1 lap o3)
    exact ⟨t1, t2, t3, _, _, _, _, _, e1, e2, e3, u1, u2, u3, .leaf⟩
  | @node p R c0 c1 c2 c3 n k m k0 k1 k2 k3 T0 T1 T2 T3 S TT h0 h1 h2 h3 hTT hz hn hm hN h3m hk hx hy hR hX hH hS
      hSol hT i0 i1 i2 i3 =>
    obtain ⟨x0, y0, z0, f0, g0, X0, Y0, Z0, ex0, ey0, ez0, ux0, uy0, uz0, d0⟩ := i0
    obtain ⟨x1, y1, z1, f1, g1, X1, Y1, Z1, ex1, ey1, ez1, ux1, uy1, uz1, d1⟩ := i1
    obtain ⟨x2, y2, z2, f2, g2, X2, Y2, Z2, ex2, ey2, ez2, ux2, uy2, uz2, d2⟩ := i2
    obtain ⟨x3, y3, z3, f3, g3, X3, Y3, Z3, ex3, ey3, ez3, ux3, uy3, uz3, d3⟩ := i3
    subst hTT
    obtain ⟨⟨w, hw, hw0⟩, r1⟩ := node_run lap o1 rfl (p := p) ux0 ux1 ux2 ux3 hz hn hm hN h3m hk hx hy hR hX hH hS hSol hT
    obtain ⟨⟨v, hv, hv0⟩, r2⟩ := node_run lap o2 rfl (p := p) uy0 uy1 uy2 uy3 hz hn hm hN h3m hk hx hy hR hX hH hS hSol hT
    obtain ⟨⟨s, hs, hs0⟩, r3⟩ := node_run lap o3 rfl (p := p) uz0 uz1 uz2 uz3 hz hn hm hN h3m hk hx hy hR hX hH hS hSol hT
    have hwv : WCond n (ops4 n k0 k1 k2 k3 T0 T1 T2 T3)
        (flx4 n k0 k1 k2 k3 (lin a b f0 g0) (lin a b f1 g1) (lin a b f2 g2) (lin a b f3 g3)) (lin a b w v) :=
      hw.lin (flx4_lin n k0 k1 k2 k3 a b f0 f1 f2 f3 g0 g1 g2 g3) hv
    obtain ⟨t1, e1, s1⟩ := r1 w hw hw0
    obtain ⟨t2, e2, s2⟩ := r2 v hv hv0
    have key : o3.homogeneousRhs = true → lin a b w v = fun _ _ => 0 := by
      intro h
      rw [hw0 (h123 h).1, hv0 (h123 h).2, lin_zero]
    obtain ⟨t3, e3, s3⟩ := r3 (lin a b w v) hwv key
    refine ⟨t1, t2, t3, _, _, _, _, _, ?_, ?_, ?_, s1, s2, ?_, .node d0 d1 d2 d3⟩
    · rw [Tree.merge, ex0, Res.ok_bind, ex1, Res.ok_bind, ex2, Res.ok_bind, ex3, Res.ok_bind]; exact e1
    · rw [Tree.merge, ey0, Res.ok_bind, ey1, Res.ok_bind, ey2, Res.ok_bind, ey3, Res.ok_bind]; exact e2
    · rw [Tree.merge, ez0, Res.ok_bind, ez1, Res.ok_bind, ez2, Res.ok_bind, ez3, Res.ok_bind]; exact e3
    · rw [hp_lin n _ a b _ _ _ (flx4_lin n k0 k1 k2 k3 a b f0 f1 f2 f3 g0 g1 g2 g3) w v] at s3
      exact s3

end HPS
end EF
