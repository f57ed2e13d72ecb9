import Verif.Spec.Tree
import Verif.Proofs.CoarsenForm

/-!
# Invariants of the three stages on trees
-/

namespace EF
namespace HPS

open Finset

variable {K : Type} [Field K]

/-- Block functions of an operator. -/
abbrev Blk (K : Type) := Nat → Nat → Nat → Nat → K

/-- The four coarsened operators. -/
def ops4 (n : Nat) (k0 k1 k2 k3 : Nat) (T0 T1 T2 T3 : Blk K) : Ops K := fun j =>
  match j with
  | 0 => crsN k0 n T0
  | 1 => crsN k1 n T1
  | 2 => crsN k2 n T2
  | _ => crsN k3 n T3

/-- Pairs of blocks of size `n` seen as blocks of size `2n`. -/
def dbl (n : Nat) (B : Blk K) : Blk K := fun p q i j => B (p * 2 + i / n) (q * 2 + j / n) (i % n) (j % n)

/-- What the interface solve returns. -/
def SolCond (n : Nat) (TT : Ops K) (S : Blk K) : Prop :=
  (BNonsing n 4 (Xf TT) → SolvesX n TT S) ∧ (¬ BNonsing n 4 (Xf TT) → S = fun p q => Rf TT p (piF q))

/-- A tree after the build stage.  `k` is how often the root has been coarsened, `m` its side length,
`T` its operator before coarsening.  `LP` is what is known of leaf operators. -/
inductive Built (N : Nat) (LP : Grid K → Blk K → Prop) :
    Tree (Patch K) → Rect K → Nat → Nat → Blk K → Prop
  | leaf {p : Patch K} {R : Rect K} {T : Blk K} (hk : p.nCoarsens = 0) (hx : p.grid.nx = N) (hy : p.grid.ny = N)
      (hR : InRect p R) (hT : p.T = bm N 4 4 T) (hL : LP p.grid T) : Built N LP (.leaf p) R 0 N T
  | node {p : Patch K} {R : Rect K} {c0 c1 c2 c3 : Tree (Patch K)} {n k m k0 k1 k2 k3 : Nat}
      {T0 T1 T2 T3 S : Blk K} {TT : Ops K}
      (h0 : Built N LP c0 (R.quarter 0) k0 n T0) (h1 : Built N LP c1 (R.quarter 1) k1 n T1)
      (h2 : Built N LP c2 (R.quarter 2) k2 n T2) (h3 : Built N LP c3 (R.quarter 3) k3 n T3)
      (hTT : TT = ops4 n k0 k1 k2 k3 T0 T1 T2 T3) (hz : k0 = 0 ∨ k1 = 0 ∨ k2 = 0 ∨ k3 = 0)
      (hn : 0 < n) (hm : m * 2 ^ k = 2 * n) (hN : ∃ j, m = N * 2 ^ j) (h3m : k = 0 ∨ 3 ≤ m)
      (hk : p.nCoarsens = k) (hx : p.grid.nx = 2 * n) (hy : p.grid.ny = 2 * n) (hR : InRect p R)
      (hX : p.X = bm n 4 4 (Xf TT)) (hH : p.H = bm n 8 4 (Hf TT)) (hS : p.S = bm n 4 8 S) (hSol : SolCond n TT S)
      (hT : p.T = bm m 4 4 (crsN k m (dbl n (Tp n TT S)))) :
      Built N LP (.node p c0 c1 c2 c3) R k m (dbl n (Tp n TT S))

variable {N : Nat} {LP : Grid K → Blk K → Prop}

/-- The facts about the root patch which the parent uses. -/
theorem Built.root {t : Tree (Patch K)} {R : Rect K} {k m : Nat} {T : Blk K} (h : Built N LP t R k m T) :
    t.val.nCoarsens = k ∧ t.val.grid.nx = m * 2 ^ k ∧ t.val.grid.ny = m * 2 ^ k ∧ InRect t.val R ∧
      t.val.T = bm m 4 4 (crsN k m T) ∧ (∃ j, m = N * 2 ^ j) := by
  cases h with
  | leaf hk hx hy hR hT _ =>
    exact ⟨hk, by simpa [Tree.val] using hx, by simpa [Tree.val] using hy, hR, hT, 0, by simp⟩
  | node h0 h1 h2 h3 hTT hz hn hm hN h3m hk hx hy hR hX hH hS hSol hT =>
    exact ⟨hk, by rw [hm]; exact hx, by rw [hm]; exact hy, hR, hT, hN⟩

omit [Field K] in
theorem size_eq {p : Patch K} {k m : Nat} (hk : p.nCoarsens = k) (hx : p.grid.nx = m * 2 ^ k) : p.size = m := by
  unfold Patch.size
  rw [hk, hx, Nat.mul_div_cancel _ (by positivity)]

theorem Built.size {t : Tree (Patch K)} {R : Rect K} {k m : Nat} {T : Blk K} (h : Built N LP t R k m T) :
    t.val.size = m := size_eq h.root.1 h.root.2.1

/-- Coarsening the root of a built tree. -/
theorem Built.coarsen {t : Tree (Patch K)} {R : Rect K} {k m : Nat} {T : Blk K}
    (h : Built N LP t R 0 (m * 2 ^ k) T) (hN : ∃ j, m = N * 2 ^ j) (h3 : k = 0 ∨ 3 ≤ m)
    (hleaf : ∀ p, t = .leaf p → k = 0) :
    ∃ p', coarsenPatch k t.val = .ok p' ∧ Built N LP (t.setVal p') R k m T := by
  rcases Nat.eq_zero_or_pos k with rfl | hkp
  · refine ⟨t.val, rfl, ?_⟩
    have : t.setVal t.val = t := by cases t <;> rfl
    rw [this]
    simpa using h
  · have hr := h.root
    refine ⟨_, coarsenPatch_eq (m := m) (k := k) (h3.resolve_left (by omega)) (by simpa using hr.2.1)
      (by simpa [crsN] using hr.2.2.2.2.1), ?_⟩
    cases h with
    | leaf => exact absurd (hleaf _ rfl) (by omega)
    | @node p R c0 c1 c2 c3 n _ _ k0 k1 k2 k3 T0 T1 T2 T3 S TT h0 h1 h2 h3' hTT hz hn hm _ h3m hk hx hy hR hX hH hS hSol hT =>
      refine Built.node h0 h1 h2 h3' hTT hz hn (by simpa using hm) hN h3 ?_ hx hy hR hX hH hS hSol ?_
      · simp [Tree.val, hk]
      · simp

end HPS

@[simp] theorem Tree.val_setVal {P : Type} (t : Tree P) (q : P) : (t.setVal q).val = q := by cases t <;> rfl

namespace HPS
variable {K : Type} [Field K] {N : Nat} {LP : Grid K → Blk K → Prop}

theorem log2_mul_pow (a j : Nat) (ha : a ≠ 0) : Nat.log2 (a * 2 ^ j) = Nat.log2 a + j := by
  induction j with
  | zero => simp
  | succ j ih =>
    rw [pow_succ, ← mul_assoc, mul_comm _ 2, Nat.log2_two_mul (by positivity), ih]
    omega

/-- The coarsening pass on four built siblings: all end with the same side length. -/
theorem coarsen_ok (hN : 0 < N) {tau : Patch K} {c0 c1 c2 c3 : Tree (Patch K)} {R : Rect K}
    {m0 m1 m2 m3 : Nat} {T0 T1 T2 T3 : Blk K}
    (h0 : Built N LP c0 (R.quarter 0) 0 m0 T0) (h1 : Built N LP c1 (R.quarter 1) 0 m1 T1)
    (h2 : Built N LP c2 (R.quarter 2) 0 m2 T2) (h3 : Built N LP c3 (R.quarter 3) 0 m3 T3)
    (h3N : 3 ≤ N ∨ (m0 = m1 ∧ m1 = m2 ∧ m2 = m3)) :
    ∃ n k0 k1 k2 k3 a b c d, 0 < n ∧ (∃ j, n = N * 2 ^ j) ∧
      (m0 = n * 2 ^ k0 ∧ m1 = n * 2 ^ k1 ∧ m2 = n * 2 ^ k2 ∧ m3 = n * 2 ^ k3) ∧
      (k0 = 0 ∨ k1 = 0 ∨ k2 = 0 ∨ k3 = 0) ∧
      HPS.coarsen ⟨tau, c0.val, c1.val, c2.val, c3.val⟩ = .ok ⟨tau, a, b, c, d⟩ ∧
      Built N LP (c0.setVal a) (R.quarter 0) k0 n T0 ∧ Built N LP (c1.setVal b) (R.quarter 1) k1 n T1 ∧
      Built N LP (c2.setVal c) (R.quarter 2) k2 n T2 ∧ Built N LP (c3.setVal d) (R.quarter 3) k3 n T3 := by
  obtain ⟨j0, e0⟩ := h0.root.2.2.2.2.2
  obtain ⟨j1, e1⟩ := h1.root.2.2.2.2.2
  obtain ⟨j2, e2⟩ := h2.root.2.2.2.2.2
  obtain ⟨j3, e3⟩ := h3.root.2.2.2.2.2
  obtain ⟨j, hj⟩ : ∃ j, j = min (min j0 j1) (min j2 j3) := ⟨_, rfl⟩
  have hmono : ∀ a b, a ≤ b → N * 2 ^ a ≤ N * 2 ^ b := fun a b h =>
    Nat.mul_le_mul_left N (Nat.pow_le_pow_right (by omega) h)
  have hmin : min (min m0 m1) (min m2 m3) = N * 2 ^ j := by
    rw [e0, e1, e2, e3]
    have := hmono j j0 (by omega)
    have := hmono j j1 (by omega)
    have := hmono j j2 (by omega)
    have := hmono j j3 (by omega)
    have : j = j0 ∨ j = j1 ∨ j = j2 ∨ j = j3 := by omega
    rcases this with h | h | h | h <;> rw [← h] <;> omega
  have hsp : ∀ a, j ≤ a → N * 2 ^ a = N * 2 ^ j * 2 ^ (a - j) := by
    intro a h
    rw [mul_assoc, ← pow_add]
    congr 2
    omega
  have hlog : ∀ a, Nat.log2 (N * 2 ^ a) = Nat.log2 N + a := fun a => log2_mul_pow N a (by omega)
  have h3n : ∀ a mm, mm = N * 2 ^ a → j ≤ a → (mm = m0 ∨ mm = m1 ∨ mm = m2 ∨ mm = m3) →
      a - j = 0 ∨ 3 ≤ N * 2 ^ j := by
    intro a mm hmm hja hor
    rcases h3N with h | ⟨ha, hb, hc⟩
    · right
      exact le_trans h (Nat.le_mul_of_pos_right N (by positivity))
    · left
      have hinj : ∀ x y, N * 2 ^ x = N * 2 ^ y → x = y := by
        intro x y hxy
        have := congrArg Nat.log2 hxy
        rw [hlog, hlog] at this
        omega
      have a01 := hinj j0 j1 (by omega)
      have a12 := hinj j1 j2 (by omega)
      have a23 := hinj j2 j3 (by omega)
      have aa := hinj a j0 (by omega)
      omega
  have hleaf : ∀ (c : Tree (Patch K)) (Q : Rect K) (a mm : Nat) (T : Blk K), Built N LP c Q 0 mm T → mm = N * 2 ^ a →
      ∀ p, c = .leaf p → a - j = 0 := by
    intro c Q a mm T hb hmm p hp
    subst hp
    cases hb with
    | leaf =>
      have : N * 2 ^ a = N * 1 := by omega
      have := Nat.eq_of_mul_eq_mul_left hN this
      rcases Nat.eq_zero_or_pos a with h | h
      · omega
      · have := Nat.one_lt_two_pow (n := a) (by omega)
        omega
  have s0 := hsp j0 (by omega)
  have s1 := hsp j1 (by omega)
  have s2 := hsp j2 (by omega)
  have s3 := hsp j3 (by omega)
  obtain ⟨a, qa, ba⟩ := Built.coarsen (k := j0 - j) (m := N * 2 ^ j) (by rw [← s0, ← e0]; exact h0) ⟨j, rfl⟩
    (h3n j0 m0 e0 (by omega) (Or.inl rfl)) (hleaf _ _ _ _ _ h0 e0)
  obtain ⟨b, qb, bb⟩ := Built.coarsen (k := j1 - j) (m := N * 2 ^ j) (by rw [← s1, ← e1]; exact h1) ⟨j, rfl⟩
    (h3n j1 m1 e1 (by omega) (Or.inr (Or.inl rfl))) (hleaf _ _ _ _ _ h1 e1)
  obtain ⟨c, qc, bc⟩ := Built.coarsen (k := j2 - j) (m := N * 2 ^ j) (by rw [← s2, ← e2]; exact h2) ⟨j, rfl⟩
    (h3n j2 m2 e2 (by omega) (Or.inr (Or.inr (Or.inl rfl)))) (hleaf _ _ _ _ _ h2 e2)
  obtain ⟨d, qd, bd⟩ := Built.coarsen (k := j3 - j) (m := N * 2 ^ j) (by rw [← s3, ← e3]; exact h3) ⟨j, rfl⟩
    (h3n j3 m3 e3 (by omega) (Or.inr (Or.inr (Or.inr rfl)))) (hleaf _ _ _ _ _ h3 e3)
  refine ⟨N * 2 ^ j, j0 - j, j1 - j, j2 - j, j3 - j, a, b, c, d, by positivity, ⟨j, rfl⟩,
    ⟨by rw [e0, s0], by rw [e1, s1], by rw [e2, s2], by rw [e3, s3]⟩, by omega, ?_, ba, bb, bc, bd⟩
  unfold HPS.coarsen tags
  simp only []
  rw [h0.size, h1.size, h2.size, h3.size, hmin, if_neg (by positivity), Res.ok_bind]
  simp only []
  rw [e0, e1, e2, e3, hlog, hlog, hlog, hlog, hlog]
  rw [show Nat.log2 N + j0 - (Nat.log2 N + j) = j0 - j by omega, show Nat.log2 N + j1 - (Nat.log2 N + j) = j1 - j by omega,
    show Nat.log2 N + j2 - (Nat.log2 N + j) = j2 - j by omega, show Nat.log2 N + j3 - (Nat.log2 N + j) = j3 - j by omega,
    qa, Res.ok_bind, qb, Res.ok_bind, qc, Res.ok_bind, qd, Res.ok_bind]
  rfl

/-- The merge of four built siblings. -/
theorem merge4to1_ok (lap : Lapack K) (hN : 0 < N) [NeZero (2 : K)] {tau : Patch K} {c0 c1 c2 c3 : Tree (Patch K)} {R : Rect K}
    {m0 m1 m2 m3 : Nat} {T0 T1 T2 T3 : Blk K} (htau : tau.nCoarsens = 0)
    (h0 : Built N LP c0 (R.quarter 0) 0 m0 T0) (h1 : Built N LP c1 (R.quarter 1) 0 m1 T1)
    (h2 : Built N LP c2 (R.quarter 2) 0 m2 T2) (h3 : Built N LP c3 (R.quarter 3) 0 m3 T3)
    (h3N : 3 ≤ N ∨ (m0 = m1 ∧ m1 = m2 ∧ m2 = m3)) :
    ∃ F m T, merge4to1 lap ⟨tau, c0.val, c1.val, c2.val, c3.val⟩ = .ok F ∧
      Built N LP (.node F.tau (c0.setVal F.a) (c1.setVal F.b) (c2.setVal F.c) (c3.setVal F.d)) R 0 m T ∧
      (m0 = m1 ∧ m1 = m2 ∧ m2 = m3 → m = 2 * m0) := by
  obtain ⟨n, k0, k1, k2, k3, a, b, c, d, hn, ⟨j, hj⟩, hms, hk0, hc, b0, b1, b2, b3⟩ :=
    coarsen_ok hN (tau := tau) h0 h1 h2 h3 h3N
  have r0 := b0.root
  have r1 := b1.root
  have r2 := b2.root
  have r3 := b3.root
  have s0 := b0.size
  have s1 := b1.size
  have s2 := b2.size
  have s3 := b3.size
  rw [Tree.val_setVal] at r0 r1 r2 r3 s0 s1 s2 s3
  obtain ⟨S, hm, hS1, hS2⟩ := mergeEq_ok lap hn (TT := ops4 n k0 k1 k2 k3 T0 T1 T2 T3)
    (F := ⟨tau, a, b, c, d⟩) ⟨r0.2.2.2.2.1, r1.2.2.2.2.1, r2.2.2.2.2.1, r3.2.2.2.2.1⟩ ⟨s0, s1, s2, s3⟩
  refine ⟨_, 2 * n, dbl n (Tp n (ops4 n k0 k1 k2 k3 T0 T1 T2 T3) S),
    by rw [merge4to1_eq, hc, Res.ok_bind, hm], ?_, ?_⟩
  · refine Built.node b0 b1 b2 b3 rfl hk0 hn (by simp) ⟨j + 1, ?_⟩ (Or.inl rfl) htau ?_ ?_ ?_ rfl rfl rfl
      ⟨hS1, hS2⟩ ?_
    · rw [hj, pow_succ]; ring
    · simp only [mergeGrid]; omega
    · simp only [mergeGrid]; omega
    · refine ⟨?_, ?_, ?_, ?_⟩
      · have := r0.2.2.2.1.1
        simpa [mergeGrid, Rect.quarter] using this
      · have := r1.2.2.2.1.2.1
        simpa [mergeGrid, Rect.quarter] using this
      · have := r0.2.2.2.1.2.2.1
        simpa [mergeGrid, Rect.quarter] using this
      · have := r2.2.2.2.1.2.2.2
        simpa [mergeGrid, Rect.quarter] using this
    · simp only [crsN]
      exact bm_double n 4 4 _
  · rintro ⟨ha, hb, hd⟩
    obtain ⟨x0, x1, x2, x3⟩ := hms
    rcases hk0 with h | h | h | h <;> subst h <;> omega

end HPS
end EF
