import Verif.Proofs.Kept
import Mathlib.Algebra.BigOperators.Fin
import Mathlib.Tactic.Linarith
import Mathlib.Tactic.Ring

/-!
# Counting the numbers kept in a tree
-/

namespace EF

open Finset HPS

variable {K T : Type}

/-- The tree has the nodes of the forest. -/
def Fits : Forest → Tree T → Prop
  | .leaf _, .leaf _ => True
  | .node c0 c1 c2 c3, .node _ t0 t1 t2 t3 => Fits c0 t0 ∧ Fits c1 t1 ∧ Fits c2 t2 ∧ Fits c3 t3
  | _, _ => False

theorem Rep.fits {r : Nat} {F : Forest} {t : Tree T} {a : Addr} {m : NodeMap T} (h : Rep r F t a m) : Fits F t := by
  induction F generalizing t a with
  | leaf k =>
    cases t with
    | node => exact absurd h id
    | leaf d => trivial
  | node c0 c1 c2 c3 h0 h1 h2 h3 =>
    cases t with
    | leaf => exact absurd h id
    | node d t0 t1 t2 t3 =>
      obtain ⟨-, k0, k1, k2, k3⟩ := h
      exact ⟨h0 k0, h1 k1, h2 k2, h3 k3⟩

theorem HPS.LeafKept.doubles {N : Nat} {p : Patch K} (h : LeafKept N p) : p.doubles = Forest.leafNumbers N := by
  unfold Patch.doubles Forest.leafNumbers
  rw [h.X.1, h.H.1, h.S.1, h.T.1, h.T.2, h.u, h.g, h.v, h.f, h.h, h.w]
  ring

theorem HPS.BranchKept.doubles {p : Patch K} (h : BranchKept p) {n : Nat} (hn : p.grid.nx = 2 * n) :
    p.doubles = Forest.branchNumbers n p.size := by
  unfold Patch.doubles Forest.branchNumbers
  rw [h.X.1, h.X.2, h.H.1, h.H.2, h.S.1, h.S.2, h.T.1, h.T.2, h.u, h.g, h.v, h.f, h.h, h.w, hn]
  ring

/-- The cells per side of a tree. -/
theorem HPS.Sides.side {N : Nat} {F : Forest} {t : Tree (Patch K)} (h : Sides N t) (hf : Fits F t) : t.val.grid.nx = F.side N := by
  induction F generalizing t with
  | leaf k =>
    cases t with
    | node => exact absurd hf id
    | leaf p => exact h.2
  | node c0 c1 c2 c3 h0 h1 h2 h3 =>
    cases t with
    | leaf => exact absurd hf id
    | node p t0 t1 t2 t3 =>
      obtain ⟨f0, f1, f2, f3⟩ := hf
      obtain ⟨⟨n, hn, hx, hall, c, hc, hk⟩, s0, s1, s2, s3⟩ := h
      have hle : ∀ c ∈ [t0.val, t1.val, t2.val, t3.val], n ≤ c.grid.nx := fun c hc => by
        rw [hall c hc]
        exact Nat.le_mul_of_pos_right n (by positivity)
      have heq := hall c hc
      rw [hk, pow_zero, mul_one] at heq
      simp only [List.mem_cons, List.not_mem_nil, or_false, forall_eq_or_imp, forall_eq] at hle hc
      obtain ⟨l0, l1, l2, l3⟩ := hle
      have e0 := h0 s0 f0
      have e1 := h1 s1 f1
      have e2 := h2 s2 f2
      have e3 := h3 s3 f3
      show p.grid.nx = 2 * _
      rw [← e0, ← e1, ← e2, ← e3, hx]
      rcases hc with rfl | rfl | rfl | rfl <;> omega

/-- The numbers and nodes in the part of a tree that belongs to a rank. -/
theorem HPS.Sides.numbers {N r : Nat} {F : Forest} {t : Tree (Patch K)} (h : Sides N t) (hf : Fits F t) (hk : Every (LeafKept N) BranchKept t) :
    ((nodesOf r F t).map Patch.doubles).sum = F.numbers N (fun G => r ∈ G.ranks) t.val.size ∧
      (nodesOf r F t).length = F.count (fun G => r ∈ G.ranks) := by
  induction F generalizing t with
  | leaf k =>
    cases t with
    | node => exact absurd hf id
    | leaf p =>
      have hk : LeafKept N p := hk
      have e : r ∈ (Forest.leaf k).ranks ↔ k = r := by simp [Forest.ranks, eq_comm]
      simp only [nodesOf, Forest.numbers, Forest.count, e]
      split
      · exact ⟨by simp [hk.doubles], rfl⟩
      · exact ⟨rfl, rfl⟩
  | node c0 c1 c2 c3 h0 h1 h2 h3 =>
    cases t with
    | leaf => exact absurd hf id
    | node p t0 t1 t2 t3 =>
      have hside := Sides.side (F := .node c0 c1 c2 c3) h hf
      obtain ⟨f0, f1, f2, f3⟩ := hf
      obtain ⟨kp, k0, k1, k2, k3⟩ := hk
      obtain ⟨⟨n, hn, hx, hall, -⟩, s0, s1, s2, s3⟩ := h
      have hmin : min (min (c0.side N) (c1.side N)) (min (c2.side N) (c3.side N)) = n := by
        have : p.grid.nx = 2 * min (min (c0.side N) (c1.side N)) (min (c2.side N) (c3.side N)) := hside
        omega
      have hsz : ∀ c ∈ [t0.val, t1.val, t2.val, t3.val], c.size = n := fun c hc => size_eq rfl (hall c hc)
      simp only [List.mem_cons, List.not_mem_nil, or_false, forall_eq_or_imp, forall_eq] at hsz
      obtain ⟨z0, z1, z2, z3⟩ := hsz
      obtain ⟨a0, b0⟩ := h0 s0 f0 k0
      obtain ⟨a1, b1⟩ := h1 s1 f1 k1
      obtain ⟨a2, b2⟩ := h2 s2 f2 k2
      obtain ⟨a3, b3⟩ := h3 s3 f3 k3
      rw [z0] at a0
      rw [z1] at a1
      rw [z2] at a2
      rw [z3] at a3
      simp only [nodesOf, Forest.numbers, Forest.count, hmin, List.map_append, List.sum_append, List.length_append, a0, a1, a2, a3, b0, b1,
        b2, b3]
      split
      · refine ⟨?_, rfl⟩
        have hp : p.doubles = Forest.branchNumbers n p.size := kp.doubles hx
        simp [hp, Tree.val]
      · exact ⟨rfl, rfl⟩

/-- The megabytes of a rank. -/
theorem kept_megabytes {N r : Nat} {F : Forest} {t : Tree (Patch K)} (h : Sides N t) (hf : Fits F t)
    (hk : Every (LeafKept N) BranchKept t) (h0 : t.val.nCoarsens = 0) :
    megabytes (nodesOf r F t) = F.megabytes N (fun G => r ∈ G.ranks) := by
  obtain ⟨a, b⟩ := Sides.numbers (r := r) h hf hk
  have hs : t.val.size = F.side N := by
    rw [← Sides.side h hf]
    exact size_eq h0 (by rw [pow_zero, mul_one])
  unfold megabytes Forest.megabytes
  rw [a, b, hs]

namespace Forest

variable {N : Nat} {F : Forest}

theorem numbers_congr {P Q : Forest → Prop} [DecidablePred P] [DecidablePred Q] {F : Forest}
    (h : ∀ G, (∀ k ∈ G.ranks, k ∈ F.ranks) → (P G ↔ Q G)) (m : Nat) : F.numbers N P m = F.numbers N Q m ∧ F.count P = F.count Q := by
  induction F generalizing m with
  | leaf k =>
    have := h (.leaf k) fun _ hk => hk
    simp only [numbers, count, this, and_self]
  | node c0 c1 c2 c3 h0 h1 h2 h3 =>
    have e := h (.node c0 c1 c2 c3) fun _ hk => hk
    have k0 := h0 (fun G hG => h G fun k hk => by simp only [ranks, List.mem_append]; exact .inl (.inl (.inl (hG k hk))))
    have k1 := h1 (fun G hG => h G fun k hk => by simp only [ranks, List.mem_append]; exact .inl (.inl (.inr (hG k hk))))
    have k2 := h2 (fun G hG => h G fun k hk => by simp only [ranks, List.mem_append]; exact .inl (.inr (hG k hk)))
    have k3 := h3 (fun G hG => h G fun k hk => by simp only [ranks, List.mem_append]; exact .inr (hG k hk))
    simp only [numbers, count, e, (k0 _).1, (k1 _).1, (k2 _).1, (k3 _).1, (k0 0).2, (k1 0).2, (k2 0).2, (k3 0).2, and_self]

theorem one_rank {F : Forest} {r : Nat} (hr : ∀ k ∈ F.ranks, k = r) : F.megabytes N (fun G => r ∈ G.ranks) = F.megabytes N (fun _ => True) := by
  have h : ∀ G : Forest, (∀ k ∈ G.ranks, k ∈ F.ranks) → (r ∈ G.ranks ↔ True) := fun G hG => by
    have := G.first_mem
    simp only [iff_true]
    rwa [hr _ (hG _ this)] at this
  obtain ⟨a, b⟩ := numbers_congr (N := N) (P := fun G => r ∈ G.ranks) (Q := fun _ => True) h (F.side N)
  unfold megabytes
  rw [a, b]

theorem branchNumbers_eq (n m : Nat) : branchNumbers n m = 80 * n ^ 2 + 12 * n + 16 * m ^ 2 + 4 * m := by
  unfold branchNumbers
  ring

theorem leafNumbers_eq (N : Nat) : leafNumbers N = 18 * N ^ 2 + 8 * N := by
  unfold leafNumbers
  ring

/-! ### Uniform meshes -/

theorem side_uniform {d : Nat} (h : F.shape = .uniform d) : F.side N = N * 2 ^ d := by
  induction d generalizing F with
  | zero =>
    cases F with
    | leaf k => simp [side]
    | node => simp [Forest.shape, Shape.uniform] at h
  | succ d ih =>
    cases F with
    | leaf k => simp [Forest.shape, Shape.uniform] at h
    | node c0 c1 c2 c3 =>
      simp only [Forest.shape, Shape.uniform, Shape.node.injEq] at h
      simp only [side]
      rw [ih h.1, ih h.2.1, ih h.2.2.1, ih h.2.2.2]
      simp only [min_self]
      ring

theorem numbers_uniform {d : Nat} (h : F.shape = .uniform d) :
    F.numbers N (fun _ => True) (F.side N) + 10 * (2 ^ d * N) = 4 ^ d * (N ^ 2 * (18 + 36 * d) + 18 * N) ∧
      3 * F.count (fun _ => True) + 1 = 4 ^ (d + 1) := by
  induction d generalizing F with
  | zero =>
    cases F with
    | leaf k =>
      simp only [numbers, count, if_true, leafNumbers_eq]
      constructor <;> ring
    | node => simp [Forest.shape, Shape.uniform] at h
  | succ d ih =>
    cases F with
    | leaf k => simp [Forest.shape, Shape.uniform] at h
    | node c0 c1 c2 c3 =>
      simp only [Forest.shape, Shape.uniform, Shape.node.injEq] at h
      obtain ⟨a0, b0⟩ := ih h.1
      obtain ⟨a1, b1⟩ := ih h.2.1
      obtain ⟨a2, b2⟩ := ih h.2.2.1
      obtain ⟨a3, b3⟩ := ih h.2.2.2
      rw [side_uniform h.1] at a0
      rw [side_uniform h.2.1] at a1
      rw [side_uniform h.2.2.1] at a2
      rw [side_uniform h.2.2.2] at a3
      simp only [numbers, count, side, side_uniform h.1, side_uniform h.2.1, side_uniform h.2.2.1, side_uniform h.2.2.2, min_self, if_true,
        branchNumbers_eq]
      have e4 : (4 : Nat) ^ d = (2 ^ d) ^ 2 := by rw [← pow_mul, mul_comm, pow_mul]; norm_num
      constructor
      · rw [pow_succ 4 d, pow_succ 2 d]
        rw [e4] at a0 a1 a2 a3 ⊢
        generalize 2 ^ d = q at a0 a1 a2 a3 ⊢
        generalize c0.numbers N (fun _ => True) (N * q) = x0 at a0 ⊢
        generalize c1.numbers N (fun _ => True) (N * q) = x1 at a1 ⊢
        generalize c2.numbers N (fun _ => True) (N * q) = x2 at a2 ⊢
        generalize c3.numbers N (fun _ => True) (N * q) = x3 at a3 ⊢
        nlinarith [a0, a1, a2, a3]
      · rw [pow_succ 4 (d + 1)]
        omega

/-! ### Any mesh -/

theorem side_le : (F.side N) ^ 2 ≤ N ^ 2 * F.ranks.length ∧ F.side N ≤ N * F.ranks.length := by
  induction F with
  | leaf k => simp [side, ranks]
  | node c0 c1 c2 c3 h0 h1 h2 h3 =>
    obtain ⟨a0, b0⟩ := h0
    obtain ⟨a1, b1⟩ := h1
    obtain ⟨a2, b2⟩ := h2
    obtain ⟨a3, b3⟩ := h3
    simp only [side, ranks, List.length_append]
    obtain ⟨n, hn⟩ : ∃ n, n = min (min (c0.side N) (c1.side N)) (min (c2.side N) (c3.side N)) := ⟨_, rfl⟩
    rw [← hn]
    have l0 : n ≤ c0.side N := by omega
    have l1 : n ≤ c1.side N := by omega
    have l2 : n ≤ c2.side N := by omega
    have l3 : n ≤ c3.side N := by omega
    have q0 := Nat.pow_le_pow_left l0 2
    have q1 := Nat.pow_le_pow_left l1 2
    have q2 := Nat.pow_le_pow_left l2 2
    have q3 := Nat.pow_le_pow_left l3 2
    constructor
    · rw [mul_pow, mul_add, mul_add, mul_add]
      omega
    · rw [mul_add, mul_add, mul_add]
      omega

theorem numbers_le {m : Nat} (hm : m ≤ F.side N) :
    F.numbers N (fun _ => True) m ≤ (18 * N ^ 2 + 8 * N) * F.ranks.length + (36 * N ^ 2 + 10 * N) * F.depths := by
  induction F generalizing m with
  | leaf k =>
    simp only [numbers, if_true, leafNumbers_eq, ranks, depths, List.length_singleton]
    omega
  | node c0 c1 c2 c3 h0 h1 h2 h3 =>
    have hs := side_le (N := N) (F := .node c0 c1 c2 c3)
    simp only [side] at hm hs
    simp only [numbers, if_true, depths, branchNumbers_eq]
    obtain ⟨n, hn⟩ : ∃ n, n = min (min (c0.side N) (c1.side N)) (min (c2.side N) (c3.side N)) := ⟨_, rfl⟩
    rw [← hn] at hs hm ⊢
    have a0 := h0 (m := n) (by omega)
    have a1 := h1 (m := n) (by omega)
    have a2 := h2 (m := n) (by omega)
    have a3 := h3 (m := n) (by omega)
    have hl : (Forest.node c0 c1 c2 c3).ranks.length = c0.ranks.length + c1.ranks.length + c2.ranks.length + c3.ranks.length := by
      simp only [ranks, List.length_append]
    obtain ⟨hs1, hs2⟩ := hs
    have hb : 80 * n ^ 2 + 12 * n + 16 * m ^ 2 + 4 * m ≤ (36 * N ^ 2 + 10 * N) * (Forest.node c0 c1 c2 c3).ranks.length := by
      have := Nat.pow_le_pow_left hm 2
      calc 80 * n ^ 2 + 12 * n + 16 * m ^ 2 + 4 * m ≤ 36 * (2 * n) ^ 2 + 10 * (2 * n) := by
            rw [mul_pow] at *
            omega
        _ ≤ 36 * (N ^ 2 * (Forest.node c0 c1 c2 c3).ranks.length) + 10 * (N * (Forest.node c0 c1 c2 c3).ranks.length) := by omega
        _ = _ := by ring
    calc _ ≤ ((18 * N ^ 2 + 8 * N) * c0.ranks.length + (36 * N ^ 2 + 10 * N) * c0.depths)
            + ((18 * N ^ 2 + 8 * N) * c1.ranks.length + (36 * N ^ 2 + 10 * N) * c1.depths)
            + ((18 * N ^ 2 + 8 * N) * c2.ranks.length + (36 * N ^ 2 + 10 * N) * c2.depths)
            + ((18 * N ^ 2 + 8 * N) * c3.ranks.length + (36 * N ^ 2 + 10 * N) * c3.depths)
            + (36 * N ^ 2 + 10 * N) * (Forest.node c0 c1 c2 c3).ranks.length := by omega
      _ = _ := by rw [hl]; ring

theorem count_le : 3 * F.count (fun _ => True) + 1 = 4 * F.ranks.length := by
  induction F with
  | leaf k => simp [count, ranks]
  | node c0 c1 c2 c3 h0 h1 h2 h3 =>
    simp only [count, if_true, ranks, List.length_append]
    omega

/-! ### Several ranks -/

theorem numbers_mono {P Q : Forest → Prop} [DecidablePred P] [DecidablePred Q] (h : ∀ G, P G → Q G) (m : Nat) :
    F.numbers N P m ≤ F.numbers N Q m ∧ F.count P ≤ F.count Q := by
  induction F generalizing m with
  | leaf k =>
    have := h (.leaf k)
    simp only [numbers, count]
    split <;> split <;> simp_all
  | node c0 c1 c2 c3 h0 h1 h2 h3 =>
    have e := h (.node c0 c1 c2 c3)
    simp only [numbers, count]
    have k0 := h0 (min (min (c0.side N) (c1.side N)) (min (c2.side N) (c3.side N)))
    have k1 := h1 (min (min (c0.side N) (c1.side N)) (min (c2.side N) (c3.side N)))
    have k2 := h2 (min (min (c0.side N) (c1.side N)) (min (c2.side N) (c3.side N)))
    have k3 := h3 (min (min (c0.side N) (c1.side N)) (min (c2.side N) (c3.side N)))
    have a : (if P (.node c0 c1 c2 c3) then branchNumbers (min (min (c0.side N) (c1.side N)) (min (c2.side N) (c3.side N))) m else 0)
        ≤ (if Q (.node c0 c1 c2 c3) then branchNumbers (min (min (c0.side N) (c1.side N)) (min (c2.side N) (c3.side N))) m else 0) := by
      split <;> split <;> simp_all
    have b : (if P (.node c0 c1 c2 c3) then 1 else 0) ≤ (if Q (.node c0 c1 c2 c3) then 1 else 0) := by
      split <;> split <;> simp_all
    omega

theorem count_lt {r k : Nat} (hk : k ∈ F.ranks) (hne : k ≠ r) : F.count (fun G => r ∈ G.ranks) < F.count (fun _ => True) := by
  induction F with
  | leaf j =>
    have : k = j := by simpa [ranks] using hk
    subst this
    simp [count, ranks, hne.symm]
  | node c0 c1 c2 c3 h0 h1 h2 h3 =>
    have hk' := hk
    simp only [ranks, List.mem_append] at hk'
    have m0 := (numbers_mono (N := 0) (F := c0) (P := fun G => r ∈ G.ranks) (Q := fun _ => True) (fun _ _ => trivial) 0).2
    have m1 := (numbers_mono (N := 0) (F := c1) (P := fun G => r ∈ G.ranks) (Q := fun _ => True) (fun _ _ => trivial) 0).2
    have m2 := (numbers_mono (N := 0) (F := c2) (P := fun G => r ∈ G.ranks) (Q := fun _ => True) (fun _ _ => trivial) 0).2
    have m3 := (numbers_mono (N := 0) (F := c3) (P := fun G => r ∈ G.ranks) (Q := fun _ => True) (fun _ _ => trivial) 0).2
    simp only [count, if_true]
    have b : (if r ∈ (Forest.node c0 c1 c2 c3).ranks then 1 else 0) ≤ 1 := by split <;> omega
    rcases hk' with ((h | h) | h) | h
    · have := h0 h; omega
    · have := h1 h; omega
    · have := h2 h; omega
    · have := h3 h; omega

/-- Every node is held by some rank. -/
theorem sum_ranks {size : Nat} (hr : ∀ k ∈ F.ranks, k < size) (m : Nat) :
    F.numbers N (fun _ => True) m ≤ ∑ r ∈ range size, F.numbers N (fun G => r ∈ G.ranks) m ∧
      F.count (fun _ => True) ≤ ∑ r ∈ range size, F.count (fun G => r ∈ G.ranks) := by
  have key : ∀ (G : Forest) (x : Nat), (∀ k ∈ G.ranks, k < size) → x ≤ ∑ r ∈ range size, if r ∈ G.ranks then x else 0 := fun G x h =>
    calc x = if G.first ∈ G.ranks then x else 0 := by rw [if_pos G.first_mem]
      _ ≤ _ := single_le_sum (f := fun r => if r ∈ G.ranks then x else 0) (fun _ _ => Nat.zero_le _) (mem_range.mpr (h _ G.first_mem))
  induction F generalizing m with
  | leaf k =>
    simp only [numbers, count, if_true]
    exact ⟨key _ _ hr, key _ _ hr⟩
  | node c0 c1 c2 c3 h0 h1 h2 h3 =>
    have hr' := hr
    simp only [ranks, List.mem_append] at hr'
    simp only [numbers, count, if_true, sum_add_distrib]
    obtain ⟨n, hn⟩ : ∃ n, n = min (min (c0.side N) (c1.side N)) (min (c2.side N) (c3.side N)) := ⟨_, rfl⟩
    rw [← hn]
    have k0 := h0 (fun k hk => hr' k (.inl (.inl (.inl hk)))) n
    have k1 := h1 (fun k hk => hr' k (.inl (.inl (.inr hk)))) n
    have k2 := h2 (fun k hk => hr' k (.inl (.inr hk))) n
    have k3 := h3 (fun k hk => hr' k (.inr hk)) n
    have a := key _ (branchNumbers n m) hr
    have b := key _ 1 hr
    omega

/-- With two ranks or more the root is held more than once. -/
theorem sum_count_lt {size : Nat} (hr : ∀ k, k ∈ F.ranks ↔ k < size) (h2 : 2 ≤ size) :
    F.count (fun _ => True) < ∑ r ∈ range size, F.count (fun G => r ∈ G.ranks) := by
  cases F with
  | leaf k =>
    have h0 := (hr 0).mpr (by omega)
    have h1 := (hr 1).mpr (by omega)
    simp [ranks] at h0 h1
    omega
  | node c0 c1 c2 c3 =>
    have hr' : ∀ k, k ∈ (Forest.node c0 c1 c2 c3).ranks → k < size := fun k => (hr k).mp
    simp only [ranks, List.mem_append] at hr'
    have k0 := (sum_ranks (N := 0) (F := c0) (fun k hk => hr' k (.inl (.inl (.inl hk)))) 0).2
    have k1 := (sum_ranks (N := 0) (F := c1) (fun k hk => hr' k (.inl (.inl (.inr hk)))) 0).2
    have k2 := (sum_ranks (N := 0) (F := c2) (fun k hk => hr' k (.inl (.inr hk))) 0).2
    have k3 := (sum_ranks (N := 0) (F := c3) (fun k hk => hr' k (.inr hk)) 0).2
    simp only [count, if_true, sum_add_distrib]
    have b : ∑ r ∈ range size, (if r ∈ (Forest.node c0 c1 c2 c3).ranks then 1 else 0) = size := by
      rw [sum_congr rfl fun r h => if_pos ((hr r).mpr (mem_range.mp h))]
      simp
    omega

end Forest

end EF
