import Verif.Proofs.SpecialLemmas
import Verif.Proofs.HasLemmas

/-!
# Matrices and vectors made of `n × n` blocks
-/

namespace EF

open Finset

variable {α K : Type}

/-! ### `solve` on every square system -/

namespace Mat

variable [Field K]

theorem nonsing_data {n : Nat} {f : Nat → Nat → K} :
    Nonsing n (fun i j => (ofFn n n (fun i j => f j i)).data.getD (i + j * n) 0) ↔ Nonsing n f := by
  have hfA : ∀ i, i < n → ∀ j, j < n → (ofFn n n (fun i j => f j i)).data.getD (i + j * n) 0 = f i j :=
    fun i hi j hj => getD_ofFn hj hi 0
  constructor
  · intro h v hv
    apply h v
    intro i hi
    refine Eq.trans ?_ (hv i hi)
    apply sum_congr rfl
    intro j hj
    simp only []
    rw [hfA i hi j (mem_range.mp hj)]
  · intro h v hv
    apply h v
    intro i hi
    refine Eq.trans ?_ (hv i hi)
    apply sum_congr rfl
    intro j hj
    simp only []
    rw [hfA i hi j (mem_range.mp hj)]

/-- `solve(A, B)` for any square non-empty `A`: the solution if `A` is nonsingular, `B` otherwise. -/
theorem solveMat_total (lap : Lapack K) {n m : Nat} {f g : Nat → Nat → K} (hn : 0 < n) :
    ∃ x : Nat → Nat → K, (ofFn n n f).solveMat lap (ofFn n m g) = .ok (ofFn n m x) ∧
      (Nonsing n f → ∀ i, i < n → ∀ j, j < m → ∑ l ∈ Finset.range n, f i l * x l j = g i j) ∧
      (¬ Nonsing n f → x = g) := by
  by_cases hf : Nonsing n f
  · obtain ⟨x, h1, h2⟩ := solveMat_ofFn lap (m := m) (g := g) hn hf
    exact ⟨x, h1, fun _ => h2, fun h => absurd hf h⟩
  · refine ⟨g, ?_, fun h => absurd h hf, fun _ => rfl⟩
    unfold solveMat
    rw [if_neg (by simp), if_neg (by simp), T_ofFn, Res.ok_bind, T_ofFn, Res.ok_bind]
    simp only [ncols_ofFn, nrows_ofFn]
    unfold dgesv
    have lenA : (ofFn n n (fun i j => f j i)).data.length = n * n := by simp [data_ofFn]
    have lenB : (ofFn m n (fun i j => g j i)).data.length = m * n := by simp [data_ofFn]
    rw [if_neg (by omega), if_neg (by omega), if_neg (by rw [lenA, lenB]; omega), Res.ok_bind,
      lap.singular _ _ _ _ _ _ (fun h => hf (nonsing_data.mp h))]
    exact T_ofFn (f := fun i j => g j i)

/-- `solve(A, b)` for any square non-empty `A`. -/
theorem solveVec_total (lap : Lapack K) {n : Nat} {f : Nat → Nat → K} {b : Nat → K} (hn : 0 < n) :
    ∃ x : Nat → K, (ofFn n n f).solveVec lap (Vec.ofFn n b) = .ok (Vec.ofFn n x) ∧
      (Nonsing n f → ∀ i, i < n → ∑ l ∈ Finset.range n, f i l * x l = b i) ∧
      (¬ Nonsing n f → x = b) := by
  by_cases hf : Nonsing n f
  · obtain ⟨x, h1, h2⟩ := solveVec_ofFn lap (b := b) hn hf
    exact ⟨x, h1, fun _ => h2, fun h => absurd hf h⟩
  · refine ⟨b, ?_, fun h => absurd h hf, fun _ => rfl⟩
    unfold solveVec
    rw [if_neg (by simp), if_neg (by simp), T_ofFn, Res.ok_bind]
    simp only [nrows_ofFn, Vec.data_ofFn, Vec.size_ofFn]
    unfold dgesv
    have lenA : (ofFn n n (fun i j => f j i)).data.length = n * n := by simp [data_ofFn]
    rw [if_neg (by omega), if_neg (by omega), if_neg (by rw [lenA, length_listFn]; omega), Res.ok_bind,
      lap.singular _ _ _ _ _ _ (fun h => hf (nonsing_data.mp h))]
    rfl

end Mat

/-! ### Block forms -/

/-- The `(r n) × (c n)` matrix whose block `(p,q)` is `B p q`. -/
def bm (n r c : Nat) (B : Nat → Nat → Nat → Nat → α) : Mat α :=
  Mat.ofFn (r * n) (c * n) (fun i j => B (i / n) (j / n) (i % n) (j % n))

/-- The vector of length `r n` whose block `p` is `b p`. -/
def bv (n r : Nat) (b : Nat → Nat → α) : Vec α := Vec.ofFn (r * n) (fun k => b (k / n) (k % n))

/-- The index set listing the blocks `σ 0, …, σ (m-1)` of size `n`. -/
def seg (n m : Nat) (σ : Nat → Nat) : Vec Int :=
  Vec.ofFn (m * n) (fun k => ((σ (k / n) * n + k % n : Nat) : Int))

@[simp] theorem nrows_bm (n r c : Nat) (B : Nat → Nat → Nat → Nat → α) : (bm n r c B).nrows = r * n := rfl
@[simp] theorem ncols_bm (n r c : Nat) (B : Nat → Nat → Nat → Nat → α) : (bm n r c B).ncols = c * n := rfl
@[simp] theorem size_bv (n r : Nat) (b : Nat → Nat → α) : (bv n r b).size = r * n := rfl

theorem ofFn_eq_bm (n r c : Nat) (f : Nat → Nat → α) :
    Mat.ofFn (r * n) (c * n) f = bm n r c (fun p q i j => f (p * n + i) (q * n + j)) := by
  apply Mat.ofFn_congr
  intro i _ j _
  beta_reduce
  rw [Nat.div_add_mod', Nat.div_add_mod']

theorem ofFn_eq_bv (n r : Nat) (f : Nat → α) :
    Vec.ofFn (r * n) f = bv n r (fun p i => f (p * n + i)) := by
  apply Vec.ofFn_congr
  intro i _
  beta_reduce
  rw [Nat.div_add_mod']

theorem bm_congr {n r c : Nat} {B B' : Nat → Nat → Nat → Nat → α}
    (h : ∀ p, p < r → ∀ q, q < c → ∀ i, i < n → ∀ j, j < n → B p q i j = B' p q i j) :
    bm n r c B = bm n r c B' := by
  apply Mat.ofFn_congr
  intro i hi j hj
  exact h _ (Mat.div_lt' hi) _ (Mat.div_lt' hj) _ (Mat.mod_lt' hi) _ (Mat.mod_lt' hj)

theorem bv_congr {n r : Nat} {b b' : Nat → Nat → α}
    (h : ∀ p, p < r → ∀ i, i < n → b p i = b' p i) : bv n r b = bv n r b' := by
  apply Vec.ofFn_congr
  intro i hi
  exact h _ (Mat.div_lt' hi) _ (Mat.mod_lt' hi)

theorem bm_inj {n r c : Nat} {B B' : Nat → Nat → Nat → Nat → α} (h : bm n r c B = bm n r c B') :
    ∀ p, p < r → ∀ q, q < c → ∀ i, i < n → ∀ j, j < n → B p q i j = B' p q i j := by
  intro p hp q hq i hi j hj
  have := Mat.ofFn_inj h (p * n + i) (Mat.idx_lt hp hi) (q * n + j) (Mat.idx_lt hq hj)
  rwa [Mat.idx_div hi, Mat.idx_mod hi, Mat.idx_div hj, Mat.idx_mod hj] at this

theorem bv_inj {n r : Nat} {b b' : Nat → Nat → α} (h : bv n r b = bv n r b') :
    ∀ p, p < r → ∀ i, i < n → b p i = b' p i := by
  intro p hp i hi
  have := Vec.ofFn_inj h (p * n + i) (Mat.idx_lt hp hi)
  rwa [Mat.idx_div hi, Mat.idx_mod hi] at this

theorem sum_range_mul {M : Type} [AddCommMonoid M] (c n : Nat) (G : Nat → M) :
    ∑ k ∈ range (c * n), G k = ∑ q ∈ range c, ∑ j ∈ range n, G (q * n + j) := by
  induction c with
  | zero => simp
  | succ c ih => rw [Nat.succ_mul, sum_range_add, ih, sum_range_succ]

theorem sum_range_blk {M : Type} [AddCommMonoid M] (c n : Nat) (G : Nat → Nat → M) :
    ∑ k ∈ range (c * n), G (k / n) (k % n) = ∑ q ∈ range c, ∑ j ∈ range n, G q j := by
  rw [sum_range_mul]
  apply sum_congr rfl
  intro q _
  apply sum_congr rfl
  intro j hj
  rw [Mat.idx_div (mem_range.mp hj), Mat.idx_mod (mem_range.mp hj)]

section zero
variable [Zero α]

theorem seg_lt {n m R : Nat} {σ : Nat → Nat} (hσ : ∀ p, p < m → σ p < R) :
    ∀ k, k < m * n → σ (k / n) * n + k % n < R * n := fun _ hk =>
  Mat.idx_lt (hσ _ (Mat.div_lt' hk)) (Mat.mod_lt' hk)

theorem getFromIndexSet_bm {n R C m m' : Nat} {σ τ : Nat → Nat} {B : Nat → Nat → Nat → Nat → α}
    (hm : m ≤ R) (hm' : m' ≤ C) (hσ : ∀ p, p < m → σ p < R) (hτ : ∀ p, p < m' → τ p < C) :
    (bm n R C B).getFromIndexSet (seg n m σ) (seg n m' τ) = .ok (bm n m m' (fun p q => B (σ p) (τ q))) := by
  unfold bm seg
  rw [Mat.getFromIndexSet_ofFn (Nat.mul_le_mul_right n hm) (Nat.mul_le_mul_right n hm') (seg_lt hσ) (seg_lt hτ)]
  congr 1
  apply Mat.ofFn_congr
  intro i hi j hj
  rw [Mat.idx_div (Mat.mod_lt' hi), Mat.idx_div (Mat.mod_lt' hj), Mat.idx_mod (Mat.mod_lt' hi),
    Mat.idx_mod (Mat.mod_lt' hj)]

theorem callIndexSet_bv {n R m : Nat} {σ : Nat → Nat} {b : Nat → Nat → α}
    (hm : m ≤ R) (hσ : ∀ p, p < m → σ p < R) :
    (bv n R b).callIndexSet (seg n m σ) = .ok (bv n m (fun p => b (σ p))) := by
  unfold bv seg
  have := Vec.getFromIndexSet_ofFn (f := fun k => b (k / n) (k % n)) (Nat.mul_le_mul_right n hm) (seg_lt (n := n) hσ)
  rw [show ∀ (v : Vec α) I, v.callIndexSet I = v.getFromIndexSet I from fun _ _ => rfl, this]
  congr 1
  apply Vec.ofFn_congr
  intro i hi
  rw [Mat.idx_div (Mat.mod_lt' hi), Mat.idx_mod (Mat.mod_lt' hi)]

theorem mem_block {n p p0 m i : Nat} (hi : i < n) :
    (p0 * n ≤ p * n + i ∧ p * n + i < p0 * n + m * n) ↔ (p0 ≤ p ∧ p < p0 + m) := by
  rw [← Nat.add_mul]
  constructor
  · rintro ⟨h1, h2⟩
    constructor
    · by_contra h
      have : (p + 1) * n ≤ p0 * n := Nat.mul_le_mul_right n (by omega)
      rw [Nat.succ_mul] at this; omega
    · by_contra h
      have : (p0 + m) * n ≤ p * n := Nat.mul_le_mul_right n (by omega)
      omega
  · rintro ⟨h1, h2⟩
    have a1 : p0 * n ≤ p * n := Nat.mul_le_mul_right n h1
    have a2 : (p + 1) * n ≤ (p0 + m) * n := Nat.mul_le_mul_right n (by omega)
    rw [Nat.succ_mul] at a2
    omega

omit [Zero α] in
theorem setBlock_bm {n r c m m' ro co : Nat} {B M : Nat → Nat → Nat → Nat → α} (p0 q0 : Nat)
    (hro : ro = p0 * n) (hco : co = q0 * n) (hr : p0 + m ≤ r) (hc : q0 + m' ≤ c) :
    (bm n r c B).setBlock ro co (bm n m m' M) = .ok (bm n r c (fun p q =>
      if (p0 ≤ p ∧ p < p0 + m) ∧ q0 ≤ q ∧ q < q0 + m' then M (p - p0) (q - q0) else B p q)) := by
  subst hro hco
  unfold bm
  rw [Mat.setBlock_ofFn (by rw [← Nat.add_mul]; exact Nat.mul_le_mul_right n hr)
    (by rw [← Nat.add_mul]; exact Nat.mul_le_mul_right n hc)]
  congr 1
  apply Mat.ofFn_congr
  intro i hi j hj
  have hin := Mat.mod_lt' hi
  have hjn := Mat.mod_lt' hj
  obtain ⟨p, hp⟩ : ∃ p, p = i / n := ⟨_, rfl⟩
  obtain ⟨q, hq⟩ : ∃ q, q = j / n := ⟨_, rfl⟩
  obtain ⟨s, hs⟩ : ∃ s, s = i % n := ⟨_, rfl⟩
  obtain ⟨t, ht⟩ : ∃ t, t = j % n := ⟨_, rfl⟩
  have ei : i = p * n + s := by rw [hp, hs, Nat.mul_comm, Nat.div_add_mod]
  have ej : j = q * n + t := by rw [hq, ht, Nat.mul_comm, Nat.div_add_mod]
  rw [← hs] at hin
  rw [← ht] at hjn
  clear hp hq hs ht
  subst ei ej
  simp only [Mat.idx_div hin, Mat.idx_mod hin, Mat.idx_div hjn, Mat.idx_mod hjn, mem_block hin, mem_block hjn]
  by_cases h : (p0 ≤ p ∧ p < p0 + m) ∧ q0 ≤ q ∧ q < q0 + m'
  · rw [if_pos h, if_pos h]
    have e1 : p * n + s - p0 * n = (p - p0) * n + s := by
      rw [Nat.sub_mul]
      have := Nat.mul_le_mul_right n h.1.1
      omega
    have e2 : q * n + t - q0 * n = (q - q0) * n + t := by
      rw [Nat.sub_mul]
      have := Nat.mul_le_mul_right n h.2.1
      omega
    rw [e1, e2, Mat.idx_div hin, Mat.idx_mod hin, Mat.idx_div hjn, Mat.idx_mod hjn]
  · rw [if_neg h, if_neg h]

omit [Zero α] in
theorem getSegment_bv [Zero α] {n r s : Nat} {b : Nat → Nat → α} (p0 : Nat) (hs : s = p0 * n) (hp : p0 < r) :
    (bv n r b).getSegment s n = .ok (bv n 1 (fun _ => b p0)) := by
  subst hs
  unfold bv
  have h : p0 * n + n ≤ r * n := by rw [← Nat.succ_mul]; exact Nat.mul_le_mul_right n hp
  rw [Vec.getSegment_ofFn h, Nat.one_mul]
  congr 1
  apply Vec.ofFn_congr
  intro i hi
  rw [Mat.idx_div hi, Mat.idx_mod hi, Nat.mod_eq_of_lt hi]

/-- Concatenation of four pieces of `m` blocks each. -/
theorem concatenate4_bv (n m : Nat) (b : Nat → Nat → Nat → α) :
    Vec.concatenate [bv n m (b 0), bv n m (b 1), bv n m (b 2), bv n m (b 3)]
      = .ok (bv n (4 * m) (fun p => b (p / m) (p % m))) := by
  have : [bv n m (b 0), bv n m (b 1), bv n m (b 2), bv n m (b 3)]
      = listFn 4 (fun k => Vec.ofFn (m * n) (fun i => b k (i / n) (i % n))) := rfl
  rw [this, Vec.concatenate_uniform]
  congr 1
  unfold bv
  rw [Nat.mul_assoc]
  apply Vec.ofFn_congr
  intro k hk
  have hn : 0 < n := by
    rcases Nat.eq_zero_or_pos n with h | h
    · subst h; simp at hk
    · exact h
  rw [Nat.mul_comm m n, ← Nat.div_div_eq_div_mul, Nat.mod_mul_right_div_self, Nat.mod_mul_right_mod]

/-- Concatenation of two pieces. -/
theorem concatenate2_seg (n : Nat) (σ : Nat → Nat) :
    Vec.concatenate [seg n 1 (fun _ => σ 0), seg n 1 (fun _ => σ 1)] = .ok (seg n 2 σ) := by
  have : [seg n 1 (fun _ => σ 0), seg n 1 (fun _ => σ 1)]
      = listFn 2 (fun k => Vec.ofFn (1 * n) (fun i => ((σ k * n + i % n : Nat) : Int))) := rfl
  rw [this, Vec.concatenate_uniform]
  congr 1
  unfold seg
  rw [Nat.one_mul]
  apply Vec.ofFn_congr
  intro k hk
  rw [Nat.mod_mod]

theorem range_seg (n p : Nat) {a b : Int} (ha : a = p * n) (hb : b = (p + 1) * n - 1) :
    Vec.range a b = .ok (seg n 1 (fun _ => p)) := by
  subst ha hb
  rw [Vec.range_eq (by rw [add_mul]; omega)]
  congr 1
  unfold seg
  have : ((((p : Int) + 1) * n - 1) - p * n + 1).toNat = 1 * n := by
    rw [add_mul]; omega
  rw [this]
  apply Vec.ofFn_congr
  intro k hk
  rw [Nat.mod_eq_of_lt (by omega)]
  push_cast
  rfl

end zero

section field
variable [Field K]

theorem neg_bm {n r c : Nat} {B : Nat → Nat → Nat → Nat → K} :
    (bm n r c B).neg = .ok (bm n r c (fun p q i j => - B p q i j)) := Mat.neg_ofFn

theorem sub_bm {n r c : Nat} {A B : Nat → Nat → Nat → Nat → K} :
    (bm n r c A).sub (bm n r c B) = .ok (bm n r c (fun p q i j => A p q i j - B p q i j)) := Mat.sub_ofFn

theorem add_bm {n r c : Nat} {A B : Nat → Nat → Nat → Nat → K} :
    (bm n r c A).add (bm n r c B) = .ok (bm n r c (fun p q i j => A p q i j + B p q i j)) := Mat.add_ofFn

theorem sub_bv {n r : Nat} {a b : Nat → Nat → K} :
    (bv n r a).sub (bv n r b) = .ok (bv n r (fun p i => a p i - b p i)) := Vec.sub_ofFn

theorem add_bv {n r : Nat} {a b : Nat → Nat → K} :
    (bv n r a).add (bv n r b) = .ok (bv n r (fun p i => a p i + b p i)) := Vec.add_ofFn

theorem addAssign_bv {n r : Nat} {a b : Nat → Nat → K} :
    (bv n r a).addAssign (bv n r b) = .ok (bv n r (fun p i => a p i + b p i)) := Vec.addAssign_ofFn

omit [Field K] in
theorem fill_bm {n r c R C : Nat} (a : K) (hR : R = r * n) (hC : C = c * n) :
    (Mat.fill R C a : Mat K) = bm n r c (fun _ _ _ _ => a) := by
  subst hR hC; exact Mat.fill_eq _ _ _

theorem mulVec_bm {n r c : Nat} {B : Nat → Nat → Nat → Nat → K} {x : Nat → Nat → K} (hn : 0 < n) (hc : 0 < c) :
    (bm n r c B).mulVec (bv n c x)
      = .ok (bv n r (fun p i => ∑ q ∈ range c, ∑ j ∈ range n, B p q i j * x q j)) := by
  unfold bm bv
  rw [Mat.mulVec_ofFn (Nat.mul_pos hc hn)]
  congr 1
  apply Vec.ofFn_congr
  intro i _
  exact sum_range_blk c n (fun q j => B (i / n) q (i % n) j * x q j)

theorem mul_bm {n r k c : Nat} {A B : Nat → Nat → Nat → Nat → K} (hn : 0 < n) (hr : 0 < r) (hk : 0 < k)
    (hc : 0 < c) :
    (bm n r k A).mul (bm n k c B)
      = .ok (bm n r c (fun p q i j => ∑ l ∈ range k, ∑ s ∈ range n, A p l i s * B l q s j)) := by
  unfold bm
  rw [Mat.mul_ofFn (Nat.mul_pos hr hn) (Nat.mul_pos hk hn) (Nat.mul_pos hc hn)]
  congr 1
  apply Mat.ofFn_congr
  intro i _ j _
  exact sum_range_blk k n (fun l s => A (i / n) l (i % n) s * B l (j / n) s (j % n))

/-- Block-diagonal matrix of four pieces of `m × m'` blocks each. -/
theorem blockDiagonal4_bm (n m m' : Nat) (D : Nat → Nat → Nat → Nat → Nat → K) :
    Mat.blockDiagonal [bm n m m' (D 0), bm n m m' (D 1), bm n m m' (D 2), bm n m m' (D 3)]
      = .ok (bm n (4 * m) (4 * m') (fun p q i j =>
          if p / m = q / m' then D (p / m) (p % m) (q % m') i j else 0)) := by
  have : [bm n m m' (D 0), bm n m m' (D 1), bm n m m' (D 2), bm n m m' (D 3)]
      = listFn 4 (fun k => Mat.ofFn (m * n) (m' * n) (fun i j => D k (i / n) (j / n) (i % n) (j % n))) := rfl
  rw [this, Mat.blockDiagonal_uniform]
  congr 1
  unfold bm
  rw [Nat.mul_assoc, Nat.mul_assoc]
  apply Mat.ofFn_congr
  intro k hk l hl
  have hn : 0 < n := by
    rcases Nat.eq_zero_or_pos n with h | h
    · subst h; simp at hk
    · exact h
  simp only [Nat.mul_comm m n, Nat.mul_comm m' n, ← Nat.div_div_eq_div_mul, Nat.mod_mul_right_div_self,
    Nat.mod_mul_right_mod]

theorem blockDiagonal4_bm' (n m m' : Nat) (D : Nat → Nat → Nat → Nat → Nat → K)
    {D0 D1 D2 D3 : Nat → Nat → Nat → Nat → K} (h0 : D0 = D 0) (h1 : D1 = D 1) (h2 : D2 = D 2) (h3 : D3 = D 3) :
    Mat.blockDiagonal [bm n m m' D0, bm n m m' D1, bm n m m' D2, bm n m m' D3]
      = .ok (bm n (4 * m) (4 * m') (fun p q i j =>
          if p / m = q / m' then D (p / m) (p % m) (q % m') i j else 0)) := by
  subst h0 h1 h2 h3
  exact blockDiagonal4_bm n m m' D

theorem blockPermute_bv {n m : Nat} {π : Nat → Nat} {b : Nat → Nat → K} (h : ∀ i, i < m → π i < m) :
    (bv n m b).blockPermute (Vec.ofFn m (fun i => (π i : Int))) (Vec.fill m (n : Int))
      = .ok (bv n m (fun p => b (π p))) := by
  unfold bv
  rw [Vec.fill_eq, Vec.blockPermute_uniform h]
  congr 1
  apply Vec.ofFn_congr
  intro i hi
  rw [Mat.idx_div (Mat.mod_lt' hi), Mat.idx_mod (Mat.mod_lt' hi)]

theorem blockPermute_bm {n r c : Nat} {π ρ : Nat → Nat} {B : Nat → Nat → Nat → Nat → K}
    (hπ : ∀ i, i < r → π i < r) (hρ : ∀ i, i < c → ρ i < c) :
    (bm n r c B).blockPermute (Vec.ofFn r (fun i => (π i : Int))) (Vec.ofFn c (fun i => (ρ i : Int)))
        (Vec.fill r (n : Int)) (Vec.fill c (n : Int))
      = .ok (bm n r c (fun p q => B (π p) (ρ q))) := by
  unfold bm
  rw [Vec.fill_eq, Vec.fill_eq, Mat.blockPermute_uniform hπ hρ]
  congr 1
  apply Mat.ofFn_congr
  intro i hi j hj
  rw [Mat.idx_div (Mat.mod_lt' hi), Mat.idx_mod (Mat.mod_lt' hi), Mat.idx_div (Mat.mod_lt' hj),
    Mat.idx_mod (Mat.mod_lt' hj)]

/-- Nonsingularity in block form. -/
def BNonsing (n r : Nat) (B : Nat → Nat → Nat → Nat → K) : Prop :=
  ∀ x : Nat → Nat → K,
    (∀ p, p < r → ∀ i, i < n → ∑ q ∈ range r, ∑ j ∈ range n, B p q i j * x q j = 0) →
    ∀ p, p < r → ∀ i, i < n → x p i = 0

theorem bnonsing_iff {n r : Nat} {B : Nat → Nat → Nat → Nat → K} :
    Nonsing (r * n) (fun i j => B (i / n) (j / n) (i % n) (j % n)) ↔ BNonsing n r B := by
  constructor
  · intro h x hx p hp i hi
    have := h (fun k => x (k / n) (k % n)) (by
      intro k hk
      rw [sum_range_blk r n (fun q j => B (k / n) q (k % n) j * x q j)]
      exact hx _ (Mat.div_lt' hk) _ (Mat.mod_lt' hk)) (p * n + i) (Mat.idx_lt hp hi)
    rwa [Mat.idx_div hi, Mat.idx_mod hi] at this
  · intro h v hv k hk
    have := h (fun q j => v (q * n + j)) (by
      intro p hp i hi
      have := hv (p * n + i) (Mat.idx_lt hp hi)
      rw [sum_range_mul r n] at this
      rw [← this]
      apply sum_congr rfl
      intro q _
      apply sum_congr rfl
      intro j hj
      beta_reduce
      rw [Mat.idx_div hi, Mat.idx_mod hi, Mat.idx_div (mem_range.mp hj), Mat.idx_mod (mem_range.mp hj)])
      (k / n) (Mat.div_lt' hk) (k % n) (Mat.mod_lt' hk)
    rwa [Nat.mul_comm, Nat.div_add_mod] at this

theorem solveMat_bm (lap : Lapack K) {n r c : Nat} {X R : Nat → Nat → Nat → Nat → K} (hn : 0 < n) (hr : 0 < r) :
    ∃ S : Nat → Nat → Nat → Nat → K, (bm n r r X).solveMat lap (bm n r c R) = .ok (bm n r c S) ∧
      (BNonsing n r X → ∀ p, p < r → ∀ q, q < c → ∀ i, i < n → ∀ j, j < n →
        ∑ l ∈ range r, ∑ s ∈ range n, X p l i s * S l q s j = R p q i j) ∧
      (¬ BNonsing n r X → S = R) := by
  unfold bm
  obtain ⟨x, h1, h2, h3⟩ := Mat.solveMat_total lap (n := r * n) (m := c * n)
    (f := fun i j => X (i / n) (j / n) (i % n) (j % n)) (g := fun i j => R (i / n) (j / n) (i % n) (j % n))
    (Nat.mul_pos hr hn)
  rw [h1]
  by_cases hX : BNonsing n r X
  · refine ⟨fun p q i j => x (p * n + i) (q * n + j), ?_, ?_, fun h => absurd hX h⟩
    · rw [ofFn_eq_bm]; rfl
    · intro _ p hp q hq i hi j hj
      have := h2 (bnonsing_iff.mpr hX) (p * n + i) (Mat.idx_lt hp hi) (q * n + j) (Mat.idx_lt hq hj)
      rw [sum_range_mul] at this
      simp only [Mat.idx_div hi, Mat.idx_mod hi, Mat.idx_div hj, Mat.idx_mod hj] at this
      rw [← this]
      apply sum_congr rfl
      intro l _
      apply sum_congr rfl
      intro s hs
      rw [Mat.idx_div (mem_range.mp hs), Mat.idx_mod (mem_range.mp hs)]
  · refine ⟨R, ?_, fun h => absurd h hX, fun _ => rfl⟩
    rw [h3 (fun h => hX (bnonsing_iff.mp h))]

theorem solveVec_bm (lap : Lapack K) {n r : Nat} {X : Nat → Nat → Nat → Nat → K} {b : Nat → Nat → K}
    (hn : 0 < n) (hr : 0 < r) :
    ∃ w : Nat → Nat → K, (bm n r r X).solveVec lap (bv n r b) = .ok (bv n r w) ∧
      (BNonsing n r X → ∀ p, p < r → ∀ i, i < n →
        ∑ l ∈ range r, ∑ s ∈ range n, X p l i s * w l s = b p i) ∧
      (¬ BNonsing n r X → w = b) := by
  unfold bm bv
  obtain ⟨x, h1, h2, h3⟩ := Mat.solveVec_total lap (n := r * n)
    (f := fun i j => X (i / n) (j / n) (i % n) (j % n)) (b := fun i => b (i / n) (i % n))
    (Nat.mul_pos hr hn)
  rw [h1]
  by_cases hX : BNonsing n r X
  · refine ⟨fun p i => x (p * n + i), ?_, ?_, fun h => absurd hX h⟩
    · rw [ofFn_eq_bv]; rfl
    · intro _ p hp i hi
      have := h2 (bnonsing_iff.mpr hX) (p * n + i) (Mat.idx_lt hp hi)
      rw [sum_range_mul] at this
      simp only [Mat.idx_div hi, Mat.idx_mod hi] at this
      rw [← this]
      apply sum_congr rfl
      intro l _
      apply sum_congr rfl
      intro s hs
      rw [Mat.idx_div (mem_range.mp hs), Mat.idx_mod (mem_range.mp hs)]
  · refine ⟨b, ?_, fun h => absurd h hX, fun _ => rfl⟩
    rw [h3 (fun h => hX (bnonsing_iff.mp h))]

end field
end EF
