import Verif.Model.Matrix
import Verif.Proofs.VecLemmas
import Mathlib.Algebra.Order.BigOperators.Group.Finset

/-!
# Canonical forms for `Mat` and rewriting lemmas for the operations of `Verif.Model.Matrix`.
-/

namespace EF

open Finset

/-! ### Block index sets -/

namespace Vec

variable {α : Type}

theorem sumSizes_ofFn {n m : Nat} {S : Nat → Nat} (h : m ≤ n) :
    sumSizes (ofFn n (fun i => (S i : Int))) m = .ok (∑ i ∈ Finset.range m, S i) := by
  unfold sumSizes
  apply forN_sum0
  intro i hi s
  simp only [get_ofFn (show i < n by omega), Res.ok_bind]
  rw [if_neg (by omega)]; simp

theorem flatten_inner {N : Nat} (s : Nat) (m c : Nat) (f : Nat → Nat) (h : c + m ≤ N) :
    forN m (fun q (st : Vec Int × Nat) => do
      let g ← st.1.set st.2 ((s + q : Nat) : Int)
      pure (g, st.2 + 1)) (ofFn N (fun k => (f k : Int)), c)
    = .ok (ofFn N (fun k => ((if c ≤ k ∧ k < c + m then s + (k - c) else f k : Nat) : Int)), c + m) := by
  have key := forN_ok (n := m) (body := fun q (st : Vec Int × Nat) => do
      let g ← st.1.set st.2 ((s + q : Nat) : Int)
      pure (g, st.2 + 1))
    (fun i => (ofFn N (fun k => ((if c ≤ k ∧ k < c + i then s + (k - c) else f k : Nat) : Int)), c + i)) (by
      intro i hi
      simp only [Res.ok_bind, set_ofFn (show c + i < N by omega), Res.pure_def]
      congr 2
      apply ofFn_congr
      intro k hk
      by_cases h1 : k = c + i
      · subst h1; simp
      · by_cases h2 : c ≤ k ∧ k < c + i
        · rw [if_neg h1, if_pos h2, if_pos (by omega)]
        · rw [if_neg h1, if_neg h2, if_neg (by omega)])
  have h0 : (ofFn N (fun k => ((if c ≤ k ∧ k < c + 0 then s + (k - c) else f k : Nat) : Int)), c + 0)
      = (ofFn N (fun k => (f k : Int)), c) := by
    congr 1
    apply ofFn_congr; intro k _; rw [if_neg (by omega)]
  rw [h0] at key
  exact key

/-- What `flattenBlocks` computes: position `Σ_{i'<i} S(I i') + q` holds
`Σ_{b < I i} S b + q`. -/
theorem flattenBlocks_ofFn {m n N : Nat} {I S : Nat → Nat}
    (hI : ∀ i, i < m → I i < n) (hN : ∑ i ∈ Finset.range m, S (I i) ≤ N) :
    ∃ F : Nat → Nat, flattenBlocks (ofFn m (fun i => (I i : Int))) (ofFn n (fun i => (S i : Int))) N
        = .ok (ofFn N (fun k => (F k : Int))) ∧
      ∀ i, i < m → ∀ q, q < S (I i) →
        F (∑ i' ∈ Finset.range i, S (I i') + q) = ∑ b ∈ Finset.range (I i), S b + q := by
  unfold flattenBlocks
  have key : ∀ p, p ≤ m → ∃ F : Nat → Nat,
      forN p (fun i (st : Vec Int × Nat) => do
        let Ii ← (ofFn m (fun i => (I i : Int))).get i
        let s ← sumSizes (ofFn n (fun i => (S i : Int))) Ii.toNat
        let len ← (ofFn n (fun i => (S i : Int))).get (toSize Ii)
        if len < 0 then .ub else
        forN len.toNat (fun q (st : Vec Int × Nat) => do
          let g ← st.1.set st.2 ((s + q : Nat) : Int)
          pure (g, st.2 + 1)) st) (zeros N, 0)
        = .ok (ofFn N (fun k => (F k : Int)), ∑ i ∈ Finset.range p, S (I i)) ∧
      ∀ i, i < p → ∀ q, q < S (I i) →
        F (∑ i' ∈ Finset.range i, S (I i') + q) = ∑ b ∈ Finset.range (I i), S b + q := by
    intro p hp
    induction p with
    | zero => exact ⟨fun _ => 0, by simp [zeros_eq], by simp⟩
    | succ p ih =>
      obtain ⟨F, h1, h2⟩ := ih (by omega)
      have hsum : ∑ i ∈ Finset.range (p + 1), S (I i) ≤ N :=
        le_trans (Finset.sum_le_sum_of_subset (range_mono hp)) hN
      rw [sum_range_succ] at hsum
      have hIp := hI p (by omega)
      refine ⟨fun k => if ∑ i ∈ Finset.range p, S (I i) ≤ k ∧
        k < ∑ i ∈ Finset.range p, S (I i) + S (I p) then
        ∑ b ∈ Finset.range (I p), S b + (k - ∑ i ∈ Finset.range p, S (I i)) else F k, ?_, ?_⟩
      · rw [forN_succ, h1, Res.ok_bind, get_ofFn (show p < m by omega), Res.ok_bind, Int.toNat_natCast,
          sumSizes_ofFn (by omega), Res.ok_bind, toSize_natCast, get_ofFn hIp, Res.ok_bind,
          if_neg (by omega), Int.toNat_natCast, flatten_inner _ _ _ _ hsum, sum_range_succ]
      · intro i hi q hq
        beta_reduce
        by_cases hip : i = p
        · subst hip
          rw [if_pos (by omega)]; omega
        · have hlt : i < p := by omega
          have : ∑ i' ∈ Finset.range i, S (I i') + S (I i) ≤ ∑ i' ∈ Finset.range p, S (I i') := by
            rw [← sum_range_succ]
            exact Finset.sum_le_sum_of_subset (range_mono hlt)
          rw [if_neg (by omega)]
          exact h2 i hlt q hq
  obtain ⟨F, h1, h2⟩ := key m (le_refl m)
  refine ⟨F, ?_, h2⟩
  rw [size_ofFn, h1, Res.ok_bind, Res.pure_def]

/-- Every position below a sum of sizes lies in exactly one block. -/
theorem exists_block {m : Nat} {S : Nat → Nat} {k : Nat} (h : k < ∑ i ∈ Finset.range m, S i) :
    ∃ i q, i < m ∧ q < S i ∧ k = ∑ i' ∈ Finset.range i, S i' + q := by
  induction m with
  | zero => simp at h
  | succ m ih =>
    by_cases hk : k < ∑ i ∈ Finset.range m, S i
    · obtain ⟨i, q, h1, h2, h3⟩ := ih hk
      exact ⟨i, q, by omega, h2, h3⟩
    · rw [sum_range_succ] at h
      exact ⟨m, k - ∑ i ∈ Finset.range m, S i, by omega, by omega, by omega⟩

theorem block_lt {n : Nat} {S : Nat → Nat} {b q : Nat} (hb : b < n) (hq : q < S b) :
    ∑ b' ∈ Finset.range b, S b' + q < ∑ b' ∈ Finset.range n, S b' := by
  have : ∑ b' ∈ Finset.range b, S b' + S b ≤ ∑ b' ∈ Finset.range n, S b' := by
    rw [← sum_range_succ]
    exact Finset.sum_le_sum_of_subset (range_mono hb)
  omega

/-- `flattenBlocks` when the listed blocks cover the object: all produced indices are in range. -/
theorem flattenBlocks_cover {m n N : Nat} {I S : Nat → Nat}
    (hI : ∀ i, i < m → I i < n) (hS : ∑ b ∈ Finset.range n, S b = N)
    (hN : ∑ i ∈ Finset.range m, S (I i) = N) :
    ∃ F : Nat → Nat, flattenBlocks (ofFn m (fun i => (I i : Int))) (ofFn n (fun i => (S i : Int))) N
        = .ok (ofFn N (fun k => (F k : Int))) ∧
      (∀ k, k < N → F k < N) ∧
      ∀ i, i < m → ∀ q, q < S (I i) →
        F (∑ i' ∈ Finset.range i, S (I i') + q) = ∑ b ∈ Finset.range (I i), S b + q := by
  obtain ⟨F, h1, h2⟩ := flattenBlocks_ofFn hI (le_of_eq hN)
  refine ⟨F, h1, ?_, h2⟩
  intro k hk
  rw [← hN] at hk
  obtain ⟨i, q, hi, hq, rfl⟩ := exists_block (S := fun i => S (I i)) hk
  rw [h2 i hi q hq, ← hS]
  exact block_lt (hI i hi) hq

theorem blockPermute_ofFn [Zero α] {m n N : Nat} {I S : Nat → Nat} {f : Nat → α}
   
    (hI : ∀ i, i < m → I i < n) (hS : ∑ b ∈ Finset.range n, S b = N)
    (hN : ∑ i ∈ Finset.range m, S (I i) = N) :
    ∃ g : Nat → α, (ofFn N f).blockPermute (ofFn m (fun i => (I i : Int))) (ofFn n (fun i => (S i : Int)))
        = .ok (ofFn N g) ∧
      ∀ i, i < m → ∀ q, q < S (I i) →
        g (∑ i' ∈ Finset.range i, S (I i') + q) = f (∑ b ∈ Finset.range (I i), S b + q) := by
  obtain ⟨F, h1, h2, h3⟩ := flattenBlocks_cover hI hS hN
  refine ⟨fun k => f (F k), ?_, ?_⟩
  · unfold blockPermute
    rw [size_ofFn, sumSizes_ofFn (le_refl n), Res.ok_bind, if_neg (by simp [hS]), size_ofFn, h1,
      Res.ok_bind, getFromIndexSet_ofFn (le_refl N) h2]
  · intro i hi q hq
    simp only []
    rw [h3 i hi q hq]

/-- Uniform block size `s`. -/
theorem flattenBlocks_uniform {m n s : Nat} {I : Nat → Nat}
    (hI : ∀ i, i < m → I i < n) (hmn : m = n) :
    flattenBlocks (ofFn m (fun i => (I i : Int))) (ofFn n (fun _ => (s : Int))) (n * s)
        = .ok (ofFn (n * s) (fun k => ((I (k / s) * s + k % s : Nat) : Int))) ∧
      (∀ k, k < n * s → I (k / s) * s + k % s < n * s) := by
  have hS : ∑ b ∈ Finset.range n, (fun _ => s) b = n * s := by simp
  have hN : ∑ i ∈ Finset.range m, (fun _ => s) (I i) = n * s := by simp [hmn]
  obtain ⟨F, h1, h2, h3⟩ := flattenBlocks_cover (S := fun _ => s) hI hS hN
  have hF : ∀ k, k < n * s → F k = I (k / s) * s + k % s := by
    intro k hk
    have hs : 0 < s := by
      rcases Nat.eq_zero_or_pos s with h | h
      · subst h; simp at hk
      · exact h
    have hks : k / s < m := by rw [hmn]; exact Nat.div_lt_of_lt_mul (by rwa [Nat.mul_comm])
    have := h3 (k / s) hks (k % s) (Nat.mod_lt _ hs)
    simp only [sum_const, card_range, nsmul_eq_mul, Nat.cast_id] at this
    rw [← this]
    congr 1
    rw [Nat.mul_comm]; exact (Nat.div_add_mod k s).symm
  refine ⟨?_, ?_⟩
  · rw [h1]
    congr 1
    apply ofFn_congr
    intro k hk
    rw [hF k hk]
  · intro k hk
    rw [← hF k hk]; exact h2 k hk

theorem blockPermute_uniform [Zero α] {n s : Nat} {I : Nat → Nat} {f : Nat → α}
    (hI : ∀ i, i < n → I i < n) :
    (ofFn (n * s) f).blockPermute (ofFn n (fun i => (I i : Int))) (ofFn n (fun _ => (s : Int)))
      = .ok (ofFn (n * s) (fun k => f (I (k / s) * s + k % s))) := by
  obtain ⟨h1, h2⟩ := flattenBlocks_uniform (s := s) hI rfl
  unfold blockPermute
  rw [size_ofFn, sumSizes_ofFn (S := fun _ => s) (le_refl n), Res.ok_bind, if_neg (by simp), size_ofFn, h1,
    Res.ok_bind, getFromIndexSet_ofFn (le_refl _) h2]

end Vec

/-! ### Matrices -/

namespace Mat

variable {α : Type} {K : Type}

/-- The well-formed `r × c` matrix with entries `f i j`. -/
def ofFn (r c : Nat) (f : Nat → Nat → α) : Mat α :=
  ⟨r, c, listFn (r * c) (fun k => f (k / c) (k % c))⟩

@[simp] theorem nrows_ofFn (r c : Nat) (f : Nat → Nat → α) : (ofFn r c f).nrows = r := rfl
@[simp] theorem ncols_ofFn (r c : Nat) (f : Nat → Nat → α) : (ofFn r c f).ncols = c := rfl
theorem data_ofFn (r c : Nat) (f : Nat → Nat → α) :
    (ofFn r c f).data = listFn (r * c) (fun k => f (k / c) (k % c)) := rfl

theorem idx_lt {r c i j : Nat} (hi : i < r) (hj : j < c) : i * c + j < r * c := by
  calc i * c + j < i * c + c := by omega
    _ = (i + 1) * c := by ring
    _ ≤ r * c := Nat.mul_le_mul_right c hi

theorem idx_div {c i j : Nat} (hj : j < c) : (i * c + j) / c = i := by
  rw [Nat.mul_comm, Nat.mul_add_div (by omega), Nat.div_eq_of_lt hj, Nat.add_zero]

theorem idx_mod {c i j : Nat} (hj : j < c) : (i * c + j) % c = j := by
  rw [Nat.mul_comm, Nat.mul_add_mod, Nat.mod_eq_of_lt hj]

theorem div_lt' {r c k : Nat} (hk : k < r * c) : k / c < r := Nat.div_lt_of_lt_mul (by rwa [Nat.mul_comm])
theorem mod_lt' {r c k : Nat} (hk : k < r * c) : k % c < c := by
  rcases Nat.eq_zero_or_pos c with h | h
  · subst h; simp at hk
  · exact Nat.mod_lt _ h

theorem ofFn_congr {r c : Nat} {f g : Nat → Nat → α} (h : ∀ i, i < r → ∀ j, j < c → f i j = g i j) :
    ofFn r c f = ofFn r c g := by
  simp only [ofFn]
  congr 1
  apply listFn_congr
  intro k hk
  exact h _ (div_lt' hk) _ (mod_lt' hk)

theorem ofFn_inj {r c : Nat} {f g : Nat → Nat → α} (h : ofFn r c f = ofFn r c g) :
    ∀ i, i < r → ∀ j, j < c → f i j = g i j := by
  intro i hi j hj
  simp only [ofFn, Mat.mk.injEq, true_and] at h
  have := listFn_inj h (i * c + j) (idx_lt hi hj)
  simpa [idx_div hj, idx_mod hj] using this

theorem fill_eq (r c : Nat) (a : α) : fill r c a = ofFn r c (fun _ _ => a) := by
  simp [fill, ofFn, replicate_eq_listFn]

theorem zeros_eq [Zero α] (r c : Nat) : (zeros r c : Mat α) = ofFn r c (fun _ _ => 0) := fill_eq r c 0

theorem flattenIndex_eq {A : Mat α} {i j : Nat} (hi : i < A.nrows) (hj : j < A.ncols) :
    A.flattenIndex i j = .ok (i * A.ncols + j) := by
  unfold flattenIndex
  rw [if_neg (by omega), if_neg (by omega)]

theorem rd_ofFn {r c : Nat} {f : Nat → Nat → α} {i j : Nat} (hi : i < r) (hj : j < c) :
    rd (ofFn r c f).data (i * c + j) = .ok (f i j) := by
  rw [data_ofFn, rd_listFn (idx_lt hi hj), idx_div hj, idx_mod hj]

theorem get_ofFn {r c : Nat} {f : Nat → Nat → α} {i j : Nat} (hi : i < r) (hj : j < c) :
    (ofFn r c f).get i j = .ok (f i j) := by
  unfold get
  rw [flattenIndex_eq (by simpa using hi) (by simpa using hj), Res.ok_bind, ncols_ofFn, rd_ofFn hi hj]

theorem set_ofFn {r c : Nat} {f : Nat → Nat → α} {i j : Nat} {a : α} (hi : i < r) (hj : j < c) :
    (ofFn r c f).set i j a = .ok (ofFn r c (fun p q => if p = i ∧ q = j then a else f p q)) := by
  unfold set
  rw [flattenIndex_eq (by simpa using hi) (by simpa using hj), Res.ok_bind, ncols_ofFn, data_ofFn,
    wr_listFn (idx_lt hi hj), Res.ok_bind, Res.pure_def]
  congr 1
  simp only [ofFn, Mat.mk.injEq, true_and]
  apply listFn_congr
  intro k hk
  have : k = i * c + j ↔ (k / c = i ∧ k % c = j) := by
    constructor
    · rintro rfl; exact ⟨idx_div hj, idx_mod hj⟩
    · rintro ⟨h1, h2⟩
      rw [← h1, ← h2, Nat.mul_comm]; exact (Nat.div_add_mod k c).symm
  by_cases h : k = i * c + j
  · rw [if_pos h, if_pos (this.mp h)]
  · rw [if_neg h, if_neg (fun h' => h (this.mpr h'))]

/-- Row loop: iteration `j` overwrites entry `(i, co + j)`. -/
theorem forN_row {C r c : Nat} {body : Nat → Mat α → Res (Mat α)} (G : Nat → α → α)
    (f : Nat → Nat → α) (i co : Nat)
    (h : ∀ j, j < C → ∀ f : Nat → Nat → α, body j (ofFn r c f) =
      .ok (ofFn r c (fun p q => if p = i ∧ q = co + j then G j (f p q) else f p q))) :
    forN C body (ofFn r c f) = .ok (ofFn r c (fun p q =>
      if p = i ∧ co ≤ q ∧ q < co + C then G (q - co) (f p q) else f p q)) := by
  induction C with
  | zero =>
    rw [forN_zero]; congr 1; apply ofFn_congr; intro p _ q _
    rw [if_neg (by omega)]
  | succ C ih =>
    rw [forN_succ, ih (fun j hj => h j (by omega)), Res.ok_bind, h C (by omega)]
    congr 1
    apply ofFn_congr
    intro p _ q _
    by_cases h1 : p = i ∧ q = co + C
    · rw [if_pos h1, if_neg (by omega), if_pos (by omega)]
      obtain ⟨-, rfl⟩ := h1
      rw [Nat.add_sub_cancel_left]
    · rw [if_neg h1]
      by_cases h2 : p = i ∧ co ≤ q ∧ q < co + C
      · rw [if_pos h2, if_pos (by omega)]
      · rw [if_neg h2, if_neg (by omega)]

/-- Double loop: iteration `(i,j)` overwrites entry `(ro+i, co+j)` by `G i j (old entry)`. -/
theorem loop2_upd {R C r c : Nat} {body : Nat → Nat → Mat α → Res (Mat α)} (G : Nat → Nat → α → α)
    (f : Nat → Nat → α) (ro co : Nat)
    (h : ∀ i, i < R → ∀ j, j < C → ∀ f : Nat → Nat → α, body i j (ofFn r c f) =
      .ok (ofFn r c (fun p q => if p = ro + i ∧ q = co + j then G i j (f p q) else f p q))) :
    loop2 R C body (ofFn r c f) = .ok (ofFn r c (fun p q =>
      if (ro ≤ p ∧ p < ro + R) ∧ co ≤ q ∧ q < co + C then G (p - ro) (q - co) (f p q) else f p q)) := by
  unfold loop2
  induction R with
  | zero =>
    rw [forN_zero]; congr 1; apply ofFn_congr; intro p _ q _
    rw [if_neg (by omega)]
  | succ R ih =>
    rw [forN_succ, ih (fun i hi => h i (by omega)), Res.ok_bind,
      forN_row (fun j => G R j) _ (ro + R) co (fun j hj f => h R (by omega) j hj f)]
    congr 1
    apply ofFn_congr
    intro p _ q _
    by_cases h1 : p = ro + R ∧ co ≤ q ∧ q < co + C
    · rw [if_pos h1, if_neg (by omega), if_pos (by omega)]
      obtain ⟨rfl, -⟩ := h1
      rw [Nat.add_sub_cancel_left]
    · rw [if_neg h1]
      by_cases h2 : (ro ≤ p ∧ p < ro + R) ∧ co ≤ q ∧ q < co + C
      · rw [if_pos h2, if_pos (by omega)]
      · rw [if_neg h2, if_neg (by omega)]

theorem loop2_map {r c : Nat} {body : Nat → Nat → Mat α → Res (Mat α)} (G : Nat → Nat → α → α)
    (f : Nat → Nat → α)
    (h : ∀ i, i < r → ∀ j, j < c → ∀ f : Nat → Nat → α, body i j (ofFn r c f) =
      .ok (ofFn r c (fun p q => if p = i ∧ q = j then G i j (f p q) else f p q))) :
    loop2 r c body (ofFn r c f) = .ok (ofFn r c (fun i j => G i j (f i j))) := by
  rw [loop2_upd G f 0 0 (by intro i hi j hj f; rw [h i hi j hj]; simp)]
  congr 1
  apply ofFn_congr
  intro i hi j hj
  rw [if_pos (by omega)]; rfl

theorem loop2_fill {r c : Nat} {body : Nat → Nat → Mat α → Res (Mat α)} (F : Nat → Nat → α)
    (f : Nat → Nat → α)
    (h : ∀ i, i < r → ∀ j, j < c → ∀ f : Nat → Nat → α, body i j (ofFn r c f) =
      .ok (ofFn r c (fun p q => if p = i ∧ q = j then F i j else f p q))) :
    loop2 r c body (ofFn r c f) = .ok (ofFn r c F) :=
  loop2_map (fun i j _ => F i j) f h

theorem range_ofFn [Zero α] {r c : Nat} {f : Nat → Nat → α} {a b p q : Nat}
    (hab : a ≤ b) (hb : b < r) (hpq : p ≤ q) (hq : q < c) :
    (ofFn r c f).range a b p q = .ok (ofFn (b - a + 1) (q - p + 1) (fun i j => f (a + i) (p + j))) := by
  unfold Mat.range
  simp only []
  have h1 : ((b : Int) - a + 1).toNat = b - a + 1 := by omega
  have h2 : ((q : Int) - p + 1).toNat = q - p + 1 := by omega
  rw [if_neg (by omega), h1, h2, zeros_eq]
  apply loop2_fill
  intro i hi j hj g
  rw [flattenIndex_eq (by simp; omega) (by simp; omega), Res.ok_bind, ncols_ofFn,
    rd_ofFn (by omega) (by omega), Res.ok_bind, set_ofFn hi hj]

theorem getRow_ofFn [Zero α] {r c : Nat} {f : Nat → Nat → α} {i : Nat} (hi : i < r) (hc : 0 < c) :
    (ofFn r c f).getRow i = .ok (Vec.ofFn c (fun j => f i j)) := by
  unfold getRow
  have h1 : (((ofFn r c f).ncols : Int) - 1) = ((c - 1 : Nat) : Int) := by simp; omega
  have h2 := range_ofFn (f := f) (le_refl i) hi (Nat.zero_le (c - 1)) (show c - 1 < c by omega)
  rw [h1, h2, Res.ok_bind, Vec.zeros_eq]
  apply Vec.forN_fill
  intro j hj g
  simp only [ncols_ofFn] at hj
  rw [get_ofFn (by omega) (by omega), Res.ok_bind, Vec.set_ofFn (by simpa using hj)]
  simp

theorem setRow_ofFn {r c : Nat} {f : Nat → Nat → α} {i : Nat} {g : Nat → α} (hi : i < r) :
    (ofFn r c f).setRow i (Vec.ofFn c g) = .ok (ofFn r c (fun p q => if p = i then g q else f p q)) := by
  unfold setRow
  rw [if_neg (by simp; omega), if_neg (by simp), ncols_ofFn,
    forN_row (fun j _ => g j) f i 0]
  · congr 1; apply ofFn_congr; intro p _ q hq
    by_cases h : p = i
    · rw [if_pos (by omega), if_pos h]; rfl
    · rw [if_neg (by omega), if_neg h]
  · intro j hj f
    rw [Vec.get_ofFn hj, Res.ok_bind, set_ofFn hi hj]
    simp

theorem setColumn_ofFn {r c : Nat} {f : Nat → Nat → α} {j : Nat} {g : Nat → α} (hj : j < c) :
    (ofFn r c f).setColumn j (Vec.ofFn r g)
      = .ok (ofFn r c (fun p q => if q = j then g p else f p q)) := by
  unfold setColumn
  rw [if_neg (by simp; omega), if_neg (by simp), nrows_ofFn]
  have key : forN r (fun i (B : Mat α) => do
      let x ← (Vec.ofFn r g).get i
      B.set i j x) (ofFn r c f) =
      loop2 r 1 (fun i _ (B : Mat α) => do
      let x ← (Vec.ofFn r g).get i
      B.set i j x) (ofFn r c f) := by
    unfold loop2
    apply forN_congr
    intro i _ s
    rw [forN_succ, forN_zero, Res.ok_bind]
  rw [key, loop2_upd (fun i _ _ => g i) f 0 j]
  · congr 1; apply ofFn_congr; intro p hp q hq
    by_cases h : q = j
    · rw [if_pos (by omega), if_pos h]; rfl
    · rw [if_neg (by omega), if_neg h]
  · intro i hi j' hj' f
    have : j' = 0 := by omega
    subst this
    rw [Vec.get_ofFn hi, Res.ok_bind, set_ofFn hi hj]
    simp

theorem getFromIndexSet_ofFn [Zero α] {r c m n : Nat} {f : Nat → Nat → α} {I J : Nat → Nat}
    (hm : m ≤ r) (hn : n ≤ c)
    (hI : ∀ i, i < m → I i < r) (hJ : ∀ j, j < n → J j < c) :
    (ofFn r c f).getFromIndexSet (Vec.ofFn m (fun i => (I i : Int))) (Vec.ofFn n (fun j => (J j : Int)))
      = .ok (ofFn m n (fun i j => f (I i) (J j))) := by
  unfold getFromIndexSet
  rw [if_neg (by simp; omega), if_neg (by simp; omega), zeros_eq]
  apply loop2_fill
  intro i hi j hj g
  simp only [Vec.size_ofFn] at hi hj
  have h1 := hI i hi
  have h2 := hJ j hj
  rw [Vec.get_ofFn hi, Res.ok_bind, Vec.get_ofFn hj, Res.ok_bind, toSize_natCast,
    toSize_natCast, get_ofFn h1 h2, Res.ok_bind, set_ofFn (by simpa using hi) (by simpa using hj)]

theorem blockPermute_ofFn [Zero α] {m n p q r c : Nat} {I J R C : Nat → Nat} {f : Nat → Nat → α}
    (hI : ∀ i, i < m → I i < p) (hJ : ∀ j, j < n → J j < q)
    (hR : ∑ b ∈ Finset.range p, R b = r) (hRI : ∑ i ∈ Finset.range m, R (I i) = r)
    (hC : ∑ b ∈ Finset.range q, C b = c) (hCJ : ∑ j ∈ Finset.range n, C (J j) = c) :
    ∃ g : Nat → Nat → α,
      (ofFn r c f).blockPermute (Vec.ofFn m (fun i => (I i : Int))) (Vec.ofFn n (fun j => (J j : Int)))
        (Vec.ofFn p (fun b => (R b : Int))) (Vec.ofFn q (fun b => (C b : Int))) = .ok (ofFn r c g) ∧
      ∀ i, i < m → ∀ s, s < R (I i) → ∀ j, j < n → ∀ t, t < C (J j) →
        g (∑ i' ∈ Finset.range i, R (I i') + s) (∑ j' ∈ Finset.range j, C (J j') + t)
          = f (∑ b ∈ Finset.range (I i), R b + s) (∑ b ∈ Finset.range (J j), C b + t) := by
  obtain ⟨F, h1, h2, h3⟩ := Vec.flattenBlocks_cover hI hR hRI
  obtain ⟨G, k1, k2, k3⟩ := Vec.flattenBlocks_cover hJ hC hCJ
  refine ⟨fun i j => f (F i) (G j), ?_, ?_⟩
  · unfold blockPermute
    rw [Vec.size_ofFn, Vec.sumSizes_ofFn (le_refl p), Res.ok_bind, if_neg (by simp [hR]), Vec.size_ofFn,
      Vec.sumSizes_ofFn (le_refl q), Res.ok_bind, if_neg (by simp [hC]), nrows_ofFn, ncols_ofFn, h1,
      Res.ok_bind, k1, Res.ok_bind, getFromIndexSet_ofFn (le_refl _) (le_refl _) h2 k2]
  · intro i hi s hs j hj t ht
    simp only []
    rw [h3 i hi s hs, k3 j hj t ht]

theorem blockPermute_uniform [Zero α] {m n s t : Nat} {I J : Nat → Nat} {f : Nat → Nat → α}
    (hI : ∀ i, i < m → I i < m) (hJ : ∀ j, j < n → J j < n) :
    (ofFn (m * s) (n * t) f).blockPermute (Vec.ofFn m (fun i => (I i : Int)))
        (Vec.ofFn n (fun j => (J j : Int)))
        (Vec.ofFn m (fun _ => (s : Int))) (Vec.ofFn n (fun _ => (t : Int)))
      = .ok (ofFn (m * s) (n * t) (fun i j => f (I (i / s) * s + i % s) (J (j / t) * t + j % t))) := by
  obtain ⟨h1, h2⟩ := Vec.flattenBlocks_uniform (s := s) hI rfl
  obtain ⟨k1, k2⟩ := Vec.flattenBlocks_uniform (s := t) hJ rfl
  unfold blockPermute
  rw [Vec.size_ofFn, Vec.sumSizes_ofFn (S := fun _ => s) (le_refl m), Res.ok_bind, if_neg (by simp),
    Vec.size_ofFn, Vec.sumSizes_ofFn (S := fun _ => t) (le_refl n), Res.ok_bind, if_neg (by simp),
    nrows_ofFn, ncols_ofFn, h1, Res.ok_bind, k1, Res.ok_bind,
    getFromIndexSet_ofFn (le_refl _) (le_refl _) h2 k2]

theorem getBlock_ofFn {r c : Nat} {f : Nat → Nat → α} {ro co rl cl : Nat} (hr : ro + rl ≤ r)
    (hc : co + cl ≤ c) :
    (ofFn r c f).getBlock ro co rl cl = .ok (ofFn rl cl (fun i j => f (ro + i) (co + j))) := by
  unfold getBlock
  rw [if_neg (by simp; omega), if_neg (by simp; omega)]
  have inner : ∀ i, i < rl → ∀ m, m ≤ cl → ∀ l : List α, forN m (fun j (d : List α) => do
      let x ← (ofFn r c f).get (ro + i) (co + j)
      pure (d ++ [x])) l = .ok (l ++ listFn m (fun j => f (ro + i) (co + j))) := by
    intro i hi m hm l
    induction m with
    | zero => simp [listFn]
    | succ m ih =>
      rw [forN_succ, ih (by omega), Res.ok_bind, get_ofFn (by omega) (by omega), Res.ok_bind,
        Res.pure_def, listFn_succ, List.append_assoc]
  have outer : ∀ m, m ≤ rl → loop2 m cl (fun i j (d : List α) => do
      let x ← (ofFn r c f).get (ro + i) (co + j)
      pure (d ++ [x])) [] = .ok (ofFn m cl (fun i j => f (ro + i) (co + j))).data := by
    intro m hm
    unfold loop2
    induction m with
    | zero => simp [data_ofFn, listFn]
    | succ m ih =>
      rw [forN_succ, ih (by omega), Res.ok_bind, inner m (by omega) cl (le_refl _), data_ofFn, data_ofFn,
        listFn_append, Nat.succ_mul]
      congr 1
      apply listFn_congr
      intro k hk
      by_cases h : k < m * cl
      · rw [if_pos h]
      · rw [if_neg h]
        have h3 : k = m * cl + (k - m * cl) := by omega
        have h4 : k - m * cl < cl := by omega
        rw [h3, idx_div h4, idx_mod h4, ← h3]
  rw [outer rl (le_refl _), Res.ok_bind]
  rfl

theorem setBlock_ofFn {r c m n : Nat} {f g : Nat → Nat → α} {ro co : Nat} (hr : ro + m ≤ r)
    (hc : co + n ≤ c) :
    (ofFn r c f).setBlock ro co (ofFn m n g) = .ok (ofFn r c (fun p q =>
      if (ro ≤ p ∧ p < ro + m) ∧ co ≤ q ∧ q < co + n then g (p - ro) (q - co) else f p q)) := by
  unfold setBlock
  rw [if_neg (by simp; omega), if_neg (by simp; omega), nrows_ofFn, ncols_ofFn,
    loop2_upd (fun i j _ => g i j) f ro co]
  intro i hi j hj f
  rw [get_ofFn hi hj, Res.ok_bind, set_ofFn (by omega) (by omega)]

theorem T_ofFn [Zero α] {r c : Nat} {f : Nat → Nat → α} :
    (ofFn r c f).T = .ok (ofFn c r (fun i j => f j i)) := by
  unfold T
  rw [zeros_eq, nrows_ofFn, ncols_ofFn]
  apply loop2_fill
  intro i hi j hj g
  rw [flattenIndex_eq (by simpa using hj) (by simpa using hi), Res.ok_bind, ncols_ofFn, rd_ofFn hj hi,
    Res.ok_bind, set_ofFn hi hj]

section arith
variable [Field K]

theorem neg_ofFn {r c : Nat} {f : Nat → Nat → K} :
    (ofFn r c f).neg = .ok (ofFn r c (fun i j => - f i j)) := by
  unfold neg
  rw [zeros_eq, nrows_ofFn, ncols_ofFn]
  apply loop2_fill
  intro i hi j hj g
  rw [get_ofFn hi hj, Res.ok_bind, set_ofFn hi hj]

private theorem upd2_aux {r c : Nat} {f : Nat → Nat → α} (G : Nat → Nat → α → α)
    {body : Nat → Nat → Mat α → Res (Mat α)}
    (h : ∀ i, i < r → ∀ j, j < c → ∀ f, body i j (ofFn r c f) = (ofFn r c f).set i j (G i j (f i j))) :
    loop2 r c body (ofFn r c f) = .ok (ofFn r c (fun i j => G i j (f i j))) := by
  apply loop2_map
  intro i hi j hj f
  rw [h i hi j hj, set_ofFn hi hj]
  congr 1; apply ofFn_congr; intro p _ q _
  by_cases hp : p = i ∧ q = j
  · rw [if_pos hp, if_pos hp, hp.1, hp.2]
  · rw [if_neg hp, if_neg hp]

theorem addAssign_ofFn {r c : Nat} {f g : Nat → Nat → K} :
    (ofFn r c f).addAssign (ofFn r c g) = .ok (ofFn r c (fun i j => f i j + g i j)) := by
  unfold addAssign
  rw [if_neg (by simp), if_neg (by simp), nrows_ofFn, ncols_ofFn]
  exact upd2_aux (fun i j x => x + g i j) (fun i hi j hj f => by
    rw [get_ofFn hi hj, Res.ok_bind, get_ofFn hi hj, Res.ok_bind])

theorem subAssign_ofFn {r c : Nat} {f g : Nat → Nat → K} :
    (ofFn r c f).subAssign (ofFn r c g) = .ok (ofFn r c (fun i j => f i j - g i j)) := by
  unfold subAssign
  rw [if_neg (by simp), if_neg (by simp), nrows_ofFn, ncols_ofFn]
  exact upd2_aux (fun i j x => x - g i j) (fun i hi j hj f => by
    rw [get_ofFn hi hj, Res.ok_bind, get_ofFn hi hj, Res.ok_bind])

theorem add_ofFn {r c : Nat} {f g : Nat → Nat → K} :
    (ofFn r c f).add (ofFn r c g) = .ok (ofFn r c (fun i j => f i j + g i j)) := addAssign_ofFn

theorem sub_ofFn {r c : Nat} {f g : Nat → Nat → K} :
    (ofFn r c f).sub (ofFn r c g) = .ok (ofFn r c (fun i j => f i j - g i j)) := subAssign_ofFn

theorem addScalarAssign_ofFn {r c : Nat} {f : Nat → Nat → K} {s : K} :
    (ofFn r c f).addScalarAssign s = .ok (ofFn r c (fun i j => f i j + s)) :=
  upd2_aux (fun _ _ x => x + s) (fun i hi j hj f => by rw [get_ofFn hi hj, Res.ok_bind])

theorem subScalarAssign_ofFn {r c : Nat} {f : Nat → Nat → K} {s : K} :
    (ofFn r c f).subScalarAssign s = .ok (ofFn r c (fun i j => f i j - s)) :=
  upd2_aux (fun _ _ x => x - s) (fun i hi j hj f => by rw [get_ofFn hi hj, Res.ok_bind])

theorem mulScalarAssign_ofFn {r c : Nat} {f : Nat → Nat → K} {s : K} :
    (ofFn r c f).mulScalarAssign s = .ok (ofFn r c (fun i j => f i j + s)) :=
  upd2_aux (fun _ _ x => x + s) (fun i hi j hj f => by rw [get_ofFn hi hj, Res.ok_bind])

theorem smul_ofFn {r c : Nat} {f : Nat → Nat → K} {a : K} :
    smul a (ofFn r c f) = .ok (ofFn r c (fun i j => a * f i j)) := by
  unfold smul
  rw [zeros_eq, nrows_ofFn, ncols_ofFn]
  apply loop2_fill
  intro i hi j hj g
  rw [get_ofFn hi hj, Res.ok_bind, set_ofFn hi hj]

theorem mulVec_ofFn {r c : Nat} {f : Nat → Nat → K} {x : Nat → K} (hc : 0 < c) :
    (ofFn r c f).mulVec (Vec.ofFn c x) = .ok (Vec.ofFn r (fun i => ∑ j ∈ Finset.range c, f i j * x j)) := by
  unfold mulVec
  rw [if_neg (by simp)]
  simp only [ncols_ofFn, nrows_ofFn, Vec.data_ofFn]
  unfold dgemv
  rw [if_neg (by omega)]
  rcases Nat.eq_zero_or_pos r with hr | hr
  · subst hr
    rw [if_pos (by simp), Res.ok_bind, Vec.zeros_eq]; simp [Vec.ofFn, listFn]
  · rw [if_neg (by omega)]
    simp only [if_true, Vec.zeros_eq, Vec.data_ofFn]
    rw [forN_wr (fun i => ∑ j ∈ Finset.range c, f i j * x j) _ (le_refl r)]
    · rw [Res.ok_bind, Res.pure_def]
      congr 1
      simp only [Vec.ofFn]
      congr 1
      apply listFn_congr
      intro k hk; rw [if_pos hk]
    · intro i hi g
      rw [forN_sum0 (fun j => f i j * x j)]
      · rw [Res.ok_bind, wr_listFn hi]
      · intro j hj s
        rw [Nat.add_comm j, rd_ofFn hi hj, Res.ok_bind, rd_listFn hj, Res.ok_bind, Res.pure_def]

/-- Column-major fill of an `M × N` buffer (leading dimension `M`). -/
theorem forN_colmajor {M N : Nat} (F : Nat → Nat → α) (g : Nat → α)
    {body : Nat → Nat → List α → Res (List α)}
    (h : ∀ j, j < N → ∀ i, i < M → ∀ c, body j i c = wr c (i + j * M) (F j i)) :
    forN N (fun j c => forN M (fun i c => body j i c) c) (listFn (N * M) g)
      = .ok (ofFn N M F).data := by
  have key := loop2_fill (r := N) (c := M) (body := fun j i (A : Mat α) => do
      let d ← body j i A.data
      pure { A with data := d }) F (fun j i => g (j * M + i)) (by
    intro j hj i hi f
    rw [h j hj i hi]
    have := set_ofFn (f := f) (a := F j i) hj hi
    unfold set at this
    rw [flattenIndex_eq (by simpa using hj) (by simpa using hi), Res.ok_bind, ncols_ofFn] at this
    rw [Nat.add_comm i]; exact this)
  have hg : (ofFn N M (fun j i => g (j * M + i))).data = listFn (N * M) g := by
    rw [data_ofFn]; apply listFn_congr; intro k hk
    rw [Nat.mul_comm, Nat.div_add_mod]
  have lift : ∀ n (b : Nat → List α → Res (List α)) (A : Mat α),
      forN n (fun i (A : Mat α) => do
        let d ← b i A.data
        pure { A with data := d }) A = (do
        let d ← forN n b A.data
        pure { A with data := d }) := by
    intro n b A
    induction n with
    | zero => rfl
    | succ n ih =>
      rw [forN_succ, forN_succ, ih]
      cases forN n b A.data <;> rfl
  unfold loop2 at key
  have lift2 : forN N (fun j (A : Mat α) => forN M (fun i (A : Mat α) => do
      let d ← body j i A.data
      pure { A with data := d }) A) (ofFn N M (fun j i => g (j * M + i)))
      = (do
        let d ← forN N (fun j c => forN M (fun i c => body j i c) c) (listFn (N * M) g)
        pure { (ofFn N M (fun j i => g (j * M + i))) with data := d }) := by
    rw [← hg, ← lift]
    apply forN_congr
    intro j _ s
    exact lift M (body j) s
  rw [lift2] at key
  rw [Res.bind_eq_ok] at key
  obtain ⟨d, h1, h2⟩ := key
  rw [h1]
  rw [Res.pure_def, Res.ok_inj] at h2
  rw [← h2]

theorem mul_ofFn {m k n : Nat} {f g : Nat → Nat → K} (hm : 0 < m) (hk : 0 < k) (hn : 0 < n) :
    (ofFn m k f).mul (ofFn k n g) =
      .ok (ofFn m n (fun i j => ∑ l ∈ Finset.range k, f i l * g l j)) := by
  unfold mul
  rw [if_neg (by simp)]
  simp only [ncols_ofFn, nrows_ofFn]
  unfold dgemm
  simp only [if_true]
  rw [if_neg (by omega), if_neg (by omega), if_neg (by omega), zeros_eq, data_ofFn n m]
  rw [forN_colmajor (M := m) (N := n) (fun j i => ∑ l ∈ Finset.range k, f i l * g l j)]
  · rw [Res.ok_bind]
    exact T_ofFn (f := fun j i => ∑ l ∈ Finset.range k, f i l * g l j)
  · intro j hj i hi c
    rw [forN_sum0 (fun l => f i l * g l j)]
    · rfl
    · intro l hl s
      rw [Nat.add_comm l, Nat.add_comm j, rd_ofFn hi hl, Res.ok_bind, rd_ofFn hl hj, Res.ok_bind,
        Res.pure_def]

theorem getD_ofFn {r c : Nat} {f : Nat → Nat → α} {i j : Nat} (hi : i < r) (hj : j < c) (d : α) :
    (ofFn r c f).data.getD (j + i * c) d = f i j := by
  rw [data_ofFn, Nat.add_comm, getD_listFn (idx_lt hi hj), idx_div hj, idx_mod hj]

theorem eq_ofFn {A : Mat α} {r c : Nat} {f : Nat → Nat → α} (h1 : A.nrows = r) (h2 : A.ncols = c)
    (h3 : A.data.length = r * c) (h4 : ∀ i, i < r → ∀ j, j < c → A.data[i * c + j]? = some (f i j)) :
    A = ofFn r c f := by
  cases A with
  | mk nr nc d =>
    simp only at h1 h2 h3 h4
    subst h1 h2
    simp only [ofFn, Mat.mk.injEq, true_and]
    apply eq_listFn h3
    intro k hk
    have := h4 _ (div_lt' hk) _ (mod_lt' hk)
    rwa [Nat.mul_comm, Nat.div_add_mod] at this

theorem solveMat_ofFn (lap : Lapack K) {n m : Nat} {f g : Nat → Nat → K} (hn : 0 < n)
    (hf : Nonsing n f) :
    ∃ x : Nat → Nat → K, (ofFn n n f).solveMat lap (ofFn n m g) = .ok (ofFn n m x) ∧
      ∀ i, i < n → ∀ j, j < m → ∑ l ∈ Finset.range n, f i l * x l j = g i j := by
  unfold solveMat
  rw [if_neg (by simp), if_neg (by simp), T_ofFn, Res.ok_bind, T_ofFn, Res.ok_bind]
  simp only [ncols_ofFn, nrows_ofFn]
  unfold dgesv
  have hfA : ∀ i, i < n → ∀ j, j < n → (ofFn n n (fun i j => f j i)).data.getD (i + j * n) 0 = f i j :=
    fun i hi j hj => getD_ofFn hj hi 0
  have hgB : ∀ i, i < n → ∀ c, c < m → (ofFn m n (fun i j => g j i)).data.getD (i + c * n) 0 = g i c :=
    fun i hi c hc => getD_ofFn hc hi 0
  have lenA : (ofFn n n (fun i j => f j i)).data.length = n * n := by simp [data_ofFn]
  have lenB : (ofFn m n (fun i j => g j i)).data.length = m * n := by simp [data_ofFn]
  rw [if_neg (by omega), if_neg (by omega), if_neg (by rw [lenA, lenB]; omega), Res.ok_bind]
  have hNS : Nonsing n (fun i j => (ofFn n n (fun i j => f j i)).data.getD (i + j * n) 0) := by
    intro v hv
    apply hf v
    intro i hi
    rw [← hv i hi]
    apply sum_congr rfl
    intro j hj
    simp only []
    rw [hfA i hi j (mem_range.mp hj)]
  set sol := lap.sol n m (ofFn n n (fun i j => f j i)).data n (ofFn m n (fun i j => g j i)).data n
    with hsol
  have hlen := lap.length_sol n m (ofFn n n (fun i j => f j i)).data n (ofFn m n (fun i j => g j i)).data n
  rw [← hsol, lenB] at hlen
  have hsolves := lap.solves n m _ n _ n hNS (le_refl _) (le_refl _) (le_of_eq lenA.symm)
    (le_of_eq lenB.symm)
  rw [← hsol] at hsolves
  have hX : (⟨m, n, sol⟩ : Mat K)
      = ofFn m n (fun c j => sol.getD (j + c * n) 0) := by
    apply eq_ofFn rfl rfl hlen
    intro i hi j hj
    have : i * n + j < m * n := idx_lt hi hj
    simp only [List.getD_eq_getElem?_getD, Nat.add_comm j]
    rw [List.getElem?_eq_getElem (by omega)]; simp
  rw [hX, T_ofFn]
  refine ⟨_, rfl, ?_⟩
  intro i hi j hj
  rw [← hgB i hi j hj, ← hsolves j hj i hi]
  apply sum_congr rfl
  intro l hl
  rw [hfA i hi l (mem_range.mp hl)]

theorem solveVec_ofFn (lap : Lapack K) {n : Nat} {f : Nat → Nat → K} {b : Nat → K} (hn : 0 < n)
    (hf : Nonsing n f) :
    ∃ x : Nat → K, (ofFn n n f).solveVec lap (Vec.ofFn n b) = .ok (Vec.ofFn n x) ∧
      ∀ i, i < n → ∑ l ∈ Finset.range n, f i l * x l = b i := by
  unfold solveVec
  rw [if_neg (by simp), if_neg (by simp), T_ofFn, Res.ok_bind]
  simp only [nrows_ofFn, Vec.data_ofFn, Vec.size_ofFn]
  unfold dgesv
  have hfA : ∀ i, i < n → ∀ j, j < n → (ofFn n n (fun i j => f j i)).data.getD (i + j * n) 0 = f i j :=
    fun i hi j hj => getD_ofFn hj hi 0
  have lenA : (ofFn n n (fun i j => f j i)).data.length = n * n := by simp [data_ofFn]
  rw [if_neg (by omega), if_neg (by omega), if_neg (by rw [lenA, length_listFn]; omega), Res.ok_bind]
  have hNS : Nonsing n (fun i j => (ofFn n n (fun i j => f j i)).data.getD (i + j * n) 0) := by
    intro v hv
    apply hf v
    intro i hi
    rw [← hv i hi]
    apply sum_congr rfl
    intro j hj
    simp only []
    rw [hfA i hi j (mem_range.mp hj)]
  set sol := lap.sol n 1 (ofFn n n (fun i j => f j i)).data n (listFn n b) n with hsol
  have hlen := lap.length_sol n 1 (ofFn n n (fun i j => f j i)).data n (listFn n b) n
  rw [← hsol, length_listFn] at hlen
  have hsolves := lap.solves n 1 _ n (listFn n b) n hNS (le_refl _) (le_refl _) (le_of_eq lenA.symm)
    (by simp)
  rw [← hsol] at hsolves
  refine ⟨fun i => sol.getD i 0, ?_, ?_⟩
  · rw [Res.pure_def]
    congr 1
    simp only [Vec.ofFn, Vec.mk.injEq, true_and]
    apply eq_listFn hlen
    intro i hi
    simp only [List.getD_eq_getElem?_getD]
    rw [List.getElem?_eq_getElem (by omega)]; simp
  · intro i hi
    have := hsolves 0 (by omega) i hi
    simp only [Nat.zero_mul, Nat.add_zero] at this
    rw [getD_listFn hi] at this
    rw [← this]
    apply sum_congr rfl
    intro l hl
    rw [hfA i hi l (mem_range.mp hl)]

end arith
end Mat
end EF
