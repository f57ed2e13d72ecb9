import Verif.Proofs.HasLemmas
import Mathlib.Tactic.IntervalCases

/-!
# Properties C01–C12 and C49: vectors and matrices

Every theorem is about the functions of `Verif.Model.Vector` / `Verif.Model.Matrix`; the statements
use only the observational predicates of `Verif.Spec.Linear` and explicit formulas.
The `example` after a theorem applies it to a concrete object.
-/

namespace EF

open Finset

variable {α K : Type}

/-- Concrete objects used by the examples. -/
def exA : Mat ℚ := Mat.ofData 2 3 [1, 2, 3, 4, 5, 6]
def exB : Mat ℚ := Mat.ofData 3 2 [1, 0, 0, 1, 1, 1 / 2]
def exS : Mat ℚ := Mat.ofData 2 2 [2, 1, 1, 1]
def exx : Vec ℚ := Vec.ofList [1, -1, 2]

theorem exA_has : exA.Has 2 3 (fun i j => 3 * i + j + 1) := ⟨rfl, rfl, rfl, by decide +kernel⟩
theorem exB_has : exB.Has 3 2 (fun i j => if i = 2 then (if j = 0 then 1 else 1 / 2) else if i = j then 1 else 0) :=
  ⟨rfl, rfl, rfl, by decide +kernel⟩
theorem exx_has : exx.Has 3 (fun i => if i = 0 then 1 else if i = 1 then -1 else 2) :=
  ⟨rfl, rfl, by decide +kernel⟩
theorem exS_has : exS.Has 2 2 (fun i j => if i = 0 ∧ j = 0 then 2 else 1) :=
  ⟨rfl, rfl, rfl, by decide +kernel⟩
theorem exS_nonsing : Nonsing (K := ℚ) 2 (fun i j => if i = 0 ∧ j = 0 then 2 else 1) := by
  intro v hv
  have h0 := hv 0 (by omega)
  have h1 := hv 1 (by omega)
  simp [sum_range_succ] at h0 h1
  intro j hj
  interval_cases j <;> linarith

/-! ## C01 Matrix products -/

section C01
variable [Field K]

/-- C01: `A*B` for matrices with at least one row and column. -/
theorem C01_matmul {A B : Mat K} {m k n : Nat} {a b : Nat → Nat → K} (hA : A.Has m k a)
    (hB : B.Has k n b) (hm : 0 < m) (hk : 0 < k) (hn : 0 < n) :
    (A.mul B).Returns (fun C => C.Has m n (fun i j => ∑ l ∈ range k, a i l * b l j)) := by
  rw [Mat.has_iff.mp hA, Mat.has_iff.mp hB]
  exact ⟨_, Mat.mul_ofFn hm hk hn, Mat.has_ofFn _ _ _⟩

example := C01_matmul exA_has exB_has (by omega) (by omega) (by omega)

/-- C01: `A*x` for a matrix with at least one column. -/
theorem C01_matvec {A : Mat K} {x : Vec K} {m k : Nat} {a : Nat → Nat → K} {f : Nat → K}
    (hA : A.Has m k a) (hx : x.Has k f) (hk : 0 < k) :
    (A.mulVec x).Returns (fun y => y.Has m (fun i => ∑ j ∈ range k, a i j * f j)) := by
  rw [Mat.has_iff.mp hA, Vec.has_iff.mp hx]
  exact ⟨_, Mat.mulVec_ofFn hk, Vec.has_ofFn _ _⟩

example := C01_matvec exA_has exx_has (by omega)
example : exA.mulVec exx = .ok (Vec.ofList [5, 11]) := by decide +kernel

/-- C01: inner dimensions that disagree make both products throw. -/
theorem C01_mismatch_throws (A B : Mat K) (x : Vec K) :
    (A.ncols ≠ B.nrows → A.mul B = .throw .invalidArgument) ∧
    (A.ncols ≠ x.size → A.mulVec x = .throw .invalidArgument) := by
  refine ⟨fun h => ?_, fun h => ?_⟩
  · unfold Mat.mul; rw [if_pos h]
  · unfold Mat.mulVec; rw [if_pos h]

example : exA.mul exA = .throw .invalidArgument := (C01_mismatch_throws exA exA exx).1 (by decide)

/-- C01, limit of the claim: with a zero dimension the reference BLAS rejects the leading dimension
the code passes, so the call does not return a product. -/
theorem C01_zero_dimension_aborts (A B : Mat K) (x : Vec K) :
    (A.ncols = B.nrows → (A.nrows = 0 ∨ A.ncols = 0 ∨ B.ncols = 0) → A.mul B = .throw .xerbla) ∧
    (A.ncols = x.size → A.ncols = 0 → A.mulVec x = .throw .xerbla) := by
  refine ⟨fun h h0 => ?_, fun h h0 => ?_⟩
  · unfold Mat.mul
    rw [if_neg (by simpa using h)]
    simp only [dgemm, if_true]
    by_cases h1 : A.ncols = 0
    · rw [if_pos (by omega)]; rfl
    · rw [if_neg (by omega)]
      by_cases h2 : B.ncols = 0
      · rw [if_pos (by omega)]; rfl
      · rw [if_neg (by omega), if_pos (by omega)]; rfl
  · unfold Mat.mulVec
    rw [if_neg (by simpa using h)]
    simp only [dgemv]
    rw [if_pos (by omega)]; rfl

example : (Mat.zeros 2 0 : Mat ℚ).mul (Mat.zeros 0 3) = .throw .xerbla :=
  (C01_zero_dimension_aborts _ _ exx).1 rfl (by decide)

end C01

/-! ## C02 Linear solves -/

section C02
variable [Field K]

/-- C02: `solve(A,b)` solves the system (and the solution is the only one). -/
theorem C02_solve_vec (lap : Lapack K) {A : Mat K} {b : Vec K} {n : Nat} {a : Nat → Nat → K}
    {f : Nat → K} (hn : 0 < n) (hA : A.Has n n a) (hb : b.Has n f) (hns : Nonsing n a) :
    ∃ x, (A.solveVec lap b).Returns (fun v => v.Has n x) ∧
      (∀ i, i < n → ∑ j ∈ range n, a i j * x j = f i) ∧
      ∀ y : Nat → K, (∀ i, i < n → ∑ j ∈ range n, a i j * y j = f i) → ∀ j, j < n → y j = x j := by
  rw [Mat.has_iff.mp hA, Vec.has_iff.mp hb]
  obtain ⟨x, h1, h2⟩ := Mat.solveVec_ofFn lap hn hns (b := f)
  exact ⟨x, ⟨_, h1, Vec.has_ofFn _ _⟩, h2,
    fun y hy => hns.unique (fun i hi => by rw [hy i hi, h2 i hi])⟩

/-- C02: `solve(A,B)` returns `X` of the shape of `B` with `A X = B`. -/
theorem C02_solve_mat (lap : Lapack K) {A B : Mat K} {n m : Nat} {a b : Nat → Nat → K} (hn : 0 < n)
    (hA : A.Has n n a) (hB : B.Has n m b) (hns : Nonsing n a) :
    ∃ x, (A.solveMat lap B).Returns (fun X => X.Has n m x) ∧
      ∀ i, i < n → ∀ j, j < m → ∑ l ∈ range n, a i l * x l j = b i j := by
  rw [Mat.has_iff.mp hA, Mat.has_iff.mp hB]
  obtain ⟨x, h1, h2⟩ := Mat.solveMat_ofFn lap hn hns (g := b) (m := m)
  exact ⟨x, ⟨_, h1, Mat.has_ofFn _ _ _⟩, h2⟩

example (lap : Lapack ℚ) := C02_solve_mat lap (by omega) exS_has
  (show (Mat.ofData 2 3 [1, 2, 3, 4, 5, 6] : Mat ℚ).Has 2 3 _ from exA_has) exS_nonsing
example : Nonempty (Lapack ℚ) := Lapack.nonempty

/-- C02: non-square or non-conforming input throws. -/
theorem C02_bad_shape_throws (lap : Lapack K) (A B : Mat K) (b : Vec K) :
    (A.nrows ≠ A.ncols ∨ A.nrows ≠ b.size → A.solveVec lap b = .throw .invalidArgument) ∧
    (A.nrows ≠ A.ncols ∨ A.nrows ≠ B.nrows → A.solveMat lap B = .throw .invalidArgument) := by
  refine ⟨fun h => ?_, fun h => ?_⟩
  · unfold Mat.solveVec
    by_cases h1 : A.nrows = A.ncols
    · rw [if_neg (by simpa using h1), if_pos (by tauto)]
    · rw [if_pos h1]
  · unfold Mat.solveMat
    by_cases h1 : A.nrows = A.ncols
    · rw [if_neg (by simpa using h1), if_pos (by tauto)]
    · rw [if_pos h1]

example (lap : Lapack ℚ) : exA.solveVec lap exx = .throw .invalidArgument :=
  (C02_bad_shape_throws lap exA exA exx).1 (Or.inl (by decide))

/-- C02, limit of the claim: a singular system is not reported; the right-hand side itself comes
back (only a message is printed). -/
theorem C02_singular_returns_rhs (lap : Lapack K) {A : Mat K} {b : Vec K} {n : Nat}
    {a : Nat → Nat → K} {f : Nat → K} (hn : 0 < n) (hA : A.Has n n a) (hb : b.Has n f)
    (hs : ¬ Nonsing n a) : A.solveVec lap b = .ok b := by
  rw [Mat.has_iff.mp hA, Vec.has_iff.mp hb]
  unfold Mat.solveVec
  rw [if_neg (by simp), if_neg (by simp), Mat.T_ofFn, Res.ok_bind]
  simp only [Mat.nrows_ofFn, Vec.data_ofFn, Vec.size_ofFn]
  unfold dgesv
  have lenA : (Mat.ofFn n n (fun i j => a j i)).data.length = n * n := by simp [Mat.data_ofFn]
  rw [if_neg (by omega), if_neg (by omega), if_neg (by rw [lenA, length_listFn]; omega), Res.ok_bind,
    lap.singular]
  · rfl
  · intro h
    apply hs
    exact h.congr (fun i hi j hj => Mat.getD_ofFn hj hi 0)

example (lap : Lapack ℚ) :
    (Mat.ofData 2 2 [1, 1, 1, 1] : Mat ℚ).solveVec lap (Vec.ofList [1, 2]) = .ok (Vec.ofList [1, 2]) := by
  refine C02_singular_returns_rhs lap (n := 2) (a := fun _ _ => 1) (f := fun i => i + 1) (by omega)
    ⟨rfl, rfl, rfl, by decide +kernel⟩ ⟨rfl, rfl, by decide +kernel⟩ ?_
  intro h
  have := h (fun j => if j = 0 then 1 else -1) (by intro i _; simp [sum_range_succ]) 0 (by omega)
  simp at this

end C02

/-! ## C03 Transposition -/

section C03

/-- C03: dimensions and entries of the transpose. -/
theorem C03_transpose [Zero α] {A : Mat α} {r c : Nat} {f : Nat → Nat → α} (hA : A.Has r c f) :
    A.T.Returns (fun B => B.Has c r (fun i j => f j i)) := by
  rw [Mat.has_iff.mp hA]
  exact ⟨_, Mat.T_ofFn, Mat.has_ofFn _ _ _⟩

/-- C03: transposing twice gives back the matrix. -/
theorem C03_involution [Zero α] {A : Mat α} (hA : A.WF) :
    (do let B ← A.T
        B.T) = .ok A := by
  obtain ⟨f, hf⟩ := hA.has
  conv_lhs => rw [Mat.has_iff.mp hf]
  rw [Mat.T_ofFn, Res.ok_bind, Mat.T_ofFn]
  exact congrArg Res.ok (Mat.has_iff.mp hf).symm

/-- C03: `(A*B).T() = B.T()*A.T()`. -/
theorem C03_mul_transpose [Field K] {A B : Mat K} (hA : A.WF) (hB : B.WF) (h : A.ncols = B.nrows)
    (h1 : 0 < A.nrows) (h2 : 0 < A.ncols) (h3 : 0 < B.ncols) :
    ∃ D, (do let C ← A.mul B
             C.T) = .ok D ∧
      (do let BT ← B.T
          let AT ← A.T
          BT.mul AT) = .ok D := by
  obtain ⟨f, hf⟩ := hA.has
  obtain ⟨g, hg⟩ := hB.has
  rw [h] at hf h2
  generalize A.nrows = m at *
  generalize B.nrows = k at *
  generalize B.ncols = n at *
  rw [Mat.has_iff.mp hf, Mat.has_iff.mp hg, Mat.mul_ofFn h1 h2 h3, Res.ok_bind, Mat.T_ofFn, Mat.T_ofFn,
    Res.ok_bind, Mat.T_ofFn, Res.ok_bind, Mat.mul_ofFn h3 h2 h1]
  refine ⟨_, rfl, ?_⟩
  congr 1
  apply Mat.ofFn_congr
  intro i _ j _
  exact sum_congr rfl (fun l _ => mul_comm _ _)

example := C03_transpose exA_has
example := C03_involution exA_has.wf
example := C03_mul_transpose exA_has.wf exB_has.wf rfl (by decide) (by decide) (by decide)
example : exA.T = .ok (Mat.ofData 3 2 [1, 4, 2, 5, 3, 6]) := by decide +kernel

end C03

/-! ## C04 Blocks -/

section C04

/-- C04: `setBlock` then `getBlock` of a block that fits, and the frame condition. -/
theorem C04_set_get_block {A B : Mat α} {r c m n ro co : Nat} {f g : Nat → Nat → α}
    (hA : A.Has r c f) (hB : B.Has m n g) (hr : ro + m ≤ r) (hc : co + n ≤ c) :
    ∃ A', A.setBlock ro co B = .ok A' ∧ A'.getBlock ro co B.nrows B.ncols = .ok B ∧
      ∃ f', A'.Has r c f' ∧
        (∀ i, i < m → ∀ j, j < n → f' (ro + i) (co + j) = g i j) ∧
        ∀ p q, p < r → q < c → (p < ro ∨ ro + m ≤ p ∨ q < co ∨ co + n ≤ q) → f' p q = f p q := by
  rw [Mat.has_iff.mp hA, Mat.has_iff.mp hB]
  refine ⟨_, Mat.setBlock_ofFn hr hc, ?_, _, Mat.has_ofFn _ _ _, ?_, ?_⟩
  · rw [Mat.nrows_ofFn, Mat.ncols_ofFn, Mat.getBlock_ofFn hr hc]
    congr 1
    apply Mat.ofFn_congr
    intro i hi j hj
    rw [if_pos (by omega), Nat.add_sub_cancel_left, Nat.add_sub_cancel_left]
  · intro i hi j hj
    rw [if_pos (by omega), Nat.add_sub_cancel_left, Nat.add_sub_cancel_left]
  · intro p q _ _ h
    rw [if_neg (by omega)]

/-- C04: reading a block that fits returns the block. -/
theorem C04_get_block {A : Mat α} {r c ro co rl cl : Nat} {f : Nat → Nat → α} (hA : A.Has r c f)
    (hr : ro + rl ≤ r) (hc : co + cl ≤ c) :
    (A.getBlock ro co rl cl).Returns (fun B => B.Has rl cl (fun i j => f (ro + i) (co + j))) := by
  rw [Mat.has_iff.mp hA]
  exact ⟨_, Mat.getBlock_ofFn hr hc, Mat.has_ofFn _ _ _⟩

/-- C04: a block that does not fit makes both calls throw. -/
theorem C04_misfit_throws (A B : Mat α) (ro co rl cl : Nat) :
    (ro + B.nrows > A.nrows ∨ co + B.ncols > A.ncols → A.setBlock ro co B = .throw .outOfRange) ∧
    (ro + rl > A.nrows ∨ co + cl > A.ncols → A.getBlock ro co rl cl = .throw .outOfRange) := by
  refine ⟨fun h => ?_, fun h => ?_⟩
  · unfold Mat.setBlock
    by_cases h1 : ro + B.nrows > A.nrows
    · rw [if_pos h1]
    · rw [if_neg h1, if_pos (by tauto)]
  · unfold Mat.getBlock
    by_cases h1 : ro + rl > A.nrows
    · rw [if_pos h1]
    · rw [if_neg h1, if_pos (by tauto)]

example := C04_set_get_block (Mat.has_ofFn 4 4 (fun i j => (i + j : ℚ))) exS_has
  (ro := 1) (co := 2) (by omega) (by omega)
example : exA.getBlock 0 1 2 2 = .ok (Mat.ofData 2 2 [2, 3, 5, 6]) := by decide +kernel
example : exA.setBlock 1 2 exS = .throw .outOfRange := (C04_misfit_throws exA exS 1 2 0 0).1 (by decide)

end C04

/-! ## C05 Index sets -/

section C05
variable [Zero α]

/-- C05: the submatrix. -/
theorem C05_matrix {A : Mat α} {I J : Vec Int} {r c m n : Nat} {f : Nat → Nat → α} {p q : Nat → Nat}
    (hA : A.Has r c f) (hI : I.Has m (fun i => (p i : Int))) (hJ : J.Has n (fun j => (q j : Int)))
    (hm : m ≤ r) (hn : n ≤ c)
    (hp : ∀ i, i < m → p i < r) (hq : ∀ j, j < n → q j < c) :
    (A.getFromIndexSet I J).Returns (fun B => B.Has m n (fun i j => f (p i) (q j))) := by
  rw [Mat.has_iff.mp hA, Vec.has_iff.mp hI, Vec.has_iff.mp hJ]
  exact ⟨_, Mat.getFromIndexSet_ofFn hm hn hp hq, Mat.has_ofFn _ _ _⟩

/-- C05: the subvector, through both spellings of the accessor. -/
theorem C05_vector {v : Vec α} {I : Vec Int} {n m : Nat} {f : Nat → α} {p : Nat → Nat}
    (hv : v.Has n f) (hI : I.Has m (fun i => (p i : Int))) (hm : m ≤ n)
    (hp : ∀ i, i < m → p i < n) :
    (v.getFromIndexSet I).Returns (fun w => w.Has m (fun i => f (p i))) ∧
    v.callIndexSet I = v.getFromIndexSet I := by
  refine ⟨?_, rfl⟩
  rw [Vec.has_iff.mp hv, Vec.has_iff.mp hI]
  exact ⟨_, Vec.getFromIndexSet_ofFn hm hp, Vec.has_ofFn _ _⟩

/-- C05: an index set longer than the vector, or whose first bad member is negative or larger than
the size, throws. -/
theorem C05_vector_throws {v : Vec α} {I : Vec Int} {n m : Nat} {f : Nat → α} {p : Nat → Int}
    (hv : v.Has n f) (hI : I.Has m p) :
    (m > n → v.getFromIndexSet I = .throw .outOfRange) ∧
    ∀ k, k < m → (∀ i, i < k → 0 ≤ p i ∧ p i < n) → (p k < 0 ∨ n < p k) →
      v.getFromIndexSet I = .throw .outOfRange := by
  rw [Vec.has_iff.mp hv, Vec.has_iff.mp hI]
  refine ⟨fun h => by unfold Vec.getFromIndexSet; rw [if_pos (by simpa using h)], ?_⟩
  intro k hk hgood hbad
  unfold Vec.getFromIndexSet
  by_cases hmn : m > n
  · rw [if_pos (by simpa using hmn)]
  · rw [if_neg (by simpa using hmn), Vec.size_ofFn, Vec.zeros_eq]
    have split : ∀ (body : Nat → Vec α → Res (Vec α)) (s : Vec α) (d : Nat),
        (forN k body s >>= body k) = .throw .outOfRange → forN (k + 1 + d) body s = .throw .outOfRange := by
      intro body s d h
      induction d with
      | zero => exact h
      | succ d ih => rw [← Nat.add_assoc, forN_succ, ih]; rfl
    obtain ⟨d, rfl⟩ : ∃ d, m = k + 1 + d := ⟨m - (k + 1), by omega⟩
    apply split
    rw [Vec.forN_upd (fun i _ => f (p i).toNat) _ 0 (by omega)]
    · rw [Res.ok_bind, Vec.get_ofFn hk, Res.ok_bind, if_pos]
      unfold toSize
      rw [Vec.size_ofFn]
      split <;> omega
    · intro i hi g
      obtain ⟨g1, g2⟩ := hgood i hi
      have hts : toSize (p i) = (p i).toNat := by unfold toSize; rw [if_pos g1]
      rw [Vec.get_ofFn (by omega), Res.ok_bind, Vec.size_ofFn, if_neg (by rw [hts]; omega), Res.ok_bind, hts,
        Vec.get_ofFn (by omega), Res.ok_bind, Vec.set_ofFn (by omega)]
      simp

example := C05_matrix exA_has
  (show (Vec.ofList [1, 1] : Vec Int).Has 2 (fun _ => ((1 : Nat) : Int)) from ⟨rfl, rfl, by decide⟩)
  (show (Vec.ofList [0, 1, 2] : Vec Int).Has 3 (fun j => ((j : Nat) : Int)) from ⟨rfl, rfl, by decide⟩)
  (by omega) (by omega) (by decide) (by decide)
example := C05_vector_throws (p := fun i => if i = 1 then 7 else 0) exx_has
  (show (Vec.ofList [0, 7, 0] : Vec Int).Has 3 _ from ⟨rfl, rfl, by decide⟩)
example : exx.getFromIndexSet (Vec.ofList [2, 0, 2]) = .ok (Vec.ofList [2, 1, 2]) := by decide +kernel

end C05

/-! ## C07 Segments and concatenation -/

section C07
variable [Zero α]

/-- C07: `setSegment` then `getSegment`, and the frame condition. -/
theorem C07_segment {v w : Vec α} {n m s : Nat} {f g : Nat → α} (hv : v.Has n f) (hw : w.Has m g)
    (h : s + m ≤ n) :
    ∃ v', v.setSegment s w = .ok v' ∧ v'.getSegment s w.size = .ok w ∧
      ∃ f', v'.Has n f' ∧ (∀ i, i < m → f' (s + i) = g i) ∧
        ∀ k, k < n → (k < s ∨ s + m ≤ k) → f' k = f k := by
  rw [Vec.has_iff.mp hv, Vec.has_iff.mp hw]
  refine ⟨_, Vec.setSegment_ofFn h, ?_, _, Vec.has_ofFn _ _, ?_, ?_⟩
  · rw [Vec.size_ofFn, Vec.getSegment_ofFn h]
    congr 1
    apply Vec.ofFn_congr
    intro i hi
    rw [if_pos (by omega), Nat.add_sub_cancel_left]
  · intro i hi
    rw [if_pos (by omega), Nat.add_sub_cancel_left]
  · intro k _ hk
    rw [if_neg (by omega)]

/-- C07: `getSegment` returns the entries of the segment. -/
theorem C07_get_segment {v : Vec α} {n s l : Nat} {f : Nat → α} (hv : v.Has n f) (h : s + l ≤ n) :
    (v.getSegment s l).Returns (fun w => w.Has l (fun i => f (s + i))) := by
  rw [Vec.has_iff.mp hv]
  exact ⟨_, Vec.getSegment_ofFn h, Vec.has_ofFn _ _⟩

/-- C07: segments that do not fit throw. -/
theorem C07_misfit_throws (v w : Vec α) (s l : Nat) :
    (s + w.size > v.size → v.setSegment s w = .throw .outOfRange) ∧
    (s + l > v.size → v.getSegment s l = .throw .outOfRange) := by
  refine ⟨fun h => ?_, fun h => ?_⟩
  · unfold Vec.setSegment; rw [if_pos h]
  · unfold Vec.getSegment; rw [if_pos h]

/-- C07: concatenation of any list of vectors; each input is recovered at its offset. -/
theorem C07_concatenate {vs : List (Vec α)} (hvs : ∀ v ∈ vs, v.WF) :
    ∃ r, Vec.concatenate vs = .ok r ∧ r.size = (vs.map (·.size)).sum ∧ r.WF ∧
      ∀ k (hk : k < vs.length), r.getSegment (∑ i ∈ range k, (vs.map (·.size)).getD i 0) vs[k].size
        = .ok vs[k] := by
  have hvs' : vs = listFn vs.length (fun b =>
      Vec.ofFn ((vs.map (·.size)).getD b 0) (fun t => (vs.getD b Vec.empty).data.getD t 0)) := by
    apply eq_listFn rfl
    intro i hi
    rw [List.getElem?_eq_getElem hi]
    congr 1
    have hwf := hvs vs[i] (List.getElem_mem hi)
    obtain ⟨f, hf⟩ := hwf.has
    have e1 : (vs.map (·.size)).getD i 0 = vs[i].size := by simp [hi]
    have e2 : vs.getD i Vec.empty = vs[i] := by simp [hi]
    rw [e1, e2, Vec.has_iff.mp hf]
    apply Vec.ofFn_congr
    intro t ht
    rw [Vec.data_ofFn, getD_listFn ht]
  obtain ⟨F, h1, h2⟩ := Vec.concatenate_listFn vs.length (fun b => (vs.map (·.size)).getD b 0)
    (fun b t => (vs.getD b Vec.empty).data.getD t 0)
  rw [← hvs'] at h1
  have hsum : ∑ b ∈ range vs.length, (vs.map (·.size)).getD b 0 = (vs.map (·.size)).sum := by
    clear hvs hvs' h1 h2
    induction vs with
    | nil => rfl
    | cons v vs ih =>
      rw [List.length_cons, Finset.sum_range_succ', List.map_cons, List.sum_cons, ← ih, Nat.add_comm]
      rfl
  refine ⟨_, h1, by rw [Vec.size_ofFn, hsum], (Vec.has_ofFn _ _).wf, ?_⟩
  intro k hk
  have hwf := hvs vs[k] (List.getElem_mem hk)
  obtain ⟨f, hf⟩ := hwf.has
  have e1 : (vs.map (·.size)).getD k 0 = vs[k].size := by simp [hk]
  have e2 : vs.getD k Vec.empty = vs[k] := by simp [hk]
  have hle := off_add_le (S := fun b => (vs.map (·.size)).getD b 0) hk
  rw [Vec.getSegment_ofFn (by rw [← e1]; exact hle)]
  conv_rhs => rw [Vec.has_iff.mp hf]
  congr 1
  apply Vec.ofFn_congr
  intro t ht
  rw [h2 k hk t (by rw [e1]; exact ht), e2, Vec.has_iff.mp hf, Vec.data_ofFn, getD_listFn ht]

/-- C07: `append` is concatenation in place. -/
theorem C07_append {v w : Vec α} (hv : v.WF) (hw : w.WF) :
    Vec.concatenate [v, w] = .ok (v.append w) := by
  obtain ⟨f, hf⟩ := hv.has
  obtain ⟨g, hg⟩ := hw.has
  have := Vec.concatenate_ofFn [(v.size, f), (w.size, g)]
  simp only [List.map_cons, List.map_nil, ← Vec.has_iff.mp hf, ← Vec.has_iff.mp hg] at this
  rw [this]
  simp only [Vec.append, Res.ok_inj]
  have e1 : v.data = listFn v.size f := congrArg Vec.data (Vec.has_iff.mp hf)
  have e2 : w.data = listFn w.size g := congrArg Vec.data (Vec.has_iff.mp hg)
  rw [e1, e2]
  simp [Vec.catFn]

example := C07_segment (Vec.has_ofFn 6 (fun i => (i : ℚ))) exx_has (s := 2) (by omega)
example := C07_concatenate (vs := [exx, Vec.empty, exx]) (by
  intro v hv; simp at hv; rcases hv with rfl | rfl | rfl <;> rfl)
example := C07_append (v := exx) (w := exx) rfl rfl
example : Vec.concatenate [exx, Vec.empty, exx] = .ok (Vec.ofList [1, -1, 2, 1, -1, 2]) := by decide +kernel

end C07

/-! ## C08 Block diagonal -/

section C08
variable [Field K]

/-- C08: entries of the block-diagonal matrix of `m` rectangular blocks. -/
theorem C08_entries (m : Nat) (R C : Nat → Nat) (B : Nat → Mat K) (D : Nat → Nat → Nat → K)
    (hB : ∀ b, b < m → (B b).Has (R b) (C b) (D b)) :
    ∃ F, (Mat.blockDiagonal ((List.range m).map B)).Returns
        (fun M => M.Has (∑ b ∈ range m, R b) (∑ b ∈ range m, C b) F) ∧
      ∀ a, a < m → ∀ s, s < R a → ∀ b, b < m → ∀ t, t < C b →
        F (∑ i ∈ range a, R i + s) (∑ i ∈ range b, C i + t) = if a = b then D a s t else 0 := by
  have : (List.range m).map B = listFn m (fun b => Mat.ofFn (R b) (C b) (D b)) := by
    apply listFn_congr
    intro b hb
    exact Mat.has_iff.mp (hB b hb)
  rw [this]
  obtain ⟨F, h1, h2⟩ := Mat.blockDiagonal_listFn m R C D
  exact ⟨F, ⟨_, h1, Mat.has_ofFn _ _ _⟩, h2⟩

theorem sum_blocks {M : Type} [AddCommMonoid M] (m : Nat) (S : Nat → Nat) (G : Nat → M) :
    ∑ k ∈ range (∑ b ∈ range m, S b), G k = ∑ b ∈ range m, ∑ t ∈ range (S b), G (∑ i ∈ range b, S i + t) := by
  induction m with
  | zero => simp
  | succ m ih => rw [sum_range_succ, sum_range_add, ih, sum_range_succ]

/-- C08: the product with a concatenated vector is the concatenation of the block products. -/
theorem C08_acts_blockwise (m : Nat) (R C : Nat → Nat) (B : Nat → Mat K) (x y : Nat → Vec K)
    (hB : ∀ b, b < m → (B b).WF ∧ (B b).nrows = R b ∧ (B b).ncols = C b)
    (hx : ∀ b, b < m → (x b).WF ∧ (x b).size = C b)
    (hpos : ∀ b, b < m → 0 < C b) (hm : 0 < m)
    (hy : ∀ b, b < m → (B b).mulVec (x b) = .ok (y b)) :
    (do let M ← Mat.blockDiagonal ((List.range m).map B)
        let v ← Vec.concatenate ((List.range m).map x)
        M.mulVec v) = Vec.concatenate ((List.range m).map y) := by
  have hB' : ∀ b, ∃ D, b < m → B b = Mat.ofFn (R b) (C b) D := by
    intro b
    by_cases hb : b < m
    · obtain ⟨D, hD⟩ := (hB b hb).1.has
      rw [(hB b hb).2.1, (hB b hb).2.2] at hD
      exact ⟨D, fun _ => Mat.has_iff.mp hD⟩
    · exact ⟨fun _ _ => 0, fun h => absurd h hb⟩
  choose D hD using hB'
  have hx' : ∀ b, ∃ f, b < m → x b = Vec.ofFn (C b) f := by
    intro b
    by_cases hb : b < m
    · obtain ⟨f, hf⟩ := (hx b hb).1.has
      rw [(hx b hb).2] at hf
      exact ⟨f, fun _ => Vec.has_iff.mp hf⟩
    · exact ⟨fun _ => 0, fun h => absurd h hb⟩
  choose f hf using hx'
  have e1 : (List.range m).map B = listFn m (fun b => Mat.ofFn (R b) (C b) (D b)) := listFn_congr hD
  have e2 : (List.range m).map x = listFn m (fun b => Vec.ofFn (C b) (f b)) := listFn_congr hf
  have e3 : (List.range m).map y = listFn m (fun b => Vec.ofFn (R b)
      (fun s => ∑ t ∈ range (C b), D b s t * f b t)) := by
    apply listFn_congr
    intro b hb
    have := hy b hb
    rw [hD b hb, hf b hb, Mat.mulVec_ofFn (hpos b hb), Res.ok_inj] at this
    exact this.symm
  rw [e1, e2, e3]
  obtain ⟨F, h1, h2⟩ := Mat.blockDiagonal_listFn m R C D
  obtain ⟨V, k1, k2⟩ := Vec.concatenate_listFn m C f
  obtain ⟨Y, l1, l2⟩ := Vec.concatenate_listFn m R (fun b s => ∑ t ∈ range (C b), D b s t * f b t)
  have hCpos : 0 < ∑ b ∈ range m, C b := by
    have := off_add_le (S := C) hm
    have := hpos 0 hm
    omega
  rw [h1, Res.ok_bind, k1, Res.ok_bind, l1, Mat.mulVec_ofFn hCpos]
  congr 1
  apply Vec.ofFn_congr
  intro i hi
  obtain ⟨a, s, ha, hs, rfl⟩ := Vec.exists_block hi
  rw [l2 a ha s hs, sum_blocks, sum_eq_single a]
  · apply sum_congr rfl
    intro t ht
    rw [h2 a ha s hs a ha t (mem_range.mp ht), if_pos rfl, k2 a ha t (mem_range.mp ht)]
  · intro b hb hba
    apply sum_eq_zero
    intro t ht
    rw [h2 a ha s hs b (mem_range.mp hb) t (mem_range.mp ht), if_neg (Ne.symm hba), zero_mul]
  · intro h; exact absurd (mem_range.mpr ha) h

example := C08_entries 2 (fun _ => 2) (fun _ => 3) (fun _ => exA) _ (fun _ _ => exA_has)
example := C08_acts_blockwise 2 (fun _ => 2) (fun _ => 3) (fun _ => exA) (fun _ => exx)
  (fun _ => Vec.ofList [5, 11]) (fun _ _ => ⟨rfl, rfl, rfl⟩) (fun _ _ => ⟨rfl, rfl⟩)
  (by intros; omega) (by omega) (fun _ _ => by decide +kernel)

end C08

/-! ## C09 Out-of-range access -/

section C09

/-- C09, the part that holds: valid indices give the entry, indices strictly beyond the size throw,
for reads and for writes. -/
theorem C09_access_partial {v : Vec α} {A : Mat α} {n r c : Nat} {f : Nat → α} {g : Nat → Nat → α}
    (hv : v.Has n f) (hA : A.Has r c g) (a : α) :
    (∀ i, i < n → v.get i = .ok (f i)) ∧
    (∀ i, i > n → v.get i = .throw .outOfRange ∧ v.set i a = .throw .outOfRange) ∧
    (∀ i j, i < r → j < c → A.get i j = .ok (g i j)) ∧
    (∀ i j, i > r ∨ j > c → A.get i j = .throw .outOfRange ∧ A.set i j a = .throw .outOfRange) := by
  rw [Vec.has_iff.mp hv, Mat.has_iff.mp hA]
  refine ⟨fun i hi => Vec.get_ofFn hi, fun i hi => ?_, fun i j hi hj => Mat.get_ofFn hi hj,
    fun i j h => ?_⟩
  · unfold Vec.get Vec.set
    rw [if_pos (by simpa using hi), if_pos (by simpa using hi)]
    exact ⟨rfl, rfl⟩
  · unfold Mat.get Mat.set Mat.flattenIndex
    by_cases h1 : i > r
    · rw [if_pos (by simpa using h1)]; exact ⟨rfl, rfl⟩
    · rw [if_neg (by simpa using h1), if_pos (by simp; tauto)]; exact ⟨rfl, rfl⟩

/-- C09 is false: for *every* vector, reading or writing at index `size` is undefined behaviour
instead of an exception. -/
theorem C09_vector_index_eq_size_ub {v : Vec α} {n : Nat} {f : Nat → α} (hv : v.Has n f) (a : α) :
    v.get n = .ub ∧ v.set n a = .ub := by
  rw [Vec.has_iff.mp hv]
  unfold Vec.get Vec.set
  rw [if_neg (by simp), if_neg (by simp), Vec.data_ofFn, rd_eq_ub (by simp), wr_eq_ub (by simp)]
  exact ⟨rfl, rfl⟩

/-- C09 is false: column index `ncols` silently reads (and writes) the first entry of the next row. -/
theorem C09_matrix_column_eq_ncols_wrong_entry {A : Mat α} {r c : Nat} {f : Nat → Nat → α}
    (hA : A.Has r c f) {i : Nat} (hi : i + 1 < r) (hc : 0 < c) (a : α) :
    A.get i c = .ok (f (i + 1) 0) ∧ A.set i c a = A.set (i + 1) 0 a := by
  rw [Mat.has_iff.mp hA]
  have e : i * c + c = (i + 1) * c + 0 := by ring
  constructor
  · unfold Mat.get Mat.flattenIndex
    rw [if_neg (by simp; omega), if_neg (by simp), Res.ok_bind, Mat.ncols_ofFn, e, Mat.rd_ofFn hi hc]
  · unfold Mat.set Mat.flattenIndex
    rw [if_neg (by simp; omega), if_neg (by simp), if_neg (by simp; omega), if_neg (by simp),
      Mat.ncols_ofFn, e]

example := C09_access_partial exx_has exA_has 0
example := C09_vector_index_eq_size_ub exx_has 0
example : exA.get 0 3 = .ok 4 := by decide +kernel

end C09

/-! ## C10 Arithmetic -/

section C10
variable [Field K]

/-- C10 for vectors: entrywise meaning of every operator. -/
theorem C10_vector_entrywise {v w : Vec K} {n : Nat} {f g : Nat → K} (hv : v.Has n f) (hw : w.Has n g)
    (c : K) :
    (v.add w).Returns (·.Has n (fun i => f i + g i)) ∧
    (v.addAssign w).Returns (·.Has n (fun i => f i + g i)) ∧
    (v.sub w).Returns (·.Has n (fun i => f i - g i)) ∧
    (v.subAssign w).Returns (·.Has n (fun i => f i - g i)) ∧
    v.neg.Returns (·.Has n (fun i => - f i)) ∧
    (v.addScalar c).Returns (·.Has n (fun i => f i + c)) ∧
    (v.subScalar c).Returns (·.Has n (fun i => f i - c)) ∧
    (v.mulScalarAssign c).Returns (·.Has n (fun i => f i * c)) ∧
    (v.divScalarAssign c).Returns (·.Has n (fun i => f i / c)) ∧
    (Vec.smul c v).Returns (·.Has n (fun i => c * f i)) ∧
    (v.mulEntry w).Returns (·.Has n (fun i => f i * g i)) ∧
    (v.divEntry w).Returns (·.Has n (fun i => f i / g i)) ∧
    v.dot w = .ok (∑ i ∈ range n, f i * g i) := by
  rw [Vec.has_iff.mp hv, Vec.has_iff.mp hw]
  exact ⟨⟨_, Vec.add_ofFn, Vec.has_ofFn _ _⟩, ⟨_, Vec.addAssign_ofFn, Vec.has_ofFn _ _⟩,
    ⟨_, Vec.sub_ofFn, Vec.has_ofFn _ _⟩, ⟨_, Vec.subAssign_ofFn, Vec.has_ofFn _ _⟩,
    ⟨_, Vec.neg_ofFn, Vec.has_ofFn _ _⟩, ⟨_, Vec.addScalarAssign_ofFn, Vec.has_ofFn _ _⟩,
    ⟨_, Vec.subScalarAssign_ofFn, Vec.has_ofFn _ _⟩, ⟨_, Vec.mulScalarAssign_ofFn, Vec.has_ofFn _ _⟩,
    ⟨_, Vec.divScalarAssign_ofFn, Vec.has_ofFn _ _⟩, ⟨_, Vec.smul_ofFn, Vec.has_ofFn _ _⟩,
    ⟨_, Vec.mulEntry_ofFn, Vec.has_ofFn _ _⟩, ⟨_, Vec.divEntry_ofFn, Vec.has_ofFn _ _⟩, Vec.dot_ofFn⟩

/-- C10 for matrices, all operators except `*=`. -/
theorem C10_matrix_entrywise_partial {A B : Mat K} {r c : Nat} {f g : Nat → Nat → K} (hA : A.Has r c f)
    (hB : B.Has r c g) (s : K) :
    (A.add B).Returns (·.Has r c (fun i j => f i j + g i j)) ∧
    (A.addAssign B).Returns (·.Has r c (fun i j => f i j + g i j)) ∧
    (A.sub B).Returns (·.Has r c (fun i j => f i j - g i j)) ∧
    (A.subAssign B).Returns (·.Has r c (fun i j => f i j - g i j)) ∧
    A.neg.Returns (·.Has r c (fun i j => - f i j)) ∧
    (A.addScalarAssign s).Returns (·.Has r c (fun i j => f i j + s)) ∧
    (A.subScalarAssign s).Returns (·.Has r c (fun i j => f i j - s)) ∧
    (Mat.smul s A).Returns (·.Has r c (fun i j => s * f i j)) := by
  rw [Mat.has_iff.mp hA, Mat.has_iff.mp hB]
  exact ⟨⟨_, Mat.add_ofFn, Mat.has_ofFn _ _ _⟩, ⟨_, Mat.addAssign_ofFn, Mat.has_ofFn _ _ _⟩,
    ⟨_, Mat.sub_ofFn, Mat.has_ofFn _ _ _⟩, ⟨_, Mat.subAssign_ofFn, Mat.has_ofFn _ _ _⟩,
    ⟨_, Mat.neg_ofFn, Mat.has_ofFn _ _ _⟩, ⟨_, Mat.addScalarAssign_ofFn, Mat.has_ofFn _ _ _⟩,
    ⟨_, Mat.subScalarAssign_ofFn, Mat.has_ofFn _ _ _⟩, ⟨_, Mat.smul_ofFn, Mat.has_ofFn _ _ _⟩⟩

/-- C10: shape mismatches throw. -/
theorem C10_mismatch_throws (v w : Vec K) (A B : Mat K) :
    (v.size ≠ w.size → v.add w = .throw .invalidArgument ∧ v.addAssign w = .throw .invalidArgument ∧
      v.sub w = .throw .invalidArgument ∧ v.subAssign w = .throw .invalidArgument ∧
      v.dot w = .throw .invalidArgument ∧ v.mulEntry w = .throw .invalidArgument ∧
      v.divEntry w = .throw .invalidArgument) ∧
    (A.nrows ≠ B.nrows ∨ A.ncols ≠ B.ncols → A.add B = .throw .invalidArgument ∧
      A.addAssign B = .throw .invalidArgument ∧ A.sub B = .throw .invalidArgument ∧
      A.subAssign B = .throw .invalidArgument) := by
  refine ⟨fun h => ?_, fun h => ?_⟩
  · have h' : w.size ≠ v.size := Ne.symm h
    simp only [Vec.add, Vec.addAssign, Vec.sub, Vec.subAssign, Vec.dot, Vec.mulEntry, Vec.divEntry,
      if_pos h, if_pos h', and_self]
  · simp only [Mat.add, Mat.addAssign, Mat.sub, Mat.subAssign]
    by_cases h1 : A.nrows = B.nrows
    · have h2 : B.ncols ≠ A.ncols := by tauto
      simp [h1, h2]
    · have h2 : B.nrows ≠ A.nrows := Ne.symm h1
      simp [h2]

/-- C10: addition is commutative and associative, `A - A` is zero, scaling distributes. -/
theorem C10_algebra {A B C : Mat K} {r c : Nat} {f g h : Nat → Nat → K} (hA : A.Has r c f)
    (hB : B.Has r c g) (hC : C.Has r c h) (s : K) :
    A.add B = B.add A ∧
    (do let D ← A.add B
        D.add C) = (do let D ← B.add C
                       A.add D) ∧
    A.sub A = .ok (Mat.zeros r c) ∧
    (do let D ← A.add B
        Mat.smul s D) = (do let D ← Mat.smul s A
                            let E ← Mat.smul s B
                            D.add E) := by
  rw [Mat.has_iff.mp hA, Mat.has_iff.mp hB, Mat.has_iff.mp hC]
  refine ⟨?_, ?_, ?_, ?_⟩
  · rw [Mat.add_ofFn, Mat.add_ofFn]
    congr 1; apply Mat.ofFn_congr; intros; ring
  · rw [Mat.add_ofFn, Res.ok_bind, Mat.add_ofFn, Mat.add_ofFn, Res.ok_bind, Mat.add_ofFn]
    congr 1; apply Mat.ofFn_congr; intros; ring
  · rw [Mat.sub_ofFn, Mat.zeros_eq]
    congr 1; apply Mat.ofFn_congr; intros; ring
  · rw [Mat.add_ofFn, Res.ok_bind, Mat.smul_ofFn, Mat.smul_ofFn, Res.ok_bind, Mat.smul_ofFn, Res.ok_bind,
      Mat.add_ofFn]
    congr 1; apply Mat.ofFn_congr; intros; ring

/-- C10 is false for `A *= c`: it adds `c` to every entry … -/
theorem C10_mul_assign_adds {A : Mat K} {r c : Nat} {f : Nat → Nat → K} (hA : A.Has r c f) (s : K) :
    (A.mulScalarAssign s).Returns (·.Has r c (fun i j => f i j + s)) := by
  rw [Mat.has_iff.mp hA]
  exact ⟨_, Mat.mulScalarAssign_ofFn, Mat.has_ofFn _ _ _⟩

/-- … so it does not multiply: a concrete counterexample to "`A *= c` multiplies every entry". -/
theorem C10_mul_assign_not_scaling :
    ¬ ∀ (A : Mat ℚ) (r c : Nat) (f : Nat → Nat → ℚ) (s : ℚ), A.Has r c f →
      (A.mulScalarAssign s).Returns (·.Has r c (fun i j => f i j * s)) := by
  intro h
  obtain ⟨B, h1, -, -, -, h2⟩ := h exS 2 2 _ 3 exS_has
  have e : exS.mulScalarAssign 3 = .ok (Mat.ofData 2 2 [5, 4, 4, 4]) := by decide +kernel
  rw [e, Res.ok_inj] at h1
  subst h1
  have := h2 0 (by omega) 0 (by omega)
  revert this
  decide +kernel

example := C10_vector_entrywise exx_has exx_has 2
example := C10_matrix_entrywise_partial exA_has exA_has 2
example := C10_algebra exA_has exA_has exA_has 2
example := (C10_mismatch_throws exx (Vec.ofList [1]) exA exB).1 (by decide)

end C10

/-! ## C11 Rows and columns -/

section C11
variable [Zero α]

/-- C11: `getRow` returns the row. -/
theorem C11_get_row {A : Mat α} {r c i : Nat} {f : Nat → Nat → α} (hA : A.Has r c f) (hi : i < r)
    (hc : 0 < c) : (A.getRow i).Returns (·.Has c (fun j => f i j)) := by
  rw [Mat.has_iff.mp hA]
  exact ⟨_, Mat.getRow_ofFn hi hc, Vec.has_ofFn _ _⟩

/-- C11: `setRow` then `getRow`, frame. -/
theorem C11_set_row {A : Mat α} {v : Vec α} {r c i : Nat} {f : Nat → Nat → α} {g : Nat → α}
    (hA : A.Has r c f) (hv : v.Has c g) (hi : i < r) (hc : 0 < c) :
    ∃ A', A.setRow i v = .ok A' ∧ A'.getRow i = .ok v ∧
      A'.Has r c (fun p q => if p = i then g q else f p q) := by
  rw [Mat.has_iff.mp hA, Vec.has_iff.mp hv]
  refine ⟨_, Mat.setRow_ofFn hi, ?_, Mat.has_ofFn _ _ _⟩
  rw [Mat.getRow_ofFn hi hc]
  congr 1
  apply Vec.ofFn_congr
  intro j _
  rw [if_pos rfl]

omit [Zero α] in
/-- C11: `setColumn` writes the column and nothing else. -/
theorem C11_set_column {A : Mat α} {v : Vec α} {r c j : Nat} {f : Nat → Nat → α} {g : Nat → α}
    (hA : A.Has r c f) (hv : v.Has r g) (hj : j < c) :
    (A.setColumn j v).Returns (·.Has r c (fun p q => if q = j then g p else f p q)) := by
  rw [Mat.has_iff.mp hA, Vec.has_iff.mp hv]
  exact ⟨_, Mat.setColumn_ofFn hj, Mat.has_ofFn _ _ _⟩

theorem getCol_aux {r c : Nat} {f : Nat → Nat → α} {j : Nat} (hj : j < c) (hr : 0 < r) :
    (Mat.ofFn r c f).getCol j = forN c (fun i res => do
      let x ← (Mat.ofFn r 1 (fun i _ => f i j)).get i 0
      res.set i x) (Vec.ofFn r (fun _ => 0)) := by
  unfold Mat.getCol
  have h1 : (((Mat.ofFn r c f).nrows : Int) - 1) = ((r - 1 : Nat) : Int) := by simp; omega
  have h2 := Mat.range_ofFn (f := f) (Nat.zero_le (r - 1)) (show r - 1 < r by omega) (le_refl j) hj
  rw [h1, h2, Res.ok_bind, Mat.ncols_ofFn, Mat.nrows_ofFn, Vec.zeros_eq]
  have e1 : r - 1 - 0 + 1 = r := by omega
  have e2 : j - j + 1 = 1 := by omega
  rw [e1, e2]
  have e3 : Mat.ofFn r 1 (fun i q => f (0 + i) (j + q)) = Mat.ofFn r 1 (fun i _ => f i j) := by
    apply Mat.ofFn_congr
    intro i _ q hq
    have : q = 0 := by omega
    subst this; simp
  rw [e3]

/-- C11, what `getCol` does for *every* shape: the first `min(nrows, ncols)` entries are those of
the column, the remaining ones stay zero when there are more rows than columns, and with more
columns than rows the call reads outside its buffer. -/
theorem C11_get_col_actual {A : Mat α} {r c j : Nat} {f : Nat → Nat → α} (hA : A.Has r c f)
    (hj : j < c) (hr : 0 < r) :
    (c ≤ r → (A.getCol j).Returns (·.Has r (fun i => if i < c then f i j else 0))) ∧
    (r < c → A.getCol j = .ub) := by
  rw [Mat.has_iff.mp hA, getCol_aux hj hr]
  have body : ∀ i, i < r → ∀ g : Nat → α, (do
      let x ← (Mat.ofFn r 1 (fun i _ => f i j)).get i 0
      (Vec.ofFn r g).set i x) = Res.ok (Vec.ofFn r (fun k => if k = i then f i j else g k)) := by
    intro i hi g
    rw [Mat.get_ofFn hi (by omega), Res.ok_bind, Vec.set_ofFn hi]
  refine ⟨fun h => ?_, fun h => ?_⟩
  · refine ⟨_, Vec.forN_upd (fun i _ => f i j) _ 0 (by omega) (fun i hi g => ?_), ?_⟩
    · rw [body i (by omega)]; simp
    · apply Vec.has_iff.mpr
      apply Vec.ofFn_congr
      intro k _
      by_cases hk : k < c
      · rw [if_pos (by omega), if_pos hk]; rfl
      · rw [if_neg (by omega), if_neg hk]
  · have h1 : forN r (fun i res => do
      let x ← (Mat.ofFn r 1 (fun i _ => f i j)).get i 0
      res.set i x) (Vec.ofFn r (fun _ => (0 : α))) = .ok (Vec.ofFn r (fun i => f i j)) :=
      Vec.forN_fill _ _ body
    obtain ⟨d, rfl⟩ : ∃ d, c = r + 1 + d := ⟨c - (r + 1), by omega⟩
    clear h hA hj
    induction d with
    | zero =>
      rw [Nat.add_zero, forN_succ, h1, Res.ok_bind]
      unfold Mat.get Mat.flattenIndex
      rw [if_neg (by simp), if_neg (by simp), Res.ok_bind, rd_eq_ub (by simp [Mat.data_ofFn]), Res.ub_bind]
    | succ d ih => rw [← Nat.add_assoc, forN_succ, ih, Res.ub_bind]

/-- C11, the part of the `getCol` claim that holds: square matrices. -/
theorem C11_get_col_partial {A : Mat α} {n j : Nat} {f : Nat → Nat → α} (hA : A.Has n n f) (hj : j < n) :
    (A.getCol j).Returns (·.Has n (fun i => f i j)) := by
  obtain ⟨v, h1, h2⟩ := (C11_get_col_actual hA hj (by omega)).1 (le_refl n)
  refine ⟨v, h1, Vec.has_iff.mpr ?_⟩
  rw [Vec.has_iff.mp h2]
  apply Vec.ofFn_congr
  intro i hi
  rw [if_pos hi]

/-- C11 is false for `getCol`: a 3×2 matrix. -/
theorem C11_get_col_wrong :
    ¬ ∀ (A : Mat ℚ) (r c j : Nat) (f : Nat → Nat → ℚ), A.Has r c f → j < c → 0 < r →
      (A.getCol j).Returns (·.Has r (fun i => f i j)) := by
  intro h
  obtain ⟨v, h1, -, -, h2⟩ := h exB 3 2 0 _ exB_has (by omega) (by omega)
  have e : exB.getCol 0 = .ok (Vec.ofList [1, 0, 0]) := by decide +kernel
  rw [e, Res.ok_inj] at h1
  subst h1
  have := h2 2 (by omega)
  revert this
  decide +kernel

example := C11_get_row exA_has (i := 1) (by omega) (by omega)
example := C11_set_row exA_has exx_has (i := 1) (by omega) (by omega)
example := C11_set_column exB_has exx_has (j := 1) (by omega)
example := C11_get_col_partial exS_has (j := 1) (by omega)
example : exA.getCol 0 = .ub := by decide +kernel

end C11

/-! ## C12 Ranges -/

section C12

/-- C12 for matrices: `A(a,b,c,d)` is the submatrix of rows `a..b`, columns `c..d`. -/
theorem C12_matrix_range [Zero α] {A : Mat α} {r s a b c d : Nat} {f : Nat → Nat → α} (hA : A.Has r s f)
    (hab : a ≤ b) (hb : b < r) (hcd : c ≤ d) (hd : d < s) :
    (A.range a b c d).Returns (·.Has (b - a + 1) (d - c + 1) (fun i j => f (a + i) (c + j))) := by
  rw [Mat.has_iff.mp hA]
  exact ⟨_, Mat.range_ofFn hab hb hcd hd, Mat.has_ofFn _ _ _⟩

/-- C12 is false for vectors: the returned entries are the *indices* `a, a+1, …, b`, whatever the
vector contains.  The size `b-a+1` is right. -/
theorem C12_vector_range_returns_indices [Field K] {v : Vec K} {n a b : Nat} {f : Nat → K} (hv : v.Has n f)
    (hab : a ≤ b) (hb : b < n) :
    (v.getRange a b).Returns (·.Has (b - a + 1) (fun i => ((a + i : Nat) : K))) ∧
    v.callRange a b = v.getRange a b := by
  refine ⟨?_, rfl⟩
  rw [Vec.has_iff.mp hv]
  unfold Vec.getRange
  rw [if_neg (by simp; omega), if_neg (by omega)]
  simp only []
  have : b + 1 - a = b - a + 1 := by omega
  rw [this, Vec.zeros_eq]
  refine ⟨_, Vec.forN_fill (fun i => ((a + i : Nat) : K)) _ ?_, Vec.has_ofFn _ _⟩
  intro i hi g
  rw [Vec.set_ofFn hi]

/-- The negation of the vector part of C12 on a concrete vector. -/
theorem C12_vector_range_wrong :
    ¬ ∀ (v : Vec ℚ) (n a b : Nat) (f : Nat → ℚ), v.Has n f → a ≤ b → b < n →
      (v.getRange a b).Returns (·.Has (b - a + 1) (fun i => f (a + i))) := by
  intro h
  obtain ⟨w, h1, -, -, h2⟩ := h exx 3 0 1 _ exx_has (by omega) (by omega)
  have e : exx.getRange 0 1 = .ok (Vec.ofList [0, 1]) := by decide +kernel
  rw [e, Res.ok_inj] at h1
  subst h1
  have := h2 0 (by omega)
  revert this
  decide +kernel

/-- C12, the size part, which holds for vectors as well. -/
theorem C12_vector_range_size_partial [Field K] {v : Vec K} {n a b : Nat} {f : Nat → K} (hv : v.Has n f)
    (hab : a ≤ b) (hb : b < n) : (v.getRange a b).Returns (fun w => w.size = b - a + 1 ∧ w.WF) := by
  obtain ⟨w, h1, h2⟩ := (C12_vector_range_returns_indices hv hab hb).1
  exact ⟨w, h1, h2.1, h2.wf⟩

/-- C12 for the index ranges that are used to select rows and columns: `vectorRange(a,b)` holds `a, a+1, …, b`. -/
theorem C12_index_range {a b : Int} (h : a ≤ b + 1) :
    (Vec.range a b).Returns (·.Has (b - a + 1).toNat (fun i => a + i)) :=
  ⟨_, Vec.range_eq h, Vec.has_ofFn _ _⟩

example := C12_index_range (a := -2) (b := 5) (by omega)
example := C12_matrix_range exA_has (a := 0) (b := 1) (c := 1) (d := 2) (by omega) (by omega) (by omega) (by omega)
example := C12_vector_range_returns_indices exx_has (a := 1) (b := 2) (by omega) (by omega)

end C12

/-! ## C49 Norms -/

section C49
variable [Field K] [LinearOrder K] [IsStrictOrderedRing K]

/-- C49: the infinity norm of the difference is the largest entry difference. -/
theorem C49_inf_norm {v w : Vec K} {n : Nat} {f g : Nat → K} (hv : v.Has n f) (hw : w.Has n g) :
    ∃ r, v.infNorm w = .ok r ∧ 0 ≤ r ∧ (∀ i, i < n → |f i - g i| ≤ r) ∧
      (r = 0 ∨ ∃ i, i < n ∧ r = |f i - g i|) ∧ w.infNorm v = .ok r ∧ (r = 0 ↔ v = w) := by
  rw [Vec.has_iff.mp hv, Vec.has_iff.mp hw]
  obtain ⟨r, h1, h2, h3, h4⟩ := Vec.infNorm_ofFn (n := n) (f := f) (g := g)
  refine ⟨r, h1, h2, h3, h4, ?_, ?_⟩
  · rw [← h1]
    unfold Vec.infNorm
    rw [if_neg (by simp), if_neg (by simp)]
    apply forN_congr
    intro i hi s
    simp only [Vec.size_ofFn] at hi
    rw [Vec.get_ofFn hi, Vec.get_ofFn hi]
    simp only [Res.ok_bind, Res.pure_def]
    rw [abs_sub_comm]
  · constructor
    · rintro rfl
      apply Vec.ofFn_congr
      intro i hi
      have := h3 i hi
      exact sub_eq_zero.mp (abs_eq_zero.mp (le_antisymm this (abs_nonneg _)))
    · intro h
      rcases h4 with h4 | ⟨i, hi, h4⟩
      · exact h4
      · rw [h4, Vec.ofFn_inj h i hi, sub_self, abs_zero]

/-- C49: triangle inequality for `vectorInfNorm`. -/
theorem C49_inf_norm_triangle {u v w : Vec K} {n : Nat} {f g h : Nat → K} (hu : u.Has n f)
    (hv : v.Has n g) (hw : w.Has n h) {a b c : K} (ha : u.infNorm v = .ok a) (hb : v.infNorm w = .ok b)
    (hc : u.infNorm w = .ok c) : c ≤ a + b := by
  obtain ⟨a', a1, a2, a3, -⟩ := C49_inf_norm hu hv
  obtain ⟨b', b1, b2, b3, -⟩ := C49_inf_norm hv hw
  obtain ⟨c', c1, c2, c3, c4, -⟩ := C49_inf_norm hu hw
  rw [ha, Res.ok_inj] at a1
  rw [hb, Res.ok_inj] at b1
  rw [hc, Res.ok_inj] at c1
  subst a1 b1 c1
  rcases c4 with c4 | ⟨i, hi, c4⟩
  · rw [c4]; exact add_nonneg a2 b2
  · rw [c4]
    calc |f i - h i| = |(f i - g i) + (g i - h i)| := by ring_nf
      _ ≤ |f i - g i| + |g i - h i| := abs_add_le _ _
      _ ≤ a + b := add_le_add (a3 i hi) (b3 i hi)

/-- C49 for matrices. -/
theorem C49_matrix_inf_norm {A B : Mat K} {r c : Nat} {f g : Nat → Nat → K} (hA : A.Has r c f)
    (hB : B.Has r c g) :
    ∃ x, A.infNorm B = .ok x ∧ 0 ≤ x ∧ (∀ i, i < r → ∀ j, j < c → |f i j - g i j| ≤ x) ∧
      (x = 0 ∨ ∃ i j, i < r ∧ j < c ∧ x = |f i j - g i j|) ∧ B.infNorm A = .ok x ∧ (x = 0 ↔ A = B) := by
  rw [Mat.has_iff.mp hA, Mat.has_iff.mp hB]
  obtain ⟨x, h1, h2, h3, h4⟩ := Mat.infNorm_ofFn (r := r) (c := c) (f := f) (g := g)
  refine ⟨x, h1, h2, h3, h4, ?_, ?_⟩
  · rw [← h1]
    unfold Mat.infNorm Mat.loop2
    rw [if_neg (by simp), if_neg (by simp), if_neg (by simp), if_neg (by simp)]
    apply forN_congr
    intro i hi s
    apply forN_congr
    intro j hj s
    simp only [Mat.nrows_ofFn, Mat.ncols_ofFn] at hi hj
    beta_reduce
    rw [Mat.get_ofFn hi hj, Mat.get_ofFn hi hj]
    simp only [Res.ok_bind, Res.pure_def]
    rw [abs_sub_comm]
  · constructor
    · rintro rfl
      apply Mat.ofFn_congr
      intro i hi j hj
      exact sub_eq_zero.mp (abs_eq_zero.mp (le_antisymm (h3 i hi j hj) (abs_nonneg _)))
    · intro h
      rcases h4 with h4 | ⟨i, j, hi, hj, h4⟩
      · exact h4
      · rw [h4, Mat.ofFn_inj h i hi j hj, sub_self, abs_zero]

theorem C49_matrix_inf_norm_triangle {A B C : Mat K} {r s : Nat} {f g h : Nat → Nat → K} (hA : A.Has r s f)
    (hB : B.Has r s g) (hC : C.Has r s h) {a b c : K} (ha : A.infNorm B = .ok a) (hb : B.infNorm C = .ok b)
    (hc : A.infNorm C = .ok c) : c ≤ a + b := by
  obtain ⟨a', a1, a2, a3, -⟩ := C49_matrix_inf_norm hA hB
  obtain ⟨b', b1, b2, b3, -⟩ := C49_matrix_inf_norm hB hC
  obtain ⟨c', c1, c2, c3, c4, -⟩ := C49_matrix_inf_norm hA hC
  rw [ha, Res.ok_inj] at a1
  rw [hb, Res.ok_inj] at b1
  rw [hc, Res.ok_inj] at c1
  subst a1 b1 c1
  rcases c4 with c4 | ⟨i, j, hi, hj, c4⟩
  · rw [c4]; exact add_nonneg a2 b2
  · rw [c4]
    calc |f i j - h i j| = |(f i j - g i j) + (g i j - h i j)| := by ring_nf
      _ ≤ |f i j - g i j| + |g i j - h i j| := abs_add_le _ _
      _ ≤ a + b := add_le_add (a3 i hi j hj) (b3 i hi j hj)

omit [IsStrictOrderedRing K] in
/-- C49: shape mismatches throw. -/
theorem C49_mismatch_throws (v w : Vec K) (A B : Mat K) (sqrt : K → K) :
    (v.size ≠ w.size → v.infNorm w = .throw .invalidArgument ∧
      Vec.l2Norm sqrt v w = .throw .invalidArgument) ∧
    (A.nrows ≠ B.nrows ∨ A.ncols ≠ B.ncols → A.infNorm B = .throw .invalidArgument) := by
  refine ⟨fun h => ?_, fun h => ?_⟩
  · unfold Vec.infNorm Vec.l2Norm Vec.l2NormSq
    rw [if_pos h, if_pos h]; exact ⟨rfl, rfl⟩
  · unfold Mat.infNorm
    by_cases h1 : A.nrows = B.nrows
    · rw [if_neg (by simpa using h1), if_pos (by tauto)]
    · rw [if_pos h1]

example := C49_inf_norm exx_has (Vec.has_ofFn 3 (fun _ => (0 : ℚ)))
example := C49_matrix_inf_norm exA_has (Mat.has_ofFn 2 3 (fun _ _ => (0 : ℚ)))
example : exx.infNorm (Vec.zeros 3) = .ok 2 := by decide +kernel
example : exA.infNorm (Mat.zeros 2 3) = .ok 6 := by decide +kernel

end C49

end EF
