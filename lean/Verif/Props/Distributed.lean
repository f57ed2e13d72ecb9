import Verif.Proofs.Distributed

/-!
# Properties of distributed matrices
-/

namespace EF

open Dist Dist.DMat

variable {K : Type}

/-! ## C92: a distributed matrix reports its sizes -/

/-- C92, sizes given on construction: every rank says how many rows and columns it wants and all say the totals. -/
theorem C92_explicit_partial [Zero K] {size : Nat} {lr lc : Nat → Int} {gr gc : Int} {A : DMat K} (h0 : 0 < size)
    (hr : ∀ r, r < size → 0 ≤ lr r) (hc : ∀ r, r < size → 0 ≤ lc r) (hgr : 0 ≤ gr) (hgc : 0 ≤ gc)
    (h : (PMatrix.sized size lr lc gr gc : PMatrix K).obj = some A) :
    ∀ r, r < size → (PMatrix.sized size lr lc gr gc : PMatrix K).Reports A r := by
  obtain ⟨h1, h2, _⟩ := DMat.new_eq_some h
  obtain ⟨e1, s1⟩ := layout_given h0 hr h1
  obtain ⟨e2, s2⟩ := layout_given h0 hc h2
  intro r hr'
  refine ⟨?_, ?_, ?_, ?_⟩
  · show lr r = _
    rw [e1]; simp [hr', Int.toNat_of_nonneg (hr r hr')]
  · show lc r = _
    rw [e2]; simp [hr', Int.toNat_of_nonneg (hc r hr')]
  · rcases s1 with s1 | s1
    · rw [s1, petscDecide] at hgr; omega
    · exact s1
  · rcases s2 with s2 | s2
    · rw [s2, petscDecide] at hgc; omega
    · exact s2

/-- C92, matrices taken over from PETSc or cut out with index sets: the sizes are PETSc's. -/
theorem C92_object_partial (A : DMat K) (r : Nat) : (PMatrix.ofObject A).obj = some A ∧ (PMatrix.ofObject A).Reports A r :=
  ⟨rfl, rfl, rfl, rfl, rfl⟩

/-- C92, the identity matrix: on any number of ranks it has the asked size, ones on the diagonal, zeros elsewhere, and reports its sizes. -/
theorem C92_identity_partial [Zero K] [One K] {size : Nat} (h0 : 0 < size) (N : Nat) :
    ∃ A, (PMatrix.identity size N : PMatrix K).obj = some A ∧ A.Has size N N (fun i j => if i = j then 1 else 0) ∧
      ∀ r, (PMatrix.identity size N : PMatrix K).Reports A r :=
  ⟨_, rfl, ⟨by simp, by simp, share_total h0 N, share_total h0 N, rfl, fun _ _ _ _ => rfl⟩, fun _ => ⟨rfl, rfl, rfl, rfl⟩⟩

/-- C92 is false for matrices made from a serial one: the local sizes are reported as `PETSC_DECIDE`, which is -1, on every rank, always; the
global ones are right. -/
theorem C92_serial_wrong [Zero K] {size m n : Nat} {serial : Nat → Mat K} {f : Nat → Nat → Nat → K} (h0 : 0 < size)
    (h : ∀ r, r < size → (serial r).Has m n (f r)) :
    ∃ w A, PMatrix.fromSerial size serial = .ok w ∧ w.obj = some A ∧ ∀ r, r < size →
      w.localRows r = -1 ∧ w.localCols r = -1 ∧ ¬ w.Reports A r ∧ w.globalRows r = (A.rows.sum : Nat) ∧ w.globalCols r = (A.cols.sum : Nat) := by
  refine ⟨_, _, fromSerial_eq h0 h, rfl, fun r hr => ⟨rfl, rfl, fun hR => ?_, ?_, ?_⟩⟩
  · have := hR.localRows
    change (-1 : Int) = (_ : Nat) at this
    omega
  · show (((serial r).nrows : Nat) : Int) = _
    rw [(h r hr).1, share_total h0]
  · show (((serial r).ncols : Nat) : Int) = _
    rw [(h r hr).2.1, share_total h0]

/-- C92 is false where PETSc is to choose the local sizes: they are reported as -1. -/
theorem C92_decide_wrong [Zero K] (size m n : Nat) :
    ∃ A, (PMatrix.sized size (fun _ => petscDecide) (fun _ => petscDecide) m n : PMatrix K).obj = some A ∧
      ∀ r, ¬ (PMatrix.sized size (fun _ => petscDecide) (fun _ => petscDecide) m n : PMatrix K).Reports A r :=
  ⟨_, DMat.new_decide size m n, fun r hR => by
    have := hR.localRows
    change (-1 : Int) = (_ : Nat) at this
    omega⟩

/-- C92 is false where PETSc is to add up the total: it is reported as -1. -/
theorem C92_determine_wrong [Zero K] (size : Nat) (lr lc : Nat → Int) (gc : Int) (A : DMat K) :
    ∀ r, ¬ (PMatrix.sized size lr lc petscDecide gc : PMatrix K).Reports A r := fun r hR => by
  have := hR.globalRows
  change (-1 : Int) = (_ : Nat) at this
  omega

/-- C92 is false after `create()` and `setSizes(…)`: whatever the sizes, zero is reported. -/
theorem C92_setSizes_wrong [Zero K] {size : Nat} {lr lc : Nat → Int} {gr gc : Int} {A : DMat K}
    (_ : ((PMatrix.declare : PMatrix K).setSizes size lr lc gr gc).obj = some A) (h : 0 < A.rows.sum) :
    ∀ r, ¬ ((PMatrix.declare : PMatrix K).setSizes size lr lc gr gc).Reports A r := fun r hR => by
  have := hR.globalRows
  change (0 : Int) = (_ : Nat) at this
  omega

/-- Three ranks with 2, 0 and 3 of 5 rows and 1 of 3 columns each. -/
def exSized : PMatrix ℚ := PMatrix.sized 3 (fun r => if r = 0 then 2 else if r = 1 then 0 else 3) (fun _ => 1) 5 3

example : ∃ A, exSized.obj = some A ∧ A.rows = [2, 0, 3] ∧ ∀ r, r < 3 → exSized.Reports A r :=
  ⟨⟨[2, 0, 3], [1, 1, 1], fun _ _ => 0, fun _ => [], false⟩, rfl, rfl, fun r hr =>
    C92_explicit_partial (by omega) (fun r _ => by split <;> [omega; (split <;> omega)]) (fun _ _ => by omega) (by omega) (by omega) rfl r hr⟩

example : ∃ A : DMat ℚ, ((PMatrix.declare : PMatrix ℚ).setSizes 2 (fun _ => 4) (fun _ => petscDecide) petscDecide 3).obj = some A ∧ 0 < A.rows.sum :=
  ⟨⟨[4, 4], [2, 1], fun _ _ => 0, fun _ => [], false⟩, rfl, by decide⟩

/-! ## C93: what is put into a distributed matrix is there after assembly -/

theorem setAll_pending {size : Nat} {I J : Nat → Vec Int} {V : Nat → Mat K} {A : DMat K} {m n : Nat → Nat} {p q : Nat → Nat → Nat}
    {g : Nat → Nat → Nat → K} (hA : ∀ r, A.pending r = []) (hna : A.assembled = false)
    (hI : ∀ r, r < size → (I r).Has (m r) (fun i => (p r i : Int))) (hJ : ∀ r, r < size → (J r).Has (n r) (fun j => (q r j : Int)))
    (hV : ∀ r, r < size → (V r).Has (m r) (n r) (g r))
    (hp : ∀ r, r < size → ∀ i, i < m r → p r i < A.rows.sum) (hq : ∀ r, r < size → ∀ j, j < n r → q r j < A.cols.sum) :
    setAll size I J V A = .ok (some { A with pending := fun r => if r < size then blockList (m r) (n r) (p r) (q r) (g r) else [] }) := by
  have key := forN_ok (n := size) (body := fun r st => match st with
      | none => pure none
      | some A => DMat.setValues A r (I r) (J r) (V r))
    (fun k => some { A with pending := fun r => if r < k then blockList (m r) (n r) (p r) (q r) (g r) else [] }) (fun r hr => by
    dsimp only
    rw [DMat.setValues_eq (A := { A with pending := fun s => if s < r then blockList (m s) (n s) (p s) (q s) (g s) else [] }) (hI r hr) (hJ r hr) (hV r hr) (hp r hr) (hq r hr)]
    simp only [lt_irrefl, if_false, List.nil_append]
    congr 2
    rw [DMat.mk.injEq]
    refine ⟨rfl, rfl, rfl, ?_, hna.symm⟩
    funext s
    by_cases h1 : s = r
    · subst h1; simp
    · have : s < r ↔ s < r + 1 := by omega
      simp only [h1, if_false, this])
  have e : A = { A with pending := fun r => if r < 0 then blockList (m r) (n r) (p r) (q r) (g r) else [] } := by
    cases A
    simp only [DMat.mk.injEq, true_and, and_true]
    funext s
    simpa using hA s
  rw [setAll]
  conv_lhs => rw [e]
  exact key

/-- C93: every rank may set a block of any rows and columns, its own or not.  Where the ranks that set an entry agree, the entry has that value
after assembly; where none did, it is zero. -/
theorem C93_set [Zero K] {size : Nat} {lr lc : Nat → Int} {gr gc : Int} {A : DMat K}
    {I J : Nat → Vec Int} {V : Nat → Mat K} {m n : Nat → Nat} {p q : Nat → Nat → Nat} {f : Nat → Nat → K}
    (hnew : (PMatrix.sized size lr lc gr gc : PMatrix K).obj = some A)
    (hI : ∀ r, r < size → (I r).Has (m r) (fun i => (p r i : Int))) (hJ : ∀ r, r < size → (J r).Has (n r) (fun j => (q r j : Int)))
    (hV : ∀ r, r < size → (V r).Has (m r) (n r) (fun i j => f (p r i) (q r j)))
    (hp : ∀ r, r < size → ∀ i, i < m r → p r i < A.rows.sum) (hq : ∀ r, r < size → ∀ j, j < n r → q r j < A.cols.sum) :
    ∃ A', setAll size I J V A = .ok (some A') ∧ ∀ B, DMat.Assembles size A' B →
      B.assembled = true ∧ B.rows = A.rows ∧ B.cols = A.cols ∧
      (∀ r, r < size → ∀ i, i < m r → ∀ j, j < n r → B.vals (p r i) (q r j) = f (p r i) (q r j)) ∧
      ∀ a b, (∀ r, r < size → ∀ i, i < m r → ∀ j, j < n r → ¬ (p r i = a ∧ q r j = b)) → B.vals a b = 0 := by
  obtain ⟨_, _, hpend, hval⟩ := DMat.new_eq_some hnew
  have hna : A.assembled = false := by
    change DMat.new size lr lc gr gc = some A at hnew
    unfold DMat.new at hnew
    cases h1 : layout size lr gr <;> cases h2 : layout size lc gc <;> rw [h1, h2] at hnew <;> cases hnew
    rfl
  refine ⟨_, setAll_pending hpend hna hI hJ hV hp hq, fun B hB => ⟨hB.assembled, hB.rows, hB.cols, ?_, ?_⟩⟩
  · intro r hr i hi j hj
    refine hB.agreed (fun s hs e he h1 h2 => ?_) ⟨r, hr, f (p r i) (q r j), ?_⟩
    · simp only [if_pos hs] at he
      obtain ⟨a, ha, b, hb, rfl⟩ := mem_blockList.1 he
      dsimp only at h1 h2 ⊢
      rw [h1, h2]
    · simp only [if_pos hr]
      exact mem_blockList.2 ⟨i, hi, j, hj, rfl⟩
  · intro a b hab
    rw [hB.untouched, hval]
    intro r hr e he
    simp only [if_pos hr] at he
    obtain ⟨i, hi, j, hj, rfl⟩ := mem_blockList.1 he
    exact hab r hr i hi j hj

/-- C93: a distributed matrix made from a serial one that all ranks have has its shape and entries after assembly, on any number of ranks. -/
theorem C93_serial [Zero K] {size m n : Nat} {serial : Nat → Mat K} {f : Nat → Nat → K} (h0 : 0 < size)
    (h : ∀ r, r < size → (serial r).Has m n f) :
    ∃ w A, PMatrix.fromSerial size serial = .ok w ∧ w.obj = some A ∧ (∃ B, DMat.Assembles size A B) ∧
      ∀ B, DMat.Assembles size A B → B.Has size m n f := by
  refine ⟨_, _, fromSerial_eq h0 h, rfl, DMat.Assembles.exists h0 _, fun B hB =>
    ⟨by rw [hB.rows]; simp, by rw [hB.cols]; simp, by rw [hB.rows]; exact share_total h0 m, by rw [hB.cols]; exact share_total h0 n, hB.assembled, ?_⟩⟩
  intro i hi j hj
  refine hB.agreed (fun s hs e he h1 h2 => ?_) ⟨0, h0, f i j, ?_⟩
  · simp only [if_pos hs] at he
    obtain ⟨a, ha, b, hb, rfl⟩ := mem_blockList.1 he
    dsimp only [id] at h1 h2 ⊢
    rw [h1, h2]
  · simp only [if_pos h0]
    exact mem_blockList.2 ⟨i, hi, j, hj, rfl⟩

/-- C93: every rank reads any columns of any of its own rows, in the order it asks for them. -/
theorem C93_get {size M N r : Nat} {A : DMat K} {f : Nat → Nat → K} (hA : A.Has size M N f) {I J : Vec Int} {V : Mat K} {m n : Nat}
    {p q : Nat → Nat} {v : Nat → Nat → K} (hI : I.Has m (fun i => (p i : Int))) (hJ : J.Has n (fun j => (q j : Int))) (hV : V.Has m n v)
    (hp : ∀ i, i < m → A.Owns r (p i)) (hq : ∀ j, j < n → q j < N) :
    ∃ W, A.getValues r I J V = .ok (some W) ∧ W.Has m n (fun i j => f (p i) (q j)) := by
  refine ⟨_, DMat.getValues_eq hA.assembled hI hJ hV hp (fun j hj => by rw [hA.cols]; exact hq j hj), ?_⟩
  rw [Mat.has_iff]
  refine Mat.ofFn_congr (fun i hi j hj => hA.entry _ ?_ _ (hq j hj))
  obtain ⟨-, h2⟩ := DMat.owns_iff.1 (hp i hi)
  have h3 : A.first (r + 1) ≤ A.rows.sum := by
    conv_rhs => rw [← List.take_append_drop (r + 1) A.rows, List.sum_append]
    exact Nat.le_add_right _ _
  rw [hA.rows] at h3
  omega

/-- Every row belongs to exactly one rank, so with C93 every entry can be read on some rank. -/
theorem C93_owner {size M N : Nat} {A : DMat K} {f : Nat → Nat → K} (hA : A.Has size M N f) {i : Nat} (hi : i < M) :
    ∃! r, r < size ∧ A.Owns r i := by
  have mono : ∀ a b, a ≤ b → A.first a ≤ A.first b := fun a b h => by
    induction b, h using Nat.le_induction with
    | base => exact le_rfl
    | succ b _ ih => rw [DMat.first_succ]; omega
  have hlast : A.first size = M := by rw [DMat.first, ← hA.ranksRows, List.take_length, hA.rows]
  have hex : ∃ r, i < A.first (r + 1) := by
    refine ⟨size, ?_⟩
    have := mono size (size + 1) (by omega)
    omega
  classical
  refine ⟨Nat.find hex, ⟨?_, ?_⟩, ?_⟩
  · by_contra hn
    rcases Nat.eq_zero_or_pos size with h | h
    · rw [h, DMat.first] at hlast
      simp at hlast; omega
    · exact Nat.find_min hex (m := size - 1) (by omega) (by rw [show size - 1 + 1 = size by omega, hlast]; exact hi)
  · refine DMat.owns_iff.2 ⟨?_, Nat.find_spec hex⟩
    rcases Nat.eq_zero_or_pos (Nat.find hex) with h | h
    · rw [h, DMat.first]; simp
    · have := Nat.find_min hex (m := Nat.find hex - 1) (by omega)
      rw [show Nat.find hex - 1 + 1 = Nat.find hex by omega] at this
      omega
  · rintro s ⟨_, hs⟩
    obtain ⟨h1, h2⟩ := DMat.owns_iff.1 hs
    refine le_antisymm ?_ (Nat.find_min' hex h2)
    by_contra hn
    have := mono (Nat.find hex + 1) s (by omega)
    have := Nat.find_spec hex
    omega

/-- The hypothesis of `C93_serial` that the ranks have the same matrix is needed: any rank's matrix can be the outcome. -/
theorem C93_ranks_wrong [Zero K] {size m n : Nat} {serial : Nat → Mat K} {g : Nat → Nat → Nat → K} (h0 : 0 < size)
    (h : ∀ r, r < size → (serial r).Has m n (g r)) :
    ∃ w A, PMatrix.fromSerial size serial = .ok w ∧ w.obj = some A ∧ ∀ r, r < size → ∃ B, DMat.Assembles size A B ∧ B.Has size m n (g r) := by
  refine ⟨_, _, fromSerial_eq h0 h, rfl, fun r hr => ?_⟩
  have hw : ∀ i j, i < m → j < n → ∃ x, DMat.lastWrite (blockList m n id id (g r)) i j = some x := fun i j hi hj =>
    DMat.lastWrite_some (mem_blockList.2 ⟨i, hi, j, hj, rfl⟩)
  refine ⟨_, DMat.Assembles.choice (fun _ _ => r) (fun _ _ => hr) (fun i j => ?_), by simp, by simp, share_total h0 m, share_total h0 n, rfl, ?_⟩
  · simp only [if_pos hr]
    by_cases hij : i < m ∧ j < n
    · exact .inr (hw i j hij.1 hij.2)
    · refine .inl (fun s hs => ?_)
      simp only [if_pos hs]
      refine DMat.lastWrite_none (fun e he h' => hij ?_)
      obtain ⟨a, ha, b, hb, rfl⟩ := mem_blockList.1 he
      obtain ⟨rfl, rfl⟩ := h'
      exact ⟨ha, hb⟩
  · intro i hi j hj
    obtain ⟨x, hx⟩ := hw i j hi hj
    simp only [if_pos hr, hx, Option.getD_some]
    obtain ⟨a, _, b, _, e⟩ := mem_blockList.1 (DMat.lastWrite_mem hx)
    simp only [Prod.mk.injEq, id] at e
    obtain ⟨rfl, rfl, rfl⟩ := e
    rfl

/-- The constructor does not assemble: until the caller does, nothing can be read. -/
theorem C93_unassembled_wrong [Zero K] {size m n : Nat} {serial : Nat → Mat K} {f : Nat → Nat → K} (h0 : 0 < size)
    (h : ∀ r, r < size → (serial r).Has m n f) (r : Nat) (I J : Vec Int) (V : Mat K) :
    ∃ w A, PMatrix.fromSerial size serial = .ok w ∧ w.obj = some A ∧ A.getValues r I J V = .ok none :=
  ⟨_, _, fromSerial_eq h0 h, rfl, rfl⟩

/-- The 3 by 2 matrix with entries 10 i + j. -/
def exSerial : Mat ℚ := Mat.ofFn 3 2 (fun i j => 10 * i + j)

example : ∃ w A, PMatrix.fromSerial 2 (fun _ => exSerial) = .ok w ∧ w.obj = some A ∧
    (∃ B, DMat.Assembles 2 A B) ∧ ∀ B, DMat.Assembles 2 A B → B.Has 2 3 2 (fun i j => 10 * i + j) :=
  C93_serial (by omega) (fun _ _ => Mat.has_ofFn _ _ _)

/-- On two ranks the second has the last of three rows. -/
def exAssembled : DMat ℚ := ⟨[2, 1], [1, 1], fun i j => 10 * i + j, fun _ => [], true⟩

example : ∃ W, exAssembled.getValues 1 (Vec.ofFn 1 (fun _ => 2)) (Vec.ofFn 2 (fun j => ((1 - j : Nat) : Int))) (Mat.ofFn 1 2 (fun _ _ => 0)) = .ok (some W) ∧
    W.Has 1 2 (fun _ j => 10 * 2 + ((1 - j : Nat) : ℚ)) :=
  C93_get (A := exAssembled) (r := 1) (size := 2) (M := 3) (N := 2) (f := fun i j => (10 * i + j : ℚ)) (p := fun _ => 2) (q := fun j => 1 - j) ⟨rfl, rfl, rfl, rfl, rfl, fun _ _ _ _ => rfl⟩
    (Vec.has_ofFn _ _) (Vec.has_ofFn _ _) (Mat.has_ofFn _ _ _) (fun _ _ => ⟨0, by decide, rfl⟩) (fun j _ => by omega)

/-- Both ranks set all of a 2 by 2 matrix but rank 1 only its second column, which rank 0 leaves. -/
example : ∃ A A' : DMat ℚ, (PMatrix.sized 2 (fun _ => 1) (fun _ => 1) 2 2 : PMatrix ℚ).obj = some A ∧
    setAll 2 (fun _ => Vec.ofFn 2 (fun i => (i : Int))) (fun r => Vec.ofFn 1 (fun _ => (r : Int))) (fun r => Mat.ofFn 2 1 (fun i _ => (5 * i + r : ℚ))) A = .ok (some A') ∧
    ∀ B, DMat.Assembles 2 A' B → B.vals 1 0 = 5 ∧ B.vals 1 1 = 6 ∧ B.vals 7 7 = 0 := by
  have h := C93_set (K := ℚ) (size := 2) (lr := fun _ => 1) (lc := fun _ => 1) (gr := 2) (gc := 2)
    (A := ⟨[1, 1], [1, 1], fun _ _ => 0, fun _ => [], false⟩) (I := fun _ => Vec.ofFn 2 (fun i => (i : Int)))
    (J := fun r => Vec.ofFn 1 (fun _ => (r : Int))) (V := fun r => Mat.ofFn 2 1 (fun i _ => (5 * i + r : ℚ)))
    (m := fun _ => 2) (n := fun _ => 1) (p := fun _ i => i) (q := fun r _ => r) (f := fun i j => 5 * i + j) rfl
    (fun _ _ => Vec.has_ofFn _ _) (fun _ _ => Vec.has_ofFn _ _) (fun _ _ => Mat.has_ofFn _ _ _) (fun _ _ i hi => hi) (fun r hr _ _ => hr)
  obtain ⟨A', hA', hB⟩ := h
  refine ⟨_, A', rfl, hA', fun B hB' => ?_⟩
  obtain ⟨-, -, -, h1, h2⟩ := hB B hB'
  refine ⟨?_, ?_, h2 7 7 (fun r hr _ _ _ _ h => by omega)⟩
  · have := h1 0 (by omega) 1 (by omega) 0 (by omega); simpa using this
  · have := h1 1 (by omega) 1 (by omega) 0 (by omega); rw [this]; norm_num

/-! ## C94: moving matrices to a communicator with more ranks stacks their rows -/

/-- C94, square matrices of one rank each: the rows of the ranks are stacked in the order of the ranks, each rank has its own. -/
theorem C94_square_partial [Zero K] {size n : Nat} {sub : Nat → PMatrix K} {f : Nat → Nat → Nat → K} (h0 : 0 < size)
    (h : ∀ r, r < size → OwnMatrix (sub r) n n (f r)) :
    ∃ B, (PMatrix.moveTo size sub (fun _ => 0)).obj = some B ∧ B.rows = List.replicate size n ∧
      B.Has size (size * n) n (fun i j => f (i / n) (i % n) j) := by
  have : Nonempty (DMat K) := ⟨⟨[], [], fun _ _ => 0, fun _ => [], true⟩⟩
  choose! A hA using fun r (hr : r < size) => (h r hr).obj
  obtain ⟨B, hB, e1, e2, e3, e4⟩ := moveTo_eq (sub := sub) (q := fun _ => 0) (A := A) (n := n) h0 (fun r hr => (hA r hr).1)
    (fun r hr => (hA r hr).2.2.2.1) (fun r hr => by rw [(hA r hr).2.1]; rfl) (fun r hr => by rw [(hA r hr).2.2.1, DMat.first]; simp)
  refine ⟨B, hB, e1, by rw [e1]; simp, by rw [e2]; simp, by rw [e1]; simp, by rw [e2]; exact share_total h0 n, e3, fun i hi j hj => ?_⟩
  have hn : 0 < n := by omega
  have hr : i / n < size := Nat.div_lt_of_lt_mul (by rwa [Nat.mul_comm])
  have := e4 (i / n) hr (i % n) (Nat.mod_lt _ hn) j
  rw [Nat.mul_comm, Nat.div_add_mod] at this
  rw [this, ← (hA _ hr).2.2.2.2.1 (i % n) (Nat.mod_lt _ hn) j hj, DMat.first]
  simp

/-- C94 is false for matrices with more columns than rows: the columns after the `m`-th are lost. -/
theorem C94_wide_wrong [Zero K] {size m n : Nat} {sub : Nat → PMatrix K} {f : Nat → Nat → Nat → K} (h0 : 0 < size) (hmn : m < n)
    (h : ∀ r, r < size → OwnMatrix (sub r) m n (f r)) :
    ∃ B, (PMatrix.moveTo size sub (fun _ => 0)).obj = some B ∧ B.cols.sum = m ∧ B.cols.sum ≠ n := by
  have : Nonempty (DMat K) := ⟨⟨[], [], fun _ _ => 0, fun _ => [], true⟩⟩
  choose! A hA using fun r (hr : r < size) => (h r hr).obj
  obtain ⟨B, hB, e1, e2, e3, e4⟩ := moveTo_eq (sub := sub) (q := fun _ => 0) (A := A) (n := m) h0 (fun r hr => (hA r hr).1)
    (fun r hr => (hA r hr).2.2.2.1) (fun r hr => by rw [(hA r hr).2.1]; rfl) (fun r hr => by rw [(hA r hr).2.2.1, DMat.first]; simp; omega)
  have : B.cols.sum = m := by rw [e2]; exact share_total h0 m
  exact ⟨B, hB, this, by omega⟩

/-- C94 is false for matrices with more rows than columns: PETSc refuses the column numbers, there is no matrix. -/
theorem C94_tall_wrong [Zero K] {size m n : Nat} {sub : Nat → PMatrix K} {f : Nat → Nat → Nat → K} (h0 : 0 < size) (hmn : n < m)
    (h : ∀ r, r < size → OwnMatrix (sub r) m n (f r)) : (PMatrix.moveTo size sub (fun _ => 0)).obj = none := by
  obtain ⟨A, hA, h1, h2, h3, -⟩ := (h 0 h0).obj
  have hm : (List.range size).mapM (fun r => (sub r).obj.bind (fun A => PMatrix.block A 0)) = none := by
    refine mapM_none (x := 0) (List.mem_range.2 h0) ?_
    rw [hA, Option.bind_some, PMatrix.block, if_neg]
    rintro ⟨-, h4⟩
    rw [DMat.first_succ, DMat.ncols, h1, h2, DMat.first] at h4
    simp at h4
    omega
  unfold PMatrix.moveTo
  simp only [hm]
  rfl

/-- C94 is false for a matrix that is already shared: of a square matrix with `n` rows on each of the ranks only the diagonal blocks are kept,
the rest is lost. -/
theorem C94_several_wrong [Zero K] {size n : Nat} {w : PMatrix K} {A : DMat K} {f : Nat → Nat → K} (h0 : 2 ≤ size) (hn : 0 < n)
    (hw : w.obj = some A) (hA : A.Has size (size * n) (size * n) f) (hr : A.rows = List.replicate size n) :
    ∃ B, (PMatrix.moveTo size (fun _ => w) id).obj = some B ∧ B.Has size (size * n) n (fun i j => f i (i / n * n + j)) ∧
      B.cols.sum ≠ A.cols.sum := by
  have hf : ∀ r, r ≤ size → A.first r = r * n := fun r h => by
    rw [DMat.first, hr, List.take_replicate, Nat.min_eq_left h]; simp
  obtain ⟨B, hB, e1, e2, e3, e4⟩ := moveTo_eq (sub := fun _ => w) (q := id) (A := fun _ => A) (n := n) (size := size) (by omega) (fun _ _ => hw)
    (fun _ _ => hA.assembled) (fun r h => by rw [hr]; simp [List.getD, h]) (fun r h => by
      rw [hA.cols, id, hf r h.le]
      have : (r + 1) * n ≤ size * n := Nat.mul_le_mul_right n h
      rwa [Nat.succ_mul] at this)
  have hc : B.cols.sum = n := by rw [e2]; exact share_total (by omega) n
  refine ⟨B, hB, ⟨by rw [e1]; simp, by rw [e2]; simp, by rw [e1]; simp, hc, e3, fun i hi j hj => ?_⟩, ?_⟩
  · have hq : i / n < size := Nat.div_lt_of_lt_mul (by rwa [Nat.mul_comm])
    have := e4 (i / n) hq (i % n) (Nat.mod_lt _ hn) j
    have hdm : i / n * n + i % n = i := by rw [Nat.mul_comm]; exact Nat.div_add_mod i n
    rw [id, hf _ hq.le, hdm] at this
    rw [this]
    refine hA.entry i hi _ ?_
    have : (i / n + 1) * n ≤ size * n := Nat.mul_le_mul_right n hq
    rw [Nat.succ_mul] at this
    omega
  · rw [hc, hA.cols]
    have : 2 * n ≤ size * n := Nat.mul_le_mul_right n h0
    omega

/-- C94 with C92: on two or more ranks the moved matrix reports the sizes it had before. -/
theorem C94_sizes_wrong [Zero K] {size n : Nat} {sub : Nat → PMatrix K} {f : Nat → Nat → Nat → K} (h0 : 2 ≤ size) (hn : 0 < n)
    (h : ∀ r, r < size → OwnMatrix (sub r) n n (f r)) :
    ∃ B, (PMatrix.moveTo size sub (fun _ => 0)).obj = some B ∧ ∀ r, r < size → (PMatrix.moveTo size sub (fun _ => 0)).globalRows r = n ∧
      ¬ (PMatrix.moveTo size sub (fun _ => 0)).Reports B r := by
  obtain ⟨B, hB, -, hH⟩ := C94_square_partial (by omega) h
  refine ⟨B, hB, fun r hr => ?_⟩
  obtain ⟨A, _, h1, _, _, _, hR⟩ := (h r hr).obj
  have e : (PMatrix.moveTo size sub (fun _ => 0)).globalRows r = n := by
    have := hR.globalRows
    rw [h1] at this
    show (sub r).globalRows 0 = n
    simpa using this
  refine ⟨e, fun hR' => ?_⟩
  have := hR'.globalRows
  rw [e, hH.rows] at this
  have h2 : 2 * n ≤ size * n := Nat.mul_le_mul_right n h0
  omega

/-- The 2 by 2 matrix `r + 10 i + j` of rank `r`. -/
def exOwn (m n r : Nat) : PMatrix ℚ := PMatrix.ofObject ⟨[m], [n], fun i j => r + 10 * i + j, fun _ => [], true⟩

theorem exOwn_own (m n r : Nat) : OwnMatrix (exOwn m n r) m n (fun i j => r + 10 * i + j) :=
  ⟨⟨_, rfl, rfl, rfl, rfl, fun _ _ _ _ => rfl, rfl, rfl, rfl, rfl⟩⟩

example := C94_square_partial (size := 3) (sub := exOwn 2 2) (by omega) (fun r _ => exOwn_own 2 2 r)
example := C94_wide_wrong (size := 3) (sub := exOwn 2 5) (by omega) (by omega) (fun r _ => exOwn_own 2 5 r)
example := C94_tall_wrong (size := 3) (sub := exOwn 5 2) (by omega) (by omega) (fun r _ => exOwn_own 5 2 r)
example := C94_sizes_wrong (size := 3) (sub := exOwn 2 2) (by omega) (by omega) (fun r _ => exOwn_own 2 2 r)
example := C94_several_wrong (K := ℚ) (size := 3) (n := 2) (w := PMatrix.identity 3 6) (by omega) (by omega) rfl
  (f := fun i j => if i = j then 1 else 0) ⟨rfl, rfl, rfl, rfl, rfl, fun _ _ _ _ => rfl⟩ rfl

end EF
