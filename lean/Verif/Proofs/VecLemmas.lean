import Verif.Model.Vector
import Mathlib.Algebra.BigOperators.Intervals
import Mathlib.Tactic.Ring
import Mathlib.Data.List.GetD

/-!
# Canonical forms for `Vec` and rewriting lemmas for every operation of `Verif.Model.Vector`.
-/

namespace EF

open Finset

theorem ite_bind {α β : Type} (c : Prop) [Decidable c] (a b : Res α) (f : α → Res β) :
    ((if c then a else b) >>= f) = if c then a >>= f else b >>= f := by
  split <;> rfl

@[simp] theorem toSize_natCast (n : Nat) : toSize (n : Int) = n := by
  unfold toSize; rw [if_pos (by omega), Int.toNat_natCast]

/-- A loop that sums. -/
theorem forN_sum {M : Type} [AddCommMonoid M] {n : Nat} {body : Nat → M → Res M} (f : Nat → M)
    (h : ∀ i, i < n → ∀ s, body i s = .ok (s + f i)) (s : M) :
    forN n body s = .ok (s + ∑ i ∈ range n, f i) := by
  induction n with
  | zero => simp
  | succ n ih =>
    rw [forN_succ, ih (fun i hi => h i (by omega)), Res.ok_bind, h n (by omega),
      sum_range_succ, add_assoc]

theorem forN_sum0 {M : Type} [AddCommMonoid M] {n : Nat} {body : Nat → M → Res M} (f : Nat → M)
    (h : ∀ i, i < n → ∀ s, body i s = .ok (s + f i)) :
    forN n body 0 = .ok (∑ i ∈ range n, f i) := by
  rw [forN_sum f h, zero_add]

section listfn
variable {α : Type}

/-- The list `[f 0, …, f (n-1)]`. -/
def listFn (n : Nat) (f : Nat → α) : List α := (List.range n).map f

@[simp] theorem length_listFn (n : Nat) (f : Nat → α) : (listFn n f).length = n := by
  simp [listFn]

theorem getElem_listFn {n : Nat} {f : Nat → α} {i : Nat} (h : i < (listFn n f).length) :
    (listFn n f)[i] = f i := by simp [listFn]

theorem getElem?_listFn {n : Nat} {f : Nat → α} {i : Nat} (h : i < n) :
    (listFn n f)[i]? = some (f i) := by simp [listFn, h]

theorem getD_listFn {n : Nat} {f : Nat → α} {i : Nat} (h : i < n) (d : α) :
    (listFn n f).getD i d = f i := by simp [listFn, h]

theorem rd_listFn {n : Nat} {f : Nat → α} {i : Nat} (h : i < n) : rd (listFn n f) i = .ok (f i) := by
  simp [rd, getElem?_listFn h]

theorem wr_listFn {n : Nat} {f : Nat → α} {i : Nat} {a : α} (h : i < n) :
    wr (listFn n f) i a = .ok (listFn n (fun k => if k = i then a else f k)) := by
  rw [wr_eq_ok (by simpa using h)]
  congr 1
  apply List.ext_getElem
  · simp
  · intro k h1 h2
    rw [List.getElem_set, getElem_listFn, getElem_listFn]
    by_cases hk : i = k <;> simp [hk, eq_comm]

theorem listFn_congr {n : Nat} {f g : Nat → α} (h : ∀ i, i < n → f i = g i) :
    listFn n f = listFn n g := by
  simp only [listFn, List.map_inj_left, List.mem_range]
  exact h

theorem eq_listFn {l : List α} {n : Nat} {f : Nat → α} (hl : l.length = n)
    (h : ∀ i, i < n → l[i]? = some (f i)) : l = listFn n f := by
  apply List.ext_getElem?
  intro i
  by_cases hi : i < n
  · rw [h i hi, getElem?_listFn hi]
  · rw [List.getElem?_eq_none (by omega), List.getElem?_eq_none (by simp; omega)]

theorem replicate_eq_listFn (n : Nat) (a : α) : List.replicate n a = listFn n (fun _ => a) := by
  apply eq_listFn (by simp)
  intro i hi; simp [hi]

theorem listFn_inj {n : Nat} {f g : Nat → α} (h : listFn n f = listFn n g) :
    ∀ i, i < n → f i = g i := by
  intro i hi
  have := congrArg (fun l => l[i]?) h
  simpa [getElem?_listFn hi] using this

theorem listFn_succ (n : Nat) (f : Nat → α) : listFn (n + 1) f = listFn n f ++ [f n] := by
  simp [listFn, List.range_succ]

theorem listFn_append (m n : Nat) (f g : Nat → α) :
    listFn m f ++ listFn n g = listFn (m + n) (fun k => if k < m then f k else g (k - m)) := by
  apply eq_listFn (by simp)
  intro i hi
  by_cases h : i < m
  · rw [List.getElem?_append_left (by simpa using h), getElem?_listFn h, if_pos h]
  · rw [List.getElem?_append_right (by simpa using h), length_listFn,
      getElem?_listFn (by omega), if_neg h]

/-- Buffer filling loop. -/
theorem forN_wr {n N : Nat} {body : Nat → List α → Res (List α)} (F : Nat → α) (f : Nat → α)
    (hn : n ≤ N)
    (h : ∀ i, i < n → ∀ f : Nat → α, body i (listFn N f) =
      .ok (listFn N (fun k => if k = i then F i else f k))) :
    forN n body (listFn N f) = .ok (listFn N (fun k => if k < n then F k else f k)) := by
  induction n with
  | zero => simp
  | succ n ih =>
    rw [forN_succ, ih (by omega) (fun i hi => h i (by omega)), Res.ok_bind, h n (by omega)]
    congr 1
    apply listFn_congr
    intro k hk
    by_cases h1 : k = n
    · simp [h1]
    · by_cases h2 : k < n
      · simp [h1, h2, Nat.lt_succ_of_lt h2]
      · have : ¬ k < n + 1 := by omega
        simp [h1, h2, this]

end listfn

namespace Vec

variable {α : Type} {K : Type}

/-- The well-formed vector with entries `f 0, …, f (n-1)`. -/
def ofFn (n : Nat) (f : Nat → α) : Vec α := ⟨n, listFn n f⟩

@[simp] theorem size_ofFn (n : Nat) (f : Nat → α) : (ofFn n f).size = n := rfl
@[simp] theorem data_ofFn (n : Nat) (f : Nat → α) : (ofFn n f).data = listFn n f := rfl

theorem fill_eq (n : Nat) (a : α) : fill n a = ofFn n (fun _ => a) := by
  simp [fill, ofFn, replicate_eq_listFn]

theorem zeros_eq [Zero α] (n : Nat) : (zeros n : Vec α) = ofFn n (fun _ => 0) := fill_eq n 0

theorem get_ofFn {n : Nat} {f : Nat → α} {i : Nat} (h : i < n) : (ofFn n f).get i = .ok (f i) := by
  unfold get
  rw [if_neg (by simp; omega)]
  exact rd_listFn h

theorem set_ofFn {n : Nat} {f : Nat → α} {i : Nat} {a : α} (h : i < n) :
    (ofFn n f).set i a = .ok (ofFn n (fun k => if k = i then a else f k)) := by
  unfold set
  rw [if_neg (by simp; omega)]
  simp [wr_listFn h, ofFn]

theorem ofFn_congr {n : Nat} {f g : Nat → α} (h : ∀ i, i < n → f i = g i) :
    ofFn n f = ofFn n g := by simp [ofFn, listFn_congr h]

theorem ofFn_inj {n : Nat} {f g : Nat → α} (h : ofFn n f = ofFn n g) :
    ∀ i, i < n → f i = g i := by
  simp [ofFn] at h; exact listFn_inj h

/-- Vector filling loop: iteration `i` overwrites entry `i` by `G i (old entry)`. -/
theorem forN_upd {n N : Nat} {body : Nat → Vec α → Res (Vec α)} (G : Nat → α → α) (f : Nat → α)
    (o : Nat) (hn : o + n ≤ N)
    (h : ∀ i, i < n → ∀ f : Nat → α, body i (ofFn N f) =
      .ok (ofFn N (fun k => if k = o + i then G i (f k) else f k))) :
    forN n body (ofFn N f) =
      .ok (ofFn N (fun k => if o ≤ k ∧ k < o + n then G (k - o) (f k) else f k)) := by
  induction n with
  | zero =>
    rw [forN_zero]; congr 1; apply ofFn_congr; intro k _
    rw [if_neg (by omega)]
  | succ n ih =>
    rw [forN_succ, ih (by omega) (fun i hi => h i (by omega)), Res.ok_bind, h n (by omega)]
    congr 1
    apply ofFn_congr
    intro k hk
    by_cases h1 : k = o + n
    · subst h1; simp
    · by_cases h2 : o ≤ k ∧ k < o + n
      · rw [if_neg h1, if_pos h2, if_pos (by omega)]
      · rw [if_neg h1, if_neg h2, if_neg (by omega)]

/-- Filling all entries starting from any vector of the right size. -/
theorem forN_fill {n : Nat} {body : Nat → Vec α → Res (Vec α)} (F : Nat → α) (f : Nat → α)
    (h : ∀ i, i < n → ∀ f : Nat → α, body i (ofFn n f) =
      .ok (ofFn n (fun k => if k = i then F i else f k))) :
    forN n body (ofFn n f) = .ok (ofFn n F) := by
  rw [forN_upd (fun i _ => F i) f 0 (by omega)]
  · congr 1; apply ofFn_congr; intro k hk; simp [hk]
  · intro i hi f; rw [h i hi]; simp

theorem forN_map {n : Nat} {body : Nat → Vec α → Res (Vec α)} (G : Nat → α → α) (f : Nat → α)
    (h : ∀ i, i < n → ∀ f : Nat → α, body i (ofFn n f) =
      .ok (ofFn n (fun k => if k = i then G i (f k) else f k))) :
    forN n body (ofFn n f) = .ok (ofFn n (fun i => G i (f i))) := by
  rw [forN_upd G f 0 (by omega)]
  · congr 1; apply ofFn_congr; intro k hk; simp [hk]
  · intro i hi f; rw [h i hi]; simp

/-! ### Operations -/

theorem getSegment_ofFn [Zero α] {n : Nat} {f : Nat → α} {s l : Nat} (h : s + l ≤ n) :
    (ofFn n f).getSegment s l = .ok (ofFn l (fun i => f (s + i))) := by
  unfold getSegment
  rw [if_neg (by simp; omega), zeros_eq]
  apply forN_fill
  intro i hi g
  simp only [data_ofFn, rd_listFn (show s + i < n by omega), Res.ok_bind, set_ofFn hi]

theorem setSegment_ofFn {n m : Nat} {f g : Nat → α} {s : Nat} (h : s + m ≤ n) :
    (ofFn n f).setSegment s (ofFn m g) =
      .ok (ofFn n (fun k => if s ≤ k ∧ k < s + m then g (k - s) else f k)) := by
  unfold setSegment
  rw [if_neg (by simp; omega), size_ofFn]
  rw [forN_upd (fun i _ => g i) f s h]
  intro i hi f
  simp only [get_ofFn hi, Res.ok_bind, data_ofFn, wr_listFn (show s + i < n by omega)]
  rfl

theorem append_ofFn (m n : Nat) (f g : Nat → α) :
    (ofFn m f).append (ofFn n g) = ofFn (m + n) (fun k => if k < m then f k else g (k - m)) := by
  simp [append, ofFn, listFn_append]

theorem getFromIndexSet_ofFn [Zero α] {n : Nat} {f : Nat → α} {m : Nat} {I : Nat → Nat} (hm : m ≤ n)
    (hI : ∀ i, i < m → I i < n) :
    (ofFn n f).getFromIndexSet (ofFn m (fun i => (I i : Int))) = .ok (ofFn m (fun i => f (I i))) := by
  unfold getFromIndexSet
  rw [if_neg (by simp; omega), zeros_eq, size_ofFn]
  apply forN_fill
  intro i hi g
  have h1 := hI i hi
  simp only [get_ofFn hi, Res.ok_bind, toSize_natCast, size_ofFn]
  rw [if_neg (by omega), get_ofFn h1, Res.ok_bind, set_ofFn hi]

section arith
variable [Field K]

theorem updData_ofFn {n : Nat} {f : Nat → α} {i : Nat} {g : α → Res α} {b : α} (h : i < n)
    (hg : g (f i) = .ok b) :
    (ofFn n f).updData i g = .ok (ofFn n (fun k => if k = i then b else f k)) := by
  simp only [updData, data_ofFn, rd_listFn h, Res.ok_bind, hg, wr_listFn h]
  rfl

theorem neg_ofFn {n : Nat} {f : Nat → K} : (ofFn n f).neg = .ok (ofFn n (fun i => - f i)) := by
  unfold neg
  rw [zeros_eq, size_ofFn]
  apply forN_fill
  intro i hi g
  simp only [data_ofFn, rd_listFn hi, Res.ok_bind, set_ofFn hi]

private theorem upd_aux {n : Nat} {f : Nat → α} (G : Nat → α → α)
    {body : Nat → α → Res α} (h : ∀ i, i < n → ∀ a, body i a = .ok (G i a)) :
    forN n (fun i (res : Vec α) => res.updData i (body i)) (ofFn n f) =
      .ok (ofFn n (fun i => G i (f i))) := by
  apply forN_map
  intro i hi f
  rw [updData_ofFn hi (h i hi _)]
  congr 1; apply ofFn_congr; intro k hk
  by_cases hki : k = i <;> simp [hki]

theorem addAssign_ofFn {n : Nat} {f g : Nat → K} :
    (ofFn n f).addAssign (ofFn n g) = .ok (ofFn n (fun i => f i + g i)) := by
  unfold addAssign
  rw [if_neg (by simp), size_ofFn]
  exact upd_aux (fun i a => a + g i) (fun i hi a => by simp [get_ofFn hi])

theorem add_ofFn {n : Nat} {f g : Nat → K} :
    (ofFn n f).add (ofFn n g) = .ok (ofFn n (fun i => f i + g i)) := by
  unfold add
  rw [if_neg (by simp), addAssign_ofFn]

theorem subAssign_ofFn {n : Nat} {f g : Nat → K} :
    (ofFn n f).subAssign (ofFn n g) = .ok (ofFn n (fun i => f i - g i)) := by
  unfold subAssign
  rw [if_neg (by simp), size_ofFn]
  exact upd_aux (fun i a => a - g i) (fun i hi a => by simp [get_ofFn hi])

theorem sub_ofFn {n : Nat} {f g : Nat → K} :
    (ofFn n f).sub (ofFn n g) = .ok (ofFn n (fun i => f i - g i)) := by
  unfold sub
  rw [if_neg (by simp), subAssign_ofFn]

theorem addScalarAssign_ofFn {n : Nat} {f : Nat → K} {s : K} :
    (ofFn n f).addScalarAssign s = .ok (ofFn n (fun i => f i + s)) :=
  upd_aux (fun _ a => a + s) (fun i hi a => by simp)

theorem subScalarAssign_ofFn {n : Nat} {f : Nat → K} {s : K} :
    (ofFn n f).subScalarAssign s = .ok (ofFn n (fun i => f i - s)) :=
  upd_aux (fun _ a => a - s) (fun i hi a => by simp)

theorem mulScalarAssign_ofFn {n : Nat} {f : Nat → K} {s : K} :
    (ofFn n f).mulScalarAssign s = .ok (ofFn n (fun i => f i * s)) :=
  upd_aux (fun _ a => a * s) (fun i hi a => by simp)

theorem divScalarAssign_ofFn {n : Nat} {f : Nat → K} {s : K} :
    (ofFn n f).divScalarAssign s = .ok (ofFn n (fun i => f i / s)) :=
  upd_aux (fun _ a => a / s) (fun i hi a => by simp)

theorem dot_ofFn {n : Nat} {f g : Nat → K} :
    (ofFn n f).dot (ofFn n g) = .ok (∑ i ∈ Finset.range n, f i * g i) := by
  unfold dot
  rw [if_neg (by simp), size_ofFn]
  apply forN_sum0
  intro i hi s
  simp only [get_ofFn hi, data_ofFn, rd_listFn hi, Res.ok_bind, Res.pure_def, mul_comm (g i)]

theorem smul_ofFn {n : Nat} {f : Nat → K} {c : K} :
    smul c (ofFn n f) = .ok (ofFn n (fun i => c * f i)) := by
  unfold smul
  rw [zeros_eq, size_ofFn]
  apply forN_fill
  intro i hi g
  simp only [get_ofFn hi, Res.ok_bind, set_ofFn hi]

theorem mulEntry_ofFn {n : Nat} {f g : Nat → K} :
    mulEntry (ofFn n f) (ofFn n g) = .ok (ofFn n (fun i => f i * g i)) := by
  unfold mulEntry
  rw [if_neg (by simp), zeros_eq, size_ofFn]
  apply forN_fill
  intro i hi h
  simp only [get_ofFn hi, Res.ok_bind, set_ofFn hi]

theorem divEntry_ofFn {n : Nat} {f g : Nat → K} :
    divEntry (ofFn n f) (ofFn n g) = .ok (ofFn n (fun i => f i / g i)) := by
  unfold divEntry
  rw [if_neg (by simp), zeros_eq, size_ofFn]
  apply forN_fill
  intro i hi h
  simp only [get_ofFn hi, Res.ok_bind, set_ofFn hi]

end arith

theorem range_eq {a b : Int} (h : a ≤ b + 1) :
    Vec.range a b = .ok (ofFn (b - a + 1).toNat (fun i => a + i)) := by
  unfold Vec.range
  simp only []
  rw [if_neg (by omega), zeros_eq]
  apply forN_fill
  intro i hi g
  rw [set_ofFn hi]

/-! ### Concatenation -/

/-- The concatenation of the entries of a list of (size, entries) pairs. -/
def catFn (l : List (Nat × (Nat → α))) : List α := (l.map (fun p => listFn p.1 p.2)).flatten

theorem concat_inner [Zero α] {N : Nat} {m : Nat} {g : Nat → α} (c : Nat) (f : Nat → α) (h : c + m ≤ N) :
    forN m (fun i (st : Vec α × Nat) => do
      let a ← (ofFn m g).get i
      let r ← st.1.set st.2 a
      pure (r, st.2 + 1)) (ofFn N f, c)
    = .ok (ofFn N (fun k => if c ≤ k ∧ k < c + m then g (k - c) else f k), c + m) := by
  have key := forN_ok (n := m) (body := fun i (st : Vec α × Nat) => do
      let a ← (ofFn m g).get i
      let r ← st.1.set st.2 a
      pure (r, st.2 + 1))
    (fun i => (ofFn N (fun k => if c ≤ k ∧ k < c + i then g (k - c) else f k), c + i)) (by
      intro i hi
      simp only [get_ofFn hi, Res.ok_bind, set_ofFn (show c + i < N by omega), Res.pure_def]
      congr 2
      apply ofFn_congr
      intro k hk
      by_cases h1 : k = c + i
      · subst h1; simp
      · by_cases h2 : c ≤ k ∧ k < c + i
        · rw [if_neg h1, if_pos h2, if_pos (by omega)]
        · rw [if_neg h1, if_neg h2, if_neg (by omega)])
  have h0 : (ofFn N (fun k => if c ≤ k ∧ k < c + 0 then g (k - c) else f k), c + 0) = (ofFn N f, c) := by
    congr 1
    apply ofFn_congr; intro k _; rw [if_neg (by omega)]
  rw [h0] at key
  exact key

theorem concat_outer [Zero α] (l : List (Nat × (Nat → α))) (N c : Nat) (f : Nat → α)
    (h : c + (l.map Prod.fst).sum ≤ N) :
    ∃ F, forL (l.map (fun p => ofFn p.1 p.2)) (fun v (st : Vec α × Nat) =>
      forN v.size (fun i (st : Vec α × Nat) => do
      let a ← v.get i
      let r ← st.1.set st.2 a
      pure (r, st.2 + 1)) st) (ofFn N f, c)
    = .ok (ofFn N F, c + (l.map Prod.fst).sum) ∧
      (∀ k, k < c → F k = f k) ∧
      (∀ k, k < (l.map Prod.fst).sum → (catFn l)[k]? = some (F (c + k))) := by
  induction l generalizing c f with
  | nil => exact ⟨f, by simp, by simp, by simp⟩
  | cons p l ih =>
    simp only [List.map_cons, List.sum_cons] at h
    obtain ⟨F, h1, h2, h3⟩ := ih (c + p.1) (fun k => if c ≤ k ∧ k < c + p.1 then p.2 (k - c) else f k)
      (by omega)
    refine ⟨F, ?_, ?_, ?_⟩
    · simp only [List.map_cons, forL_cons, size_ofFn]
      rw [concat_inner c f (by omega), Res.ok_bind]
      rw [h1]; simp [add_assoc]
    · intro k hk
      rw [h2 k (by omega), if_neg (by omega)]
    · intro k hk
      simp only [List.map_cons, List.sum_cons] at hk
      have : catFn (p :: l) = listFn p.1 p.2 ++ catFn l := by simp [catFn]
      rw [this]
      by_cases hkp : k < p.1
      · rw [List.getElem?_append_left (by simpa using hkp), getElem?_listFn hkp, h2 _ (by omega),
          if_pos (by omega), Nat.add_sub_cancel_left]
      · rw [List.getElem?_append_right (by simpa using hkp), length_listFn, h3 _ (by omega)]
        congr 2; omega

theorem length_catFn (l : List (Nat × (Nat → α))) : (catFn l).length = (l.map Prod.fst).sum := by
  induction l with
  | nil => rfl
  | cons p l ih => simp [catFn] at ih ⊢; omega

theorem forL_size (l : List (Nat × (Nat → α))) (s : Nat) :
    forL (l.map (fun p => ofFn p.1 p.2)) (fun v n => pure (n + v.size)) s
      = .ok (s + (l.map Prod.fst).sum) := by
  induction l generalizing s with
  | nil => simp
  | cons p l ih =>
    simp only [List.map_cons, forL_cons, Res.pure_def, Res.ok_bind, size_ofFn, List.sum_cons]
    have := ih (s + p.1)
    simp only [Res.pure_def] at this
    rw [this, add_assoc]

theorem concatenate_ofFn [Zero α] (l : List (Nat × (Nat → α))) :
    concatenate (l.map (fun p => ofFn p.1 p.2)) = .ok ⟨(l.map Prod.fst).sum, catFn l⟩ := by
  unfold concatenate
  rw [forL_size l 0, Res.ok_bind, zeros_eq, Nat.zero_add]
  obtain ⟨F, h1, -, h3⟩ := concat_outer l (l.map Prod.fst).sum 0 (fun _ => (0 : α)) (by omega)
  rw [h1, Res.ok_bind, Res.pure_def]
  congr 1
  simp only [ofFn]
  congr 1
  exact (eq_listFn (length_catFn l) (fun i hi => by simpa using h3 i hi)).symm

end Vec
end EF
