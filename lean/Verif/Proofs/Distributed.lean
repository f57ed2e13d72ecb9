import Verif.Spec.Distributed
import Verif.Proofs.HasLemmas

/-!
# Lemmas on distributed matrices
-/

namespace EF

namespace Dist

variable {K : Type}

theorem share_sum (N size : Nat) : ∀ k, k ≤ size → ((List.range k).map (share N size)).sum = k * (N / size) + min k (N % size)
  | 0, _ => by simp
  | k + 1, h => by
    rw [List.range_succ, List.map_append, List.sum_append, share_sum N size k (by omega), Nat.succ_mul]
    simp only [share, List.map_cons, List.map_nil, List.sum_cons, List.sum_nil]
    split <;> omega

theorem share_total {size : Nat} (h : 0 < size) (N : Nat) : ((List.range size).map (share N size)).sum = N := by
  rw [share_sum N size size le_rfl, min_eq_right (Nat.mod_lt _ h).le]
  exact Nat.div_add_mod N size

theorem layout_decide {size : Nat} (N : Nat) : layout size (fun _ => petscDecide) N = some ((List.range size).map (share N size)) := by
  simp [layout]

theorem layout_given {size : Nat} {loc : Nat → Int} {N : Int} {l : List Nat} (h0 : 0 < size) (h : ∀ r, r < size → 0 ≤ loc r)
    (hl : layout size loc N = some l) : l = (List.range size).map (fun r => (loc r).toNat) ∧ (N = petscDecide ∨ N = (l.sum : Nat)) := by
  have hn : ¬ ∀ r, r < size → loc r = petscDecide := fun h' => by
    have a := h 0 h0; rw [h' 0 h0, petscDecide] at a; omega
  rw [layout, if_neg hn, if_pos h] at hl
  split at hl
  · next hs => cases hl; exact ⟨rfl, hs⟩
  · cases hl

theorem layout_length {size : Nat} {loc : Nat → Int} {N : Int} {l : List Nat} (hl : layout size loc N = some l) : l.length = size := by
  unfold layout at hl
  split at hl
  · split at hl
    · cases hl; simp
    · cases hl
  · split at hl
    · split at hl
      · cases hl; simp
      · cases hl
    · cases hl

theorem DMat.new_eq_some [Zero K] {size : Nat} {lr lc : Nat → Int} {gr gc : Int} {A : DMat K} (h : DMat.new size lr lc gr gc = some A) :
    layout size lr gr = some A.rows ∧ layout size lc gc = some A.cols ∧ (∀ r, A.pending r = []) ∧ ∀ i j, A.vals i j = 0 := by
  unfold DMat.new at h
  cases h1 : layout size lr gr with
  | none => rw [h1] at h; cases h
  | some a =>
    cases h2 : layout size lc gc with
    | none => rw [h1, h2] at h; cases h
    | some b => rw [h1, h2] at h; cases h; exact ⟨rfl, rfl, fun _ => rfl, fun _ _ => rfl⟩

theorem DMat.new_decide [Zero K] (size m n : Nat) : DMat.new (K := K) size (fun _ => petscDecide) (fun _ => petscDecide) m n =
    some ⟨(List.range size).map (share m size), (List.range size).map (share n size), fun _ _ => 0, fun _ => [], false⟩ := by
  rw [DMat.new, layout_decide, layout_decide]; rfl

/-! ## Inserting and assembling -/

theorem readBlock_eq {I J : Vec Int} {V : Mat K} {m n : Nat} {p q : Nat → Int} {g : Nat → Nat → K} (hI : I.Has m p) (hJ : J.Has n q)
    (hV : V.Has m n g) :
    DMat.readBlock I J V.data = .ok ((List.range m).flatMap (fun i => (List.range n).map (fun j => (p i, q j, g i j)))) := by
  obtain ⟨hi1, hi2, hi3⟩ := hI
  obtain ⟨hj1, hj2, hj3⟩ := hJ
  have eV : V = Mat.ofFn m n g := Mat.has_iff.1 hV
  have rI : ∀ i, i < m → rd I.data i = .ok (p i) := fun i hi => by
    have := hi3 i hi; unfold Vec.get at this; split at this <;> simp_all
  have rJ : ∀ j, j < n → rd J.data j = .ok (q j) := fun j hj => by
    have := hj3 j hj; unfold Vec.get at this; split at this <;> simp_all
  have rV : ∀ i, i < m → ∀ j, j < n → rd V.data (i * n + j) = .ok (g i j) := fun i hi j hj => by rw [eV]; exact Mat.rd_ofFn hi hj
  rw [DMat.readBlock, Mat.loop2, hi1, hj1]
  refine forN_ok (fun k => (List.range k).flatMap (fun i => (List.range n).map (fun j => (p i, q j, g i j)))) (fun i hi => ?_)
  have := forN_ok (n := n) (body := fun j l => do
      let a ← rd I.data i
      let b ← rd J.data j
      let x ← rd V.data (i * n + j)
      pure (l ++ [(a, b, x)]))
    (fun k => (List.range i).flatMap (fun i => (List.range n).map (fun j => (p i, q j, g i j))) ++ (List.range k).map (fun j => (p i, q j, g i j)))
    (fun j hj => by simp [rI i hi, rJ j hj, rV i hi j hj, List.range_succ])
  simpa [List.range_succ] using this

theorem DMat.lastWrite_none {l : List (Nat × Nat × K)} {i j : Nat} (h : ∀ e ∈ l, ¬ (e.1 = i ∧ e.2.1 = j)) : lastWrite l i j = none := by
  have : l.filter (fun e => decide (e.1 = i ∧ e.2.1 = j)) = [] := List.filter_eq_nil_iff.2 (fun e he => by simpa using h e he)
  rw [lastWrite, this]; rfl

theorem DMat.lastWrite_mem {l : List (Nat × Nat × K)} {i j : Nat} {x : K} (h : lastWrite l i j = some x) : (i, j, x) ∈ l := by
  unfold lastWrite at h
  cases hl : (l.filter (fun e => decide (e.1 = i ∧ e.2.1 = j))).getLast? with
  | none => rw [hl] at h; cases h
  | some e =>
    rw [hl] at h
    have := List.mem_of_getLast? hl
    rw [List.mem_filter] at this
    obtain ⟨a, b, c⟩ := e
    simp only [Option.map_some, Option.some.injEq, decide_eq_true_eq] at h this
    obtain ⟨h1, h2, h3⟩ := this
    subst h2 h3 h
    exact h1

theorem DMat.lastWrite_some {l : List (Nat × Nat × K)} {i j : Nat} {x : K} (h : (i, j, x) ∈ l) : ∃ y, lastWrite l i j = some y := by
  unfold lastWrite
  cases hl : (l.filter (fun e => decide (e.1 = i ∧ e.2.1 = j))).getLast? with
  | none =>
    rw [List.getLast?_eq_none_iff, List.filter_eq_nil_iff] at hl
    exact absurd (hl _ h) (by simp)
  | some e => exact ⟨_, rfl⟩

/-- Any choice of a rank for the entries is an assembly. -/
theorem DMat.Assembles.choice {size : Nat} {A : DMat K} (c : Nat → Nat → Nat) (hc : ∀ i j, c i j < size)
    (h : ∀ i j, (∀ r, r < size → lastWrite (A.pending r) i j = none) ∨ ∃ x, lastWrite (A.pending (c i j)) i j = some x) :
    Assembles size A ⟨A.rows, A.cols, fun i j => (lastWrite (A.pending (c i j)) i j).getD (A.vals i j), fun _ => [], true⟩ := by
  refine ⟨rfl, rfl, rfl, fun _ => rfl, fun i j => ?_⟩
  rcases h i j with h | ⟨x, hx⟩
  · refine .inl ⟨h, ?_⟩
    simp [h _ (hc i j)]
  · exact .inr ⟨c i j, hc i j, by simp [hx]⟩

theorem DMat.Assembles.exists {size : Nat} (h0 : 0 < size) (A : DMat K) : ∃ B, Assembles size A B := by
  classical
  refine ⟨_, DMat.Assembles.choice (fun i j => if h : ∃ r, r < size ∧ lastWrite (A.pending r) i j ≠ none then h.choose else 0) ?_ ?_⟩
  · intro i j
    split
    · next h => exact h.choose_spec.1
    · exact h0
  · intro i j
    split
    · next h => exact .inr (Option.ne_none_iff_exists'.1 h.choose_spec.2)
    · next h => exact .inl (fun r hr => by by_contra hc; exact h ⟨r, hr, hc⟩)

/-- The list a rank inserts. -/
def blockList (m n : Nat) (p q : Nat → Nat) (g : Nat → Nat → K) : List (Nat × Nat × K) :=
  (List.range m).flatMap (fun i => (List.range n).map (fun j => (p i, q j, g i j)))

theorem mem_blockList {m n : Nat} {p q : Nat → Nat} {g : Nat → Nat → K} {e : Nat × Nat × K} :
    e ∈ blockList m n p q g ↔ ∃ i, i < m ∧ ∃ j, j < n ∧ (p i, q j, g i j) = e := by
  simp [blockList]

theorem DMat.setValues_eq {A : DMat K} {r : Nat} {I J : Vec Int} {V : Mat K} {m n : Nat} {p q : Nat → Nat} {g : Nat → Nat → K}
    (hI : I.Has m (fun i => (p i : Int))) (hJ : J.Has n (fun j => (q j : Int))) (hV : V.Has m n g)
    (hp : ∀ i, i < m → p i < A.rows.sum) (hq : ∀ j, j < n → q j < A.cols.sum) :
    A.setValues r I J V = .ok (some { A with
      pending := fun s => if s = r then A.pending r ++ blockList m n p q g else A.pending s
      assembled := false }) := by
  rw [DMat.setValues, readBlock_eq hI hJ hV, Res.ok_bind, Res.pure_def, DMat.insert, if_pos]
  · congr 3
    funext s
    split
    · congr 1
      rw [List.filter_eq_self.2]
      · simp [blockList, List.map_flatMap, Function.comp_def]
      · intro e he
        simp only [List.mem_flatMap, List.mem_range, List.mem_map] at he
        obtain ⟨i, _, j, _, rfl⟩ := he
        simp
    · rfl
  · intro e he
    simp only [List.mem_flatMap, List.mem_range, List.mem_map] at he
    obtain ⟨i, hi, j, hj, rfl⟩ := he
    exact ⟨Int.ofNat_lt.2 (hp i hi), Int.ofNat_lt.2 (hq j hj)⟩

/-- If all ranks insert the same at an entry, that is what is there. -/
theorem DMat.Assembles.agreed {size : Nat} {A B : DMat K} (h : Assembles size A B) {i j : Nat} {x : K}
    (ha : ∀ r, r < size → ∀ e ∈ A.pending r, e.1 = i → e.2.1 = j → e.2.2 = x) (hw : ∃ r, r < size ∧ ∃ y, (i, j, y) ∈ A.pending r) :
    B.vals i j = x := by
  rcases h.vals i j with ⟨h1, _⟩ | ⟨r, hr, h1⟩
  · obtain ⟨r, hr, y, hy⟩ := hw
    obtain ⟨z, hz⟩ := DMat.lastWrite_some hy
    rw [h1 r hr] at hz; cases hz
  · exact ha r hr _ (DMat.lastWrite_mem h1) rfl rfl

theorem DMat.Assembles.untouched {size : Nat} {A B : DMat K} (h : Assembles size A B) {i j : Nat}
    (ha : ∀ r, r < size → ∀ e ∈ A.pending r, ¬ (e.1 = i ∧ e.2.1 = j)) : B.vals i j = A.vals i j := by
  rcases h.vals i j with ⟨_, h1⟩ | ⟨r, hr, h1⟩
  · exact h1
  · exact absurd ⟨rfl, rfl⟩ (ha r hr _ (DMat.lastWrite_mem h1))

/-! ## Reading -/

theorem DMat.first_succ (A : DMat K) (r : Nat) : A.first (r + 1) = A.first r + A.rows.getD r 0 := by
  unfold DMat.first
  rw [List.take_add_one, List.sum_append]
  cases h : A.rows[r]? <;> simp [List.getD, h]

theorem DMat.owns_iff {A : DMat K} {r i : Nat} : A.Owns r i ↔ A.first r ≤ i ∧ i < A.first (r + 1) := by
  rw [DMat.first_succ, DMat.Owns]
  constructor
  · rintro ⟨k, hk, rfl⟩; unfold DMat.first; omega
  · rintro ⟨h1, h2⟩; exact ⟨i - A.first r, by omega, by unfold DMat.first at *; omega⟩

theorem DMat.getValues_eq {A : DMat K} {r : Nat} {I J : Vec Int} {V : Mat K} {m n : Nat} {p q : Nat → Nat} {v : Nat → Nat → K}
    (ha : A.assembled = true) (hI : I.Has m (fun i => (p i : Int))) (hJ : J.Has n (fun j => (q j : Int))) (hV : V.Has m n v)
    (hp : ∀ i, i < m → A.Owns r (p i)) (hq : ∀ j, j < n → q j < A.cols.sum) :
    A.getValues r I J V = .ok (some (Mat.ofFn m n (fun i j => A.vals (p i) (q j)))) := by
  obtain ⟨hi1, hi2, hi3⟩ := hI
  obtain ⟨hj1, hj2, hj3⟩ := hJ
  have eV : V = Mat.ofFn m n v := Mat.has_iff.1 hV
  have rI : ∀ i, i < m → rd I.data i = .ok (p i : Int) := fun i hi => by
    have := hi3 i hi; unfold Vec.get at this; split at this <;> simp_all
  have rJ : ∀ j, j < n → rd J.data j = .ok (q j : Int) := fun j hj => by
    have := hj3 j hj; unfold Vec.get at this; split at this <;> simp_all
  -- the state after `k` rows and `l` entries of the next
  let st : Nat → Nat → Option (Mat K) := fun k l => some (Mat.ofFn m n (fun i j => if i < k ∨ (i = k ∧ j < l) then A.vals (p i) (q j) else v i j))
  rw [DMat.getValues, if_pos ha, Mat.loop2, hi1, hj1]
  have e0 : some V = st 0 0 := by simp only [st, eV]; congr 1; exact Mat.ofFn_congr (fun i _ j _ => by simp)
  have e1 : some (Mat.ofFn m n (fun i j => A.vals (p i) (q j))) = st m 0 := by
    simp only [st]; congr 1; exact Mat.ofFn_congr (fun i hi j _ => by simp [hi])
  rw [e0, e1]
  refine forN_ok (fun k => st k 0) (fun i hi => ?_)
  have e2 : st (i + 1) 0 = st i n := by
    simp only [st]; congr 1
    refine Mat.ofFn_congr (fun a _ b hb => ?_)
    have : (a < i + 1 ∨ a = i + 1 ∧ b < 0) ↔ (a < i ∨ a = i ∧ b < n) := by omega
    simp only [this]
  rw [e2]
  refine forN_ok (fun l => st i l) (fun j hj => ?_)
  obtain ⟨o1, o2⟩ := DMat.owns_iff.1 (hp i hi)
  have c1 : ¬ ((p i : Int) < 0 ∨ (q j : Int) < 0) := by omega
  have c2 : (A.first r : Int) ≤ (p i : Int) ∧ (p i : Int) < A.first (r + 1) ∧ (q j : Int) < A.ncols :=
    ⟨by exact_mod_cast o1, by exact_mod_cast o2, by exact_mod_cast hq j hj⟩
  simp only [st, rI i hi, rJ j hj, Res.ok_bind, if_neg c1, if_pos c2, Int.toNat_natCast]
  have hs := Mat.set_ofFn (f := fun a b => if a < i ∨ (a = i ∧ b < j) then A.vals (p a) (q b) else v a b) (a := A.vals (p i) (q j)) hi hj
  unfold Mat.set at hs
  rw [Mat.flattenIndex_eq (by simpa using hi) (by simpa using hj), Res.ok_bind] at hs
  obtain ⟨d, hd, hd'⟩ := Res.bind_eq_ok.1 hs
  rw [Mat.ncols_ofFn] at hd
  rw [hd, Res.ok_bind, Res.pure_def, Res.ok_inj.1 hd']
  congr 2
  refine Mat.ofFn_congr (fun a _ b _ => ?_)
  by_cases h1 : a = i ∧ b = j
  · obtain ⟨rfl, rfl⟩ := h1; simp
  · have : (a < i ∨ a = i ∧ b < j) ↔ (a < i ∨ a = i ∧ b < j + 1) := by omega
    simp only [if_neg h1, this]

/-! ## From a serial matrix -/

theorem has_range (n : Nat) : ∃ I, Vec.range 0 ((n : Int) - 1) = .ok I ∧ I.Has n (fun i => ((id i : Nat) : Int)) := by
  have h := Vec.range_eq (a := 0) (b := (n : Int) - 1) (by omega)
  refine ⟨_, h, ?_⟩
  have e : ((n : Int) - 1 - 0 + 1).toNat = n := by omega
  rw [e]
  have := Vec.has_ofFn n (fun i => (0 : Int) + i)
  simpa using this

theorem fromSerial_eq [Zero K] {size m n : Nat} {serial : Nat → Mat K} {g : Nat → Nat → Nat → K} (h0 : 0 < size)
    (h : ∀ r, r < size → (serial r).Has m n (g r)) :
    PMatrix.fromSerial size serial = .ok ⟨fun _ => petscDecide, fun _ => petscDecide, fun r => ((serial r).nrows : Nat),
      fun r => ((serial r).ncols : Nat), some ⟨(List.range size).map (share m size), (List.range size).map (share n size), fun _ _ => 0,
        fun r => if r < size then blockList m n id id (g r) else [], false⟩⟩ := by
  have e0 := h 0 h0
  have hs : ∀ r, r < size → (serial r).nrows = (serial 0).nrows ∧ (serial r).ncols = (serial 0).ncols := fun r hr =>
    ⟨by rw [(h r hr).1, e0.1], by rw [(h r hr).2.1, e0.2.1]⟩
  unfold PMatrix.fromSerial
  simp only [if_pos hs]
  rw [e0.1, e0.2.1, DMat.new_decide]
  have key := forN_ok (n := size) (body := fun r (w : PMatrix K) => do
      let I ← Vec.range 0 (((serial r).nrows : Int) - 1)
      let J ← Vec.range 0 (((serial r).ncols : Int) - 1)
      w.setValues r I J (serial r))
    (fun k => ⟨fun _ => petscDecide, fun _ => petscDecide, fun r => ((serial r).nrows : Nat),
      fun r => ((serial r).ncols : Nat), some ⟨(List.range size).map (share m size), (List.range size).map (share n size), fun _ _ => 0,
        fun r => if r < k then blockList m n id id (g r) else [], false⟩⟩) (fun r hr => by
    obtain ⟨I, hI, hI'⟩ := has_range m
    obtain ⟨J, hJ, hJ'⟩ := has_range n
    simp only [(h r hr).1, (h r hr).2.1, hI, hJ, Res.ok_bind, PMatrix.setValues]
    rw [DMat.setValues_eq hI' hJ' (h r hr) (fun i hi => by simpa [share_total h0] using hi) (fun j hj => by simpa [share_total h0] using hj)]
    simp only [Res.ok_bind, Res.pure_def, lt_irrefl, if_false, List.nil_append]
    congr 4
    funext s
    by_cases h1 : s = r
    · subst h1; simp
    · simp only [h1, if_false]
      have : s < r ↔ s < r + 1 := by omega
      simp only [this])
  simpa using key

/-! ## Moving -/

theorem mapM_some {α β : Type} {f : α → Option β} {g : α → β} : ∀ {l : List α}, (∀ x ∈ l, f x = some (g x)) → l.mapM f = some (l.map g)
  | [], _ => rfl
  | x :: l, h => by
    rw [List.mapM_cons, h x (by simp), mapM_some (fun y hy => h y (by simp [hy]))]
    rfl

theorem mapM_none {α β : Type} {f : α → Option β} : ∀ {l : List α} {x : α}, x ∈ l → f x = none → l.mapM f = none
  | y :: l, x, h, hx => by
    rw [List.mapM_cons]
    rcases List.mem_cons.1 h with rfl | h
    · rw [hx]; rfl
    · rw [mapM_none h hx]; cases f y <;> rfl

theorem stack_eq [Zero K] {n i j : Nat} (hi : i < n) : ∀ {bs : List (Nat × (Nat → Nat → K))} {r : Nat} (hr : r < bs.length), (∀ b ∈ bs, b.1 = n) →
    PMatrix.stack bs (r * n + i) j = bs[r].2 i j
  | (n', b) :: t, 0, _, h => by
    have : n' = n := h (n', b) (by simp)
    subst this
    simp [PMatrix.stack, hi]
  | (n', b) :: t, r + 1, hr, h => by
    have : n' = n := h (n', b) (by simp)
    subst this
    rw [PMatrix.stack, if_neg (by rw [Nat.succ_mul]; omega), show (r + 1) * n' + i - n' = r * n' + i by rw [Nat.succ_mul]; omega,
      stack_eq hi (r := r) (by simpa using hr) (fun b hb => h b (by simp [hb]))]
    rfl

theorem moveTo_eq [Zero K] {size n : Nat} {sub : Nat → PMatrix K} {q : Nat → Nat} {A : Nat → DMat K} (h0 : 0 < size)
    (hA : ∀ r, r < size → (sub r).obj = some (A r)) (ha : ∀ r, r < size → (A r).assembled = true)
    (hn : ∀ r, r < size → (A r).rows.getD (q r) 0 = n) (hc : ∀ r, r < size → (A r).first (q r) + n ≤ (A r).cols.sum) :
    ∃ B, (PMatrix.moveTo size sub q).obj = some B ∧ B.rows = List.replicate size n ∧ B.cols = (List.range size).map (share n size) ∧
      B.assembled = true ∧ ∀ r, r < size → ∀ i, i < n → ∀ j, B.vals (r * n + i) j = (A r).vals ((A r).first (q r) + i) ((A r).first (q r) + j) := by
  let bs : List (Nat × (Nat → Nat → K)) := (List.range size).map
    (fun r => (n, fun i j => (A r).vals ((A r).first (q r) + i) ((A r).first (q r) + j)))
  have hm : (List.range size).mapM (fun r => (sub r).obj.bind (fun A => PMatrix.block A (q r))) = some bs := by
    refine mapM_some (fun r hr => ?_)
    have hr := List.mem_range.1 hr
    have e : (A r).first (q r + 1) = (A r).first (q r) + n := by rw [DMat.first_succ, hn r hr]
    rw [hA r hr, Option.bind_some, PMatrix.block, if_pos ⟨ha r hr, .inr (by rw [e]; exact hc r hr)⟩, e, Nat.add_sub_cancel_left]
  have hall : ∀ b ∈ bs, b.1 = n := by
    intro b hb
    obtain ⟨r, _, rfl⟩ := List.mem_map.1 hb
    rfl
  have hhead : (bs.headD (0, fun _ _ => 0)).1 = n := by
    obtain ⟨s, rfl⟩ : ∃ s, size = s + 1 := ⟨size - 1, by omega⟩
    simp [bs, List.range_succ_eq_map]
  refine ⟨⟨bs.map Prod.fst, (List.range size).map (share n size), PMatrix.stack bs, fun _ => [], true⟩, ?_, ?_, rfl, rfl, ?_⟩
  · unfold PMatrix.moveTo
    simp only [hm, Option.bind_eq_bind, Option.bind_some, hhead, if_pos hall]
    rfl
  · simp [bs, Function.comp_def, List.map_const']
  · intro r hr i hi j
    have hr' : r < bs.length := by simpa [bs] using hr
    show PMatrix.stack bs (r * n + i) j = _
    rw [stack_eq hi hr' hall]
    simp [bs]

end Dist

end EF
