import Verif.Proofs.DistVector

/-!
# Properties of distributed vectors
-/

namespace EF

open Dist Dist.DVec

variable {K : Type}

/-! ## C103: what is put into a distributed vector is there after assembly -/

/-- C103: rounds of inserting and adding, with assembly after each, by `setValue` and `setValues` on any ranks at any indices, on a vector of
any length and distribution.  The calls are carried out and can be assembled, and then the entries are as expected. -/
theorem C103_rounds [AddCommMonoid K] {size : Nat} {loc : Nat → Int} {N : Int} {x : DVec K} (hx : DVec.new size loc N = some x)
    {l : List (Mode × List (Nat × Call K))} (hr : ∀ p ∈ l, ∀ c ∈ p.2, c.1 < size) (hf : ∀ p ∈ l, ∀ c ∈ p.2, c.2.Fits x.lens.sum) :
    (∃ w, Run size l x w) ∧ ∀ w, Run size l x w → w.lens = x.lens ∧ ExpectedAll l (fun _ => 0) w.vals := by
  obtain ⟨hi, hlay, hz⟩ := new_idle hx
  have hz' : (fun _ => 0) = x.vals := funext (fun i => (hz i).symm)
  rw [hz']
  clear hx hlay hz hz'
  induction l generalizing x with
  | nil =>
    refine ⟨⟨x, .nil x⟩, fun w hw => ?_⟩
    cases hw
    exact ⟨rfl, .nil _⟩
  | cons p l ih =>
    obtain ⟨m, cs⟩ := p
    have hc := calls_eq (m := m) (hf (m, cs) (by simp)) (hi.mode m)
    constructor
    · obtain ⟨z, hz⟩ := afterAll_assembles (size := size) (m := m) (cs := cs) hi
      have el : z.lens = x.lens := by rw [hz.lens, afterAll_lens.1]
      obtain ⟨w, hw⟩ := (ih (x := z) (fun p hp => hr p (by simp [hp])) (fun p hp c h => by rw [el]; exact hf p (by simp [hp]) c h) hz.idle).1
      exact ⟨w, .cons hc hz hw⟩
    · intro w hw
      cases hw with
      | cons hc' ha hl =>
        rename_i y z
        rw [hc] at hc'
        obtain rfl := Option.some.inj (Res.ok_inj.1 hc')
        have el : z.lens = x.lens := by rw [ha.lens, afterAll_lens.1]
        obtain ⟨h1, h2⟩ := (ih (x := z) (fun p hp => hr p (by simp [hp])) (fun p hp c h => by rw [el]; exact hf p (by simp [hp]) c h) ha.idle).2 w hl
        exact ⟨h1.trans el, .cons (expected_of_assembles hi (hr (m, cs) (by simp)) ha) h2⟩

/-- C103, inserting: where the values for an entry agree, that is the entry. -/
theorem C103_agreed [AddCommMonoid K] {cs : List (Nat × Call K)} {old new : Nat → K} (h : Expected cs old new .insert) {i : Nat} {v : K}
    (ha : ∀ c ∈ cs, ∀ a ∈ c.2.forEntry i, a = v) (hs : ∃ c ∈ cs, c.2.forEntry i ≠ []) : new i = v := by
  rcases h i with ⟨h1, _⟩ | ⟨r, h1⟩
  · obtain ⟨c, hc, hn⟩ := hs
    exact absurd (h1 c hc) hn
  · obtain ⟨c, hc, _, hv⟩ := mem_given (List.mem_of_getLast? h1)
    exact ha c hc _ hv

/-- C103, inserting: where only one rank has values for an entry, the last one is the entry. -/
theorem C103_last [AddCommMonoid K] {cs : List (Nat × Call K)} {old new : Nat → K} (h : Expected cs old new .insert) {i r : Nat} {v : K}
    (ho : ∀ c ∈ cs, c.2.forEntry i ≠ [] → c.1 = r) (hv : (given cs r i).getLast? = some v) : new i = v := by
  rcases h i with ⟨h1, _⟩ | ⟨s, h1⟩
  · obtain ⟨c, hc, _, hm⟩ := mem_given (List.mem_of_getLast? hv)
    rw [h1 c hc] at hm; cases hm
  · obtain ⟨c, hc, hcs, hm⟩ := mem_given (List.mem_of_getLast? h1)
    have e : s = r := by rw [← hcs]; exact ho c hc (List.ne_nil_of_mem hm)
    rw [e, hv] at h1
    exact (Option.some.inj h1).symm

/-- C103: entries nobody has a value for keep what they had. -/
theorem C103_kept [AddCommMonoid K] {cs : List (Nat × Call K)} {old new : Nat → K} {m : Mode} (h : Expected cs old new m) {i : Nat}
    (hn : ∀ c ∈ cs, c.2.forEntry i = []) : new i = old i := by
  cases m with
  | insert =>
    rcases h i with ⟨_, h1⟩ | ⟨s, h1⟩
    · exact h1
    · obtain ⟨c, hc, _, hm⟩ := mem_given (List.mem_of_getLast? h1)
      rw [hn c hc] at hm; cases hm
  | add =>
    rw [h i, List.flatMap_eq_nil_iff.2 hn]
    simp

/-- C103: a vector made from a serial one that all ranks have has its length and entries after assembly, on any number of ranks. -/
theorem C103_serial [AddCommMonoid K] {size n : Nat} {serial : Nat → Vec K} {f : Nat → K} (h0 : 0 < size)
    (h : ∀ r, r < size → (serial r).Has n f) :
    ∃ x, DVec.fromSerial size serial = .ok (some x) ∧ (∃ y, DVec.Assembles size x y) ∧
      ∀ y, DVec.Assembles size x y → y.lens.length = size ∧ y.lens.sum = n ∧ ∀ i, i < n → y.vals i = f i := by
  have hi : (⟨(List.range size).map (share n size), fun _ => 0, fun _ => [], fun _ => none⟩ : DVec K).Idle := fun _ => ⟨rfl, rfl⟩
  refine ⟨_, fromSerial_eq h0 h, afterAll_assembles hi, fun y hy => ?_⟩
  have el : y.lens = (List.range size).map (share n size) := by rw [hy.lens, afterAll_lens.1]
  have hE := expected_of_assembles hi (fun c hc => by
    obtain ⟨r, hr, rfl⟩ := List.mem_map.1 hc
    exact List.mem_range.1 hr) hy
  have hzip : ∀ r, r < size → (Vec.ofFn (serial r).size (fun i => (i : Int))).data.zip (serial r).data =
      (List.range n).map (fun i : Nat => ((i : Int), f i)) := fun r hr => by
    rw [Vec.has_iff.1 (h r hr)]
    simp [Vec.ofFn, listFn, List.zip_map']
  refine ⟨by rw [el]; simp, by rw [el]; exact share_total h0 n, fun i hi => C103_agreed hE (fun c hc a ha => ?_) ⟨_, List.mem_map.2 ⟨0, List.mem_range.2 h0, rfl⟩, ?_⟩⟩
  · obtain ⟨r, hr, rfl⟩ := List.mem_map.1 hc
    simp only [Call.forEntry, Call.pairs, hzip r (List.mem_range.1 hr), List.mem_map, List.mem_filter, List.mem_range] at ha
    obtain ⟨e, ⟨⟨k, _, rfl⟩, hk⟩, rfl⟩ := ha
    simp only [Nat.cast_inj, decide_eq_true_eq] at hk
    simp [hk]
  · refine List.ne_nil_of_mem (a := f i) ?_
    simp only [Call.forEntry, Call.pairs, hzip 0 h0, List.mem_map, List.mem_filter, List.mem_range]
    exact ⟨((i : Int), f i), ⟨⟨i, hi, rfl⟩, by simp⟩, rfl⟩

/-- A value for every index is needed: with fewer values the call reads past them, whatever the vector. -/
theorem C103_short_wrong (x : DVec K) (r : Nat) (m : Mode) {I : Vec Int} {V : Vec K} (h : I.size = I.data.length)
    (hV : V.data.length < I.data.length) : x.setValues r I V m = .ub := by
  rw [DVec.setValues, readPairs_short h hV]; rfl

/-- Adding to what was just inserted, without assembly in between, fails. -/
theorem C103_modes_wrong (x : DVec K) (r : Nat) (i j : Int) (v w : K) {y : DVec K} (h : x.setValue r i v .insert = some y) :
    y.setValue r j w .add = none := by
  unfold DVec.setValue DVec.put at h
  split at h
  · cases h
    unfold DVec.setValue DVec.put
    rw [if_neg]
    simp
  · cases h

/-- If one rank inserts and another adds, there is no outcome of the assembly. -/
theorem C103_ranks_wrong [AddCommMonoid K] {size r s : Nat} (hr : r < size) (hs : s < size) {x : DVec K} (h1 : x.mode r = some .insert)
    (h2 : x.mode s = some .add) (y : DVec K) : ¬ DVec.Assembles size x y := fun h => by
  obtain ⟨m, hm⟩ := h.same
  rcases hm r hr with e | e <;> rw [h1] at e <;> cases e
  rcases hm s hs with e | e <;> rw [h2] at e <;> cases e

/-- A round of inserting on both of two ranks and one of adding, on a vector of length three. -/
def exRounds : List (Mode × List (Nat × Call ℚ)) :=
  [(.insert, [(0, .many ⟨2, [0, 2]⟩ ⟨2, [5, 7]⟩), (1, .one 1 4), (1, .one 1 6)]),
   (.add, [(0, .one 2 1), (1, .many ⟨3, [2, -1, 0]⟩ ⟨3, [2, 9, 3]⟩)])]

example : ∃ x : DVec ℚ, DVec.new 2 (fun _ => petscDecide) 3 = some x ∧ (∃ w, Run 2 exRounds x w) ∧
    ∀ w, Run 2 exRounds x w → ExpectedAll exRounds (fun _ => 0) w.vals := by
  refine ⟨⟨[2, 1], fun _ => 0, fun _ => [], fun _ => none⟩, rfl, ?_⟩
  have := C103_rounds (K := ℚ) (size := 2) (loc := fun _ => petscDecide) (N := 3) (x := ⟨[2, 1], fun _ => 0, fun _ => [], fun _ => none⟩) rfl
    (l := exRounds)
    (by simp only [exRounds, List.forall_mem_cons]; simp)
    (by simp only [exRounds, List.forall_mem_cons]; simp [Call.Fits])
  exact ⟨this.1, fun w hw => (this.2 w hw).2⟩

/-- What that comes to: 8, 6, 10. -/
example {w : Nat → ℚ} (h : ExpectedAll exRounds (fun _ => 0) w) : w 0 = 8 ∧ w 1 = 6 ∧ w 2 = 10 := by
  cases h with
  | cons h1 h =>
    rename_i g
    cases h with
    | cons h2 h =>
      cases h
      have e0 : g 0 = 5 := C103_agreed h1 (by simp [Call.forEntry, Call.pairs]) (by simp [Call.forEntry, Call.pairs])
      have e1 : g 1 = 6 := C103_last (r := 1) h1 (by simp [Call.forEntry, Call.pairs]) (by simp [given, Call.forEntry, Call.pairs])
      have e2 : g 2 = 7 := C103_agreed h1 (by simp [Call.forEntry, Call.pairs]) (by simp [Call.forEntry, Call.pairs])
      have f0 := h2 0
      have f1 := h2 1
      have f2 := h2 2
      simp [Call.forEntry, Call.pairs, e0, e1, e2] at f0 f1 f2
      refine ⟨?_, ?_, ?_⟩ <;> linarith

example : ∃ x, DVec.fromSerial 3 (fun _ => Vec.ofFn 4 (fun i => (i : ℚ) / 2)) = .ok (some x) ∧ (∃ y, DVec.Assembles 3 x y) ∧
    ∀ y, DVec.Assembles 3 x y → y.lens.length = 3 ∧ y.lens.sum = 4 ∧ ∀ i, i < 4 → y.vals i = (i : ℚ) / 2 :=
  C103_serial (by omega) (fun _ _ => Vec.has_ofFn _ _)

example : (⟨[1, 1], fun _ => 0, fun _ => [], fun _ => none⟩ : DVec ℚ).setValues 0 ⟨2, [0, 1]⟩ ⟨1, [3]⟩ .add = .ub :=
  C103_short_wrong _ _ _ rfl (by decide)

example : ∃ y, (⟨[1, 1], fun _ => 0, fun _ => [], fun _ => none⟩ : DVec ℚ).setValue 0 1 3 .insert = some y ∧ y.setValue 0 1 2 .add = none :=
  by
  obtain ⟨y, hy⟩ : ∃ y, (⟨[1, 1], fun _ => 0, fun _ => [], fun _ => none⟩ : DVec ℚ).setValue 0 1 3 .insert = some y := ⟨_, rfl⟩
  exact ⟨y, hy, C103_modes_wrong _ _ _ _ _ _ hy⟩

end EF
