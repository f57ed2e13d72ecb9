import Verif.Spec.DistVector
import Verif.Proofs.Distributed

/-!
# Lemmas on distributed vectors
-/

namespace EF

namespace Dist

namespace DVec

variable {K : Type}

/-- Nothing to insert or add. -/
def Idle (x : DVec K) : Prop := ∀ r, x.pending r = [] ∧ x.mode r = none

theorem readPairs_take {I : List Int} {V : List K} {n : Nat} (hI : n ≤ I.length) (hV : n ≤ V.length) : forN n (fun k l => do
      let i ← rd I k
      let v ← rd V k
      pure (l ++ [(i, v)])) [] = .ok ((I.zip V).take n) := by
  have key := forN_ok (n := n) (body := fun k l => do
      let i ← rd I k
      let v ← rd V k
      pure (l ++ [(i, v)])) (fun k => (I.zip V).take k) (fun k hk => by
    have h1 : k < I.length := by omega
    have h2 : k < V.length := by omega
    have h3 : k < (I.zip V).length := by simp; omega
    have e1 : rd I k = .ok I[k] := by unfold rd; simp [List.getElem?_eq_getElem h1]
    have e2 : rd V k = .ok V[k] := by unfold rd; simp [List.getElem?_eq_getElem h2]
    simp only [e1, e2, Res.ok_bind, Res.pure_def]
    rw [List.take_add_one, List.getElem?_eq_getElem h3]
    simp)
  rw [List.take_zero] at key
  exact key

theorem readPairs_zip {I : Vec Int} {V : List K} (h : I.size = I.data.length) (hV : I.data.length ≤ V.length) :
    readPairs I V = .ok (I.data.zip V) := by
  rw [readPairs, readPairs_take (by omega) (by omega), List.take_of_length_le]
  simp [h]

theorem readPairs_short {I : Vec Int} {V : List K} (h : I.size = I.data.length) (hV : V.length < I.data.length) : readPairs I V = .ub := by
  have key : ∀ n, n ≤ I.data.length → V.length < n → forN n (fun k l => do
      let i ← rd I.data k
      let v ← rd V k
      pure (l ++ [(i, v)])) [] = .ub := by
    intro n
    induction n with
    | zero => intro _ h; omega
    | succ n ih =>
      intro hn hl
      rw [forN_succ]
      by_cases hV' : V.length < n
      · rw [ih (by omega) hV']; rfl
      · have h1 : n < I.data.length := by omega
        have e1 : rd I.data n = .ok I.data[n] := by unfold rd; simp [List.getElem?_eq_getElem h1]
        have e2 : rd V n = .ub := by unfold rd; simp [List.getElem?_eq_none (by omega : V.length ≤ n)]
        rw [readPairs_take (by omega) (by omega), Res.ok_bind, e1, Res.ok_bind, e2]; rfl
  rw [readPairs, h]
  exact key _ le_rfl hV

/-- The list a call leaves. -/
def Call.adds (c : Call K) : List (Nat × K) := (c.pairs.filter (fun e => decide (0 ≤ e.1))).map (fun e => (e.1.toNat, e.2))

theorem Call.adds_for (c : Call K) (i : Nat) : (c.adds.filter (fun e => decide (e.1 = i))).map Prod.snd = c.forEntry i := by
  unfold Call.adds Call.forEntry
  induction c.pairs with
  | nil => rfl
  | cons e l ih =>
    obtain ⟨a, v⟩ := e
    by_cases h : 0 ≤ a
    · by_cases h' : a = i
      · subst h'
        simpa using ih
      · have h2 : a.toNat ≠ i := by omega
        simpa [h, h', h2] using ih
    · have h' : a ≠ i := by omega
      simpa [h, h'] using ih

/-- The vector after a call. -/
def after (x : DVec K) (r : Nat) (m : Mode) (c : Call K) : DVec K :=
  { x with
    pending := fun q => if q = r then x.pending r ++ c.adds else x.pending q
    mode := fun q => if q = r then some m else x.mode q }

theorem call_eq {x : DVec K} {r : Nat} {m : Mode} {c : Call K} (hc : c.Fits x.lens.sum) (hm : x.mode r = none ∨ x.mode r = some m) :
    x.call r m c = .ok (some (x.after r m c)) := by
  cases c with
  | one i v =>
    have h : ∀ e ∈ [(i, v)], e.1 < (x.lens.sum : Int) := by
      intro e he
      rw [List.mem_singleton.1 he]; exact hc
    rw [call, setValue, put, if_pos ⟨h, hm⟩]
    rfl
  | many I V =>
    obtain ⟨h1, h2, h3⟩ := hc
    have h : ∀ e ∈ I.data.zip V.data, e.1 < (x.lens.sum : Int) := fun e he => h3 _ (List.of_mem_zip (show (e.1, e.2) ∈ _ from he)).1
    rw [call, setValues, readPairs_zip h1 h2, Res.ok_bind, put, if_pos ⟨h, hm⟩]
    rfl

/-- The vector after several calls. -/
def afterAll (x : DVec K) (m : Mode) : List (Nat × Call K) → DVec K
  | [] => x
  | c :: cs => (x.after c.1 m c.2).afterAll m cs

theorem calls_eq {m : Mode} : ∀ {cs : List (Nat × Call K)} {x : DVec K}, (∀ c ∈ cs, c.2.Fits x.lens.sum) →
    (∀ r, x.mode r = none ∨ x.mode r = some m) → x.calls m cs = .ok (some (x.afterAll m cs))
  | [], _, _, _ => rfl
  | c :: cs, x, hc, hm => by
    have ih := calls_eq (m := m) (cs := cs) (x := x.after c.1 m c.2) (fun d hd => hc d (by simp [hd])) (fun r => by
      show (if r = c.1 then some m else x.mode r) = none ∨ (if r = c.1 then some m else x.mode r) = some m
      split
      · exact .inr rfl
      · exact hm r)
    rw [calls] at ih ⊢
    rw [forL_cons]
    dsimp only
    rw [call_eq (hc c (by simp)) (hm _), Res.ok_bind]
    exact ih

theorem afterAll_lens {m : Mode} : ∀ {cs : List (Nat × Call K)} {x : DVec K}, (x.afterAll m cs).lens = x.lens ∧ (x.afterAll m cs).vals = x.vals
  | [], _ => ⟨rfl, rfl⟩
  | c :: cs, x => by
    have := afterAll_lens (m := m) (cs := cs) (x := x.after c.1 m c.2)
    exact this

theorem afterAll_mode {m : Mode} : ∀ {cs : List (Nat × Call K)} {x : DVec K}, (∀ r, x.mode r = none ∨ x.mode r = some m) →
    ∀ r, (x.afterAll m cs).mode r = none ∨ (x.afterAll m cs).mode r = some m
  | [], _, h, r => h r
  | c :: cs, x, h, r => by
    refine afterAll_mode (m := m) (cs := cs) (x := x.after c.1 m c.2) (fun r => ?_) r
    show (if r = c.1 then some m else x.mode r) = none ∨ (if r = c.1 then some m else x.mode r) = some m
    split
    · exact .inr rfl
    · exact h r

theorem given_cons (c : Nat × Call K) (cs : List (Nat × Call K)) (r i : Nat) :
    given (c :: cs) r i = (if c.1 = r then c.2.forEntry i else []) ++ given cs r i := by
  unfold given
  by_cases h : c.1 = r <;> simp [h]

theorem afterAll_waiting {m : Mode} {r i : Nat} : ∀ {cs : List (Nat × Call K)} {x : DVec K},
    (x.afterAll m cs).waiting r i = x.waiting r i ++ given cs r i
  | [], _ => by simp [afterAll, given]
  | c :: cs, x => by
    rw [afterAll, afterAll_waiting, given_cons, ← List.append_assoc]
    congr 1
    unfold waiting after
    by_cases h : c.1 = r
    · subst h
      simp [List.filter_append, Call.adds_for]
    · simp [h, Ne.symm h]

theorem Idle.waiting {x : DVec K} (h : x.Idle) (r i : Nat) : x.waiting r i = [] := by
  simp [DVec.waiting, (h r).1]

theorem Idle.mode {x : DVec K} (h : x.Idle) (m : Mode) (r : Nat) : x.mode r = none ∨ x.mode r = some m := .inl (h r).2

theorem Assembles.idle [AddCommMonoid K] {size : Nat} {x y : DVec K} (h : Assembles size x y) : y.Idle := h.done

theorem sum_range_single [AddCommMonoid K] {size r : Nat} (hr : r < size) (a : K) :
    ((List.range size).map (fun q => if r = q then a else 0)).sum = a := by
  induction size with
  | zero => omega
  | succ n ih =>
    rw [List.range_succ, List.map_append, List.sum_append]
    by_cases h : r = n
    · subst h
      have : (List.range r).map (fun q => if r = q then a else 0) = (List.range r).map (fun _ => (0 : K)) :=
        List.map_congr_left (fun q hq => if_neg (by have := List.mem_range.1 hq; omega))
      simp [this]
    · simp [ih (by omega), h]

theorem sum_given [AddCommMonoid K] {size i : Nat} : ∀ {cs : List (Nat × Call K)}, (∀ c ∈ cs, c.1 < size) →
    ((List.range size).map (fun r => (given cs r i).sum)).sum = (cs.flatMap (fun c => c.2.forEntry i)).sum
  | [], _ => by simp [given]
  | c :: cs, h => by
    rw [List.flatMap_cons, List.sum_append, ← sum_given (fun d hd => h d (by simp [hd])), ← sum_range_single (h c (by simp)) (c.2.forEntry i).sum,
      ← List.sum_map_add]
    congr 1
    refine List.map_congr_left (fun r _ => ?_)
    rw [given_cons, List.sum_append]
    split <;> simp

theorem given_rank {cs : List (Nat × Call K)} {r i : Nat} (h : given cs r i ≠ []) : ∃ c ∈ cs, c.1 = r := by
  by_contra hn
  push Not at hn
  refine h ?_
  unfold given
  rw [List.filter_eq_nil_iff.2 (fun c hc => by simpa using hn c hc)]
  rfl

theorem given_nil {cs : List (Nat × Call K)} {i : Nat} (h : ∀ r, given cs r i = []) : ∀ c ∈ cs, c.2.forEntry i = [] := fun c hc => by
  have := h c.1
  unfold given at this
  rw [List.flatMap_eq_nil_iff] at this
  exact this c (by simp [hc])

theorem mem_given {cs : List (Nat × Call K)} {r i : Nat} {v : K} (h : v ∈ given cs r i) : ∃ c ∈ cs, c.1 = r ∧ v ∈ c.2.forEntry i := by
  unfold given at h
  obtain ⟨c, hc, hv⟩ := List.mem_flatMap.1 h
  rw [List.mem_filter] at hc
  exact ⟨c, hc.1, by simpa using hc.2, hv⟩

theorem expected_of_assembles [AddCommMonoid K] {size : Nat} {x y : DVec K} {m : Mode} {cs : List (Nat × Call K)} (hx : x.Idle)
    (hr : ∀ c ∈ cs, c.1 < size) (h : Assembles size (x.afterAll m cs) y) : Expected cs x.vals y.vals m := by
  have hw : ∀ r i, (x.afterAll m cs).waiting r i = given cs r i := fun r i => by rw [afterAll_waiting, hx.waiting]; rfl
  have hv := (afterAll_lens (m := m) (cs := cs) (x := x)).2
  cases m with
  | insert =>
    intro i
    rcases h.inserted (fun r _ => afterAll_mode (hx.mode _) r) i with ⟨h1, h2⟩ | ⟨r, _, h1⟩
    · refine .inl ⟨given_nil (fun r => ?_), by rw [h2, hv]⟩
      by_cases hs : r < size
      · rw [← hw, h1 r hs]
      · by_contra hne
        obtain ⟨c, hc, rfl⟩ := given_rank hne
        exact hs (hr c hc)
    · exact .inr ⟨r, by rw [← hw, h1]⟩
  | add =>
    intro i
    rw [h.added (fun r _ => afterAll_mode (hx.mode _) r) i, hv]
    simp only [hw]
    rw [sum_given hr]

/-- There is always an outcome of the assembly. -/
theorem Assembles.exists [AddCommMonoid K] {size : Nat} {x : DVec K} {m : Mode} (hm : ∀ r, x.mode r = none ∨ x.mode r = some m)
    (hw : ∀ r i, x.mode r = none → x.waiting r i = []) : ∃ y, Assembles size x y := by
  classical
  -- if nobody called, both modes give the same
  by_cases hn : ∀ r, r < size → x.mode r = none
  · refine ⟨⟨x.lens, x.vals, fun _ => [], fun _ => none⟩, rfl, fun _ => ⟨rfl, rfl⟩, ⟨m, fun r _ => hm r⟩,
      fun _ i => .inl ⟨fun r hr => hw r i (hn r hr), rfl⟩, fun _ i => ?_⟩
    have : (List.range size).map (fun r => (x.waiting r i).sum) = (List.range size).map (fun _ => (0 : K)) :=
      List.map_congr_left (fun r hr => by rw [hw r i (hn r (List.mem_range.1 hr))]; rfl)
    simp [this]
  · push Not at hn
    obtain ⟨s, hs, hsm⟩ := hn
    cases m with
    | insert =>
      refine ⟨⟨x.lens, fun i => if h : ∃ r, r < size ∧ x.waiting r i ≠ [] then (x.waiting h.choose i).getLast h.choose_spec.2 else x.vals i,
        fun _ => [], fun _ => none⟩, rfl, fun _ => ⟨rfl, rfl⟩, ⟨_, fun r _ => hm r⟩, fun _ i => ?_, fun h => ?_⟩
      · by_cases h : ∃ r, r < size ∧ x.waiting r i ≠ []
        · refine .inr ⟨h.choose, h.choose_spec.1, ?_⟩
          simp only [dif_pos h]
          exact List.getLast?_eq_some_getLast h.choose_spec.2
        · refine .inl ⟨fun r hr => by by_contra hc; exact h ⟨r, hr, hc⟩, ?_⟩
          simp only [dif_neg h]
      · rcases hm s with h1 | h1
        · exact absurd h1 hsm
        · rcases h s hs with h2 | h2 <;> rw [h1] at h2 <;> cases h2
    | add =>
      refine ⟨⟨x.lens, fun i => x.vals i + ((List.range size).map (fun r => (x.waiting r i).sum)).sum, fun _ => [], fun _ => none⟩,
        rfl, fun _ => ⟨rfl, rfl⟩, ⟨_, fun r _ => hm r⟩, fun h => ?_, fun _ _ => rfl⟩
      rcases hm s with h1 | h1
      · exact absurd h1 hsm
      · rcases h s hs with h2 | h2 <;> rw [h1] at h2 <;> cases h2

theorem afterAll_quiet {m : Mode} : ∀ {cs : List (Nat × Call K)} {x : DVec K}, (∀ r i, x.mode r = none → x.waiting r i = []) →
    ∀ r i, (x.afterAll m cs).mode r = none → (x.afterAll m cs).waiting r i = []
  | [], _, h => h
  | c :: cs, x, h => by
    refine afterAll_quiet (cs := cs) (x := x.after c.1 m c.2) (fun r i hr => ?_)
    by_cases hc : r = c.1
    · simp [after, hc] at hr
    · simp only [after, if_neg hc] at hr
      have := h r i hr
      unfold DVec.waiting at this ⊢
      simpa [after, hc] using this

theorem afterAll_assembles [AddCommMonoid K] {size : Nat} {x : DVec K} {m : Mode} {cs : List (Nat × Call K)} (hx : x.Idle) :
    ∃ y, Assembles size (x.afterAll m cs) y :=
  Assembles.exists (m := m) (afterAll_mode (hx.mode m)) (afterAll_quiet (fun r i _ => hx.waiting r i))

theorem new_idle [Zero K] {size : Nat} {loc : Nat → Int} {N : Int} {x : DVec K} (h : DVec.new size loc N = some x) :
    x.Idle ∧ layout size loc N = some x.lens ∧ ∀ i, x.vals i = 0 := by
  unfold DVec.new at h
  cases h1 : layout size loc N with
  | none => rw [h1] at h; cases h
  | some a => rw [h1] at h; cases h; exact ⟨fun _ => ⟨rfl, rfl⟩, rfl, fun _ => rfl⟩

/-! ## From a serial vector -/

/-- The calls of the constructor. -/
def serialCalls (serial : Nat → Vec K) (n : Nat) : List (Nat × Call K) :=
  (List.range n).map (fun r => (r, .many (Vec.ofFn (serial r).size (fun i => (i : Int))) (serial r)))

theorem afterAll_append {m : Mode} : ∀ {cs ds : List (Nat × Call K)} {x : DVec K}, x.afterAll m (cs ++ ds) = (x.afterAll m cs).afterAll m ds
  | [], _, _ => rfl
  | c :: cs, ds, x => by
    rw [List.cons_append, afterAll, afterAll_append]; rfl

theorem Call.fits_serial {v : Vec K} {n : Nat} {f : Nat → K} (h : v.Has n f) :
    Call.Fits n (.many (Vec.ofFn v.size (fun i => (i : Int))) v) := by
  have e := Vec.has_iff.1 h
  subst e
  refine ⟨by simp [Vec.ofFn], by simp [Vec.ofFn], fun i hi => ?_⟩
  obtain ⟨k, hk, rfl⟩ := List.mem_map.1 hi
  exact_mod_cast List.mem_range.1 hk

theorem range_ofFn (n : Nat) : Vec.range 0 ((n : Int) - 1) = .ok (Vec.ofFn n (fun i => (i : Int))) := by
  have h := Vec.range_eq (a := 0) (b := (n : Int) - 1) (by omega)
  have e : ((n : Int) - 1 - 0 + 1).toNat = n := by omega
  rw [e] at h
  simpa using h

theorem fromSerial_eq [Zero K] {size n : Nat} {serial : Nat → Vec K} {g : Nat → Nat → K} (h0 : 0 < size)
    (h : ∀ r, r < size → (serial r).Has n (g r)) :
    DVec.fromSerial size serial = .ok (some ((⟨(List.range size).map (share n size), fun _ => 0, fun _ => [], fun _ => none⟩ : DVec K).afterAll
      .insert (serialCalls serial size))) := by
  have hs : ∀ r, r < size → (serial r).size = (serial 0).size := fun r hr => by rw [(h r hr).1, (h 0 h0).1]
  have hd : DVec.new (K := K) size (fun _ => petscDecide) ((serial 0).size : Nat) =
      some ⟨(List.range size).map (share n size), fun _ => 0, fun _ => [], fun _ => none⟩ := by
    rw [DVec.new, layout_decide, (h 0 h0).1]; rfl
  rw [DVec.fromSerial, if_pos hs, hd]
  have key := forN_ok (n := size) (body := fun r (st : Option (DVec K)) => do
      let I ← Vec.range 0 (((serial r).size : Int) - 1)
      match st with
      | none => pure none
      | some x => x.setValues r I (serial r) .insert)
    (fun k => some ((⟨(List.range size).map (share n size), fun _ => 0, fun _ => [], fun _ => none⟩ : DVec K).afterAll
      .insert (serialCalls serial k))) (fun r hr => by
    rw [range_ofFn, Res.ok_bind]
    have hc := call_eq (x := (⟨(List.range size).map (share n size), fun _ => 0, fun _ => [], fun _ => none⟩ : DVec K).afterAll
      .insert (serialCalls serial r)) (r := r) (m := .insert) (c := .many (Vec.ofFn (serial r).size (fun i => (i : Int))) (serial r))
      (by rw [afterAll_lens.1]; show Call.Fits (((List.range size).map (share n size)).sum) _; rw [share_total h0]; exact Call.fits_serial (h r hr))
      (afterAll_mode (fun _ => .inl rfl) r)
    rw [call] at hc
    have e : serialCalls serial (r + 1) =
        serialCalls serial r ++ [(r, .many (Vec.ofFn (serial r).size (fun i => (i : Int))) (serial r))] := by
      simp [serialCalls, List.range_succ]
    rw [e, afterAll_append]
    exact hc)
  exact key

end DVec

end Dist

end EF
