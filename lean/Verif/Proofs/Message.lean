import Verif.Spec.Message

/-!
# Lemmas about messages
-/

namespace EF.MPI

variable {K α β : Type} {D : Dialect}

/-! ## Point to point -/

/-- The sender ends without error after sending these messages. -/
inductive Emits : Sender K Unit → List (Int × Buf K) → Prop
  | nil : Emits (.fin (.ok ())) []
  | cons {t : Int} {b : Buf K} {S : Sender K Unit} {L : List (Int × Buf K)} (h : Emits S L) : Emits (.send t b S) ((t, b) :: L)

/-- The receiver takes exactly these messages, in this order, and returns `a`. -/
inductive Fits : Receiver K α → List (Int × Buf K) → α → Prop
  | nil {a : α} : Fits (.fin (.ok a)) [] a
  | cons {t : Int} {k : Kind} {old x : List (k.Carrier K)} {next : List (k.Carrier K) → Receiver K α} {L : List (Int × Buf K)}
      {a : α} (hx : x.length = old.length) (h : Fits (next x) L a) : Fits (.recv t k old next) ((t, ⟨k, x⟩) :: L) a

theorem Emits.bind {S : Sender K Unit} {L L' : List (Int × Buf K)} {f : Unit → Sender K Unit} (h : Emits S L) (h' : Emits (f ()) L') :
    Emits (S >>= f) (L ++ L') := by
  change Emits (S.bind f) _
  induction h with
  | nil => simpa [Sender.bind] using h'
  | cons h ih => exact Emits.cons ih

theorem Fits.bind {R : Receiver K α} {L L' : List (Int × Buf K)} {f : α → Receiver K β} {a : α} {b : β} (h : Fits R L a)
    (h' : Fits (f a) L' b) : Fits (R >>= f) (L ++ L') b := by
  change Fits (R.bind f) _ _
  induction h with
  | nil => simpa [Receiver.bind] using h'
  | cons hx _ ih => exact Fits.cons hx (ih h')

theorem Fits.map {R : Receiver K α} {L : List (Int × Buf K)} {f : α → β} {a : α} (h : Fits R L a) :
    Fits (R >>= fun x => pure (f x)) L (f a) := by
  have := Fits.bind (f := fun x => pure (f x)) h (Fits.nil (a := f a))
  rwa [List.append_nil] at this

theorem deliver_fit {k : Kind} {old x : List (k.Carrier K)} (hx : x.length = old.length)
    (next : List (k.Carrier K) → Receiver K α) : deliver k old next ⟨k, x⟩ = next x := by
  unfold deliver
  rw [dif_pos rfl, if_pos (by simp [hx])]
  simp [hx]

/-- What is left to be received is what is stored and what is still to be sent. -/
structure Good (c : Link K α) (n : Nat) (a : α) : Prop where
  ok : ∃ L, Emits c.sender L ∧ Fits c.receiver (c.stored ++ L) a ∧ n = 2 * L.length + c.stored.length

theorem Good.step {c c' : Link K α} {n : Nat} {a : α} (h : Good c n a) (hs : LinkStep c c') : ∃ n', n' < n ∧ Good c' n' a := by
  obtain ⟨L, h1, h2, rfl⟩ := h
  cases hs with
  | buffer =>
    cases h1 with
    | cons h1 => exact ⟨_, by simp only [List.length_cons, List.length_append, List.length_nil]; omega, ⟨_, h1, by simpa using h2, rfl⟩⟩
  | sure hs =>
    cases hs with
    | @take S ch ch' tag k old next b hf =>
      dsimp only at h1 h2 ⊢
      cases ch with
      | nil => simp [firstWith] at hf
      | cons m ch =>
        rw [List.cons_append] at h2
        cases h2 with
        | cons hx h2 =>
          simp only [firstWith, if_true, Option.some.injEq, Prod.mk.injEq] at hf
          obtain ⟨rfl, rfl⟩ := hf
          refine ⟨_, ?_, ⟨L, h1, ?_, rfl⟩⟩
          · simp
          · dsimp only
            rw [deliver_fit hx]
            exact h2
    | @hand S ch tag k old next b hf =>
      dsimp only at h1 h2 ⊢
      cases h1 with
      | @cons _ _ _ L h1 =>
        cases ch with
        | nil =>
          rw [List.nil_append] at h2
          cases h2 with
          | cons hx h2 =>
            refine ⟨_, ?_, ⟨L, h1, ?_, rfl⟩⟩
            · simp
            · dsimp only
              rw [deliver_fit hx]
              exact h2
        | cons m ch =>
          rw [List.cons_append] at h2
          cases h2 with
          | cons hx h2 => simp [firstWith] at hf

theorem Good.progress {c : Link K α} {n : Nat} {a : α} (h : Good c n a) :
    c = ⟨.fin (.ok ()), [], .fin (.ok a)⟩ ∨ ∃ c', Sure c c' := by
  obtain ⟨S, ch, R⟩ := c
  obtain ⟨L, h1, h2, _⟩ := h
  dsimp only at h1 h2
  cases ch with
  | nil =>
    rw [List.nil_append] at h2
    cases h1 with
    | nil =>
      cases h2
      exact Or.inl rfl
    | cons h1 =>
      cases h2 with
      | cons hx h2 => exact Or.inr ⟨_, Sure.hand rfl⟩
  | cons m ch =>
    rw [List.cons_append] at h2
    cases h2 with
    | cons hx h2 => exact Or.inr ⟨_, Sure.take (by simp [firstWith]; exact ⟨rfl, rfl⟩)⟩

theorem Good.run {c c' : Link K α} {n k : Nat} {a : α} (h : Good c n a) (hr : LinkRun k c c') : ∃ n', k + n' ≤ n ∧ Good c' n' a := by
  induction hr generalizing n with
  | refl c => exact ⟨n, by omega, h⟩
  | step hs _ ih =>
    obtain ⟨n1, e1, g1⟩ := h.step hs
    obtain ⟨n2, e2, g2⟩ := ih g1
    exact ⟨n2, by omega, g2⟩

/-- How a sender ends. -/
def Sender.outcome : Sender K α → Res α
  | .fin r => r
  | .send _ _ S => S.outcome

theorem Sender.outcome_bind (S : Sender K α) (f : α → Sender K β) : (S >>= f).outcome = (S.outcome >>= fun a => (f a).outcome) := by
  change (S.bind f).outcome = _
  induction S with
  | fin r => cases r <;> rfl
  | send t b S ih => exact ih

theorem LinkStep.outcome {c c' : Link K α} (h : LinkStep c c') : c'.sender.outcome = c.sender.outcome := by
  cases h with
  | buffer => rfl
  | sure h => cases h <;> rfl

theorem LinkRun.outcome {c c' : Link K α} {k : Nat} (h : LinkRun k c c') : c'.sender.outcome = c.sender.outcome := by
  induction h with
  | refl => rfl
  | step h _ ih => rw [ih, h.outcome]

theorem run_sender (S : Sender K Unit) (ch : List (Int × Buf K)) (R : Receiver K α) :
    ∃ k ch', LinkRun k ⟨S, ch, R⟩ ⟨.fin S.outcome, ch', R⟩ := by
  induction S generalizing ch with
  | fin r => exact ⟨0, ch, .refl _⟩
  | send t b S ih =>
    obtain ⟨k, ch', h⟩ := ih (ch ++ [(t, b)])
    exact ⟨k + 1, ch', .step .buffer h⟩

theorem outcome_empty (hD : D.emptyFront = false) {v : Value K} (hv : ¬ v.NoEmpty) (t : Int) : (send D v t).outcome = .ub := by
  induction v with
  | prim k x => exact absurd trivial hv
  | std k l =>
    simp only [Value.NoEmpty, not_not] at hv
    subst hv
    unfold send sendStd address
    rw [hD]
    rfl
  | vec k v =>
    simp only [Value.NoEmpty, not_not] at hv
    unfold send sendVec sendStd address
    rw [hv, hD]
    rfl
  | mat k A =>
    simp only [Value.NoEmpty, not_not] at hv
    unfold send sendMat sendStd address
    rw [hv, hD]
    rfl
  | str s => exact absurd trivial hv
  | node d p l f e b ih =>
    unfold send
    rw [Sender.outcome_bind, ih hv]
    rfl

/-! ### The messages of each type -/

/-- The messages of a value, from the documentation of the wire format. -/
def wire : Value K → Int → List (Int × Buf K)
  | .prim k x, t => [(t, ⟨k, [x]⟩)]
  | .std k l, t => [(t, ⟨.int, [(l.length : Int)]⟩), (t, ⟨k, l⟩)]
  | .vec k v, t => [(t, ⟨.int, [(v.data.length : Int)]⟩), (t, ⟨k, v.data⟩)]
  | .mat k A, t => [(t + 1, ⟨.int, [(A.nrows : Int)]⟩), (t + 2, ⟨.int, [(A.ncols : Int)]⟩), (t, ⟨.int, [(A.data.length : Int)]⟩), (t, ⟨k, A.data⟩)]
  | .str s, t => [(t, ⟨.int, [(s.length : Int)]⟩), (t, ⟨.char, s⟩)]
  | .node d p l f e b, t => wire d t ++ ([(t, ⟨.int, [(p.length : Int)]⟩), (t, ⟨.char, p⟩)] ++ ([(t, ⟨.int, [l]⟩)] ++ ([(t, ⟨.int, [f]⟩)] ++
      ([(t, ⟨.int, [e]⟩)] ++ [(t, ⟨.bool, [b]⟩)]))))

theorem emits_prim (k : Kind) (x : k.Carrier K) (t : Int) : Emits (sendPrim k x t) [(t, ⟨k, [x]⟩)] := Emits.cons Emits.nil

theorem address_ok {k : Kind} {l : List (k.Carrier K)} (hl : D.emptyFront = true ∨ l ≠ []) : address D k l = .ok l := by
  cases l with
  | nil =>
    rcases hl with hl | hl
    · simp only [address, hl, if_true]
    · exact absurd rfl hl
  | cons => rfl

theorem emits_std {k : Kind} {l : List (k.Carrier K)} (hl : D.emptyFront = true ∨ l ≠ []) (t : Int) :
    Emits (sendStd D k l t) [(t, ⟨.int, [(l.length : Int)]⟩), (t, ⟨k, l⟩)] := by
  unfold sendStd
  rw [address_ok hl]
  exact Emits.cons (Emits.cons Emits.nil)

theorem emits_str (s : Text) (t : Int) : Emits (K := K) (sendStr s t) [(t, ⟨.int, [(s.length : Int)]⟩), (t, ⟨.char, s⟩)] :=
  Emits.cons (Emits.cons Emits.nil)

theorem emits {v : Value K} (hv : D.emptyFront = true ∨ v.NoEmpty) (t : Int) : Emits (send D v t) (wire v t) := by
  induction v with
  | prim k x => exact emits_prim k x t
  | std k l => exact emits_std hv t
  | vec k v => exact emits_std hv t
  | mat k A => exact Emits.bind (L := [_]) (emits_prim _ _ _) (Emits.bind (L := [_]) (emits_prim _ _ _) (emits_std hv t))
  | str s => exact emits_str s t
  | node d p l f e b ih =>
    unfold send wire
    exact Emits.bind (ih hv) (Emits.bind (emits_str p t) (Emits.bind (emits_prim _ _ _) (Emits.bind (emits_prim _ _ _)
      (Emits.bind (emits_prim _ _ _) (emits_prim _ _ _)))))

theorem fits_prim (k : Kind) (old x : k.Carrier K) (t : Int) : Fits (recvPrim k old t) [(t, ⟨k, [x]⟩)] x :=
  Fits.cons (x := [x]) rfl Fits.nil

theorem resize_length [Zero K] (k : Kind) (l : List (k.Carrier K)) (n : Nat) : (resize k l n).length = n := by
  simp only [resize, List.length_append, List.length_take, List.length_replicate]
  omega

theorem resizeInt_nat [Zero K] (k : Kind) (l : List (k.Carrier K)) (n : Nat) : resizeInt k l (n : Int) = .ok (resize k l n) := by
  rw [resizeInt, if_pos (by omega), Int.toNat_natCast]

theorem fits_std [Zero K] {k : Kind} (old : List (k.Carrier K)) {l : List (k.Carrier K)} (hl : D.emptyFront = true ∨ l ≠ [])
    (t : Int) : Fits (recvStd D k old t) [(t, ⟨.int, [(l.length : Int)]⟩), (t, ⟨k, l⟩)] l := by
  refine Fits.bind (L := [_]) (L' := [_]) (fits_prim .int _ (l.length : Int) t) ?_
  rw [resizeInt_nat]
  change Fits (Receiver.fin (address D k (resize k old l.length)) >>= fun b => Receiver.recv t k b pure) _ _
  rw [address_ok (hl.imp_right fun hl h => by
    have := resize_length k old l.length
    rw [h] at this
    exact hl (List.length_eq_zero_iff.mp this.symm))]
  exact Fits.cons (by rw [resize_length]) Fits.nil

theorem fits_str [Zero K] (old s : Text) (t : Int) :
    Fits (K := K) (recvStr old t) [(t, ⟨.int, [(s.length : Int)]⟩), (t, ⟨.char, s⟩)] s := by
  refine Fits.bind (L := [_]) (L' := [_]) (fits_prim .int _ (s.length : Int) t) ?_
  rw [resizeInt_nat]
  exact Fits.cons (by rw [resize_length]) Fits.nil

theorem fits [Zero K] {v old : Value K} (ht : v.SameType old) (hs : v.Sound)
    (hv : D.emptyFront = true ∨ v.NoEmpty) (t : Int) : Fits (receive D old t) (wire v t) v := by
  induction v generalizing old with
  | prim k x =>
    cases old <;> simp only [Value.SameType] at ht
    subst ht
    exact Fits.map (f := fun y => Value.prim k y) (fits_prim k _ x t)
  | std k l =>
    cases old <;> simp only [Value.SameType] at ht
    subst ht
    exact Fits.map (f := fun y => Value.std k y) (fits_std _ hv t)
  | vec k w =>
    cases old <;> simp only [Value.SameType] at ht
    subst ht
    have : Vec.ofList w.data = w := by
      cases w
      simp only [Value.Sound] at hs
      simp [Vec.ofList, ← hs]
    have h := Fits.map (f := fun y => Value.vec k y) (Fits.map (f := fun l => Vec.ofList l) (fits_std (l := w.data) [] hv t))
    rw [this] at h
    exact h
  | mat k A =>
    cases old <;> simp only [Value.SameType] at ht
    subst ht
    refine Fits.map (f := fun y => Value.mat k y) (a := A) ?_
    refine Fits.bind (L := [_]) (fits_prim .int _ (A.nrows : Int) (t + 1)) (Fits.bind (L := [_]) (fits_prim .int _ (A.ncols : Int) (t + 2)) ?_)
    have := Fits.map (f := fun l => (⟨A.nrows, A.ncols, l⟩ : Mat (k.Carrier K))) (fits_std (l := A.data) [] hv t)
    simpa only [Int.toNat_natCast] using this
  | str s =>
    cases old <;> simp only [Value.SameType] at ht
    exact Fits.map (f := fun y => Value.str y) (fits_str _ s t)
  | node d p l f e b ih =>
    cases old <;> simp only [Value.SameType] at ht
    unfold receive wire
    exact Fits.bind (ih ht hs hv) (Fits.bind (fits_str _ p t) (Fits.bind (fits_prim _ _ _ _) (Fits.bind (fits_prim _ _ _ _)
      (Fits.bind (fits_prim _ _ _ _) (Fits.map (f := fun x => Value.node d p l f e x) (fits_prim _ _ _ _))))))

/-! ## Broadcasts -/

/-- The ranks below `n` run together to the results `a`. -/
inductive Repl (n : Nat) : (Nat → Caster K α) → (Nat → α) → Prop
  | fin {c : Nat → Caster K α} {a : Nat → α} (h : ∀ r, r < n → c r = .fin (.ok (a r))) : Repl n c a
  | step {c c' : Nat → Caster K α} {a : Nat → α} (hs : CastStep n c c') (h : Repl n c' a) : Repl n c a

theorem Repl.congr {n : Nat} {c d : Nat → Caster K α} {a : Nat → α} (h : Repl n c a) (he : ∀ r, r < n → d r = c r) : Repl n d a := by
  induction h generalizing d with
  | fin h => exact .fin fun r hr => by rw [he r hr, h r hr]
  | @step c c' a hs h ih =>
    cases hs with
    | bcast root k mine next hroot arrived count leaves others =>
      refine .step (c' := fun r => if r < n then c' r else d r) (.bcast root k mine next hroot (fun r hr => by rw [he r hr, arrived r hr])
        count (fun r hr => by rw [if_pos hr]; exact leaves r hr) (fun r hr => if_neg hr)) (ih fun r hr => if_pos hr)

theorem Repl.bind {n : Nat} {c : Nat → Caster K α} {a : Nat → α} {f : Nat → α → Caster K β} {b : Nat → β} (h : Repl n c a)
    (h' : Repl n (fun r => f r (a r)) b) : Repl n (fun r => c r >>= f r) b := by
  change Repl n (fun r => (c r).bind (f r)) b
  induction h with
  | fin h => exact h'.congr fun r hr => by rw [h r hr]; rfl
  | @step c c' a hs h ih =>
    cases hs with
    | bcast root k mine next hroot arrived count leaves others =>
      refine .step ?_ (ih h')
      exact .bcast root k mine (fun r l => (next r l).bind (f r)) hroot (fun r hr => by rw [arrived r hr]; rfl) count
        (fun r hr => by rw [leaves r hr]) (fun r hr => by rw [others r hr])

theorem repl_prim {n root : Nat} (hr : root < n) (k : Kind) (x : Nat → k.Carrier K) :
    Repl n (fun r => castPrim root k (x r)) (fun _ => x root) :=
  .step (c' := fun r => if r < n then .fin (.ok (x root)) else castPrim root k (x r))
    (.bcast root k (fun r => [x r]) _ hr (fun r _ => rfl) (fun _ _ => rfl) (fun r h => by rw [if_pos h]; rfl)
      (fun r h => by rw [if_neg h])) (.fin fun r h => if_pos h)

theorem repl_buf {n root : Nat} (hr : root < n) (k : Kind) {l : Nat → List (k.Carrier K)} (hl : ∀ r, r < n → (l r).length = (l root).length) :
    Repl n (fun r => Caster.bcast root k (l r) pure) (fun _ => l root) :=
  .step (c' := fun r => if r < n then .fin (.ok (l root)) else .bcast root k (l r) pure)
    (.bcast root k l _ hr (fun r _ => rfl) hl (fun r h => by rw [if_pos h]; rfl)
      (fun r h => by rw [if_neg h])) (.fin fun r h => if_pos h)

theorem Repl.map {n : Nat} {c : Nat → Caster K α} {a : Nat → α} {f : Nat → α → β} (h : Repl n c a) :
    Repl n (fun r => c r >>= fun x => pure (f r x)) (fun r => f r (a r)) :=
  Repl.bind (f := fun r x => pure (f r x)) h (.fin fun _ _ => rfl)

theorem Repl.last {n : Nat} {c : Nat → Caster K α} {a b : Nat → α} (h : Repl n c a) (he : ∀ r, r < n → a r = b r) : Repl n c b := by
  induction h with
  | fin h => exact .fin fun r hr => by rw [h r hr, he r hr]
  | step hs _ ih => exact .step hs (ih he)

theorem repl_std [Zero K] {n root : Nat} (hr : root < n) (k : Kind) {l : Nat → List (k.Carrier K)}
    (hl : D.emptyFront = true ∨ l root ≠ []) : Repl n (fun r => castStd D r root k (l r)) (fun _ => l root) := by
  unfold castStd
  refine Repl.bind (repl_prim hr .int (fun r => ((l r).length : Int))) ?_
  have e : ∀ r, (if r ≠ root then resizeInt k (l r) ((l root).length : Int) else .ok (l r))
      = .ok (if r ≠ root then resize k (l r) (l root).length else l r) := by
    intro r
    split
    · exact resizeInt_nat _ _ _
    · rfl
  have len : ∀ r, (if r ≠ root then resize k (l r) (l root).length else l r).length = (l root).length := by
    intro r
    by_cases e : r = root
    · rw [if_neg (by simpa using e), e]
    · rw [if_pos e, resize_length]
  refine Repl.congr (c := fun r => Caster.bcast root k (if r ≠ root then resize k (l r) (l root).length else l r) pure) ?_
    fun r _ => ?_
  · refine (repl_buf hr k (fun r _ => by rw [len r, len root])).last fun r _ => ?_
    rw [if_neg (by simp)]
  · rw [e r]
    change (Caster.fin (address D k (if r ≠ root then resize k (l r) (l root).length else l r)) >>= fun b =>
      Caster.bcast root k b pure) = _
    rw [address_ok]
    · rfl
    · refine hl.imp_right fun hl h => ?_
      have := len r
      rw [h] at this
      exact hl (List.length_eq_zero_iff.mp this.symm)

theorem repl_vec [Zero K] {n root : Nat} (hr : root < n) (k : Kind) {v : Nat → Vec (k.Carrier K)} (hs : (v root).size = (v root).data.length)
    (hv : D.emptyFront = true ∨ (v root).data ≠ []) : Repl n (fun r => castVec D r root k (v r)) (fun _ => v root) := by
  unfold castVec
  have e : (if root = root then (v root).data else []) = (v root).data := if_pos rfl
  refine (Repl.map (repl_std hr k (l := fun r => if r = root then (v r).data else []) (by rwa [e]))).last fun r _ => ?_
  rw [e]
  by_cases h : r = root
  · rw [if_neg (by simpa using h), h]
  · rw [if_pos h]
    cases hv' : v root with
    | mk size data => rw [hv'] at hs; simp only at hs; simp [Vec.ofList, hs]

theorem repl_mat [Zero K] {n root : Nat} (hr : root < n) (k : Kind) {A : Nat → Mat (k.Carrier K)}
    (hA : D.emptyFront = true ∨ (A root).data ≠ []) : Repl n (fun r => castMat D r root k (A r)) (fun _ => A root) := by
  unfold castMat
  refine Repl.bind (repl_prim hr .int _) (Repl.bind (repl_prim hr .int _) ?_)
  have e : (if root = root then (A root).data else []) = (A root).data := if_pos rfl
  refine (Repl.map (repl_std hr k (l := fun r => if r = root then (A r).data else []) (by rwa [e]))).last fun r _ => ?_
  rw [e, if_pos rfl, if_pos rfl, Int.toNat_natCast, Int.toNat_natCast]
  by_cases h : r = root
  · rw [if_neg (by simpa using h), h]
  · rw [if_pos h]

theorem reread_ok {s : Text} {m : Nat} (h : D.behind.isSome = true ∨ m ≤ s.length + 1) :
    ∃ s', reread D s m = .ok s' ∧ s'.length = m := by
  unfold reread
  split
  · refine ⟨_, rfl, ?_⟩
    simp only [List.length_take, List.length_append, List.length_singleton]
    omega
  · rename_i hn
    obtain ⟨c, hc⟩ := Option.isSome_iff_exists.mp (h.resolve_right hn)
    rw [hc]
    refine ⟨_, rfl, ?_⟩
    simp only [List.length_append, List.length_singleton, List.length_map, List.length_range]
    omega

theorem repl_str {n root : Nat} (hr : root < n) {s : Nat → Text}
    (hs : ∀ r, r < n → D.behind.isSome = true ∨ (s root).length ≤ (s r).length + 1) : Repl (K := K) n (fun r => castStr D r root (s r)) (fun _ => s root) := by
  unfold castStr
  refine Repl.bind (repl_prim hr .int (fun r => ((s r).length : Int))) ?_
  have h : ∀ r, ∃ s' : Text, r < n → (if r ≠ root then (if 0 ≤ ((s root).length : Int) then reread D (s r) (Int.toNat ((s root).length : Int)) else .throw .badAlloc)
      else .ok (s r)) = .ok s' ∧ s'.length = (s root).length ∧ (r = root → s' = s root) := by
    intro r
    rw [Int.toNat_natCast, if_pos (Int.natCast_nonneg (s root).length)]
    by_cases e : r = root
    · subst e
      exact ⟨s r, fun _ => ⟨by simp, rfl, fun _ => rfl⟩⟩
    · by_cases hn : r < n
      · obtain ⟨s', h1, h2⟩ := reread_ok (hs r hn)
        exact ⟨s', fun _ => ⟨by rw [if_pos e, h1], h2, fun h => absurd h e⟩⟩
      · exact ⟨[], fun h => absurd h hn⟩
  choose s' hs' using h
  refine Repl.congr (c := fun r => Caster.bcast root .char (s' r) pure) ?_ fun r hn => ?_
  · refine (repl_buf hr .char (fun r hn => ?_)).last fun r hn => ?_
    · rw [(hs' r hn).2.1, (hs' root hr).2.1]
    · exact (hs' root hr).2.2 rfl
  · rw [(hs' r hn).1]
    rfl

theorem repl_grid {n root : Nat} (hr : root < n) (g : Nat → Grid K) : Repl n (fun r => castGrid root (g r)) (fun _ => g root) := by
  unfold castGrid
  refine Repl.bind (repl_prim hr .int _) (Repl.bind (repl_prim hr .int _) (Repl.bind (repl_prim hr .real _) (Repl.bind (repl_prim hr .real _)
    (Repl.bind (repl_prim hr .real _) ?_))))
  exact (Repl.map (repl_prim hr .real _)).last fun r _ => by simp only [Int.toNat_natCast]

/-! ### Every run is the good run -/

theorem CastStep.det {n : Nat} {c c1 c2 : Nat → Caster K α} (h1 : CastStep n c c1) (h2 : CastStep n c c2) : c1 = c2 := by
  cases h1 with
  | bcast root k mine next hroot arrived count leaves others =>
    cases h2 with
    | bcast root' k' mine' next' hroot' arrived' count' leaves' others' =>
      have e0 := (arrived root hroot).symm.trans (arrived' root hroot)
      injection e0 with e1 e2 _ _
      subst e1
      subst e2
      have e : ∀ r, r < n → mine r = mine' r ∧ next r = next' r := by
        intro r hr
        have := (arrived r hr).symm.trans (arrived' r hr)
        injection this with _ _ e3 e4
        exact ⟨e3, e4⟩
      funext r
      by_cases hr : r < n
      · rw [leaves r hr, leaves' r hr, (e r hr).2, (e root hroot).1]
      · rw [others r hr, others' r hr]

theorem CastRun.others {n k : Nat} {c c' : Nat → Caster K α} (h : CastRun n k c c') : ∀ r, ¬ r < n → c' r = c r := by
  induction h with
  | refl c => exact fun _ _ => rfl
  | step hs _ ih =>
    intro r hr
    rw [ih r hr]
    cases hs with
    | bcast _ _ _ _ _ _ _ _ others => exact others r hr

theorem Repl.all {n : Nat} (hn : 0 < n) {c : Nat → Caster K α} {a : Nat → α} (h : Repl n c a) :
    ∃ (N : Nat) (e : Nat → Caster K α), (∀ r, r < n → e r = .fin (.ok (a r))) ∧ ∀ k d, CastRun n k c d → k ≤ N ∧ CastRun n (N - k) d e := by
  induction h with
  | @fin c a h =>
    refine ⟨0, c, h, fun k d hr => ?_⟩
    cases hr with
    | refl => exact ⟨by omega, .refl _⟩
    | step hs _ =>
      cases hs with
      | bcast root k mine next hroot arrived _ _ _ =>
        have := (arrived 0 hn).symm.trans (h 0 hn)
        cases this
  | @step c c' a hs h ih =>
    obtain ⟨N, e, h1, h2⟩ := ih
    refine ⟨N + 1, e, h1, fun k d hr => ?_⟩
    cases hr with
    | refl => exact ⟨by omega, .step hs (h2 0 _ (.refl _)).2⟩
    | @step k _ _ _ hs' hr =>
      rw [CastStep.det hs' hs] at hr
      obtain ⟨q1, q2⟩ := h2 k d hr
      refine ⟨by omega, ?_⟩
      rwa [show N + 1 - (k + 1) = N - k by omega]

/-! ### Values, patches and nodes -/

theorem repl_value [Zero K] {n root : Nat} (hr : root < n) {v : Value K} {old : Nat → Value K} (h0 : old root = v)
    (ht : ∀ r, r < n → v.SameType (old r)) (hs : v.Sound) (hv : D.emptyFront = true ∨ v.NoEmpty)
    (hm : ∀ r, r < n → D.behind.isSome = true ∨ v.Room (old r)) :
    Repl n (fun r => cast D r root (old r)) (fun _ => v) := by
  induction v generalizing old with
  | prim k x =>
    have : ∀ r, ∃ y, r < n → old r = .prim k y := by
      intro r
      by_cases hn : r < n
      · have := ht r hn
        cases ho : old r <;> rw [ho] at this <;> simp only [Value.SameType] at this
        subst this
        exact ⟨_, fun _ => rfl⟩
      · exact ⟨x, fun h => absurd h hn⟩
    choose y hy using this
    have e : y root = x := by have := (hy root hr).symm.trans h0; injection this
    refine Repl.congr ?_ (fun r hn => by rw [hy r hn, cast])
    exact (Repl.map (f := fun _ y => Value.prim k y) (repl_prim hr k y)).last fun r _ => by rw [e]
  | std k x =>
    have : ∀ r, ∃ y, r < n → old r = .std k y := by
      intro r
      by_cases hn : r < n
      · have := ht r hn
        cases ho : old r <;> rw [ho] at this <;> simp only [Value.SameType] at this
        subst this
        exact ⟨_, fun _ => rfl⟩
      · exact ⟨x, fun h => absurd h hn⟩
    choose y hy using this
    have e : y root = x := by have := (hy root hr).symm.trans h0; injection this
    refine Repl.congr ?_ (fun r hn => by rw [hy r hn, cast])
    exact (Repl.map (f := fun _ y => Value.std k y) (repl_std hr k (l := y) (by rw [e]; exact hv))).last fun r _ => by rw [e]
  | vec k x =>
    have : ∀ r, ∃ y, r < n → old r = .vec k y := by
      intro r
      by_cases hn : r < n
      · have := ht r hn
        cases ho : old r <;> rw [ho] at this <;> simp only [Value.SameType] at this
        subst this
        exact ⟨_, fun _ => rfl⟩
      · exact ⟨x, fun h => absurd h hn⟩
    choose y hy using this
    have e : y root = x := by have := (hy root hr).symm.trans h0; injection this
    refine Repl.congr ?_ (fun r hn => by rw [hy r hn, cast])
    exact (Repl.map (f := fun _ y => Value.vec k y) (repl_vec hr k (v := y) (by rw [e]; exact hs) (by rw [e]; exact hv))).last
      fun r _ => by rw [e]
  | mat k x =>
    have : ∀ r, ∃ y, r < n → old r = .mat k y := by
      intro r
      by_cases hn : r < n
      · have := ht r hn
        cases ho : old r <;> rw [ho] at this <;> simp only [Value.SameType] at this
        subst this
        exact ⟨_, fun _ => rfl⟩
      · exact ⟨x, fun h => absurd h hn⟩
    choose y hy using this
    have e : y root = x := by have := (hy root hr).symm.trans h0; injection this
    refine Repl.congr ?_ (fun r hn => by rw [hy r hn, cast])
    exact (Repl.map (f := fun _ y => Value.mat k y) (repl_mat hr k (A := y) (by rw [e]; exact hv))).last fun r _ => by rw [e]
  | str x =>
    have : ∀ r, ∃ y, r < n → old r = .str y := by
      intro r
      by_cases hn : r < n
      · have := ht r hn
        cases ho : old r <;> rw [ho] at this <;> simp only [Value.SameType] at this
        exact ⟨_, fun _ => rfl⟩
      · exact ⟨x, fun h => absurd h hn⟩
    choose y hy using this
    have e : y root = x := by have := (hy root hr).symm.trans h0; injection this
    refine Repl.congr ?_ (fun r hn => by rw [hy r hn, cast])
    refine (Repl.map (f := fun _ y => Value.str y) (repl_str hr (s := y) fun r hn => ?_)).last fun r _ => by rw [e]
    have := hm r hn
    rw [hy r hn] at this
    rw [e]
    exact this
  | node d p l f t b ih =>
    have : ∀ r, ∃ (d' : Value K) (p' : Text) (l' f' t' : Int) (b' : Bool), r < n → old r = .node d' p' l' f' t' b' := by
      intro r
      by_cases hn : r < n
      · have := ht r hn
        cases ho : old r <;> rw [ho] at this <;> simp only [Value.SameType] at this
        exact ⟨_, _, _, _, _, _, fun _ => rfl⟩
      · exact ⟨d, p, l, f, t, b, fun h => absurd h hn⟩
    choose d' p' l' f' t' b' hy using this
    have e := (hy root hr).symm.trans h0
    injection e with e1 e2 e3 e4 e5 e6
    refine Repl.congr ?_ (fun r hn => by rw [hy r hn, cast])
    refine Repl.bind (ih (old := d') e1 (fun r hn => ?_) hs hv (fun r hn => ?_)) (Repl.bind (repl_str hr (s := p') fun r hn => ?_)
      (Repl.bind (repl_prim hr .int l') (Repl.bind (repl_prim hr .int f') (Repl.bind (repl_prim hr .int t') ?_))))
    · have := ht r hn
      rwa [hy r hn] at this
    · have := hm r hn
      rw [hy r hn] at this
      exact this.imp_right fun h => h.2
    · have := hm r hn
      rw [hy r hn] at this
      rw [e2]
      exact this.imp_right fun h => h.1
    · exact (Repl.map (f := fun _ x => Value.node d (p' root) (l' root) (f' root) (t' root) x) (repl_prim hr .bool b')).last
        fun r _ => by rw [e2, e3, e4, e5, e6]

theorem repl_patch [Zero K] {n root : Nat} (hr : root < n) {p : Nat → Patch K} (hs : SoundPatch (p root))
    (hf : D.emptyFront = true ∨ FullPatch (p root)) : Repl n (fun r => castPatch D r root (p r)) (fun _ => p root) := by
  obtain ⟨s1, s2, s3, s4, s5, s6⟩ := hs
  have f1 := hf.imp_right fun h => h.1.1
  have f2 := hf.imp_right fun h => h.1.2.1
  have f3 := hf.imp_right fun h => h.1.2.2.1
  have f4 := hf.imp_right fun h => h.1.2.2.2
  have g1 := hf.imp_right fun h => h.2.1
  have g2 := hf.imp_right fun h => h.2.2.1
  have g3 := hf.imp_right fun h => h.2.2.2.1
  have g4 := hf.imp_right fun h => h.2.2.2.2.1
  have g5 := hf.imp_right fun h => h.2.2.2.2.2.1
  have g6 := hf.imp_right fun h => h.2.2.2.2.2.2
  unfold castPatch
  refine Repl.bind (repl_prim hr .int _) (Repl.bind (repl_grid hr _) (Repl.bind (repl_mat hr .real (A := fun r => (p r).X) f1)
    (Repl.bind (repl_mat hr .real (A := fun r => (p r).H) f2) (Repl.bind (repl_mat hr .real (A := fun r => (p r).S) f3)
    (Repl.bind (repl_mat hr .real (A := fun r => (p r).T) f4) (Repl.bind (repl_vec hr .real (v := fun r => (p r).u) s1 g1)
    (Repl.bind (repl_vec hr .real (v := fun r => (p r).g) s2 g2) (Repl.bind (repl_vec hr .real (v := fun r => (p r).v) s3 g3)
    (Repl.bind (repl_vec hr .real (v := fun r => (p r).f) s4 g4) (Repl.bind (repl_vec hr .real (v := fun r => (p r).h) s5 g5) ?_))))))))))
  exact (Repl.map (repl_vec hr .real (v := fun r => (p r).w) s6 g6)).last fun r _ => by simp only [Int.toNat_natCast]

theorem repl_node {castData : Nat → α → Caster K α} {n root : Nat} (hr : root < n) {nd : Nat → Node α}
    (hd : Repl n (fun r => castData r (nd r).data) (fun _ => (nd root).data))
    (hp : ∀ r, r < n → D.behind.isSome = true ∨ (nd root).path.length ≤ (nd r).path.length + 1) :
    Repl n (fun r => castNode D (castData r) r root (nd r)) (fun r => { nd root with comm := (nd r).comm }) := by
  unfold castNode
  refine Repl.bind hd (Repl.bind (repl_str hr (s := fun r => (nd r).path) hp)
      (Repl.bind (repl_prim hr .int _) (Repl.bind (repl_prim hr .int _) (Repl.bind (repl_prim hr .int _) ?_))))
  exact (Repl.map (repl_prim hr .bool _)).last fun r _ => by simp only [Int.toNat_natCast]

/-! ### Crashes -/

/-- The ranks below `n` run together until the rank `e` has undefined behaviour. -/
inductive Crash (n e : Nat) : (Nat → Caster K α) → Prop
  | here {c : Nat → Caster K α} (h : c e = .fin .ub) : Crash n e c
  | step {c c' : Nat → Caster K α} (hs : CastStep n c c') (h : Crash n e c') : Crash n e c

theorem Crash.congr {n e : Nat} (hn : e < n) {c d : Nat → Caster K α} (h : Crash n e c) (he : ∀ r, r < n → d r = c r) : Crash n e d := by
  induction h generalizing d with
  | here h => exact .here (by rw [he e hn, h])
  | @step c c' hs h ih =>
    cases hs with
    | bcast root k mine next hroot arrived count leaves others =>
      refine .step (c' := fun r => if r < n then c' r else d r) (.bcast root k mine next hroot (fun r hr => by rw [he r hr, arrived r hr])
        count (fun r hr => by rw [if_pos hr]; exact leaves r hr) (fun r hr => if_neg hr)) (ih fun r hr => if_pos hr)

theorem Crash.bind {n e : Nat} {c : Nat → Caster K α} (f : Nat → α → Caster K β) (h : Crash n e c) : Crash n e (fun r => c r >>= f r) := by
  change Crash n e (fun r => (c r).bind (f r))
  induction h with
  | here h => exact .here (by rw [h]; rfl)
  | @step c c' hs h ih =>
    cases hs with
    | bcast root k mine next hroot arrived count leaves others =>
      refine .step ?_ ih
      exact .bcast root k mine (fun r l => (next r l).bind (f r)) hroot (fun r hr => by rw [arrived r hr]; rfl) count
        (fun r hr => by rw [leaves r hr]) (fun r hr => by rw [others r hr])

theorem Repl.crash {n e : Nat} (hn : e < n) {c : Nat → Caster K α} {a : Nat → α} {f : Nat → α → Caster K β} (h : Repl n c a)
    (h' : Crash n e (fun r => f r (a r))) : Crash n e (fun r => c r >>= f r) := by
  change Crash n e (fun r => (c r).bind (f r))
  induction h with
  | fin h => exact h'.congr hn fun r hr => by rw [h r hr]; rfl
  | @step c c' a hs h ih =>
    cases hs with
    | bcast root k mine next hroot arrived count leaves others =>
      refine .step ?_ (ih h')
      exact .bcast root k mine (fun r l => (next r l).bind (f r)) hroot (fun r hr => by rw [arrived r hr]; rfl) count
        (fun r hr => by rw [leaves r hr]) (fun r hr => by rw [others r hr])

theorem Crash.run {n e : Nat} {c : Nat → Caster K α} (h : Crash n e c) : ∃ k d, CastRun n k c d ∧ d e = .fin .ub := by
  induction h with
  | here h => exact ⟨0, _, .refl _, h⟩
  | step hs _ ih =>
    obtain ⟨k, d, h1, h2⟩ := ih
    exact ⟨k + 1, d, .step hs h1, h2⟩

theorem crash_std [Zero K] (hD : D.emptyFront = false) {n root e : Nat} (hr : root < n) (he : e < n) (k : Kind) {l : Nat → List (k.Carrier K)} (hl : l root = []) :
    Crash n e (fun r => castStd D r root k (l r)) := by
  unfold castStd
  refine Repl.crash he (repl_prim hr .int (fun r => ((l r).length : Int))) (.here ?_)
  have : (if e ≠ root then resizeInt k (l e) ((l root).length : Int) else .ok (l e)) = .ok [] := by
    by_cases h : e = root
    · rw [if_neg (by simpa using h), h, hl]
    · rw [if_pos h, hl]
      simp [resize, resizeInt]
  rw [this]
  change (Caster.fin (address D k []) >>= fun b => Caster.bcast root k b pure) = _
  rw [address, hD]
  rfl

theorem crash_vec [Zero K] (hD : D.emptyFront = false) {n root e : Nat} (hr : root < n) (he : e < n) (k : Kind) {v : Nat → Vec (k.Carrier K)} (hv : (v root).data = []) :
    Crash n e (fun r => castVec D r root k (v r)) := by
  unfold castVec
  exact Crash.bind _ (crash_std hD hr he k (l := fun r => if r = root then (v r).data else []) (by rw [if_pos rfl, hv]))

theorem crash_mat [Zero K] (hD : D.emptyFront = false) {n root e : Nat} (hr : root < n) (he : e < n) (k : Kind) {A : Nat → Mat (k.Carrier K)} (hA : (A root).data = []) :
    Crash n e (fun r => castMat D r root k (A r)) := by
  unfold castMat
  exact Repl.crash he (repl_prim hr .int _) (Repl.crash he (repl_prim hr .int _) (Crash.bind _
    (crash_std hD hr he k (l := fun r => if r = root then (A r).data else []) (by rw [if_pos rfl, hA]))))

/-- A patch with an empty matrix or vector is not broadcast: every rank comes to the address of its first element. -/
theorem crash_patch [Zero K] (hD : D.emptyFront = false) {n root e : Nat} (hr : root < n) (he : e < n) {p : Nat → Patch K}
    (hs : SoundPatch (p root)) (hf : ¬ FullPatch (p root)) : Crash n e (fun r => castPatch D r root (p r)) := by
  obtain ⟨s1, s2, s3, s4, s5, s6⟩ := hs
  unfold castPatch
  refine Repl.crash he (repl_prim hr .int _) (Repl.crash he (repl_grid hr _) ?_)
  by_cases f1 : (p root).X.data = []
  · exact Crash.bind _ (crash_mat hD hr he .real (A := fun r => (p r).X) f1)
  refine Repl.crash he (repl_mat hr .real (A := fun r => (p r).X) (.inr f1)) ?_
  by_cases f2 : (p root).H.data = []
  · exact Crash.bind _ (crash_mat hD hr he .real (A := fun r => (p r).H) f2)
  refine Repl.crash he (repl_mat hr .real (A := fun r => (p r).H) (.inr f2)) ?_
  by_cases f3 : (p root).S.data = []
  · exact Crash.bind _ (crash_mat hD hr he .real (A := fun r => (p r).S) f3)
  refine Repl.crash he (repl_mat hr .real (A := fun r => (p r).S) (.inr f3)) ?_
  by_cases f4 : (p root).T.data = []
  · exact Crash.bind _ (crash_mat hD hr he .real (A := fun r => (p r).T) f4)
  refine Repl.crash he (repl_mat hr .real (A := fun r => (p r).T) (.inr f4)) ?_
  by_cases g1 : (p root).u.data = []
  · exact Crash.bind _ (crash_vec hD hr he .real (v := fun r => (p r).u) g1)
  refine Repl.crash he (repl_vec hr .real (v := fun r => (p r).u) s1 (.inr g1)) ?_
  by_cases g2 : (p root).g.data = []
  · exact Crash.bind _ (crash_vec hD hr he .real (v := fun r => (p r).g) g2)
  refine Repl.crash he (repl_vec hr .real (v := fun r => (p r).g) s2 (.inr g2)) ?_
  by_cases g3 : (p root).v.data = []
  · exact Crash.bind _ (crash_vec hD hr he .real (v := fun r => (p r).v) g3)
  refine Repl.crash he (repl_vec hr .real (v := fun r => (p r).v) s3 (.inr g3)) ?_
  by_cases g4 : (p root).f.data = []
  · exact Crash.bind _ (crash_vec hD hr he .real (v := fun r => (p r).f) g4)
  refine Repl.crash he (repl_vec hr .real (v := fun r => (p r).f) s4 (.inr g4)) ?_
  by_cases g5 : (p root).h.data = []
  · exact Crash.bind _ (crash_vec hD hr he .real (v := fun r => (p r).h) g5)
  refine Repl.crash he (repl_vec hr .real (v := fun r => (p r).h) s5 (.inr g5)) ?_
  by_cases g6 : (p root).w.data = []
  · exact Crash.bind _ (crash_vec hD hr he .real (v := fun r => (p r).w) g6)
  exact absurd ⟨⟨f1, f2, f3, f4⟩, g1, g2, g3, g4, g5, g6⟩ hf

theorem crash_str (hD : D.behind = none) {n root e : Nat} (hr : root < n) (he : e < n) {s : Nat → Text} (hs : (s e).length + 1 < (s root).length) :
    Crash (K := K) n e (fun r => castStr D r root (s r)) := by
  unfold castStr
  refine Repl.crash he (repl_prim hr .int (fun r => ((s r).length : Int))) (.here ?_)
  have h : e ≠ root := by
    rintro rfl
    omega
  rw [if_pos h, if_pos (Int.natCast_nonneg _), Int.toNat_natCast, reread, if_neg (by omega), hD]
  rfl

end EF.MPI
