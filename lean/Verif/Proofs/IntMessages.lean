import Verif.Proofs.Ints

/-!
# Lemmas about messages with 32-bit integers
-/

namespace EF.MPI

variable {K α β : Type} {D : Dialect}

/-- A buffer whose length and elements fit into `int`s. -/
def SmallBuf (k : Kind) (l : List (k.Carrier K)) : Prop := SmallCount l.length ∧ ∀ x ∈ l, k.InRange x

theorem count_small {k : Kind} {l : List (k.Carrier K)} (h : SmallCount l.length) : count k l = l.length :=
  narrow_of (by omega) (by unfold SmallCount at h; omega)

theorem narrowAll_small {k : Kind} {l : List (k.Carrier K)} (h : ∀ x ∈ l, k.InRange x) : narrowAll k l = l := by
  cases k
  · refine (List.map_congr_left fun x hx => ?_).trans (List.map_id l)
    exact narrow_of (h x hx).1 (h x hx).2
  · rfl
  · rfl
  · rfl

theorem narrowAll_length (k : Kind) (l : List (k.Carrier K)) : (narrowAll k l).length = l.length := by
  cases k
  · exact List.length_map _
  · rfl
  · rfl
  · rfl

/-! ## Point to point -/

theorem Emits.on32 {S : Sender K Unit} {L : List (Int × Buf K)} (h : Emits S L) (hL : ∀ m ∈ L, SmallBuf m.2.kind m.2.data) :
    Emits S.on32 L := by
  induction h with
  | nil => exact Emits.nil
  | @cons t b S L h ih =>
    have hb := hL (t, b) (by simp)
    unfold Sender.on32
    rw [count_small hb.1, if_pos (by omega), Int.toNat_natCast, List.take_length, narrowAll_small hb.2]
    exact Emits.cons (ih fun m hm => hL m (by simp [hm]))

theorem Fits.on32 {R : Receiver K α} {L : List (Int × Buf K)} {a : α} (h : Fits R L a) (hL : ∀ m ∈ L, SmallBuf m.2.kind m.2.data) :
    Fits R.on32 L a := by
  induction h with
  | nil => exact Fits.nil
  | @cons t k old x next L a hx h ih =>
    have hb : SmallBuf k x := hL (t, ⟨k, x⟩) (by simp)
    have hs : SmallCount old.length := hx ▸ hb.1
    unfold Receiver.on32
    rw [count_small hs, if_pos (by omega), Int.toNat_natCast, List.take_length, List.drop_length]
    refine Fits.cons hx ?_
    rw [List.append_nil]
    exact ih fun m hm => hL m (by simp [hm])

theorem small_one {k : Kind} {x : k.Carrier K} (h : k.InRange x) : SmallBuf k [x] := by
  refine ⟨by simp [SmallCount], fun y hy => ?_⟩
  rw [List.mem_singleton] at hy
  rwa [hy]

theorem inRange_nat {n : Nat} (h : SmallCount n) : Kind.InRange (K := K) .int (n : Int) := by
  unfold SmallCount at h
  change (-2147483648 : Int) ≤ (n : Int) ∧ (n : Int) ≤ 2147483647
  omega

theorem small_text {s : Text} (h : SmallCount s.length) : SmallBuf (K := K) .char s := ⟨h, fun _ _ => trivial⟩

theorem wire_small {v : Value K} (h : v.Small) (t : Int) : ∀ m ∈ wire v t, SmallBuf m.2.kind m.2.data := by
  induction v with
  | prim k x =>
    unfold wire
    simp only [List.forall_mem_cons]
    exact ⟨small_one h, by simp⟩
  | std k l =>
    unfold wire
    simp only [List.forall_mem_cons]
    exact ⟨small_one (inRange_nat h.1), h, by simp⟩
  | vec k v =>
    unfold wire
    simp only [List.forall_mem_cons]
    exact ⟨small_one (inRange_nat h.1), h, by simp⟩
  | mat k A =>
    unfold wire
    simp only [List.forall_mem_cons]
    exact ⟨small_one (inRange_nat h.1), small_one (inRange_nat h.2.1), small_one (inRange_nat h.2.2.1), h.2.2, by simp⟩
  | str s =>
    unfold wire
    simp only [List.forall_mem_cons]
    exact ⟨small_one (inRange_nat h), small_text h, by simp⟩
  | node d p l f e b ih =>
    unfold wire
    simp only [List.forall_mem_append, List.forall_mem_cons]
    exact ⟨ih h.1, ⟨small_one (inRange_nat h.2.1), small_text h.2.1, by simp⟩, ⟨small_one h.2.2.1, by simp⟩, ⟨small_one h.2.2.2.1, by simp⟩,
      ⟨small_one h.2.2.2.2, by simp⟩, small_one trivial, by simp⟩

/-! ## Broadcasts -/

/-- What the root does when its broadcasts leave its own buffers as they are: all are small, and it ends with `a`. -/
inductive Own (root : Nat) : Caster K α → α → Prop
  | fin {a : α} : Own root (.fin (.ok a)) a
  | step {k : Kind} {mine : List (k.Carrier K)} {next : List (k.Carrier K) → Caster K α} {a : α} (hm : SmallBuf k mine)
      (h : Own root (next mine) a) : Own root (.bcast root k mine next) a

theorem Own.bind {root : Nat} {c : Caster K α} {a : α} {f : α → Caster K β} {b : β} (h : Own root c a) (h' : Own root (f a) b) :
    Own root (c >>= f) b := by
  change Own root (c.bind f) b
  induction h with
  | fin => exact h'
  | step hm _ ih => exact .step hm (ih h')

theorem Own.map {root : Nat} {c : Caster K α} {a : α} {f : α → β} (h : Own root c a) : Own root (c >>= fun x => pure (f x)) (f a) :=
  Own.bind (f := fun x => pure (f x)) h .fin

theorem Caster.on32_small {root : Nat} {k : Kind} {mine : List (k.Carrier K)} (h : SmallCount mine.length)
    (next : List (k.Carrier K) → Caster K α) :
    (Caster.bcast root k mine next).on32 = .bcast root k (narrowAll k mine) fun l => (next l).on32 := by
  rw [Caster.on32, count_small h, if_pos (by omega), Int.toNat_natCast, List.take_length, List.drop_length]
  simp only [List.append_nil]

theorem Repl.on32 {n root : Nat} (hr : root < n) {c : Nat → Caster K α} {a : Nat → α} (h : Repl n c a) {b : α} (ho : Own root (c root) b) :
    Repl n (fun r => (c r).on32) a := by
  induction h with
  | fin h => exact .fin fun r hn => by rw [h r hn]; rfl
  | @step c c' a hs h ih =>
    cases hs with
    | bcast root' k mine next hroot arrived cnt leaves others =>
      rw [arrived root hr] at ho
      cases ho with
      | step hm ho =>
        have hlen : ∀ r, r < n → SmallCount (mine r).length := fun r hn => by rw [cnt r hn]; exact hm.1
        refine .step (c' := fun r => (c' r).on32) (.bcast root k (fun r => narrowAll k (mine r)) (fun r l => (next r l).on32) hr
          (fun r hn => ?_) (fun r hn => ?_) (fun r hn => ?_) (fun r hn => ?_)) (ih ?_)
        · rw [arrived r hn]
          exact Caster.on32_small (hlen r hn) _
        · rw [narrowAll_length, narrowAll_length, cnt r hn]
        · rw [leaves r hn, narrowAll_small hm.2]
        · rw [others r hn]
        · rw [leaves root hr]
          exact ho

theorem own_prim (root : Nat) {k : Kind} {x : k.Carrier K} (h : k.InRange x) : Own root (castPrim root k x) x :=
  .step (small_one h) .fin

theorem own_std [Zero K] (root : Nat) {k : Kind} {l : List (k.Carrier K)} (hl : D.emptyFront = true ∨ l ≠ []) (h : SmallBuf k l) :
    Own root (castStd D root root k l) l := by
  unfold castStd
  refine Own.bind (own_prim root (k := .int) (inRange_nat h.1)) ?_
  rw [if_neg (by simp)]
  change Own root (Caster.fin (address D k l) >>= fun b => Caster.bcast root k b pure) l
  rw [address_ok hl]
  exact .step h .fin

theorem own_vec [Zero K] (root : Nat) {k : Kind} {v : Vec (k.Carrier K)} (hv : D.emptyFront = true ∨ v.data ≠ []) (h : SmallBuf k v.data) :
    Own root (castVec D root root k v) v := by
  unfold castVec
  rw [if_pos rfl]
  have := Own.map (f := fun l => if root ≠ root then Vec.ofList l else v) (own_std root hv h)
  rw [if_neg (by simp)] at this
  exact this

theorem own_mat [Zero K] (root : Nat) {k : Kind} {A : Mat (k.Carrier K)} (hA : D.emptyFront = true ∨ A.data ≠ []) (h1 : SmallCount A.nrows)
    (h2 : SmallCount A.ncols) (h : SmallBuf k A.data) : Own root (castMat D root root k A) A := by
  unfold castMat
  rw [if_pos rfl, if_pos rfl, if_pos rfl]
  refine Own.bind (own_prim root (k := .int) (inRange_nat h1)) (Own.bind (own_prim root (k := .int) (inRange_nat h2)) ?_)
  have := Own.map (f := fun l => if root ≠ root then (⟨Int.toNat (A.nrows : Int), Int.toNat (A.ncols : Int), l⟩ : Mat (k.Carrier K)) else A)
    (own_std root hA h)
  rw [if_neg (by simp)] at this
  exact this

theorem own_str (root : Nat) {s : Text} (h : SmallCount s.length) : Own (K := K) root (castStr D root root s) s := by
  unfold castStr
  refine Own.bind (own_prim root (k := .int) (inRange_nat h)) ?_
  rw [if_neg (by simp)]
  exact .step (small_text h) .fin

theorem own_grid (root : Nat) {g : Grid K} (hx : SmallCount g.nx) (hy : SmallCount g.ny) : Own root (castGrid root g) g := by
  unfold castGrid
  refine Own.bind (own_prim root (k := .int) (inRange_nat hx)) (Own.bind (own_prim root (k := .int) (inRange_nat hy))
    (Own.bind (own_prim root (k := .real) trivial) (Own.bind (own_prim root (k := .real) trivial) (Own.bind (own_prim root (k := .real) trivial) ?_))))
  have := Own.map (f := fun yu => (⟨Int.toNat (g.nx : Int), Int.toNat (g.ny : Int), g.xl, g.xu, g.yl, yu⟩ : Grid K))
    (own_prim root (k := .real) (x := g.yu) trivial)
  simpa only [Int.toNat_natCast] using this

theorem own_value [Zero K] (root : Nat) {v : Value K} (hv : D.emptyFront = true ∨ v.NoEmpty) (h : v.Small) :
    Own root (cast D root root v) v := by
  induction v with
  | prim k x => exact Own.map (f := fun y => Value.prim k y) (own_prim root h)
  | std k l => exact Own.map (f := fun y => Value.std k y) (own_std root hv h)
  | vec k v => exact Own.map (f := fun y => Value.vec k y) (own_vec root hv h)
  | mat k A => exact Own.map (f := fun y => Value.mat k y) (own_mat root hv h.1 h.2.1 h.2.2)
  | str s => exact Own.map (f := fun y => Value.str y) (own_str root h)
  | node d p l f e b ih =>
    unfold cast
    exact Own.bind (ih hv h.1) (Own.bind (own_str root h.2.1) (Own.bind (own_prim root h.2.2.1) (Own.bind (own_prim root h.2.2.2.1)
      (Own.bind (own_prim root h.2.2.2.2) (Own.map (f := fun x => Value.node d p l f e x) (own_prim root trivial))))))

theorem small_reals {l : List K} (h : SmallCount l.length) : SmallBuf (K := K) .real l := ⟨h, fun _ _ => trivial⟩

theorem own_patch [Zero K] (root : Nat) {p : Patch K} (hf : D.emptyFront = true ∨ FullPatch p) (h : SmallPatch p) :
    Own root (castPatch D root root p) p := by
  unfold castPatch
  refine Own.bind (own_prim root (k := .int) (inRange_nat h.nCoarsens)) (Own.bind (own_grid root h.nx h.ny)
    (Own.bind (own_mat root (k := .real) (hf.imp_right fun h => h.1.1) h.X.1 h.X.2.1 (small_reals h.X.2.2))
    (Own.bind (own_mat root (k := .real) (hf.imp_right fun h => h.1.2.1) h.H.1 h.H.2.1 (small_reals h.H.2.2))
    (Own.bind (own_mat root (k := .real) (hf.imp_right fun h => h.1.2.2.1) h.S.1 h.S.2.1 (small_reals h.S.2.2))
    (Own.bind (own_mat root (k := .real) (hf.imp_right fun h => h.1.2.2.2) h.T.1 h.T.2.1 (small_reals h.T.2.2))
    (Own.bind (own_vec root (k := .real) (hf.imp_right fun h => h.2.1) (small_reals h.u))
    (Own.bind (own_vec root (k := .real) (hf.imp_right fun h => h.2.2.1) (small_reals h.g))
    (Own.bind (own_vec root (k := .real) (hf.imp_right fun h => h.2.2.2.1) (small_reals h.v))
    (Own.bind (own_vec root (k := .real) (hf.imp_right fun h => h.2.2.2.2.1) (small_reals h.f))
    (Own.bind (own_vec root (k := .real) (hf.imp_right fun h => h.2.2.2.2.2.1) (small_reals h.h)) ?_))))))))))
  have := Own.map (f := fun w => (⟨Int.toNat (p.nCoarsens : Int), p.grid, p.X, p.H, p.S, p.T, p.u, p.g, p.v, p.f, p.h, w⟩ : Patch K))
    (own_vec (D := D) root (k := .real) (v := p.w) (hf.imp_right fun h => h.2.2.2.2.2.2) (small_reals h.w))
  simpa only [Int.toNat_natCast] using this

theorem own_node {castData : α → Caster K α} (root : Nat) {nd : Node α} (hd : Own root (castData nd.data) nd.data)
    (hp : SmallCount nd.path.length) (hl : Kind.InRange (K := K) .int nd.level) (h1 : SmallCount nd.pfirst) (h2 : SmallCount nd.plast) :
    Own root (castNode D castData root root nd) nd := by
  unfold castNode
  refine Own.bind hd (Own.bind (own_str root hp) (Own.bind (own_prim root hl) (Own.bind (own_prim root (k := .int) (inRange_nat h1))
    (Own.bind (own_prim root (k := .int) (inRange_nat h2)) ?_))))
  have := Own.map (f := fun b => (⟨nd.data, nd.path, nd.level, Int.toNat (nd.pfirst : Int), Int.toNat (nd.plast : Int), b, nd.comm⟩ : Node α))
    (own_prim (K := K) root (k := .bool) (x := nd.leaf) trivial)
  simpa only [Int.toNat_natCast] using this

/-! ## Too long vectors -/

theorem narrow_negative {n : Nat} (h1 : 2147483648 ≤ n) (h2 : n < 4294967296) : narrow (n : Int) < 0 := by
  unfold narrow
  rw [Int.bmod_def]
  split <;> omega

theorem narrow_wrap {c : Nat} (h : c ≤ 2147483647) : narrow ((4294967296 + c : Nat) : Int) = c := by
  unfold narrow
  rw [Int.bmod_def]
  split <;> omega

theorem std_negative {k : Kind} {l : List (k.Carrier K)} (h1 : 2147483648 ≤ l.length) (h2 : l.length < 4294967296) (t : Int) :
    (sendStd D k l t).on32.outcome = .ub := by
  have hl : l ≠ [] := by
    rintro rfl
    simp at h1
  unfold sendStd sendPrim
  rw [address_ok (.inr hl)]
  change (Sender.on32 (.send t ⟨.int, [(l.length : Int)]⟩ (.send t ⟨k, l⟩ (.fin (.ok ()))))).outcome = _
  have := narrow_negative h1 h2
  unfold Sender.on32
  rw [if_pos (by simp [count, narrow])]
  unfold Sender.outcome Sender.on32
  rw [if_neg (by simp only [count]; omega)]
  rfl

/-- The messages of a vector whose length does not fit are those of its beginning. -/
theorem emits_wrap {k : Kind} {l : List (k.Carrier K)} {c : Nat} (h0 : 0 < c) (hc : c ≤ 2147483647) (hl : l.length = 4294967296 + c)
    (hk : ∀ x ∈ l, k.InRange x) (t : Int) :
    Emits (sendStd D k l t).on32 [(t, ⟨.int, [((l.take c).length : Int)]⟩), (t, ⟨k, l.take c⟩)] := by
  have hn : l ≠ [] := by
    rintro rfl
    rw [List.length_nil] at hl
    omega
  have h1 : (l.take c).length = c := by
    rw [List.length_take]
    omega
  unfold sendStd sendPrim
  rw [address_ok (.inr hn), h1]
  change Emits (Sender.on32 (.send t ⟨.int, [(l.length : Int)]⟩ (.send t ⟨k, l⟩ (.fin (.ok ()))))) _
  have e1 : count k l = (c : Int) := by
    unfold count
    rw [hl]
    exact narrow_wrap hc
  have e2 : count (K := K) .int [(l.length : Int)] = 1 := narrow_of (n := 1) (by omega) (by omega)
  have e3 : narrowAll (K := K) .int [(l.length : Int)] = [(c : Int)] := by
    change [narrow (l.length : Int)] = _
    rw [hl, narrow_wrap hc]
  unfold Sender.on32
  rw [e2, if_pos (by decide)]
  unfold Sender.on32
  rw [e1, if_pos (by omega), Int.toNat_natCast]
  change Emits (.send t ⟨.int, narrowAll .int [(l.length : Int)]⟩ _) _
  rw [e3, narrowAll_small fun x hx => hk x (List.mem_of_mem_take hx)]
  exact Emits.cons (Emits.cons Emits.nil)

end EF.MPI
