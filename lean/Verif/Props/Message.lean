import Mathlib.Algebra.Field.Rat
import Verif.Proofs.Message

/-!
# Messages arrive as sent, broadcasts replicate
-/

namespace EF

open MPI

variable {K α : Type} {D : Dialect}

/-- Any sequence of values received with the same tags into variables of the same types: whatever the receiver's variables held
and whether or not MPI stores messages, the link is never stuck, comes to an end, and at the end the receiver holds equal
values and no message is left.  Missing: values with an empty vector or matrix, by the C++ standard (`C39_empty_wrong`); with a
compiler that lets the address of the first element of an empty vector be formed nothing is missing. -/
theorem C39_receive_as_sent_partial [Zero K] {vs olds : List (Value K × Int)}
    (h : List.Forall₂ (fun v o => v.2 = o.2 ∧ v.1.SameType o.1 ∧ v.1.Sound ∧ (D.emptyFront = true ∨ v.1.NoEmpty)) vs olds) :
    ∃ N, ∀ k c, LinkRun k ⟨sendAll D vs, [], receiveAll D olds⟩ c →
      k ≤ N ∧ (c = ⟨.fin (.ok ()), [], .fin (.ok (vs.map Prod.fst))⟩ ∨ ∃ c', Sure c c') := by
  have hg : ∃ L, Emits (sendAll D vs) L ∧ Fits (receiveAll D olds) L (vs.map Prod.fst) := by
    induction h with
    | nil => exact ⟨[], Emits.nil, Fits.nil⟩
    | @cons v o vs olds hv _ ih =>
      obtain ⟨L, h1, h2⟩ := ih
      obtain ⟨v, t⟩ := v
      obtain ⟨o, t'⟩ := o
      obtain ⟨e, e1, e2, e3⟩ := hv
      dsimp only at e e1 e2 e3
      subst e
      refine ⟨wire v t ++ L, Emits.bind (emits e3 t) h1, ?_⟩
      exact Fits.bind (fits e1 e2 e3 t) (Fits.map (f := fun vs => v :: vs) h2)
  obtain ⟨L, h1, h2⟩ := hg
  have good : Good ⟨sendAll D vs, [], receiveAll D olds⟩ (2 * L.length) (vs.map Prod.fst) := ⟨L, h1, h2, by simp⟩
  refine ⟨2 * L.length, fun k c hr => ?_⟩
  obtain ⟨n', e, g⟩ := good.run hr
  exact ⟨by omega, g.progress⟩

/-- Sending an empty vector, or a node with one inside, has undefined behaviour by the C++ standard: in every run the sender ends there. -/
theorem C39_empty_wrong {v : Value K} (hv : ¬ v.NoEmpty) (tag : Int) (R : Receiver K α) :
    ∃ k c, LinkRun k ⟨send strict v tag, [], R⟩ c ∧ c.sender = .fin .ub ∧
      ∀ j d, LinkRun j ⟨send strict v tag, [], R⟩ d → ∀ r, d.sender = .fin r → r = .ub := by
  have ho := outcome_empty (D := strict) rfl hv tag
  obtain ⟨k, ch, h⟩ := run_sender (send strict v tag) [] R
  rw [ho] at h
  refine ⟨k, _, h, rfl, fun j d hd r hr => ?_⟩
  have := hd.outcome
  rw [hr] at this
  exact this.trans ho

/-- A broadcast on `n` ranks of any value of the supported types, whatever the other ranks held: every run can be continued to
the same end, where every rank holds the root's value.  Missing, by the C++ standard: values with an empty vector
(`C40_empty_wrong`), receivers whose strings are shorter (`C40_string_wrong`).  With a compiler that lets the address of the first
element of an empty vector be formed and finds some character behind a string nothing is missing. -/
theorem C40_broadcast_partial [Zero K] {n root : Nat} (hr : root < n) {v : Value K} {old : Nat → Value K} (h0 : old root = v)
    (ht : ∀ r, r < n → v.SameType (old r)) (hs : v.Sound) (hv : D.emptyFront = true ∨ v.NoEmpty)
    (hm : ∀ r, r < n → D.behind.isSome = true ∨ v.Room (old r)) :
    ∃ (N : Nat) (e : Nat → Caster K (Value K)), (∀ r, r < n → e r = .fin (.ok v)) ∧
      ∀ k c, CastRun n k (fun r => cast D r root (old r)) c → k ≤ N ∧ CastRun n (N - k) c e :=
  (repl_value hr h0 ht hs hv hm).all (by omega)

/-- The same for a patch none of whose matrices and vectors is empty. -/
theorem C40_broadcast_patch_partial [Zero K] {n root : Nat} (hr : root < n) {p : Nat → Patch K} (hs : SoundPatch (p root))
    (hf : D.emptyFront = true ∨ FullPatch (p root)) :
    ∃ (N : Nat) (e : Nat → Caster K (Patch K)), (∀ r, r < n → e r = .fin (.ok (p root))) ∧
      ∀ k c, CastRun n k (fun r => castPatch D r root (p r)) c → k ≤ N ∧ CastRun n (N - k) c e :=
  (repl_patch hr hs hf).all (by omega)

/-- The same for the node of such a patch; the communicator of the node stays.  This is the step `Step.bcast` of the model of
parallel traversals. -/
theorem C40_broadcast_node_partial [Zero K] {n root : Nat} (hr : root < n) {nd : Nat → Node (Patch K)}
    (hs : SoundPatch (nd root).data) (hf : D.emptyFront = true ∨ FullPatch (nd root).data)
    (hp : ∀ r, r < n → D.behind.isSome = true ∨ (nd root).path.length ≤ (nd r).path.length + 1) :
    ∃ (N : Nat) (e : Nat → Caster K (Node (Patch K))), (∀ r, r < n → e r = .fin (.ok { nd root with comm := (nd r).comm })) ∧
      ∀ k c, CastRun n k (fun r => castNode D (castPatch D r root) r root (nd r)) c → k ≤ N ∧ CastRun n (N - k) c e :=
  (repl_node (castData := fun r => castPatch D r root) hr (repl_patch hr (p := fun r => (nd r).data) hs hf) hp).all (by omega)

/-- Broadcast of an empty vector: every rank has undefined behaviour. -/
theorem C40_empty_wrong [Zero K] {n root : Nat} (hr : root < n) (k : Kind) {l : Nat → List (k.Carrier K)} (hl : l root = []) {e : Nat}
    (he : e < n) : ∃ m c, CastRun n m (fun r => castStd strict r root k (l r)) c ∧ c e = .fin .ub :=
  (crash_std (D := strict) rfl hr he k hl).run

/-- Broadcast of a patch one of whose matrices and vectors is empty, such as every leaf during the build: every rank has undefined
behaviour. -/
theorem C40_leaf_patch_wrong [Zero K] {n root : Nat} (hr : root < n) {p : Nat → Patch K} (hs : SoundPatch (p root))
    (hf : ¬ FullPatch (p root)) {e : Nat} (he : e < n) :
    ∃ m c, CastRun n m (fun r => castPatch strict r root (p r)) c ∧ c e = .fin .ub :=
  (crash_patch rfl hr he hs hf).run

/-- Broadcast of a string to a rank whose string is shorter by two or more: that rank reads behind its string. -/
theorem C40_string_wrong {n root e : Nat} (hr : root < n) (he : e < n) {s : Nat → Text} (hs : (s e).length + 1 < (s root).length) :
    ∃ m c, CastRun n m (fun r => castStr (K := K) strict r root (s r)) c ∧ c e = .fin .ub :=
  (crash_str rfl hr he hs).run

/-- Broadcast of a node to a rank that made a new node for it, as the merge does for a child it does not own: undefined
behaviour on that rank, even when the data arrives. -/
theorem C40_new_node_wrong [Zero K] [Inhabited (Patch K)] {n root e : Nat} (hr : root < n) (he : e < n) {nd : Nat → Node (Patch K)}
    (hs : SoundPatch (nd root).data) (hf : FullPatch (nd root).data) (hp : 2 ≤ (nd root).path.length) (hb : nd e = Node.blank) :
    ∃ m c, CastRun n m (fun r => castNode strict (castPatch strict r root) r root (nd r)) c ∧ c e = .fin .ub :=
  (Repl.crash he (repl_patch hr (p := fun r => (nd r).data) hs (.inr hf)) (Crash.bind _ (crash_str rfl hr he (s := fun r => (nd r).path) (by
    rw [hb]
    exact hp)))).run

/-! ## Concrete cases -/

/-- A node with a matrix, a string and a vector, sent with three tags that overlap with the matrix's own. -/
def exSent : List (Value Rat × Int) :=
  [(.node (.mat .real ⟨2, 2, [1, 2, 3, 4]⟩) "013".toList 2 0 3 true, 7), (.str [], 8), (.vec .int ⟨3, [5, -6, 7]⟩, 9)]

/-- What the receiver's variables hold before. -/
def exOld : List (Value Rat × Int) :=
  [(.node (.mat .real ⟨1, 1, [9]⟩) "0".toList 0 1 1 false, 7), (.str "abc".toList, 8), (.vec .int ⟨0, []⟩, 9)]

example := C39_receive_as_sent_partial (D := strict) (vs := exSent) (olds := exOld) (by
  refine .cons ⟨rfl, rfl, rfl, by simp [Value.NoEmpty]⟩ (.cons ⟨rfl, trivial, trivial, .inr trivial⟩ (.cons ⟨rfl, rfl, rfl, ?_⟩ .nil))
  simp [Value.NoEmpty])

example : ¬ (Value.node (.std .real []) "01".toList 1 0 1 false : Value Rat).NoEmpty := by simp [Value.NoEmpty]

/-- Three ranks, the second is the root. -/
example := C40_broadcast_partial (K := Rat) (D := strict) (n := 3) (root := 1) (v := .node (.vec .real ⟨2, [1, 2]⟩) "012".toList 2 0 2 false)
  (old := fun r => if r = 1 then .node (.vec .real ⟨2, [1, 2]⟩) "012".toList 2 0 2 false else .node (.vec .real ⟨0, []⟩) "00".toList 1 0 0 true)
  (by omega) rfl (fun r _ => by split <;> rfl) rfl (by simp [Value.NoEmpty]) (fun r _ => by split <;> simp [Value.Room])

/-- A patch with every member filled. -/
def exFull : Patch Rat :=
  ⟨1, ⟨4, 4, 0, 1, 0, 1⟩, ⟨1, 1, [1]⟩, ⟨1, 1, [2]⟩, ⟨1, 1, [3]⟩, ⟨1, 2, [4, 5]⟩, ⟨1, [1]⟩, ⟨1, [2]⟩, ⟨1, [3]⟩, ⟨1, [4]⟩, ⟨1, [5]⟩, ⟨2, [6, 7]⟩⟩

theorem exFull_ok : SoundPatch exFull ∧ FullPatch exFull := by simp [SoundPatch, FullPatch, exFull]

example := C40_broadcast_patch_partial (D := strict) (n := 4) (root := 2)
  (p := fun r => if r = 2 then exFull else ⟨0, ⟨0, 0, 0, 0, 0, 0⟩, .empty, .empty, .empty, .empty, .empty, .empty, .empty, .empty, .empty, .empty⟩)
  (by omega) exFull_ok.1 (.inr exFull_ok.2)

example := C40_broadcast_node_partial (D := strict) (n := 2) (root := 0)
  (nd := fun r => if r = 0 then ⟨exFull, "03".toList, 1, 0, 1, false, none⟩ else ⟨exFull, "03".toList, 1, 0, 1, true, some (0, 1)⟩)
  (by omega) exFull_ok.1 (.inr exFull_ok.2) (fun r _ => by by_cases h : r = 0 <;> simp [h])

example := C40_new_node_wrong (K := Rat) (n := 2) (root := 0) (e := 1)
  (nd := fun r => if r = 0 then ⟨exFull, "03".toList, 1, 0, 1, false, none⟩ else Node.blank)
  (by omega) (by omega) exFull_ok.1 exFull_ok.2 (by simp) rfl

/-- A compiler that forms addresses of elements of empty vectors, and on which a question mark stands behind every string. -/
def exLenient : Dialect := ⟨true, some fun _ _ => '?'⟩

/-- With it an empty matrix arrives as well. -/
example := C39_receive_as_sent_partial (K := Rat) (D := exLenient) (vs := [(.mat .real ⟨0, 0, []⟩, 1), (.str "ab".toList, 2)])
  (olds := [(.mat .real ⟨1, 1, [9]⟩, 1), (.str [], 2)])
  (.cons ⟨rfl, rfl, rfl, .inl rfl⟩ (.cons ⟨rfl, trivial, trivial, .inl rfl⟩ .nil))

/-- A child that one rank owns, and the fresh objects of two others. -/
example := C40_broadcast_node_partial (K := Rat) (D := exLenient) (n := 3) (root := 1)
  (nd := fun r => if r = 1 then ⟨Patch.fresh ⟨4, 4, 0, 1, 0, 1⟩, "03".toList, 1, 1, 1, true, some (1, 1)⟩ else Node.blank)
  (by omega) ⟨rfl, rfl, rfl, rfl, rfl, rfl⟩ (.inl rfl) (fun r _ => .inl rfl)

/-- A new leaf: all its matrices and vectors are empty. -/
example := C40_leaf_patch_wrong (K := Rat) (n := 2) (root := 0) (e := 1) (p := fun _ => Patch.fresh ⟨4, 4, 0, 1, 0, 1⟩) (by omega)
  ⟨rfl, rfl, rfl, rfl, rfl, rfl⟩ (fun h => h.1.1 rfl) (by omega)

end EF
