import Verif.Model.MPI

/-!
# What MPI does with messages

Point to point: the messages from one rank to another on one communicator are matched in the order they were sent among those
with the tag asked for.  MPI may store a message until it is asked for (`buffer`), or hand it over only when the receiver asks;
a program must not rely on either.

Collective: a broadcast happens when all ranks of the communicator have arrived; all must agree on root, datatype and count.
-/

namespace EF.MPI

variable {K α : Type}

/-! ## Point to point -/

/-- The sender, the messages stored by MPI, and the receiver. -/
structure Link (K α : Type) where
  sender : Sender K Unit
  stored : List (Int × Buf K)
  receiver : Receiver K α

/-- The first message with a tag, and the other ones. -/
def firstWith (tag : Int) : List (Int × Buf K) → Option (Buf K × List (Int × Buf K))
  | [] => none
  | (t, b) :: rest => if t = tag then some (b, rest) else (firstWith tag rest).map fun x => (x.1, (t, b) :: x.2)

/-- A message arrives in a receive buffer.  A message of another datatype or longer than the buffer is an error; a shorter one
leaves the rest of the buffer as it was. -/
def deliver (k : Kind) (old : List (k.Carrier K)) (next : List (k.Carrier K) → Receiver K α) (b : Buf K) : Receiver K α :=
  if h : b.kind = k then
    if b.data.length ≤ old.length then next ((h ▸ b.data) ++ old.drop b.data.length) else .fin .ub
  else .fin .ub

/-- Steps MPI has to make as long as one is possible. -/
inductive Sure : Link K α → Link K α → Prop
  | take {S : Sender K Unit} {ch ch' : List (Int × Buf K)} {tag : Int} {k : Kind} {old : List (k.Carrier K)}
      {next : List (k.Carrier K) → Receiver K α} {b : Buf K} (h : firstWith tag ch = some (b, ch')) :
      Sure ⟨S, ch, .recv tag k old next⟩ ⟨S, ch', deliver k old next b⟩
  | hand {S : Sender K Unit} {ch : List (Int × Buf K)} {tag : Int} {k : Kind} {old : List (k.Carrier K)}
      {next : List (k.Carrier K) → Receiver K α} {b : Buf K} (h : firstWith tag ch = none) :
      Sure ⟨.send tag b S, ch, .recv tag k old next⟩ ⟨S, ch, deliver k old next b⟩

/-- All steps: MPI may also store a message. -/
inductive LinkStep : Link K α → Link K α → Prop
  | sure {c c' : Link K α} (h : Sure c c') : LinkStep c c'
  | buffer {S : Sender K Unit} {ch : List (Int × Buf K)} {R : Receiver K α} {tag : Int} {b : Buf K} :
      LinkStep ⟨.send tag b S, ch, R⟩ ⟨S, ch ++ [(tag, b)], R⟩

/-- A sequence of steps of a given length. -/
inductive LinkRun : Nat → Link K α → Link K α → Prop
  | refl (c : Link K α) : LinkRun 0 c c
  | step {n : Nat} {c c' c'' : Link K α} (h : LinkStep c c') (rest : LinkRun n c' c'') : LinkRun (n + 1) c c''

/-! ## Broadcasts -/

/-- One broadcast on a communicator of `n` ranks. -/
inductive CastStep (n : Nat) : (Nat → Caster K α) → (Nat → Caster K α) → Prop
  | bcast {c c' : Nat → Caster K α} (root : Nat) (k : Kind) (mine : Nat → List (k.Carrier K))
      (next : Nat → List (k.Carrier K) → Caster K α) (hroot : root < n)
      (arrived : ∀ r, r < n → c r = .bcast root k (mine r) (next r))
      (count : ∀ r, r < n → (mine r).length = (mine root).length)
      (leaves : ∀ r, r < n → c' r = next r (mine root))
      (others : ∀ r, ¬ r < n → c' r = c r) : CastStep n c c'

/-- A sequence of broadcasts of a given length. -/
inductive CastRun (n : Nat) : Nat → (Nat → Caster K α) → (Nat → Caster K α) → Prop
  | refl (c : Nat → Caster K α) : CastRun n 0 c c
  | step {k : Nat} {c c' c'' : Nat → Caster K α} (h : CastStep n c c') (rest : CastRun n k c' c'') : CastRun n (k + 1) c c''

/-! ## Values -/

/-- Two variables have the same C++ type. -/
def Value.SameType : Value K → Value K → Prop
  | .prim k _, .prim k' _ => k = k'
  | .std k _, .std k' _ => k = k'
  | .vec k _, .vec k' _ => k = k'
  | .mat k _, .mat k' _ => k = k'
  | .str _, .str _ => True
  | .node d _ _ _ _ _, .node d' _ _ _ _ _ => d.SameType d'
  | _, _ => False

/-- The lengths stored in vectors and matrices are those of their data. -/
def Value.Sound : Value K → Prop
  | .vec _ v => v.size = v.data.length
  | .mat _ A => A.data.length = A.nrows * A.ncols
  | .node d _ _ _ _ _ => d.Sound
  | _ => True

/-- No vector in the value is empty. -/
def Value.NoEmpty : Value K → Prop
  | .std _ l => l ≠ []
  | .vec _ v => v.data ≠ []
  | .mat _ A => A.data ≠ []
  | .node d _ _ _ _ _ => d.NoEmpty
  | _ => True

/-- The strings of the second value are at most one character shorter than those of the first. -/
def Value.Room : Value K → Value K → Prop
  | .str s, .str s' => s.length ≤ s'.length + 1
  | .node d p _ _ _ _, .node d' p' _ _ _ _ => p.length ≤ p'.length + 1 ∧ d.Room d'
  | _, _ => True

/-- The lengths stored in the vectors of a patch are right. -/
def SoundPatch (p : Patch K) : Prop :=
  p.u.size = p.u.data.length ∧ p.g.size = p.g.data.length ∧ p.v.size = p.v.data.length ∧ p.f.size = p.f.data.length ∧
    p.h.size = p.h.data.length ∧ p.w.size = p.w.data.length

/-- No matrix or vector of the patch is empty. -/
def FullPatch (p : Patch K) : Prop :=
  (p.X.data ≠ [] ∧ p.H.data ≠ [] ∧ p.S.data ≠ [] ∧ p.T.data ≠ []) ∧ p.u.data ≠ [] ∧ p.g.data ≠ [] ∧ p.v.data ≠ [] ∧ p.f.data ≠ [] ∧
    p.h.data ≠ [] ∧ p.w.data ≠ []

end EF.MPI
