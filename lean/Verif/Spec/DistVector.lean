import Verif.Model.DistVector

/-!
# What is expected of distributed vectors
-/

namespace EF

namespace Dist

variable {K : Type}

namespace DVec

/-- The indices and values handed over in a call. -/
def Call.pairs : Call K → List (Int × K)
  | .one i v => [(i, v)]
  | .many I V => I.data.zip V.data

/-- A call that is allowed on a vector of length `N`: no index too large and a value for every index. -/
def Call.Fits (N : Nat) : Call K → Prop
  | .one i _ => i < N
  | .many I V => I.size = I.data.length ∧ I.data.length ≤ V.data.length ∧ ∀ i ∈ I.data, i < N

/-- The values a call has for entry `i`. -/
def Call.forEntry (c : Call K) (i : Nat) : List K := (c.pairs.filter (fun e => decide (e.1 = (i : Int)))).map Prod.snd

/-- The values the calls of rank `r` have for entry `i`, in order. -/
def given (cs : List (Nat × Call K)) (r i : Nat) : List K := (cs.filter (fun c => decide (c.1 = r))).flatMap (fun c => c.2.forEntry i)

/-- What is to become of the entries: inserting replaces those for which some rank has a value by the last value of such a rank;
adding adds all values. -/
def Expected [AddCommMonoid K] (cs : List (Nat × Call K)) (old new : Nat → K) : Mode → Prop
  | .insert => ∀ i, (∀ c ∈ cs, c.2.forEntry i = []) ∧ new i = old i ∨ ∃ r, (given cs r i).getLast? = some (new i)
  | .add => ∀ i, new i = old i + (cs.flatMap (fun c => c.2.forEntry i)).sum

/-- Rounds of calls with one mode each, with assembly after each. -/
inductive Run [AddCommMonoid K] (size : Nat) : List (Mode × List (Nat × Call K)) → DVec K → DVec K → Prop
  | nil (x : DVec K) : Run size [] x x
  | cons {m : Mode} {cs : List (Nat × Call K)} {l : List (Mode × List (Nat × Call K))} {x y z w : DVec K}
      (hc : x.calls m cs = .ok (some y)) (ha : Assembles size y z) (hl : Run size l z w) : Run size ((m, cs) :: l) x w

/-- What is to become of the entries over several rounds. -/
inductive ExpectedAll [AddCommMonoid K] : List (Mode × List (Nat × Call K)) → (Nat → K) → (Nat → K) → Prop
  | nil (f : Nat → K) : ExpectedAll [] f f
  | cons {m : Mode} {cs : List (Nat × Call K)} {l : List (Mode × List (Nat × Call K))} {f g h : Nat → K}
      (hc : Expected cs f g m) (hl : ExpectedAll l g h) : ExpectedAll ((m, cs) :: l) f h

end DVec

end Dist

end EF
