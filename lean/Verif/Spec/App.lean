import Verif.Model.App
import Mathlib.Algebra.BigOperators.Group.List.Basic
import Mathlib.Order.Basic

/-!
# Histories of timers, caches and applications

The model is imported for the type of calls only.
-/

namespace EF

variable {K T : Type}

/-! ## Timers -/

/-- The clock reading of a start. -/
def startReading : TimerCall K → Option K
  | .start t => some t
  | _ => none

/-- The reading of the latest start in a list of calls; the epoch of the clock if there is none. -/
def latestStart [Zero K] (calls : List (TimerCall K)) : K :=
  (calls.reverse.findSome? startReading).getD 0

/-- What the call number `i` of `post`, made after the calls `pre`, contributes: for a stop, the time since
the latest start. -/
def contribution [AddGroup K] (pre post : List (TimerCall K)) (i : Nat) : K :=
  match post[i]? with
  | some (.stop t) => t - latestStart (pre ++ post.take i)
  | _ => 0

/-- A piece of a history in which starts and stops alternate: an interval, during which the timer may be
read, a restart between intervals, or a reading between intervals. -/
inductive TimerBlock (K : Type) where
  | interval (s e : K) (reads : Nat)
  | restart
  | read

/-- The calls of a block. -/
def TimerBlock.calls : TimerBlock K → List (TimerCall K)
  | .interval s e n => .start s :: List.replicate n .time ++ [.stop e]
  | .restart => [.restart]
  | .read => [.time]

/-- The duration of a block. -/
def TimerBlock.duration [AddGroup K] : TimerBlock K → K
  | .interval s e _ => e - s
  | _ => 0

/-- The clock readings of a block. -/
def TimerBlock.readings : TimerBlock K → List K
  | .interval s e _ => [s, e]
  | _ => []

def TimerBlock.isRestart : TimerBlock K → Bool
  | .restart => true
  | _ => false

/-- The blocks after the last restart. -/
def sinceRestart (bs : List (TimerBlock K)) : List (TimerBlock K) :=
  (bs.reverse.takeWhile (fun b => !b.isRestart)).reverse

/-- The call adds the timer called `name`. -/
def AppCall.adds (name : Text) : AppCall K → Bool
  | .add n => decide (n = name)
  | .on _ _ => false

/-- The calls that reach the timer called `name` since it was last added. -/
def ownCalls (name : Text) : List (AppCall K) → List (TimerCall K)
  | [] => []
  | .add _ :: cs => ownCalls name cs
  | .on n c :: cs =>
    if n = name ∧ cs.any (AppCall.adds name) = false then c :: ownCalls name cs else ownCalls name cs

/-! ## Caches -/

/-- A call on a cache. -/
inductive CacheCall (T : Type) where
  | put (key : Text) (v : T)
  | get (key : Text)
  | ask (key : Text)

/-- The value most recently stored under a key. -/
def lastPut (key : Text) : List (CacheCall T) → Option T
  | [] => none
  | c :: cs =>
    match lastPut key cs, c with
    | some v, _ => some v
    | none, .put k v => if k = key then some v else none
    | none, _ => none

end EF
