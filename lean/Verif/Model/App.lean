import Verif.Model.Options
import Mathlib.Algebra.Group.Basic

/-!
# Timers, the data cache and the application singleton

Model of `Timer.cpp`, the timers of `EllipticForestApp.cpp`, `DataCache.hpp` and `GenericSingleton.hpp`.

The clock is external: every call that reads it carries the reading.  Durations are exact, so the
rounding of `accumulatedTime_` is not modelled.
-/

namespace EF

variable {K T : Type}

/-! ## Timers -/

/-- `Timer`, `Timer.hpp:15-77`.  `started` and `ended` are default constructed, which is the epoch of the
clock, reading zero. -/
structure Timer (K : Type) where
  acc : K
  started : K
  ended : K

/-- `Timer::Timer`, `Timer.cpp:5-6`, with the initialisers of `Timer.hpp`. -/
def Timer.new [Zero K] : Timer K := ⟨0, 0, 0⟩

/-- `Timer::start`, `Timer.cpp:8-10`. -/
def Timer.start (t : Timer K) (now : K) : Timer K := { t with started := now }

/-- `Timer::stop`, `Timer.cpp:12-17`: the new timer and the returned duration. -/
def Timer.stop [AddGroup K] (t : Timer K) (now : K) : Timer K × K :=
  ({ t with ended := now, acc := t.acc + (now - t.started) }, now - t.started)

/-- `Timer::time`, `Timer.cpp:19`. -/
def Timer.time (t : Timer K) : K := t.acc

/-- `Timer::restart`, `Timer.cpp:21-23`. -/
def Timer.restart [Zero K] (t : Timer K) : Timer K := { t with acc := 0 }

/-- A call on a timer, with the reading of the clock where the call takes one. -/
inductive TimerCall (K : Type) where
  | start (now : K)
  | stop (now : K)
  | time
  | restart

/-- The timer after a call. -/
def TimerCall.run [AddGroup K] (t : Timer K) : TimerCall K → Timer K
  | .start now => t.start now
  | .stop now => (t.stop now).1
  | .time => t
  | .restart => t.restart

/-- `timers`, `EllipticForestApp.hpp:59`: a map from names to timers. -/
abbrev Timers (K : Type) := Text → Option (Timer K)

/-- A call on the timers of the application: `addTimer(name)`, or `timers[name].call`. -/
inductive AppCall (K : Type) where
  | add (name : Text)
  | on (name : Text) (c : TimerCall K)

/-- `EllipticForestApp::addTimer`, `EllipticForestApp.cpp:62-64`, which replaces a timer that is there;
and `timers[name]`, which creates one that is not. -/
def AppCall.run [AddGroup K] (ts : Timers K) : AppCall K → Timers K
  | .add name => fun k => if k = name then some Timer.new else ts k
  | .on name c => fun k => if k = name then some (c.run ((ts name).getD Timer.new)) else ts k

/-! ## The data cache -/

/-- `DataCache`, `DataCache.hpp:14-58`: a `std::map`. -/
abbrev DataCache (T : Type) := Text → Option T

/-- `DataCache::operator[]`, `DataCache.hpp:38-40`, used to store. -/
def DataCache.put (c : DataCache T) (key : Text) (v : T) : DataCache T :=
  fun k => if k = key then some v else c k

/-- `DataCache::operator[]`, `DataCache.hpp:38-40`, used to read: a missing key gets the default value. -/
def DataCache.get [Inhabited T] (c : DataCache T) (key : Text) : DataCache T × T :=
  match c key with
  | some v => (c, v)
  | none => (c.put key default, default)

/-- `DataCache::contains`, `DataCache.hpp:49-51`. -/
def DataCache.contains (c : DataCache T) (key : Text) : Bool := (c key).isSome

/-! ## The singleton -/

/-- The static pointer of `GenericSingleton` together with the objects: `count` objects were constructed,
numbered from zero, `dead i` says that object `i` was destroyed. -/
structure Singleton where
  pointer : Option Nat
  count : Nat
  dead : Nat → Bool

/-- Start of the program, `GenericSingleton.hpp:53-54`. -/
def Singleton.init : Singleton := ⟨none, 0, fun _ => false⟩

/-- The constructor with the arguments of the program, `EllipticForestApp.cpp:9-33`: the object registers
itself in its last line. -/
def Singleton.construct (s : Singleton) : Singleton :=
  { s with pointer := some s.count, count := s.count + 1 }

/-- The default constructor, `EllipticForestApp.cpp:5-7`, which does not register the object. -/
def Singleton.constructDefault (s : Singleton) : Singleton := { s with count := s.count + 1 }

/-- The destructor, `EllipticForestApp.cpp:35-60`, which leaves the static pointer alone. -/
def Singleton.destroy (s : Singleton) (i : Nat) : Singleton :=
  { s with dead := fun j => if j = i then true else s.dead j }

/-- `getInstance` followed by a use of the reference, `GenericSingleton.hpp:19-25`: a missing object is
made by the default constructor; the use of a destroyed object is undefined. -/
def Singleton.getInstance (s : Singleton) : Res (Singleton × Nat) :=
  match s.pointer with
  | none => pure ({ s.constructDefault with pointer := some s.count }, s.count)
  | some i => if s.dead i then .ub else pure (s, i)

/-- What a program does with applications. -/
inductive LifeCall where
  | construct
  | constructDefault
  | destroy (i : Nat)
  | get

/-- The state after one of these calls. -/
def LifeCall.run (s : Singleton) : LifeCall → Res Singleton
  | .construct => pure s.construct
  | .constructDefault => pure s.constructDefault
  | .destroy i => pure (s.destroy i)
  | .get => s.getInstance >>= fun r => pure r.1

end EF
