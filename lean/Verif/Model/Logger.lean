import Verif.Model.Study

/-!
# Messages

Model of `Logger.hpp`.  A message is the format of a call of `printf`, with the arguments of the call.  How the C library writes one
argument is the parameter `write`; which formats it may be given is modelled after ISO C 7.21.6.1.  Left out: `*` as a width,
length modifiers and strings as arguments, which no call uses.
-/

namespace EF

/-- What a call passes to a variadic function: an `int` or a `double`. -/
inductive PrintArg
  | int (i : Int)
  | dbl (x : ℚ)

/-- The conversions that take such an argument.  ISO C 7.21.6.1 paragraph 8. -/
def PrintArg.takes : PrintArg → Char → Bool
  | .int i, c => c ∈ ['d', 'i', 'c'] || (c ∈ ['o', 'u', 'x', 'X'] && 0 ≤ i)
  | .dbl _, c => c ∈ ['f', 'F', 'e', 'E', 'g', 'G', 'a', 'A']

/-- Flags, then a width, then a precision.  ISO C 7.21.6.1 paragraphs 3 to 6. -/
def goodSpec (s : Text) : Bool :=
  match (s.dropWhile (· ∈ ['-', '+', ' ', '#', '0'])).dropWhile Char.isDigit with
  | [] => true
  | c :: r => c = '.' && r.all Char.isDigit

/-- `printf`: `s` is what was read of a conversion specification after its `%`, if there is one. -/
def printfFrom (write : Text → PrintArg → Text) : Option Text → Text → List PrintArg → Res Text
  | none, [], _ => pure []
  | some _, [], _ => .ub
  | none, c :: cs, as =>
    if c = '%' then printfFrom write (some []) cs as
    else printfFrom write none cs as >>= fun t => pure (c :: t)
  | some s, c :: cs, as =>
    if c = '%' ∧ s = [] then printfFrom write none cs as >>= fun t => pure ('%' :: t)
    else if c ∈ ['-', '+', ' ', '#', '0', '.'] ∨ c.isDigit then printfFrom write (some (s ++ [c])) cs as
    else match as with
      | [] => .ub
      | a :: as =>
        if goodSpec s && a.takes c then printfFrom write none cs as >>= fun t => pure (write ('%' :: s ++ [c]) a ++ t)
        else .ub

/-- `printf(format, args...)`. -/
def printf (write : Text → PrintArg → Text) (format : Text) (args : List PrintArg) : Res Text := printfFrom write none format args

/-- `Logger::log` on a rank.  Logger.hpp:31-39. -/
def log (write : Text → PrintArg → Text) (rank : Nat) (message : Text) (args : List PrintArg) : Res Text :=
  printf write ("[EllipticForest ".toList ++ natText rank ++ "] ".toList ++ message ++ "\n".toList) args

/-- `Logger::logHead` on a rank.  Logger.hpp:48-58. -/
def logHead (write : Text → PrintArg → Text) (rank : Nat) (message : Text) (args : List PrintArg) : Res Text :=
  if rank = 0 then log write rank message args else pure []

/-- The messages of the stages.  HPSAlgorithm.hpp:96, 104, 124, 159, 182, 214, 229, 270, 294, 322, 347, 443. -/
def stageMessages : List Text :=
  ["Begin HPS Setup Stage".toList, "End HPS Setup Stage".toList, "Begin HPS Build Stage".toList, "End HPS Build Stage".toList,
    "Begin HPS Upwards Stage".toList, "End HPS Upwards Stage".toList, "Begin HPS Solve Stage".toList, "End HPS Solve Stage".toList]

/-- `ResultsData::str()`.  examples/elliptic-multiple/main.cpp:155-172. -/
def ResultsData.str (d : ResultsData ℚ) : Text :=
  d.mode ++ "  ".toList ++ intText d.minLevel ++ "  ".toList ++ intText d.maxLevel ++ "  ".toList ++ intText d.nx ++ "  ".toList ++
    intText d.ny ++ "  ".toList ++ intText d.resolution ++ "  ".toList ++ intText d.nDOFs ++ "  ".toList ++ decimalText d.lI ++
    "  ".toList ++ decimalText d.l1 ++ "  ".toList ++ decimalText d.l2 ++ "  ".toList ++ decimalText d.buildTime ++ "  ".toList ++
    decimalText d.upwardsTime ++ "  ".toList ++ decimalText d.solveTime ++ "  ".toList ++ decimalText d.sizeMB ++ "  ".toList

/-- The output of the study on the console, after its runs.  examples/elliptic-multiple/main.cpp:565-569. -/
def logResults (write : Text → PrintArg → Text) (rank : Nat) (results : List (ResultsData ℚ)) : Res Text :=
  logHead write rank resultHeaders [] >>= fun t =>
  results.foldlM (fun t d => logHead write rank d.str [] >>= fun u => pure (t ++ u)) t

/-- The name of a communicator for a range of ranks.  MPI.cpp:26-32. -/
def rangeName (super : Text) (first last : Nat) : Text :=
  super ++ "_sub_range={".toList ++ natText first ++ ":".toList ++ natText last ++ "}".toList

end EF
