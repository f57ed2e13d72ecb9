import Verif.Model.Logger

/-!
# Lines of the log
-/

namespace EF

/-- A line of a rank with a text. -/
def logLineOf (rank : Nat) (text : Text) : Text := s!"[EllipticForest {rank}] ".toList ++ text ++ ['\n']

/-- A text with every percent sign written twice. -/
def doubled (t : Text) : Text := t.flatMap fun c => if c = '%' then ['%', '%'] else [c]

/-- A conversion specification that suits an argument: flags, width, precision, and a letter for the type of the argument. -/
inductive Suits : Text → PrintArg → Prop
  | int (flags width : Text) (i : Int) (hf : ∀ c ∈ flags, c ∈ ['-', '+', ' ', '#', '0']) (hw : ∀ c ∈ width, c.isDigit) {c : Char}
      (hc : c ∈ ['d', 'i']) : Suits ('%' :: (flags ++ width ++ [c])) (.int i)
  | dbl (flags width : Text) (x : ℚ) (hf : ∀ c ∈ flags, c ∈ ['-', '+', ' ', '#', '0']) (hw : ∀ c ∈ width, c.isDigit) {c : Char}
      (hc : c ∈ ['f', 'F', 'e', 'E', 'g', 'G']) : Suits ('%' :: (flags ++ width ++ [c])) (.dbl x)
  | precise (flags width digits : Text) (x : ℚ) (hf : ∀ c ∈ flags, c ∈ ['-', '+', ' ', '#', '0']) (hw : ∀ c ∈ width, c.isDigit)
      (hd : ∀ c ∈ digits, c.isDigit) {c : Char} (hc : c ∈ ['f', 'F', 'e', 'E', 'g', 'G']) :
      Suits ('%' :: (flags ++ width ++ '.' :: digits ++ [c])) (.dbl x)

/-- One argument of a call: the text before it, its conversion specification, and the argument. -/
structure LogField where
  before : Text
  spec : Text
  arg : PrintArg

end EF
