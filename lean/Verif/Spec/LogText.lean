import Verif.Model.LogText

/-! # Notions for the text of log messages -/

namespace Nlcg.Spec
variable {α : Type}

/-- the items that a list of statements sends to the logger itself (not to one made by `TO_STDOUT`) -/
def plainItems : List (LogStmt α) → List (LogItem α)
  | [] => []
  | .plain items :: l => items ++ plainItems l
  | .toStdout _ :: l => plainItems l

/-- a statement ends with a text, as all of the library's do (a line break) -/
def EndsWithText : LogStmt α → Prop
  | .plain items => ∃ pre s, items = pre ++ [.text s]
  | .toStdout items => ∃ pre s, items = pre ++ [.text s]

/-- a statement that goes through a logger of its own -/
def OwnStream : LogStmt α → Prop
  | .plain _ => False
  | .toStdout _ => True

/-- an item that chooses the notation of numbers -/
def SetsField : LogItem α → Prop
  | .fixed => True
  | .scientific => True
  | _ => False

/-- an item that chooses the precision -/
def SetsPrec : LogItem α → Prop
  | .prec _ => True
  | _ => False

/-- adjustment, notation and precision have all been chosen somewhere in these statements -/
structure AllChosen (l : List (LogStmt α)) : Prop where
  left : .left ∈ plainItems l
  field : ∃ it ∈ plainItems l, SetsField it
  prec : ∃ it ∈ plainItems l, SetsPrec it

end Nlcg.Spec
