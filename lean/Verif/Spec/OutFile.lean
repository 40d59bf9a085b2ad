import Verif.Model.OutFile

/-!
# What is on disk

A stream may write what it holds at any time and must have written it after a flush.
-/

namespace Nlcg.Spec
variable {α : Type}

/-- the messages among the operations -/
def text : List (OutOp α) → List (OutLine α)
  | [] => []
  | .line l :: o => l :: text o
  | _ :: o => text o

/-- `d` may be the content of the file if the process dies after the operations `o` -/
def OnDisk (o : List (OutOp α)) (d : List (OutLine α)) : Prop :=
  d <+: text o ∧ ∀ a b, o = a ++ .flush :: b → text a <+: d

/-- the reports among the messages -/
def reportsIn (d : List (OutLine α)) : List (Nat × α × α × α) :=
  d.filterMap fun | .report i F S m => some (i, F, S, m) | _ => none

/-- the reports made in the run (standard output) -/
def reportsMade (t : List (Ev α)) : List (Nat × α × α × α) :=
  t.filterMap fun | .report i F S m => some (i, F, S, m) | _ => none

/-- the message tells how the run ended -/
def Verdict : OutLine α → Prop
  | .success .. | .noDescent | .badSlope => True
  | _ => False

end Nlcg.Spec
