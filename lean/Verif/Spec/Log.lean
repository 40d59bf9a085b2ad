import Verif.Model.Driver

/-!
# Reading a history

Projections of a list of events, used to state what the step log and the run do.
-/

namespace Nlcg.Spec
variable {α : Type}

/-- iterations that were started, with their slopes -/
def starts : List (Ev α) → List (Nat × α)
  | [] => []
  | .start i s :: l => (i, s) :: starts l
  | _ :: l => starts l

/-- what was reported: iteration, free energy, entropy term, slope -/
def reports : List (Ev α) → List (Nat × α × α × α)
  | [] => []
  | .report i F S s :: l => (i, F, S, s) :: reports l
  | _ :: l => reports l

/-- iterations whose line search was entered -/
def searches : List (Ev α) → List Nat
  | [] => []
  | .search i _ :: l => i :: searches l
  | _ :: l => searches l

end Nlcg.Spec
