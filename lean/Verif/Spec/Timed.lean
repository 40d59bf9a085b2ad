import Verif.Model.Driver
import Verif.Model.Timed

/-! # What the times in the log should be -/

namespace Nlcg.Spec
variable {α σ ρ δ : Type}

/-- `R` relates the states of the world before and after every call the driver makes -/
structure EveryCall (ops : Ops α σ ρ δ) (R : σ → σ → Prop) : Prop where
  construct : ∀ s, R s (ops.construct s).2
  setup : ∀ s, R s (ops.setup s).2
  restarted : ∀ pt s, R s (ops.restarted pt s).2
  conjugated : ∀ fr pt d s, R s (ops.conjugated fr pt d s).2
  geo : ∀ pt d t s, R s (ops.geo pt d t s).2
  refresh : ∀ r s, R s (ops.refresh r s).2
  gather : ∀ pt s, R s (ops.gather pt s).2
  hostPrint : ∀ s, R s (ops.hostPrint s).2

/-- the clock never goes backwards -/
def Steady (ops : Ops α σ ρ δ) (clock : σ → Int) : Prop := EveryCall ops fun s s' => clock s ≤ clock s'

/-- directions are computed in no time -/
def DirectionsTakeNoTime (ops : Ops α σ ρ δ) (clock : σ → Int) : Prop :=
  (∀ pt s, clock (ops.restarted pt s).2 = clock s) ∧ ∀ fr pt d s, clock (ops.conjugated fr pt d s).2 = clock s

/-- trial steps take no time -/
def StepsTakeNoTime (ops : Ops α σ ρ δ) (clock : σ → Int) : Prop :=
  ∀ pt d t s, clock (ops.geo pt d t s).2 = clock s

/-- neither does anything else in the loop, apart from trial steps and directions -/
def RestTakesNoTime (ops : Ops α σ ρ δ) (clock : σ → Int) : Prop :=
  (∀ r s, clock (ops.refresh r s).2 = clock s) ∧ (∀ pt s, clock (ops.gather pt s).2 = clock s) ∧
    ∀ s, clock (ops.hostPrint s).2 = clock s

/-- the times reported for line searches -/
def searchTimes (l : List (LapKind × Int)) : List Int := (l.filter fun x => x.1 = .search).map Prod.snd

/-- the times reported for directions -/
def directionTimes (l : List (LapKind × Int)) : List Int := (l.filter fun x => x.1 ≠ .search).map Prod.snd

end Nlcg.Spec
