import Verif.Model.Spmd

/-!
# Specification vocabulary: how much the ranks talk

A collective operation is a round in which all ranks take part and wait for each other.
-/

namespace Nlcg.Spec

variable {K R : ℕ} {own : Fin K → Fin R} {n b : Fin K → ℕ} {r : Fin R}

/-- number of energies that a rank has asked for -/
def energyRounds (l : List (Req own n b r × Reply own n b r)) : ℕ :=
  l.countP fun e => match e.1 with | .energy => true | _ => false

/-- Rounds that go with an event of the run: one for every reported step, two more for the band data of every tenth
step, three for a steepest-descent direction, four for a conjugated one. -/
def roundsOf {α : Type} : Ev α → ℕ
  | .report i _ _ _ => 1 + if i % 10 = 0 then 2 else 0
  | .steepest _ _ => 3
  | .conjugate _ _ => 4
  | _ => 0

/-- rounds that go with a list of events -/
def rounds {α : Type} (l : List (Ev α)) : ℕ := (l.map roundsOf).sum

/-- the search for the chemical potential does not throw the exceptions that the solver uses internally -/
def SearchHard (c : LCfg own n b r) : Prop :=
  ∀ w e x, c.occ w e = .throw x → x ≠ .slopeError ∧ x ≠ .stepError ∧ x ≠ .descentError

end Nlcg.Spec
