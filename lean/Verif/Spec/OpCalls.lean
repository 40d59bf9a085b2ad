import Verif.Model.OpSolver
import Verif.Spec.Host

/-! In which order the callbacks of the caller are called, and with what. -/

namespace Nlcg.Spec
open Matrix

variable {K : ℕ} {n b : Fin K → ℕ} {η : Type}

/-- something for every k-point, in order -/
def Each (B : Fin K → List (Entry n b) → Prop) (l : List (Entry n b)) : Prop :=
  ∃ f : Fin K → List (Entry n b), (∀ k, B k (f k)) ∧ l = (List.ofFn f).flatten

/-- what a search direction needs at one k-point: the overlap operator is applied to the orbitals `x`, the preconditioner
to the result, to some `hx`, and to `hx` with a combination of columns of the result subtracted, with opposite sign -/
def DirectionAt (k : Fin K) (x : Mat (n k) (b k)) (l : List (Entry n b)) : Prop :=
  ∃ sx hx p q r ll, l = [.S k x (some sx), .P k sx (some p), .P k hx (some q), .P k (sx * ll - hx) (some r)]

/-- what a step needs: the overlap operator is applied once to the trial orbitals `y` -/
def StepAt (y : Orbitals n b) (k : Fin K) (l : List (Entry n b)) : Prop := ∃ sy, l = [.S k (y k) (some sy)]

/-- the five calls of an evaluation, which all return -/
def told (p : Evaluated n b) : List (Entry n b) := (evaluation p).map fun c => .host c true

/-- Legal histories of calls, with the orbitals of the last evaluation: first `compute` and the evaluation of the starting
orbitals, then in any order: search directions at the orbitals last evaluated, steps (to orbitals that are combinations
of the trial orbitals) with an evaluation each, and print-outs. -/
inductive History : List (Entry n b) → Option (Orbitals n b) → Prop
  | start : History [.host .compute true] none
  | first (cs : List (Entry n b)) (X : Orbitals n b) (f : Bands b) (mu : ℝ) :
      History cs none → History (cs ++ told (X, f, mu)) (some X)
  | direction (cs l : List (Entry n b)) (X : Orbitals n b) :
      History cs (some X) → Each (fun k => DirectionAt k (X k)) l → History (cs ++ l) (some X)
  | step (cs l : List (Entry n b)) (X y : Orbitals n b) (R : (k : Fin K) → Mat (b k) (b k)) (f : Bands b) (mu : ℝ) :
      History cs (some X) → Each (StepAt y) l →
      History (cs ++ l ++ told (fun k => y k * R k, f, mu)) (some fun k => y k * R k)
  | print (cs : List (Entry n b)) (X : Orbitals n b) : History cs (some X) → History (cs ++ [.host .print true]) (some X)

/-- the same call, but it throws -/
def thrown : Entry n b → Entry n b
  | .host c _ => .host c false
  | .S k A _ => .S k A none
  | .P k A _ => .P k A none

/-- the first part of `l'`, and perhaps the next call threw -/
def CutOf (l l' : List (Entry n b)) : Prop := l <+: l' ∨ ∃ p e, p ++ [e] <+: l' ∧ l = p ++ [thrown e]

/-- a history that was cut short -/
def BrokenOff (l : List (Entry n b)) : Prop := ∃ l' X, History l' X ∧ CutOf l l'

/-- a call that threw -/
def Threw : Entry n b → Prop
  | .host _ returned => returned = false
  | .S _ _ answer => answer = none
  | .P _ _ answer => answer = none

/-- number of applications of the overlap operator at a k-point -/
def appliedS (k : Fin K) (l : List (Entry n b)) : ℕ :=
  l.countP fun e => match e with | .S k' _ _ => decide (k' = k) | _ => false

/-- number of applications of the preconditioner at a k-point -/
def appliedP (k : Fin K) (l : List (Entry n b)) : ℕ :=
  l.countP fun e => match e with | .P k' _ _ => decide (k' = k) | _ => false

/-- number of energies asked for -/
def energies (l : List (Entry n b)) : ℕ :=
  l.countP fun e => match e with | .host .energy _ => true | _ => false

/-- the search for the chemical potential does not throw the exceptions that the solver uses internally -/
def OccHard (c : Cfg n b) : Prop :=
  ∀ ek e, c.occ ek = .throw e → e ≠ .slopeError ∧ e ≠ .stepError ∧ e ≠ .descentError

/-- operators that multiply with the matrices of `c` and do not change the host -/
structure Multiply (A : Operators η n b) (c : Cfg n b) : Prop where
  S : ∀ k x h, A.S k x h = (some (c.S k * x), h)
  P : ∀ k x h, A.P k x h = (some (c.P k * x), h)

/-- a state without the record -/
def withoutRecord {α : Type} (w : NState α (OState η n b)) : NState α (SState η n b) :=
  { s := w.s.s, file := w.file, info := w.info, force := w.force, trace := w.trace }

end Nlcg.Spec
