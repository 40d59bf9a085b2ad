import Verif.Model.Basic
import Verif.Model.Arith

/-!
# Search for the chemical potential

`src/smearing.hpp:19-49` and `src/dft/newton_minimization_smearing.hpp:26-73`.
The electron count functions are parameters. They are pure functions of `mu` here; in
the code they are lambdas that only read.
-/

namespace Nlcg
open Arith
variable {α : Type} [Arith α]

/-- Variables of the loop in `find_chemical_potential`, `src/smearing.hpp:22-27`. -/
structure CPState (α : Type) where
  mu : α
  de : α
  sp : Int
  s : Int
  counter : Nat

/-- `src/smearing.hpp:22-27`: initial values. -/
def cpInit (mu0 : α) : CPState α :=
  { mu := mu0, de := lit (1 / 10), sp := 1, s := 1, counter := 0 }

/-- `src/smearing.hpp:26`. -/
def cpNmax : Nat := 1000

/-- `src/smearing.hpp:28`: loop condition. -/
def cpGuard (f : α → α) (tol : α) (st : CPState α) : Bool :=
  (tol <ᶠ Arith.abs (f st.mu)) && decide (st.counter < cpNmax)

/-- `src/smearing.hpp:29-39`: loop body. -/
def cpBody (f : α → α) (st : CPState α) : CPState α :=
  let sp := st.s
  let s : Int := if lit 0 <ᶠ f st.mu then 1 else -1
  let de := if s = sp then st.de *ᶠ lit (5 / 4) else st.de *ᶠ lit (1 / 4)
  let mu := st.mu +ᶠ (lit (s : ℚ) *ᶠ de)
  { mu := mu, de := de, sp := sp, s := s, counter := st.counter + 1 }

/-- `src/smearing.hpp:42-48`: the check after the loop. -/
def cpFinish (f : α → α) (tol : α) (st : CPState α) : Res α :=
  if Arith.abs (f st.mu) <ᶠ tol then .ok st.mu else .throw .runtimeError

/-- `find_chemical_potential`, `src/smearing.hpp:19-49`: the outcome together with the
number of updates of `mu` that were made (the counter); `none`: out of fuel. -/
def findChemPot (fuel : Nat) (f : α → α) (mu0 tol : α) : Option (Res α × Nat) :=
  (whileFuel (cpGuard f tol) (cpBody f) fuel (cpInit mu0)).map
    fun st => (cpFinish f tol st, st.counter)

/-- The loop runs at most `cpNmax` times (theorem `C02_search_terminates`), so this
amount of fuel gives the outcome of the C++ function. -/
def findChemPotRun (f : α → α) (mu0 tol : α) : Res α :=
  match findChemPot (cpNmax + 1) f mu0 tol with
  | some r => r.1
  | none => .ub

/-- Variables of the Newton loop, `newton_minimization_smearing.hpp:33-35`. -/
structure NewtonState (α : Type) where
  mu : α
  iter : Nat

/-- One pass through the body of `while (true)`,
`src/dft/newton_minimization_smearing.hpp:36-70`: either leave the function
(`.inl outcome`) or go round again (`.inr state`). -/
def newtonBody (N dN ddN : α → α) (ne tol : α) (maxstep : Nat) (st : NewtonState α) :
    Res α ⊕ NewtonState α :=
  let Nf := N st.mu
  let dNf := dN st.mu
  let ddNf := ddN st.mu
  let dF := lit 2 *ᶠ (Nf -ᶠ ne) *ᶠ dNf
  let ddF := (lit 2 *ᶠ dNf *ᶠ dNf) +ᶠ (lit 2 *ᶠ (Nf -ᶠ ne) *ᶠ ddNf)
  if Arith.abs ddF <ᶠ lit (1 / 10000000000) then .inl (.throw .failedToConverge)
  else
    let step := dF /ᶠ Arith.abs ddF
    let mu := st.mu -ᶠ step
    if (Arith.abs step <ᶠ tol) || (Arith.abs (Nf -ᶠ ne) <ᶠ tol) then
      let chargeDiff := N mu -ᶠ ne
      if lit (1 / 100) <ᶠ Arith.abs chargeDiff then .inl (.throw .failedToConverge)
      else .inl (.ok mu)
    else
      let iter := st.iter + 1
      if maxstep < iter then .inl (.throw .failedToConverge)
      else .inr { mu := mu, iter := iter }

/-- The `while (true)` loop; also counts the passes through the body. -/
def newtonLoop (N dN ddN : α → α) (ne tol : α) (maxstep : Nat) :
    Nat → NewtonState α → Nat → Option (Res α × Nat)
  | 0, _, _ => none
  | n + 1, st, passes =>
    match newtonBody N dN ddN ne tol maxstep st with
    | .inl r => some (r, passes + 1)
    | .inr st' => newtonLoop N dN ddN ne tol maxstep n st' (passes + 1)

/-- `newton_minimization_chemical_potential`,
`src/dft/newton_minimization_smearing.hpp:26-73`. -/
def newton (fuel : Nat) (N dN ddN : α → α) (mu0 ne tol : α) (maxstep : Nat) :
    Option (Res α × Nat) :=
  newtonLoop N dN ddN ne tol maxstep fuel { mu := mu0, iter := 0 } 0

/-- Outcome with enough fuel (theorem `C04_newton_terminates`). -/
def newtonRun (N dN ddN : α → α) (mu0 ne tol : α) (maxstep : Nat := 1000) : Res α :=
  match newton (maxstep + 1) N dN ddN mu0 ne tol maxstep with
  | some r => r.1
  | none => .ub

/-- Chemical potential part of `occupation_from_mvector_newton`,
`src/smearing.hpp:432-484`: start value from a Gauss-smearing search `fGauss`,
Newton on `N`, fallback to the bracketing search on `Ne - N` if Newton reports
`failed_to_converge`. A failing start search is not caught (it is outside the `try`). -/
def chemPotNewton (fGauss N dN ddN : α → α) (ne tol : α) : Res α := do
  let mu0 ← findChemPotRun fGauss (lit 0) tol
  match newtonRun N dN ddN mu0 ne tol with
  | .throw .failedToConverge => findChemPotRun (fun mu => ne -ᶠ N mu) (lit 0) tol
  | r => r

end Nlcg
