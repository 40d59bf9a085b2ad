import Verif.Model.Prog
import Verif.Model.Arith

/-!
# Line search

`src/linesearch/linesearch.hpp`. The geodesic functor and the energy object are parameters acting
on an arbitrary state `σ` (the backend), so the energy landscape may be anything, even
non-deterministic. Logging is dropped.
-/

namespace Nlcg
open Arith
variable {α σ ρ : Type} [Arith α]

/-- What the line search is given: `G(t)` evaluates the point at step `t` (it changes the backend
and may throw) and `FE.get_F()` reads the free energy of the last evaluated point
(`src/free_energy.hpp`, a plain member read). -/
structure LSEnv (α σ ρ : Type) where
  G : α → σ → Res ρ × σ
  getF : σ → α

/-- members of `line_search`, `src/linesearch/linesearch.hpp:45-49` -/
structure LSParams (α : Type) where
  tTrial : α
  tau : α

/-- State of a search: backend, the caller's `force_restart` flag, and (for the statements only)
the list of steps evaluated so far, latest first. -/
structure LSState (α σ : Type) where
  s : σ
  forceRestart : Bool
  evals : List α
  deriving DecidableEq

/-- `G(t)` -/
def evalG (env : LSEnv α σ ρ) (t : α) : FM (LSState α σ) ρ := fun st =>
  let r := env.G t st.s
  some (r.1, { st with s := r.2, evals := t :: st.evals })

/-- `FE.get_F()` -/
def readF (env : LSEnv α σ ρ) : FM (LSState α σ) α := fun st => some (.ok (env.getF st.s), st)

def setRestart (b : Bool) : FM (LSState α σ) Unit := FM.modify fun st => { st with forceRestart := b }

/-- the `while (t > 1e-8)` loop of `bt_search`, `src/linesearch/linesearch.hpp:64-77`;
`some r`: a lower energy was found. -/
def btLoop (env : LSEnv α σ ρ) (tau F0 : α) : Nat → α → FM (LSState α σ) (Option ρ)
  | 0, t => if lit (1 / 10 ^ 8) <ᶠ t then FM.stuck else pure none
  | n + 1, t =>
    if lit (1 / 10 ^ 8) <ᶠ t then do
      let r ← evalG env t
      let Fp ← readF env
      if Fp <ᶠ F0 then do
        setRestart false
        pure (some r)
      else btLoop env tau F0 n (t *ᶠ tau)
    else pure none

/-- `bt_search`, `src/linesearch/linesearch.hpp:57-86`. -/
def btSearch (env : LSEnv α σ ρ) (p : LSParams α) (fuel : Nat) (F0 : α) : FM (LSState α σ) ρ :=
  if lit 1 ≤ᶠ p.tau then FM.throw .runtimeError
  else do
    match ← btLoop env p.tau F0 fuel p.tTrial with
    | some r => pure r
    | none =>
      let st ← FM.get
      if st.forceRestart then FM.throw .descentError
      else do
        setRestart true
        evalG env (lit 0)

/-- curvature of the parabola through the start value, the slope and the trial value,
`src/linesearch/linesearch.hpp:122` -/
def qCurv (F0 slope F1 t : α) : α := ((F1 -ᶠ (slope *ᶠ t)) -ᶠ F0) /ᶠ (t *ᶠ t)

/-- minimiser of that parabola, `src/linesearch/linesearch.hpp:124` -/
def qMin (slope a : α) : α := Arith.neg slope /ᶠ (lit 2 *ᶠ a)

/-- the `while (true)` loop of `qline`, `src/linesearch/linesearch.hpp:113-134`: returns `t_min` -/
def qlineLoop (env : LSEnv α σ ρ) (F0 slope : α) : Nat → α → FM (LSState α σ) α
  | 0, _ => FM.stuck
  | n + 1, t => do
    let _ ← evalG env t
    let F1 ← readF env
    let a := qCurv F0 slope F1 t
    let tMin := qMin slope a
    if a <ᶠ lit 0 then qlineLoop env F0 slope n (t *ᶠ lit 5)
    else pure tMin

/-- `qline`, `src/linesearch/linesearch.hpp:95-154`. -/
def qline (env : LSEnv α σ ρ) (p : LSParams α) (fuel : Nat) (slope : α) : FM (LSState α σ) ρ := do
  let F0 ← readF env
  let tMin ← qlineLoop env F0 slope fuel p.tTrial
  let r ← evalG env tMin
  let Fmin ← readF env
  if F0 <ᶠ Fmin then FM.throw .stepError
  else do
    setRestart false
    pure r

/-- `line_search::operator()`, `src/linesearch/linesearch.hpp:26-43`. The name of the search that
succeeded (`line_search_info`) is dropped. -/
def lineSearch (env : LSEnv α σ ρ) (p : LSParams α) (fuel : Nat) (slope : α) :
    FM (LSState α σ) ρ :=
  if lit 0 <ᶠ slope then FM.throw .slopeError
  else do
    let F0 ← readF env
    match ← FM.attempt (qline env p fuel slope) with
    | .ok r => pure r
    | .error .stepError => btSearch env p fuel F0
    | .error e => FM.throw e

end Nlcg
