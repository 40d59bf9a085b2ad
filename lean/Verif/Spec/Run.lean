import Verif.Model.Driver

/-!
# What a run looks like from outside

A grammar for the observable events of a run, written without reference to the program: it only
uses the event type. `Trace restart tol n i slope flag evs e` says that `evs` is a legal history
of iterations `i, i+1, ...` when `n` iterations are left, the current slope is `slope`, the restart
flag is `flag`, and the run ends by `e`.
-/

namespace Nlcg.Spec
open Arith
variable {α : Type} [Arith α]

inductive RunEnd where
  | converged
  | failed
  | limit
  deriving DecidableEq

/-- Choice of the next direction after iteration `i`: restart flag left by the line search, events,
new slope, new restart flag. -/
inductive Directions (restart : Int) (i : Nat) : Bool → List (Ev α) → α → Bool → Prop
  | steepest (flag : Bool) (s : α) : (restart ∣ (i : Int) ∨ flag = true) →
      Directions restart i flag [.steepest i s] s flag
  | conjugate (s : α) : ¬ restart ∣ (i : Int) → (lit 0 <ᶠ s) = false →
      Directions restart i false [.conjugate i s] s false
  | rejected (c s : α) : ¬ restart ∣ (i : Int) → (lit 0 <ᶠ c) = true →
      Directions restart i false [.conjugate i c, .steepest i s] s true

inductive Trace (restart : Int) (tol : α) : Nat → Nat → α → Bool → List (Ev α) → RunEnd → Prop
  | limit (i : Nat) (slope : α) (flag : Bool) : Trace restart tol 0 i slope flag [] .limit
  | converged (n i : Nat) (slope : α) (flag : Bool) (F S : α) :
      (Arith.abs slope <ᶠ tol) = true →
      Trace restart tol (n + 1) i slope flag [.start i slope, .report i F S slope] .converged
  | slopeFailed (n i : Nat) (slope : α) (flag : Bool) (F S : α) :
      (Arith.abs slope <ᶠ tol) = false → (lit 0 <ᶠ slope) = true →
      Trace restart tol (n + 1) i slope flag
        [.start i slope, .report i F S slope, .search i flag, .failed i .slopeError] .failed
  | descentFailed (n i : Nat) (slope : α) (F S : α) :
      (Arith.abs slope <ᶠ tol) = false → (lit 0 <ᶠ slope) = false →
      Trace restart tol (n + 1) i slope true
        [.start i slope, .report i F S slope, .search i true, .failed i .descentError] .failed
  | step (n i : Nat) (slope : α) (flag : Bool) (F S : α) (flag1 : Bool) (dirs : List (Ev α))
      (slope' : α) (flag' : Bool) (rest : List (Ev α)) (e : RunEnd) :
      (Arith.abs slope <ᶠ tol) = false → (lit 0 <ᶠ slope) = false →
      (flag = true → flag1 = false) →
      Directions restart i flag1 dirs slope' flag' →
      Trace restart tol n (i + 1) slope' flag' rest e →
      Trace restart tol (n + 1) i slope flag
        ([.start i slope, .report i F S slope, .search i flag, .found i flag1] ++ dirs ++ rest) e

end Nlcg.Spec
