import Verif.Model.Driver

/-!
# The driver with its stopwatch

`nlcg_us`, `src/nlcglib.cpp:216-442`, with the calls of `Timer` (`src/utils/timer.hpp:32-58`), and the times it writes
to the log. The clock is any function of the state of the world. Simplifications: time passes only inside the calls the
driver makes (`Ops`), and the conversion of nanoseconds to a `double` in seconds is dropped.
-/

namespace Nlcg
open Arith
variable {α σ ρ δ : Type} [Arith α]

/-- which message, `src/nlcglib.cpp:382`, `403`, `429` -/
inductive LapKind where
  /-- `line search took` -/
  | search
  /-- `steepest descent took` -/
  | steepest
  /-- `conjugated descent took` -/
  | conjugate
  deriving DecidableEq

/-- the member `t` of `Timer`, `src/utils/timer.hpp:44` (a default constructed time point is the epoch), and the times
reported in the log so far, oldest first -/
structure Watch where
  t : Int
  laps : List (LapKind × Int)
  deriving DecidableEq

/-- the driver acts, the stopwatch is left alone -/
def unwatched {τ β : Type} (m : FM τ β) : FM (τ × Watch) β := fun p =>
  match m p.1 with
  | none => none
  | some (r, w) => some (r, (w, p.2))

/-- `Timer::start`, `src/utils/timer.hpp:47-51` -/
def timerStart (clock : σ → Int) : FM (NState α σ × Watch) Unit :=
  FM.modify fun p => (p.1, { p.2 with t := clock p.1.s })

/-- `Timer::stop`, `src/utils/timer.hpp:53-58`, and the message with its result -/
def timerStop (clock : σ → Int) (k : LapKind) : FM (NState α σ × Watch) Unit :=
  FM.modify fun p => (p.1, { p.2 with laps := p.2.laps ++ [(k, clock p.1.s - p.2.t)] })

/-- the body of the `try` block, `src/nlcglib.cpp:342-431`. The stopwatch is started in lines 369, 395 and 406 and read
in lines 381, 402 and 428. -/
def cgBodyT (ops : Ops α σ ρ δ) (clock : σ → Int) (prm : NlcgParams α) (fuel rank : Nat) (i : Nat) (v : Vars α ρ δ) :
    FM (NState α σ × Watch) (Vars α ρ δ) := do
  unwatched (writeJson ops rank i v.slope v.pt)
  timerStart clock
  unwatched (setInfo ops i v.slope)
  unwatched (liftOp ops.hostPrint)
  let r ← unwatched (runSearch ops prm fuel i v)
  timerStop clock .search
  let pt ← unwatched (liftOp (ops.refresh r))
  if prm.restart = 0 then FM.ub
  else do
    let w ← FM.get
    if Int.tmod (i : Int) prm.restart = 0 ∨ w.1.force = true then do
      timerStart clock
      let v' ← unwatched (callRestarted ops i pt)
      timerStop clock .steepest
      pure v'
    else do
      timerStart clock
      let (fr, slope, dir) ← unwatched (liftOp (ops.conjugated v.fr pt v.dir))
      unwatched (emit (.conjugate i slope))
      if lit 0 <ᶠ slope then do
        let v' ← unwatched (callRestarted ops i pt)
        unwatched (FM.modify fun w => { w with force := true })
        timerStop clock .conjugate
        pure v'
      else do
        timerStop clock .conjugate
        pure { pt := pt, dir := dir, slope := slope, fr := fr }

/-- the loop, `src/nlcglib.cpp:308-441` -/
def cgLoopT (ops : Ops α σ ρ δ) (clock : σ → Int) (prm : NlcgParams α) (fuel rank : Nat) :
    Nat → Nat → Vars α ρ δ → FM (NState α σ × Watch) (Info α)
  | 0, _, _ => do
    let w ← FM.get
    pure w.1.info
  | n + 1, i, v => do
    unwatched (emit (.start i v.slope))
    if Arith.abs v.slope <ᶠ prm.tol then unwatched (cgSuccess ops rank i v)
    else do
      match ← FM.attempt (cgBodyT ops clock prm fuel rank i v) with
      | .ok v' => cgLoopT ops clock prm fuel rank n (i + 1) v'
      | .error .descentError | .error .slopeError =>
        let w ← FM.get
        pure w.1.info
      | .error e => FM.throw e

/-- `nlcg_us`, `src/nlcglib.cpp:216-442`; `Timer timer;` in line 234 -/
def nlcgT (ops : Ops α σ ρ δ) (clock : σ → Int) (prm : NlcgParams α) (fuel rank : Nat) :
    FM (NState α σ × Watch) (Info α) := do
  unwatched (FM.modify fun w => { w with info := { vals := none, converged := false }, trace := [] })
  unwatched (liftOp ops.construct)
  FM.modify fun p => (p.1, { t := 0, laps := [] })
  unwatched (FM.modify fun w => { w with file := [] })
  let pt ← unwatched (liftOp ops.setup)
  let (slope, dir) ← unwatched (liftOp (ops.restarted pt))
  unwatched (FM.modify fun w => { w with force := false })
  cgLoopT ops clock prm fuel rank prm.maxiter.toNat 0 { pt := pt, dir := dir, slope := slope, fr := slope }

end Nlcg
