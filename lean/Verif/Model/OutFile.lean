import Verif.Model.Driver

/-!
# What a run writes to `nlcg.out`

The driver and the line search again, now with the messages they log on the rank that owns `nlcg.out` and
the places where the stream is flushed (`Logger::operator<<` and `Logger::flush`,
`src/utils/logger.hpp:39-58`, `86-94`). The list of these operations is a second component of the state; it
is never read. That the first component is the run of `Verif/Model/Driver.lean` is proved, not assumed
(`C110_same_run`).

One message is one element; the text of a message is kept only where a statement needs the numbers in it.
-/

namespace Nlcg
open Arith
variable {α σ ρ δ : Type} [Arith α]

/-- the messages of `nlcg_us` and of the line search -/
inductive OutLine (α : Type) where
  /-- parameters, number of electrons, tolerance, head of the table, `src/nlcglib.cpp:251-269`, `289-291` -/
  | header
  /-- `print_info`, `src/nlcglib.cpp:79-86` -/
  | report (i : Nat) (F S slope : α)
  /-- `NLCG SUCCESS`, `src/nlcglib.cpp:330-335` -/
  | success (F S : α)
  /-- `src/nlcglib.cpp:434` -/
  | noDescent
  /-- `src/nlcglib.cpp:437` -/
  | badSlope
  /-- anything else -/
  | note (text : String)
  deriving DecidableEq

/-- the operations on the stream of `nlcg.out`; `iteration i` is not one, it marks in the list where
iteration `i` begins -/
inductive OutOp (α : Type) where
  | line (l : OutLine α)
  | flush
  | iteration (i : Nat)
  deriving DecidableEq

/-- Messages (`some text`) and flushes (`none`) of the functions the driver calls: the warnings of the search
for the chemical potential and the flush behind it (`src/smearing.hpp:477`, `522`,
`src/dft/newton_minimization_smearing.hpp:49-68`) and the message of
`src/mvp2/descent_direction.hpp:114`. They may be anything. -/
structure OutEnv (α σ ρ δ : Type) where
  setup : σ → List (Option String)
  restarted : ρ → σ → List (Option String)
  conjugated : ρ → δ → σ → List (Option String)
  geo : ρ → δ → α → σ → List (Option String)

def outOf : Option String → OutOp α
  | some t => .line (.note t)
  | none => .flush

/-- a part of the program that logs nothing itself -/
def silent {τ β : Type} (m : FM τ β) : FM (τ × List (OutOp α)) β := fun p =>
  match m p.1 with
  | none => none
  | some (r, w) => some (r, (w, p.2))

/-- operations on the stream -/
def outs {τ : Type} (l : List (OutOp α)) : FM (τ × List (OutOp α)) Unit :=
  FM.modify fun p => (p.1, p.2 ++ l)

def note {τ : Type} (t : String) : FM (τ × List (OutOp α)) Unit := outs [.line (.note t)]

/-- `G(t)` with its messages -/
def evalGOut (env : LSEnv α σ ρ) (oe : α → σ → List (Option String)) (t : α) :
    FM (LSState α σ × List (OutOp α)) ρ := do
  let p ← FM.get
  outs ((oe t p.1.s).map outOf)
  silent (evalG env t)

/-- the loop of `bt_search`, `src/linesearch/linesearch.hpp:64-77` -/
def btLoopOut (env : LSEnv α σ ρ) (oe : α → σ → List (Option String)) (tau F0 : α) :
    Nat → α → FM (LSState α σ × List (OutOp α)) (Option ρ)
  | 0, t => if lit (1 / 10 ^ 8) <ᶠ t then FM.stuck else pure none
  | n + 1, t =>
    if lit (1 / 10 ^ 8) <ᶠ t then do
      let r ← evalGOut env oe t
      let Fp ← silent (readF env)
      note "fd slope: t: F:"
      if Fp <ᶠ F0 then do
        note "fd slope:"
        silent (setRestart false)
        pure (some r)
      else do
        note "backtracking search tau ="
        btLoopOut env oe tau F0 n (t *ᶠ tau)
    else pure none

/-- `bt_search`, `src/linesearch/linesearch.hpp:57-86`; the flush is in line 79 -/
def btSearchOut (env : LSEnv α σ ρ) (oe : α → σ → List (Option String)) (p : LSParams α) (fuel : Nat)
    (F0 : α) : FM (LSState α σ × List (OutOp α)) ρ :=
  if lit 1 ≤ᶠ p.tau then FM.throw .runtimeError
  else do
    match ← btLoopOut env oe p.tau F0 fuel p.tTrial with
    | some r => pure r
    | none =>
      outs [.flush]
      let st ← FM.get
      if st.1.forceRestart then FM.throw .descentError
      else do
        silent (setRestart true)
        evalGOut env oe (lit 0)

/-- the loop of `qline`, `src/linesearch/linesearch.hpp:113-134` -/
def qlineLoopOut (env : LSEnv α σ ρ) (oe : α → σ → List (Option String)) (F0 slope : α) :
    Nat → α → FM (LSState α σ × List (OutOp α)) α
  | 0, _ => FM.stuck
  | n + 1, t => do
    let _ ← evalGOut env oe t
    let F1 ← silent (readF env)
    let a := qCurv F0 slope F1 t
    let tMin := qMin slope a
    if a <ᶠ lit 0 then do
      note "in line-search increase t_trial by *5"
      qlineLoopOut env oe F0 slope n (t *ᶠ lit 5)
    else pure tMin

/-- `qline`, `src/linesearch/linesearch.hpp:95-154` -/
def qlineOut (env : LSEnv α σ ρ) (oe : α → σ → List (Option String)) (p : LSParams α) (fuel : Nat)
    (slope : α) : FM (LSState α σ × List (OutOp α)) ρ := do
  let F0 ← silent (readF env)
  let tMin ← qlineLoopOut env oe F0 slope fuel p.tTrial
  let r ← evalGOut env oe tMin
  let Fmin ← silent (readF env)
  note "t_min =  q line prediction error:  dE:"
  if F0 <ᶠ Fmin then do
    note "quadratic line search failed: F_min: F0:"
    FM.throw .stepError
  else do
    silent (setRestart false)
    pure r

/-- `line_search::operator()`, `src/linesearch/linesearch.hpp:26-43` -/
def lineSearchOut (env : LSEnv α σ ρ) (oe : α → σ → List (Option String)) (p : LSParams α) (fuel : Nat)
    (slope : α) : FM (LSState α σ × List (OutOp α)) ρ :=
  if lit 0 <ᶠ slope then FM.throw .slopeError
  else do
    note "line search t_trial ="
    let F0 ← silent (readF env)
    match ← FM.attempt (qlineOut env oe p fuel slope) with
    | .ok r => pure r
    | .error .stepError => do
      note "quadratic line search failed -> backtracking search"
      btSearchOut env oe p fuel F0
    | .error e => FM.throw e

/-- `ls(g, free_energy, slope, force_restart)`, `src/nlcglib.cpp:380` -/
def runSearchOut (ops : Ops α σ ρ δ) (oe : OutEnv α σ ρ δ) (prm : NlcgParams α) (fuel : Nat) (i : Nat)
    (v : Vars α ρ δ) : FM (NState α σ × List (OutOp α)) ρ := fun q =>
  match lineSearchOut { G := ops.geo v.pt v.dir, getF := ops.getF } (oe.geo v.pt v.dir)
      { tTrial := lit (2 / 10), tau := prm.tau } fuel v.slope
      ({ s := q.1.s, forceRestart := q.1.force, evals := [] }, q.2) with
  | none => none
  | some (.ok r, st) => some (.ok r, ({ q.1 with
      s := st.1.s, force := st.1.forceRestart
      trace := q.1.trace ++ [.search i q.1.force, .found i st.1.forceRestart] }, st.2))
  | some (.throw e, st) => some (.throw e, ({ q.1 with
      s := st.1.s, force := st.1.forceRestart
      trace := q.1.trace ++ [.search i q.1.force, .failed i e] }, st.2))
  | some (.ub, st) => some (.ub, ({ q.1 with s := st.1.s, force := st.1.forceRestart }, st.2))
  | some (.abort, st) => some (.abort, ({ q.1 with s := st.1.s, force := st.1.forceRestart }, st.2))

/-- `print_info` with its message, `src/nlcglib.cpp:71-95` -/
def setInfoOut (ops : Ops α σ ρ δ) (i : Nat) (slope : α) : FM (NState α σ × List (OutOp α)) Unit := do
  let p ← FM.get
  outs [.line (.report i (ops.getF p.1.s) (ops.getS p.1.s) slope)]
  silent (setInfo ops i slope)

def callRestartedOut (ops : Ops α σ ρ δ) (oe : OutEnv α σ ρ δ) (i : Nat) (pt : ρ) :
    FM (NState α σ × List (OutOp α)) (Vars α ρ δ) := do
  let p ← FM.get
  outs ((oe.restarted pt p.1.s).map outOf)
  silent (callRestarted ops i pt)

/-- the body of the `try` block, `src/nlcglib.cpp:342-431`; the flush is in line 431 -/
def cgBodyOut (ops : Ops α σ ρ δ) (oe : OutEnv α σ ρ δ) (prm : NlcgParams α) (fuel rank : Nat) (i : Nat)
    (v : Vars α ρ δ) : FM (NState α σ × List (OutOp α)) (Vars α ρ δ) := do
  silent (writeJson ops rank i v.slope v.pt)
  setInfoOut ops i v.slope
  silent (liftOp ops.hostPrint)
  let r ← runSearchOut ops oe prm fuel i v
  note "line search took: seconds"
  let pt ← silent (liftOp (ops.refresh r))
  if prm.restart = 0 then FM.ub
  else do
    let w ← FM.get
    if Int.tmod (i : Int) prm.restart = 0 ∨ w.1.force = true then do
      let v' ← callRestartedOut ops oe i pt
      note "steepest descent took: seconds"
      outs [.flush]
      pure v'
    else do
      outs ((oe.conjugated pt v.dir w.1.s).map outOf)
      let (fr, slope, dir) ← silent (liftOp (ops.conjugated v.fr pt v.dir))
      silent (emit (.conjugate i slope))
      if lit 0 <ᶠ slope then do
        note "slope > 0 detected -> restart"
        let v' ← callRestartedOut ops oe i pt
        silent (FM.modify fun w => { w with force := true })
        note "conjugated descent took: seconds"
        outs [.flush]
        pure v'
      else do
        note "conjugated descent took: seconds"
        outs [.flush]
        pure { pt := pt, dir := dir, slope := slope, fr := fr }

/-- the branch `std::abs(slope) < tol`, `src/nlcglib.cpp:309-341`; the flush is in line 336 -/
def cgSuccessOut (ops : Ops α σ ρ δ) (rank : Nat) (i : Nat) (v : Vars α ρ δ) :
    FM (NState α σ × List (OutOp α)) (Info α) := do
  setInfoOut ops i v.slope
  silent (writeJson ops rank i v.slope v.pt)
  silent (liftOp ops.hostPrint)
  let p ← FM.get
  outs [.line (.success (ops.getF p.1.s) (ops.getS p.1.s))]
  outs [.flush]
  silent (FM.modify fun w => { w with info := { w.info with converged := true } })
  let w ← FM.get
  pure w.1.info

/-- the loop, `src/nlcglib.cpp:308-441`; the two `catch` branches log a message and do not flush -/
def cgLoopOut (ops : Ops α σ ρ δ) (oe : OutEnv α σ ρ δ) (prm : NlcgParams α) (fuel rank : Nat) :
    Nat → Nat → Vars α ρ δ → FM (NState α σ × List (OutOp α)) (Info α)
  | 0, _, _ => do
    let w ← FM.get
    pure w.1.info
  | n + 1, i, v => do
    outs [.iteration i]
    silent (emit (.start i v.slope))
    if Arith.abs v.slope <ᶠ prm.tol then cgSuccessOut ops rank i v
    else do
      match ← FM.attempt (cgBodyOut ops oe prm fuel rank i v) with
      | .ok v' => cgLoopOut ops oe prm fuel rank n (i + 1) v'
      | .error .descentError => do
        outs [.line .noDescent]
        let w ← FM.get
        pure w.1.info
      | .error .slopeError => do
        outs [.line .badSlope]
        let w ← FM.get
        pure w.1.info
      | .error e => FM.throw e

/-- `nlcg_us`, `src/nlcglib.cpp:216-442`, with a new file `nlcg.out` (`attach_file_master`, line 246). The
messages of lines 251-291 are logged in one go after the first evaluation. -/
def nlcgOut (ops : Ops α σ ρ δ) (oe : OutEnv α σ ρ δ) (prm : NlcgParams α) (fuel rank : Nat) :
    FM (NState α σ × List (OutOp α)) (Info α) := do
  silent (FM.modify fun w => { w with info := { vals := none, converged := false }, trace := [] })
  silent (liftOp ops.construct)
  FM.modify fun p => (p.1, [])
  silent (FM.modify fun w => { w with file := [] })
  let p ← FM.get
  outs ((oe.setup p.1.s).map outOf)
  let pt ← silent (liftOp ops.setup)
  outs [.line .header]
  let q ← FM.get
  outs ((oe.restarted pt q.1.s).map outOf)
  let (slope, dir) ← silent (liftOp (ops.restarted pt))
  silent (FM.modify fun w => { w with force := false })
  cgLoopOut ops oe prm fuel rank prm.maxiter.toNat 0 { pt := pt, dir := dir, slope := slope, fr := slope }

end Nlcg
