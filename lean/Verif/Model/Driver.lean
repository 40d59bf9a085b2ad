import Verif.Model.LineSearch

/-!
# The solver driver

`nlcg_us`, `src/nlcglib.cpp:216-442`. The state of the backend and of the `FreeEnergy` object is an
arbitrary type `σ`; everything the driver calls is a parameter that acts on it (`Ops`). A point `ρ`
is what the driver keeps of an iterate: `X`, `ek`, `ul`, `eta`, `fn`, `Hx`, `mu`; a direction `δ`
is `(z_x, z_eta)`. Text logging and timers are dropped.

The trace of events does not exist in the program and is never read by the model.
-/

namespace Nlcg
open Arith
variable {α σ ρ δ : Type} [Arith α]

/-- What the driver calls. Each may throw and may change the backend. -/
structure Ops (α σ ρ δ : Type) where
  /-- construction of `Overlap`, `USPreconditioner`, `FreeEnergy`, `src/nlcglib.cpp:231-235` -/
  construct : σ → Res Unit × σ
  /-- `src/nlcglib.cpp:249-283`: first evaluation with the host's band energies, copies of `X`, `Hx` -/
  setup : σ → Res ρ × σ
  /-- `descent_direction::restarted`: slope and direction -/
  restarted : ρ → σ → Res (α × δ) × σ
  /-- `descent_direction::conjugated`: `fr`, slope and direction from the old `fr` and direction -/
  conjugated : α → ρ → δ → σ → Res (α × α × δ) × σ
  /-- the lambda `g`, `src/nlcglib.cpp:345-355`: geodesic, occupations, `free_energy.compute` -/
  geo : ρ → δ → α → σ → Res ρ × σ
  /-- `src/nlcglib.cpp:384-391`: take over the returned point, read `fn` and `Hx` from the backend -/
  refresh : ρ → σ → Res ρ × σ
  /-- the two gathers of band energies and occupations, `src/nlcglib.cpp:119-136` -/
  gather : ρ → σ → Res Unit × σ
  /-- `free_energy.ehandle().print_info()` -/
  hostPrint : σ → Res Unit × σ
  /-- `free_energy.get_F()` -/
  getF : σ → α
  /-- `free_energy.get_entropy()` -/
  getS : σ → α

/-- arguments of `nlcg_us` used by the driver itself (`T` and `kappa` are inside `Ops`) -/
structure NlcgParams (α : Type) where
  maxiter : Int
  tol : α
  tau : α
  restart : Int

/-- the members of `nlcg_info` set by `print_info`, `include/interface.hpp:35-42` -/
structure InfoVals (α : Type) where
  tolerance : α
  F : α
  S : α
  iter : Nat
  deriving DecidableEq

/-- `nlcg_info`, `include/interface.hpp:35-42`; `vals = none`: the members are uninitialised -/
structure Info (α : Type) where
  vals : Option (InfoVals α)
  converged : Bool
  deriving DecidableEq

/-- a record of `nlcg.json`; `bands`: the entries `eta` and `fn` are present -/
structure JsonRec (α : Type) where
  step : Nat
  F : α
  entropy : α
  slope : α
  bands : Bool
  deriving DecidableEq

/-- Observations on the run, for the statements only. -/
inductive Ev (α : Type) where
  /-- iteration `i` starts with this slope -/
  | start (i : Nat) (slope : α)
  /-- free energy, entropy term and slope reported in iteration `i` -/
  | report (i : Nat) (F S slope : α)
  /-- the line search of iteration `i` is entered, value of the restart flag -/
  | search (i : Nat) (flag : Bool)
  /-- it has returned normally, value of the restart flag -/
  | found (i : Nat) (flag : Bool)
  /-- it has thrown -/
  | failed (i : Nat) (e : Exc)
  /-- a steepest-descent direction was computed at the end of iteration `i` -/
  | steepest (i : Nat) (slope : α)
  /-- a conjugated direction was computed at the end of iteration `i` -/
  | conjugate (i : Nat) (slope : α)
  deriving DecidableEq

/-- State of a run: backend, content of `nlcg.json`, the variables `info` and `force_restart`,
and the trace (oldest first). -/
structure NState (α σ : Type) where
  s : σ
  file : List (JsonRec α)
  info : Info α
  force : Bool
  trace : List (Ev α)
  deriving DecidableEq

/-- the other variables of `nlcg_us` -/
structure Vars (α ρ δ : Type) where
  pt : ρ
  dir : δ
  slope : α
  fr : α

def liftOp {β : Type} (f : σ → Res β × σ) : FM (NState α σ) β := fun w =>
  some ((f w.s).1, { w with s := (f w.s).2 })

def emit (e : Ev α) : FM (NState α σ) Unit := FM.modify fun w => { w with trace := w.trace ++ [e] }

/-- `print_info`, `src/nlcglib.cpp:71-95`, called with `slope_eta = -1` -/
def printInfo (F S slope : α) (step : Nat) : Info α :=
  { vals := some { tolerance := slope +ᶠ lit (-1), F := F, S := S, iter := step }, converged := false }

/-- `info = print_info(free_energy.get_F(), ..., slope, -1, ..., cg_iter)`,
`src/nlcglib.cpp:310-316`, `371-377` -/
def setInfo (ops : Ops α σ ρ δ) (i : Nat) (slope : α) : FM (NState α σ) Unit := FM.modify fun w =>
  { w with
    info := printInfo (ops.getF w.s) (ops.getS w.s) slope i
    trace := w.trace ++ [.report i (ops.getF w.s) (ops.getS w.s) slope] }

/-- `cg_write_step_json`, `src/nlcglib.cpp:97-140`, with `StepLogger`,
`src/utils/step_logger.hpp:26-94`: the destructor appends the record on rank 0, also if a gather
throws; the remaining scalar entries are dropped. -/
def writeJson (ops : Ops α σ ρ δ) (rank : Nat) (i : Nat) (slope : α) (pt : ρ) :
    FM (NState α σ) Unit := fun w =>
  let g : Res Unit × σ := if i % 10 = 0 then ops.gather pt w.s else (.ok (), w.s)
  let r : JsonRec α := { step := i, F := ops.getF w.s, entropy := ops.getS w.s, slope := slope,
                         bands := decide (i % 10 = 0) && decide (g.1 = .ok ()) }
  some (g.1, { w with s := g.2, file := if rank = 0 then w.file ++ [r] else w.file })

/-- `ls(g, free_energy, slope, force_restart)`, `src/nlcglib.cpp:380` with `ls.t_trial = 0.2`,
`ls.tau = tau`, `src/nlcglib.cpp:286-288` -/
def runSearch (ops : Ops α σ ρ δ) (prm : NlcgParams α) (fuel : Nat) (i : Nat) (v : Vars α ρ δ) :
    FM (NState α σ) ρ := fun w =>
  match lineSearch { G := ops.geo v.pt v.dir, getF := ops.getF }
      { tTrial := lit (2 / 10), tau := prm.tau } fuel v.slope
      { s := w.s, forceRestart := w.force, evals := [] } with
  | none => none
  | some (.ok r, st) => some (.ok r, { w with
      s := st.s, force := st.forceRestart
      trace := w.trace ++ [.search i w.force, .found i st.forceRestart] })
  | some (.throw e, st) => some (.throw e, { w with
      s := st.s, force := st.forceRestart
      trace := w.trace ++ [.search i w.force, .failed i e] })
  | some (.ub, st) => some (.ub, { w with s := st.s, force := st.forceRestart })
  | some (.abort, st) => some (.abort, { w with s := st.s, force := st.forceRestart })

def callRestarted (ops : Ops α σ ρ δ) (i : Nat) (pt : ρ) : FM (NState α σ) (Vars α ρ δ) := do
  let (slope, dir) ← liftOp (ops.restarted pt)
  emit (.steepest i slope)
  pure { pt := pt, dir := dir, slope := slope, fr := slope }

/-- the body of the `try` block, `src/nlcglib.cpp:342-431` -/
def cgBody (ops : Ops α σ ρ δ) (prm : NlcgParams α) (fuel rank : Nat) (i : Nat) (v : Vars α ρ δ) :
    FM (NState α σ) (Vars α ρ δ) := do
  writeJson ops rank i v.slope v.pt
  setInfo ops i v.slope
  liftOp ops.hostPrint
  let r ← runSearch ops prm fuel i v
  let pt ← liftOp (ops.refresh r)
  -- `cg_iter % restart`
  if prm.restart = 0 then FM.ub
  else do
    let w ← FM.get
    if Int.tmod (i : Int) prm.restart = 0 ∨ w.force = true then callRestarted ops i pt
    else do
      let (fr, slope, dir) ← liftOp (ops.conjugated v.fr pt v.dir)
      emit (.conjugate i slope)
      if lit 0 <ᶠ slope then do
        let v' ← callRestarted ops i pt
        FM.modify fun w => { w with force := true }
        pure v'
      else pure { pt := pt, dir := dir, slope := slope, fr := fr }

/-- the branch `std::abs(slope) < tol`, `src/nlcglib.cpp:309-341` -/
def cgSuccess (ops : Ops α σ ρ δ) (rank : Nat) (i : Nat) (v : Vars α ρ δ) :
    FM (NState α σ) (Info α) := do
  setInfo ops i v.slope
  writeJson ops rank i v.slope v.pt
  liftOp ops.hostPrint
  FM.modify fun w => { w with info := { w.info with converged := true } }
  let w ← FM.get
  pure w.info

/-- the loop `for (cg_iter = 0; cg_iter < maxiter; ++cg_iter)`, `src/nlcglib.cpp:308-441`;
the first argument is the number of iterations left -/
def cgLoop (ops : Ops α σ ρ δ) (prm : NlcgParams α) (fuel rank : Nat) :
    Nat → Nat → Vars α ρ δ → FM (NState α σ) (Info α)
  | 0, _, _ => do
    let w ← FM.get
    pure w.info
  | n + 1, i, v => do
    emit (.start i v.slope)
    if Arith.abs v.slope <ᶠ prm.tol then cgSuccess ops rank i v
    else do
      match ← FM.attempt (cgBody ops prm fuel rank i v) with
      | .ok v' => cgLoop ops prm fuel rank n (i + 1) v'
      | .error .descentError | .error .slopeError =>
        let w ← FM.get
        pure w.info
      | .error e => FM.throw e

/-- `nlcg_us`, `src/nlcglib.cpp:216-442`. `fuel` bounds the loops inside each line search. -/
def nlcg (ops : Ops α σ ρ δ) (prm : NlcgParams α) (fuel rank : Nat) : FM (NState α σ) (Info α) := do
  -- `nlcg_info info;`, `src/nlcglib.cpp:229`
  FM.modify fun w => { w with info := { vals := none, converged := false }, trace := [] }
  liftOp ops.construct
  -- `remove("nlcg.json")`, `src/nlcglib.cpp:247`
  FM.modify fun w => { w with file := [] }
  let pt ← liftOp ops.setup
  let (slope, dir) ← liftOp (ops.restarted pt)
  -- `bool force_restart{false};`, `src/nlcglib.cpp:306`
  FM.modify fun w => { w with force := false }
  cgLoop ops prm fuel rank prm.maxiter.toNat 0 { pt := pt, dir := dir, slope := slope, fr := slope }

end Nlcg
