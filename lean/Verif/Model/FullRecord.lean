import Verif.Model.Solver

/-!
# Whole step records

`Verif/Model/Driver.lean` keeps number, free energy, entropy term and slope of a step record. Here are all
scalar entries but the components of the energy, and the band energies and occupations, with the place where
they are read. The list of records is a second component of the state, which the run never reads; that the
first component is the run of `Verif/Model/Solver.lean` is proved (`C112_same_run`).
-/

namespace Nlcg
open Arith

variable {K : ℕ} {n b : Fin K → ℕ} {η : Type}

/-- What `cg_write_step_json` logs, `src/nlcglib.cpp:111-136`, but for `ks_energy_comps` and `slope_eta`, which
is always `-1`. `eks = none`: the host could not tell its total energy. -/
structure StepRec (b : Fin K → ℕ) where
  step : ℕ
  F : ℝ
  eks : Option ℝ
  entropy : ℝ
  slope : ℝ
  fermi : ℝ
  /-- the entries `eta` and `fn` -/
  bands : Option (Bands b × Bands b)

/-- The arguments of `cg_write_step_json`, `src/nlcglib.cpp:317-327`, `357-367`: `F` and `entropy` are members of
`FreeEnergy`, total energy and chemical potential are read from the host
(`src/free_energy.hpp:37`, `150-153`), `ek` and `fn` are variables of the solver. Reading does not change the
host here, and does not throw. -/
def stepRec (host : Host η n b) (i : ℕ) (slope : ℝ) (pt : Point n b) (s : SState η n b) : StepRec b :=
  { step := i, F := s.F, eks := (host.energy s.h).1, entropy := s.S, slope := slope, fermi := host.mu s.h
    bands := if i % 10 = 0 then some (pt.ek, pt.fn) else none }

/-- a part of the program that does not touch the records -/
def besides {τ γ β : Type} (m : FM τ β) : FM (τ × γ) β := fun p =>
  match m p.1 with
  | none => none
  | some (r, w) => some (r, (w, p.2))

/-- `cg_write_step_json`, `src/nlcglib.cpp:317-327`, `357-367`; `StepLogger` is active on rank 0 only,
`src/nlcglib.cpp:110` -/
def writeRec (host : Host η n b) (rank i : ℕ) (v : Vars ℝ (Point n b) (Dir n b)) :
    FM (NState ℝ (SState η n b) × List (StepRec b)) Unit :=
  FM.modify fun p => (p.1, if rank = 0 then p.2 ++ [stepRec host i v.slope v.pt p.1.s] else p.2)

/-- The loop, `src/nlcglib.cpp:308-441`. In both branches the record is the first thing that is made, but for
`print_info` in the first, `src/nlcglib.cpp:310-316`, which changes nothing that is recorded. -/
noncomputable def cgLoopRec (host : Host η n b) (c : Cfg n b) (prm : NlcgParams ℝ) (fuel rank : ℕ) :
    ℕ → ℕ → Vars ℝ (Point n b) (Dir n b) →
    FM (NState ℝ (SState η n b) × List (StepRec b)) (Info ℝ)
  | 0, _, _ => do
    let p ← FM.get
    pure p.1.info
  | m + 1, i, v => do
    besides (emit (.start i v.slope))
    if Arith.abs v.slope <ᶠ prm.tol then do
      writeRec host rank i v
      besides (cgSuccess (solverOps host c) rank i v)
    else do
      match ← FM.attempt (do
          writeRec host rank i v
          besides (cgBody (solverOps host c) prm fuel rank i v)) with
      | .ok v' => cgLoopRec host c prm fuel rank m (i + 1) v'
      | .error .descentError | .error .slopeError =>
        let p ← FM.get
        pure p.1.info
      | .error e => FM.throw e

/-- `nlcg_us`, `src/nlcglib.cpp:216-442`; the file is removed in line 247 -/
noncomputable def solveRec (host : Host η n b) (c : Cfg n b) (prm : NlcgParams ℝ) (fuel rank : ℕ) :
    FM (NState ℝ (SState η n b) × List (StepRec b)) (Info ℝ) := do
  FM.modify fun p => ({ p.1 with info := { vals := none, converged := false }, trace := [] }, p.2)
  besides (liftOp (solverOps host c).construct)
  FM.modify fun p => ({ p.1 with file := [] }, [])
  let pt ← besides (liftOp (solverOps host c).setup)
  let (slope, dir) ← besides (liftOp ((solverOps host c).restarted pt))
  FM.modify fun p => ({ p.1 with force := false }, p.2)
  cgLoopRec host c prm fuel rank prm.maxiter.toNat 0 { pt := pt, dir := dir, slope := slope, fr := slope }

end Nlcg
