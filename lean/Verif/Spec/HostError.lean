import Verif.Model.Solver

/-! What a host sees of its own calls, in order: whether each of them returned or threw. -/

namespace Nlcg.Spec

variable {K : ℕ} {n b : Fin K → ℕ} {η : Type}

/-- the state after a call contains one more entry: `true` if the call returned, `false` if it threw -/
def Noted {β : Type} (log : η → List Bool) (f : η → Option β × η) : Prop :=
  ∀ h, log (f h).2 = log h ++ [(f h).1.isSome]

/-- a host that keeps such a record in its state -/
structure KeepsLog (host : Host η n b) (log : η → List Bool) : Prop where
  compute : Noted log host.compute
  setC : ∀ X, Noted log (host.setC X)
  setFn : ∀ f, Noted log (host.setFn f)
  setMu : ∀ mu, Noted log (host.setMu mu)
  energy : Noted log host.energy
  print : Noted log host.print

/-- no call threw -/
def NoneThrew (l : List Bool) : Prop := ∀ x ∈ l, x = true

/-- the last call threw, and it is the only one that did -/
def LastThrew (l : List Bool) : Prop := ∃ before, NoneThrew before ∧ l = before ++ [false]

/-- any host, with such a record added -/
def withLog (host : Host η n b) : Host (η × List Bool) n b where
  compute s := let r := host.compute s.1; (r.1, r.2, s.2 ++ [r.1.isSome])
  setC X s := let r := host.setC X s.1; (r.1, r.2, s.2 ++ [r.1.isSome])
  setFn f s := let r := host.setFn f s.1; (r.1, r.2, s.2 ++ [r.1.isSome])
  setMu mu s := let r := host.setMu mu s.1; (r.1, r.2, s.2 ++ [r.1.isSome])
  energy s := let r := host.energy s.1; (r.1, r.2, s.2 ++ [r.1.isSome])
  print s := let r := host.print s.1; (r.1, r.2, s.2 ++ [r.1.isSome])
  C s := host.C s.1
  hphi s := host.hphi s.1
  fn s := host.fn s.1
  ek s := host.ek s.1
  mu s := host.mu s.1

/-- a state of a run, without the record -/
def withoutLog {α : Type} (w : NState α (SState (η × List Bool) n b)) : NState α (SState η n b) :=
  { w with s := { w.s with h := w.s.h.1 } }

/-- the same host, out of order: every call with number `m` or higher throws (the first call has number 0) -/
def breaksAt (m : ℕ) (host : Host η n b) : Host (η × ℕ) n b where
  compute s := if m ≤ s.2 then (none, s.1, s.2 + 1) else let r := host.compute s.1; (r.1, r.2, s.2 + 1)
  setC X s := if m ≤ s.2 then (none, s.1, s.2 + 1) else let r := host.setC X s.1; (r.1, r.2, s.2 + 1)
  setFn f s := if m ≤ s.2 then (none, s.1, s.2 + 1) else let r := host.setFn f s.1; (r.1, r.2, s.2 + 1)
  setMu mu s := if m ≤ s.2 then (none, s.1, s.2 + 1) else let r := host.setMu mu s.1; (r.1, r.2, s.2 + 1)
  energy s := if m ≤ s.2 then (none, s.1, s.2 + 1) else let r := host.energy s.1; (r.1, r.2, s.2 + 1)
  print s := if m ≤ s.2 then (none, s.1, s.2 + 1) else let r := host.print s.1; (r.1, r.2, s.2 + 1)
  C s := host.C s.1
  hphi s := host.hphi s.1
  fn s := host.fn s.1
  ek s := host.ek s.1
  mu s := host.mu s.1

end Nlcg.Spec
