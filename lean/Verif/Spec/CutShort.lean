import Verif.Spec.HostError
import Verif.Spec.Log

/-! What a run has done that others can see, and what it means that one run has done the first part of what
another one has done. -/

namespace Nlcg.Spec

variable {K : ℕ} {n b : Fin K → ℕ} {η η' : Type}

/-- the calls of the host made so far, the records in `nlcg.json` and the values reported are the first part of
those of the other run -/
structure DoneBefore (v : NState ℝ (SState η n b)) (v' : NState ℝ (SState η' n b)) : Prop where
  calls : v.s.calls <+: v'.s.calls
  file : v.file <+: v'.file
  reports : reports v.trace <+: reports v'.trace

/-- the initial state for a host that counts its calls -/
def withCount (w : NState ℝ (SState η n b)) : NState ℝ (SState (η × ℕ) n b) :=
  { w with s := { w.s with h := (w.s.h, 0) } }

/-- a state without the counter -/
def withoutCount (w : NState ℝ (SState (η × ℕ) n b)) : NState ℝ (SState η n b) :=
  { w with s := { w.s with h := w.s.h.1 } }

/-- number of calls of the host made during a run -/
def callsMade (w : NState ℝ (SState η n b)) (v : NState ℝ (SState η' n b)) : ℕ :=
  v.s.calls.length - w.s.calls.length

end Nlcg.Spec
