import Verif.Model.Driver

/-!
# Counting evaluations

The backend with a counter: every evaluation of a trial point counts, whether it returns or fails.
-/

namespace Nlcg.Spec
variable {α σ ρ δ : Type}

/-- an operation that is not counted -/
def uncounted {β : Type} (f : σ → Res β × σ) (s : σ × ℕ) : Res β × (σ × ℕ) := ((f s.1).1, ((f s.1).2, s.2))

/-- the same backend, with the number of evaluations so far -/
def counted (ops : Ops α σ ρ δ) : Ops α (σ × ℕ) ρ δ where
  construct := uncounted ops.construct
  setup := uncounted ops.setup
  restarted pt := uncounted (ops.restarted pt)
  conjugated fr pt dir := uncounted (ops.conjugated fr pt dir)
  geo pt dir t s := ((ops.geo pt dir t s.1).1, ((ops.geo pt dir t s.1).2, s.2 + 1))
  refresh r := uncounted (ops.refresh r)
  gather pt := uncounted (ops.gather pt)
  hostPrint := uncounted ops.hostPrint
  getF s := ops.getF s.1
  getS s := ops.getS s.1

/-- the state of a run without the counter -/
def dropCount (w : NState α (σ × ℕ)) : NState α σ :=
  { s := w.s.1, file := w.file, info := w.info, force := w.force, trace := w.trace }

end Nlcg.Spec
