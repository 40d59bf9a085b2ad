import Verif.Model.Solver

/-! The same settings with an eigensolver that never reports a failure. -/

namespace Nlcg.Spec
open Nlcg

variable {K : ℕ} {n b : Fin K → ℕ}

/-- the same routines, where the eigensolver does not report failures -/
def _root_.Nlcg.Lapack.steady (la : Lapack) : Lapack := { la with heevd := fun A => ((la.heevd A).1, 0) }

/-- the same settings with that eigensolver -/
def _root_.Nlcg.Cfg.steady (c : Cfg n b) : Cfg n b := { c with la := c.la.steady }

end Nlcg.Spec
