import Verif.Model.Sizes

/-! # Specification vocabulary: sizes that belong together -/

namespace Nlcg.Spec

/-- `H X` has the extents of the orbitals, and there is one band energy for each orbital -/
def Fitting (k : KSizes) : Prop := k.hx = k.X ∧ k.ek = k.X.cols

/-- neither the host's operators nor the Cholesky factorisation fail -/
def NothingFails (k : KSizes) : Prop := k.op = .ok () ∧ k.chol = .ok ()

end Nlcg.Spec
