import Verif.Spec.OpCalls

/-! Questions to LAPACK that have an answer. -/

namespace Nlcg.Spec
open Matrix ComplexOrder

/-- Two LAPACK libraries that give the same answers to well-posed questions: factorisations of positive definite matrices
and what is solved with these, and eigenvalue problems of Hermitian matrices. Elsewhere they may do anything. -/
structure SameAnswers (la la' : Lapack) : Prop where
  potrf : ∀ {n : ℕ} (A : Mat n n), A.PosDef → la'.potrf A = la.potrf A
  potrs : ∀ {n m : ℕ} (A : Mat n n) (B : Mat n m), A.PosDef → la'.potrs (la.potrf A).1 B = la.potrs (la.potrf A).1 B
  heevd : ∀ {n : ℕ} (A : Mat n n), A.IsHermitian → la'.heevd A = la.heevd A

variable {K : ℕ} {n b : Fin K → ℕ} {η : Type}

/-- all matrices that the overlap operator was applied to have an overlap matrix that is at least the unit matrix -/
def SafeOverlaps (S : (k : Fin K) → Mat (n k) (n k)) (l : List (Entry n b)) : Prop :=
  ∀ k A answer, .S k A answer ∈ l → (Aᴴ * (S k * A) - 1).PosSemidef

end Nlcg.Spec
