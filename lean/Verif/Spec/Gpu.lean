import Verif.Model.Gpu
import Verif.Spec.Memory
import Mathlib.LinearAlgebra.Matrix.Hermitian
import Mathlib.LinearAlgebra.Matrix.PosDef
import Mathlib.Analysis.Complex.Order
import Mathlib.Data.Complex.Basic

/-! What matrix operations on the GPU should do. -/

namespace Nlcg.Spec
open Matrix

/-- every library call succeeds -/
def NoFailure {α : Type} (lib : GpuLib α) : Prop := ∀ i, lib.ok i = true

/-- bytes of scratch memory in use -/
def scratchBytes {α : Type} (d : Dev α) : ℕ := (d.live.map DevBlock.bytes).sum

/-- the addresses of the blocks in use have been handed out before -/
def Sane {α : Type} (d : Dev α) : Prop := ∀ b ∈ d.live, b.addr < d.calls

/-- the program ends normally, leaves `A` in `v`, and changes nothing else in memory -/
def GpuComputes {α β : Type} {r c : ℕ} (p : GpuM α β) (d : Dev α) (v : MView)
    (A : Matrix (Fin r) (Fin c) α) : Prop :=
  ∃ x d', p d = (.ok x, d') ∧ Holds d'.mem v A ∧ SameOutside (cells v) d.mem d'.mem ∧ d'.live = d.live

/-- the addresses of a vector of length `n` -/
def vecCells (w n : ℕ) : Set ℕ := {a | w ≤ a ∧ a < w + n}

/-- the columns of `U` are an orthonormal basis of eigenvectors of `A` for the eigenvalues `ω` -/
def IsEigen {n : ℕ} (A U : Matrix (Fin n) (Fin n) ℂ) (ω : Fin n → ℝ) : Prop :=
  Uᴴ * U = 1 ∧ A * U = U * diagonal fun i => (ω i : ℂ)

/-- memory holds in `v` and `w` the eigenvectors and eigenvalues of `A` -/
def HoldsEigen {n : ℕ} (m : Mem ℂ) (v : MView) (w : ℕ) (A : Matrix (Fin n) (Fin n) ℂ) : Prop :=
  ∃ (U : Matrix (Fin n) (Fin n) ℂ) (ω : Fin n → ℝ), IsEigen A U ω ∧ Holds m v U ∧
    HoldsVec m w fun i => (ω i : ℂ)

/-- The manual of the Hermitian eigensolver: for `info = 0` the matrix is replaced by its eigenvectors,
the eigenvalues are stored in `w`, and nothing else changes. Whatever `info` is, the arguments stay
readable and nothing else changes. -/
structure EigenSolver (run : (n A lda w : ℕ) → Mem ℂ → Mem ℂ × ℤ) : Prop where
  solves : ∀ (n : ℕ) (v : MView) (w : ℕ) (m : Mem ℂ) (A : Matrix (Fin n) (Fin n) ℂ), ColMajor v →
    Holds m v A → A.IsHermitian → (∀ a ∈ vecCells w n, ∃ x, m a = some x) →
    Disjoint (cells v) (vecCells w n) → (run n v.data v.s1 w m).2 = 0 →
    HoldsEigen (run n v.data v.s1 w m).1 v w A
  confined : ∀ (n : ℕ) (v : MView) (w : ℕ) (m : Mem ℂ), ColMajor v → v.rows = n → v.cols = n →
    SameOutside (cells v ∪ vecCells w n) m (run n v.data v.s1 w m).1 ∧
    ∀ a x, m a = some x → ∃ y, (run n v.data v.s1 w m).1 a = some y

/-- the eigensolver succeeds on `A` wherever it is stored -/
def Converges (run : (n A lda w : ℕ) → Mem ℂ → Mem ℂ × ℤ) {n : ℕ} (A : Matrix (Fin n) (Fin n) ℂ) : Prop :=
  ∀ (v : MView) (w : ℕ) (m : Mem ℂ), ColMajor v → Holds m v A → (run n v.data v.s1 w m).2 = 0

open scoped ComplexOrder in
/-- The manual of the two Cholesky routines: for a positive definite matrix `A`, factorisation followed by
solution replaces the right-hand side `B` by the solution of `A X = B`. The matrix is overwritten too;
nothing else changes. -/
def CholeskySolver (potrf : (n A lda : ℕ) → Mem ℂ → Mem ℂ × ℤ)
    (potrs : (n nrhs A lda B ldb : ℕ) → Mem ℂ → Mem ℂ × ℤ) : Prop :=
  ∀ (n k : ℕ) (vA vB : MView) (m : Mem ℂ) (A : Matrix (Fin n) (Fin n) ℂ) (B : Matrix (Fin n) (Fin k) ℂ),
    ColMajor vA → ColMajor vB → Holds m vA A → Holds m vB B → Disjoint (cells vA) (cells vB) → A.PosDef →
    ∃ m' F X, (potrs n k vA.data vA.s1 vB.data vB.s1 (potrf n vA.data vA.s1 m).1).1 = m' ∧
      Holds m' vA (F : Matrix (Fin n) (Fin n) ℂ) ∧ Holds m' vB X ∧ A * X = B ∧
      SameOutside (cells vA ∪ cells vB) m m'

/-- number of calls of a solver -/
def solverCalls {α : Type} : List (GpuOp α) → ℕ
  | [] => 0
  | .eigh _ _ _ :: l => 1 + solverCalls l
  | .cholesky _ :: l => 1 + solverCalls l
  | .solveSym _ _ :: l => 2 + solverCalls l
  | _ :: l => solverCalls l

end Nlcg.Spec
