import Verif.Model.Memory
import Mathlib.Data.Matrix.Mul
import Mathlib.LinearAlgebra.Matrix.ConjTranspose

/-! What it means that memory holds a matrix. -/

namespace Nlcg.Spec

/-- the addresses of the elements of a strided matrix -/
def cells (v : MView) : Set ℕ := {a | ∃ i j, i < v.rows ∧ j < v.cols ∧ a = v.data + i * v.s0 + j * v.s1}

/-- memory `m` holds the matrix `A` at `v` -/
def Holds {α : Type} {r c : ℕ} (m : Mem α) (v : MView) (A : Matrix (Fin r) (Fin c) α) : Prop :=
  v.rows = r ∧ v.cols = c ∧ ∀ (i : Fin r) (j : Fin c), m (v.data + i * v.s0 + j * v.s1) = some (A i j)

/-- memory `m` holds the vector `x` at address `a` -/
def HoldsVec {α : Type} {n : ℕ} (m : Mem α) (a : ℕ) (x : Fin n → α) : Prop :=
  ∀ i : Fin n, m (a + i) = some (x i)

/-- all elements of `v` exist in memory, whatever they contain -/
def Accessible {α : Type} (m : Mem α) (v : MView) : Prop := ∀ a ∈ cells v, ∃ x, m a = some x

/-- a matrix of one rank, stored by columns, with any leading dimension that is large enough -/
structure ColMajor (v : MView) : Prop where
  unit : v.s0 = 1
  lead : v.rows ≤ v.s1
  pos : 1 ≤ v.s1
  single : v.isLocal = true

/-- different elements have different addresses -/
def Distinct (v : MView) : Prop := ∀ i j i' j', i < v.rows → j < v.cols → i' < v.rows → j' < v.cols →
  v.data + i * v.s0 + j * v.s1 = v.data + i' * v.s0 + j' * v.s1 → i = i' ∧ j = j'

/-- source and destination of an element-by-element operation: separate, or the same matrix -/
def Compatible (dst src : MView) : Prop := Disjoint (cells src) (cells dst) ∨ src = dst

/-- nothing outside `S` differs between the two memories -/
def SameOutside {α : Type} (S : Set ℕ) (m m' : Mem α) : Prop := ∀ a, a ∉ S → m' a = m a

/-- the program ends normally, leaves `A` in `v`, and changes nothing else -/
def Computes {α β : Type} {r c : ℕ} (p : MemM α β) (m : Mem α) (v : MView)
    (A : Matrix (Fin r) (Fin c) α) : Prop :=
  ∃ x m', p m = (.ok x, m') ∧ Holds m' v A ∧ SameOutside (cells v) m m'

/-- no object lies in the `n` addresses from `base` -/
def Free {α : Type} (m : Mem α) (base n : ℕ) : Prop := ∀ a, base ≤ a → a < base + n → m a = none

end Nlcg.Spec
