import Verif.Model.Memory
import Verif.Model.Format
import Verif.Model.Mpi

/-!
# Sizes and offsets in `int`

`Model/Memory.lean` computes sizes and offsets with natural numbers. Here are the places where the C++ code computes
them in `int` (32 bits): overflow of a signed integer is undefined. Offsets into a `Kokkos::View` are computed in
`size_t` and need no such model.
-/

namespace Nlcg

/-- the value of an expression of type `int`; overflow is undefined -/
def cint (x : ℤ) : Res ℤ := if -2 ^ 31 ≤ x ∧ x < 2 ^ 31 then .ok x else .ub

def addI (a b : ℤ) : Res ℤ := cint (a + b)
def subI (a b : ℤ) : Res ℤ := cint (a - b)
def mulI (a b : ℤ) : Res ℤ := cint (a * b)

/-- `i + ld * j`, `src/la/cblas.hpp:385` -/
def geamIndexI (ld i j : ℤ) : Res ℤ := do
  let p ← mulI ld j
  addI i p

section
variable {α : Type} [Add α] [Mul α]

/-- `cblas::geam<Kokkos::complex<double>>::call` without MKL, with the index arithmetic of the code,
`src/la/cblas.hpp:368-391` -/
def geamI (sch : Sched) (m n : ℕ) (alpha : α) (A lda : ℕ) (beta : α) (B ldb C ldc : ℕ) : MemM α Unit :=
  forEach (sch.order (indexPairs m n)) fun p => do
    let ia ← SM.lift (geamIndexI lda p.1 p.2)
    let x ← load (A + ia.toNat)
    let ib ← SM.lift (geamIndexI ldb p.1 p.2)
    let y ← load (B + ib.toNat)
    let ic ← SM.lift (geamIndexI ldc p.1 p.2)
    store (C + ic.toNat) (alpha * x + beta * y)

/-- `add(C, A, alpha, beta)`, `src/la/lapack_cpu.hpp:297-333` -/
def addKI (sch : Sched) (C A : MView) (alpha beta : α) : MemM α Unit :=
  if A.isLocal && C.isLocal then
    let m := A.rows
    let n := C.cols
    if A.s0 ≠ 1 ∨ C.s0 ≠ 1 then SM.lift (.throw .runtimeError)
    else geamI sch m n alpha A.data A.s1 beta C.data C.s1 C.data C.s1
  else SM.lift (.throw .runtimeError)

end

/-- One matrix of the copying `make_mmatrix`, with `buffer.size[0]*buffer.size[1]` computed as in the code: the
sizes of a buffer are of type `int`. `src/la/mvector.hpp:371-373` -/
def copyMatrixI {α : Type} [Zero α] (rows cols src base : ℕ) : MemM α MView := do
  let mat : MView := ⟨base, rows, cols, 1, rows, true⟩
  allocate base (rows * cols) fun _ => 0
  let n ← SM.lift (mulI rows cols)
  forEach (List.range n.toNat) fun k => do
    let x ← load (src + k)
    store (base + k) x
  pure mat

/-- `magma_roundup(a, b)` -/
def roundupI (a b : ℤ) : Res ℤ := do
  let s ← addI a b
  let s ← subI s 1
  mulI (s / b) b

/-- the sizes of the work arrays for `magma_zheevd_gpu`: those of `magmaWork`, `src/la/magma.cpp:39-58` -/
def magmaWorkI (n lda nb : ℤ) : Res MagmaWork := do
  let ldwa ← roundupI lda 32
  let wA ← mulI n ldwa
  let a ← mulI n nb
  let a ← addI n a
  let b ← mulI 2 n
  let c ← mulI n n
  let b ← addI b c
  let lwork := max a b
  let r ← mulI 5 n
  let r ← addI 1 r
  let s ← mulI 2 n
  let s ← mulI s n
  let lrwork ← addI r s
  let i ← mulI 5 n
  let liwork ← addI 3 i
  pure { wA := wA, wANeeded := ldwa * n, work := n, lwork := lwork, rwork := lrwork, lrwork := lrwork,
         iwork := liwork, liwork := liwork }

/-- offsets of the blocks of one rank: the offset after them, and the offsets -/
def scanI (acc : ℤ) : List ℕ → Res (ℤ × List ℤ)
  | [] => .ok (acc, [])
  | n :: l => do
    let acc' ← addI acc n
    let (e, offs) ← scanI acc' l
    pure (e, acc :: offs)

/-- offsets of all blocks of all ranks and the total size, `src/la/mvector.hpp:221-232` -/
def blockOffsetsI (acc : ℤ) : List (List ℕ) → Res (ℤ × List (List ℤ))
  | [] => .ok (acc, [])
  | ls :: rest => do
    let (acc', offs) ← scanI acc ls
    let (e, r) ← blockOffsetsI acc' rest
    pure (e, offs :: r)

end Nlcg
