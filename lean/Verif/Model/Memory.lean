import Verif.Model.State
import Mathlib.Algebra.Star.Basic
import Mathlib.Data.List.Perm.Basic

/-!
# Matrices in memory

`src/la/dvector.hpp`, `src/la/lapack.hpp`, `src/la/lapack_cpu.hpp`, `src/la/cblas.hpp`,
`src/la/mvector.hpp` at the level of addresses. A memory maps the address of an element to its
value, or to `none` if no object is there: touching such an address is undefined behaviour.
Addresses count elements, not bytes. Sizes and products of sizes are natural numbers: overflow of
`int` is not modelled here. The scalars are any type with the operations the code uses, so that
values like NaN can be modelled.
-/

namespace Nlcg

/-- addressable memory -/
abbrev Mem (α : Type) := ℕ → Option α

/-- a program working on memory -/
abbrev MemM (α β : Type) := SM (Mem α) β

section
variable {α : Type}

def load (a : ℕ) : MemM α α := fun m =>
  match m a with
  | some v => (.ok v, m)
  | none => (.ub, m)

def store (a : ℕ) (v : α) : MemM α Unit := fun m =>
  match m a with
  | some _ => (.ok (), fun x => if x = a then some v else m x)
  | none => (.ub, m)

/-- loop over a list of indices -/
def forEach {ι : Type} : List ι → (ι → MemM α Unit) → MemM α Unit
  | [], _ => pure ()
  | x :: l, f => do f x; forEach l f

/-- The order in which the iterations of a parallel loop take effect: any order. Iterations are not
interleaved with each other. -/
structure Sched where
  order : {ι : Type} → List ι → List ι
  perm : ∀ {ι : Type} (l : List ι), (order l).Perm l

/-- the iterations run one after the other -/
def Sched.inOrder : Sched := ⟨fun l => l, fun l => List.Perm.refl l⟩
/-- the iterations run from the last to the first -/
def Sched.backwards : Sched := ⟨fun l => l.reverse, fun l => List.reverse_perm l⟩

/-- the index range of `MDRangePolicy({0,0},{m,n})` and of a double loop -/
def indexPairs (m n : ℕ) : List (ℕ × ℕ) := (List.range n).flatMap fun j => (List.range m).map fun i => (i, j)

/-- sum of `f 0, ..., f (k-1)` -/
def sumM [Add α] [Zero α] : ℕ → (ℕ → MemM α α) → MemM α α
  | 0, _ => pure 0
  | k + 1, f => do let s ← sumM k f; let x ← f k; pure (s + x)

/-- A two-dimensional `Kokkos::View` with the map of its `KokkosDVector`: pointer, extents, strides,
and whether the communicator has one member (`Map::is_local`). The constructors give the map the
sizes of the array, so these are not kept twice. `src/la/dvector.hpp:135-197`, `src/la/map.hpp:32-35` -/
structure MView where
  data : ℕ
  rows : ℕ
  cols : ℕ
  s0 : ℕ
  s1 : ℕ
  isLocal : Bool

/-- address of element `(i, j)` of a `Kokkos::View` -/
def MView.addr (v : MView) (i j : ℕ) : ℕ := v.data + (i * v.s0 + j * v.s1)

/-- Memory obtained for `n` elements at `base`, filled with `v` (a `Kokkos::View` created with a
label is filled with 0). Where the allocator puts it is an argument. -/
def allocate (base n : ℕ) (v : ℕ → α) : MemM α Unit := fun m =>
  (.ok (), fun a => if base ≤ a ∧ a < base + n then some (v a) else m a)

/-! ## BLAS -/

/-- `CblasNoTrans`, `CblasConjTrans`; `src/la/cblas.hpp:9-14` -/
inductive Trans | N | H
  deriving DecidableEq

variable [Add α] [Mul α] [Zero α] [Star α] [DecidableEq α]

/-- element `(i, l)` of `op(A)` for column-major `A` -/
def opElem (t : Trans) (A lda i l : ℕ) : MemM α α :=
  match t with
  | .N => load (A + (i + lda * l))
  | .H => do let x ← load (A + (l + lda * i)); pure (star x)

/-- `cblas_zgemm` with `CblasColMajor`: `C <- alpha op(A) op(B) + beta C`, where `op(A)` is `m` by `k`.
This is the manual of BLAS, which is trusted: `C` is not read if `beta` is 0, and a leading dimension
smaller than the number of rows is reported by `xerbla`, which ends the program. -/
def gemm (ta tb : Trans) (m n k : ℕ) (alpha : α) (A lda B ldb : ℕ) (beta : α) (C ldc : ℕ) :
    MemM α Unit :=
  if lda < max 1 (match ta with | .N => m | .H => k) ∨ ldb < max 1 (match tb with | .N => k | .H => n)
      ∨ ldc < max 1 m then SM.lift .abort
  else forEach (indexPairs m n) fun p => do
    let s ← sumM k fun l => do
      let x ← opElem ta A lda p.1 l
      let y ← opElem tb B ldb l p.2
      pure (x * y)
    if beta = 0 then store (C + (p.1 + ldc * p.2)) (alpha * s)
    else do
      let c ← load (C + (p.1 + ldc * p.2))
      store (C + (p.1 + ldc * p.2)) (alpha * s + beta * c)

/-- `cblas::geam<Kokkos::complex<double>>::call` without MKL, `src/la/cblas.hpp:368-391`; the columns
are distributed over threads -/
def geam (sch : Sched) (m n : ℕ) (alpha : α) (A lda : ℕ) (beta : α) (B ldb C ldc : ℕ) : MemM α Unit :=
  forEach (sch.order (indexPairs m n)) fun p => do
    let x ← load (A + (p.1 + lda * p.2))
    let y ← load (B + (p.1 + ldb * p.2))
    store (C + (p.1 + ldc * p.2)) (alpha * x + beta * y)

/-! ## Kernels -/

/-- `inner(C, A, B, alpha, beta)`, `src/la/lapack_cpu.hpp:89-156` -/
def innerK (C A B : MView) (alpha beta : α) : MemM α Unit :=
  if A.isLocal && B.isLocal && C.isLocal then
    let m := A.cols
    let k := A.rows
    let n := B.cols
    if A.s0 ≠ 1 ∨ B.s0 ≠ 1 ∨ C.s0 ≠ 1 then SM.lift (.throw .runtimeError)
    else gemm .H .N m n k alpha A.data A.s1 B.data B.s1 beta C.data C.s1
  else SM.lift (.throw .runtimeError)

/-- `outer(C, A, B, alpha, beta)`, `src/la/lapack_cpu.hpp:158-225` -/
def outerK (C A B : MView) (alpha beta : α) : MemM α Unit :=
  if A.isLocal && B.isLocal && C.isLocal then
    let m := A.cols
    let k := A.rows
    let n := B.cols
    if A.s0 ≠ 1 ∨ B.s0 ≠ 1 ∨ C.s0 ≠ 1 then SM.lift (.throw .runtimeError)
    else gemm .N .H m n k alpha A.data A.s1 B.data B.s1 beta C.data C.s1
  else SM.lift (.throw .runtimeError)

/-- `transform(C, beta, alpha, A, B)`, `src/la/lapack_cpu.hpp:227-294` -/
def transformK (C : MView) (beta alpha : α) (A B : MView) : MemM α Unit :=
  if A.isLocal && B.isLocal && C.isLocal then
    let m := A.rows
    let n := B.cols
    let k := A.cols
    if A.s0 ≠ 1 ∨ B.s0 ≠ 1 ∨ C.s0 ≠ 1 then SM.lift (.throw .runtimeError)
    else gemm .N .N m n k alpha A.data A.s1 B.data B.s1 beta C.data C.s1
  else SM.lift (.throw .runtimeError)

/-- `add(C, A, alpha, beta)`, `src/la/lapack_cpu.hpp:297-333` -/
def addK (sch : Sched) (C A : MView) (alpha beta : α) : MemM α Unit :=
  if A.isLocal && C.isLocal then
    let m := A.rows
    let n := C.cols
    if A.s0 ≠ 1 ∨ C.s0 ≠ 1 then SM.lift (.throw .runtimeError)
    else geam sch m n alpha A.data A.s1 beta C.data C.s1 C.data C.s1
  else SM.lift (.throw .runtimeError)

/-- `scale(dst, src, x, alpha, beta)`: columns times the elements of the contiguous vector at `x`,
`src/la/lapack.hpp:66-105`. The real numbers `alpha`, `x(j)`, `beta` are scalars here. -/
def scaleColsK (sch : Sched) (dst src : MView) (x : ℕ) (alpha beta : α) : MemM α Unit :=
  let m := src.rows
  let n := src.cols
  if src.s0 = 1 then
    if beta = 0 then
      forEach (sch.order (indexPairs m n)) fun p => do
        let xj ← load (x + p.2)
        let s ← load (src.addr p.1 p.2)
        store (dst.addr p.1 p.2) (alpha * xj * s)
    else
      forEach (sch.order (indexPairs m n)) fun p => do
        let d ← load (dst.addr p.1 p.2)
        let xj ← load (x + p.2)
        let s ← load (src.addr p.1 p.2)
        store (dst.addr p.1 p.2) (d * beta + alpha * xj * s)
  else SM.lift (.throw .runtimeError)

/-- `dst(i,j) = alpha * src(i,j)` or `dst(i,j) = dst(i,j) * beta + alpha * src(i,j)` for all `i`, `j`:
the loops of `scale(dst, src, alpha, beta)` and of `_add` -/
def axpbyLoop (sch : Sched) (dst src : MView) (m n : ℕ) (alpha beta : α) : MemM α Unit :=
  if beta = 0 then
    forEach (sch.order (indexPairs m n)) fun p => do
      let s ← load (src.addr p.1 p.2)
      store (dst.addr p.1 p.2) (alpha * s)
  else
    forEach (sch.order (indexPairs m n)) fun p => do
      let d ← load (dst.addr p.1 p.2)
      let s ← load (src.addr p.1 p.2)
      store (dst.addr p.1 p.2) (d * beta + alpha * s)

/-- `scale(dst, src, alpha, beta)`, `src/la/lapack.hpp:107-142`;
`scale(dst, src, alpha)`, `src/la/lapack.hpp:144-172`, is this with `beta = 0` -/
def scaleK (sch : Sched) (dst src : MView) (alpha beta : α) : MemM α Unit :=
  if src.s0 = 1 then axpbyLoop sch dst src src.rows src.cols alpha beta
  else SM.lift (.throw .runtimeError)

/-- `_add(dst, src, alpha, beta)`, `src/la/lapack.hpp:200-230`; with assertions enabled -/
def addLoopK (sch : Sched) (dst src : MView) (alpha beta : α) : MemM α Unit :=
  if src.rows ≠ dst.rows ∨ src.cols ≠ dst.cols then SM.lift .abort
  else axpbyLoop sch dst src src.rows src.cols alpha beta

/-- `minus()(x)`: a new matrix at `base`, whose memory is not initialised and holds `garbage`,
`src/nlcglib.cpp:201-210`, `empty_like`, `src/la/utils.hpp:117-140` -/
def minusK [Neg α] [One α] (sch : Sched) (x : MView) (base : ℕ) (garbage : ℕ → α) : MemM α MView := do
  let res : MView := ⟨base, x.rows, x.cols, 1, x.rows, x.isLocal⟩
  allocate base (x.rows * x.cols) garbage
  addK sch res x (-1) 0
  pure res

/-- the loop of `diag`, `src/la/lapack.hpp:33-35` -/
def diagLoop (sch : Sched) (X : MView) (d n : ℕ) : MemM α Unit :=
  forEach (sch.order (List.range n)) fun i => do
    let x ← load (X.addr i i)
    store (d + i) x

/-- `diag(X)`: a new vector at `d`, `src/la/lapack.hpp:22-37`; returns its length -/
def diagK (sch : Sched) (X : MView) (d : ℕ) : MemM α ℕ := do
  let n := min X.rows X.cols
  allocate d n fun _ => 0
  diagLoop sch X d n
  pure n

/-- the loop of `make_diag`, `src/la/lapack.hpp:59-61` -/
def makeDiagLoop (sch : Sched) (x n : ℕ) (out : MView) : MemM α Unit :=
  forEach (sch.order (List.range n)) fun i => do
    let v ← load (x + i)
    store (out.addr i i) v

/-- `make_diag()(x)` for the vector of length `n` at `x`: a new matrix at `base`,
`src/la/lapack.hpp:39-64` -/
def makeDiagK (sch : Sched) (x n base : ℕ) : MemM α MView := do
  let out : MView := ⟨base, n, n, 1, n, true⟩
  allocate base (n * n) fun _ => 0
  makeDiagLoop sch x n out
  pure out

end

/-! ## Buffers of the host -/

/-- `memory_type`, `include/interface.hpp:20-25` -/
inductive MemType | none | host | device
  deriving DecidableEq

/-- `buffer_protocol<T, 2>`: `int` strides and sizes, pointer, kind of memory; the communicator is
dropped. `include/interface.hpp:46-80` -/
structure Buffer where
  stride0 : BitVec 32
  stride1 : BitVec 32
  size0 : BitVec 32
  size1 : BitVec 32
  data : ℕ
  memtype : MemType

/-- a strided host view: its extents and strides are `size_t` -/
structure StridedView where
  data : ℕ
  extent0 : BitVec 64
  extent1 : BitVec 64
  stride0 : BitVec 64
  stride1 : BitVec 64

/-- One matrix of `make_mmatrix<HostSpace>`: the memory type is checked, then the buffer is wrapped by
`Kokkos::LayoutStride(size[0], stride[0], size[1], stride[1])`, which converts `int` to `size_t`.
`src/la/mvector.hpp:317-336`, `src/la/dvector.hpp:226-238` -/
def wrapBuffer (b : Buffer) : Res StridedView :=
  if b.memtype ≠ .host then .throw .runtimeError
  else .ok ⟨b.data, b.size0.signExtend 64, b.size1.signExtend 64, b.stride0.signExtend 64,
    b.stride1.signExtend 64⟩

/-- `as_buffer_protocol` of a host view: `size_t` back to `int`, `src/la/dvector.hpp:107-132` -/
def StridedView.asBuffer (v : StridedView) : Buffer :=
  ⟨v.stride0.setWidth 32, v.stride1.setWidth 32, v.extent0.setWidth 32, v.extent1.setWidth 32, v.data,
    .host⟩

/-- address of element `(i, j)` of a strided view: the offset is computed in `size_t` -/
def StridedView.addr (v : StridedView) (i j : ℕ) : ℕ :=
  v.data + (BitVec.ofNat 64 i * v.stride0 + BitVec.ofNat 64 j * v.stride1).toNat

section
variable {α : Type}

/-- One matrix of the copying `make_mmatrix`: a new contiguous matrix (filled with 0), into which
`size[0]*size[1]` elements starting at the pointer of the buffer are copied.
`src/la/mvector.hpp:361-374` -/
def copyMatrix [Zero α] (rows cols src base : ℕ) : MemM α MView := do
  let mat : MView := ⟨base, rows, cols, 1, rows, true⟩
  allocate base (rows * cols) fun _ => 0
  forEach (List.range (rows * cols)) fun k => do
    let x ← load (src + k)
    store (base + k) x
  pure mat

end

end Nlcg
