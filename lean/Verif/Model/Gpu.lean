import Verif.Model.Memory
import Mathlib.Data.Int.Notation

/-!
# Matrix operations on the GPU

`src/la/cuda.hpp`, `src/la/lapack_cuda.hpp`, `src/la/rocm.hpp`, `src/la/lapack_rocm.hpp`,
`src/la/magma.cpp`, and the two LAPACK wrappers of `src/la/lapack_cpu.hpp`.

Every call into a GPU library gets a number; the library (`GpuLib`) says for each number whether the
call succeeds. Matrices live in one address space, device and host addresses are different addresses.
Scratch memory of the solvers is kept apart, as a list of blocks. Streams are not modelled: a call
takes effect before the next one. Real numbers (eigenvalues) are stored as scalars.
-/

namespace Nlcg

/-- the two GPU interfaces -/
inductive Backend | cuda | rocm
  deriving DecidableEq

/-- one block of scratch memory: its address and its size in bytes -/
structure DevBlock where
  addr : ℕ
  bytes : ℕ
  deriving DecidableEq

/-- memory, scratch blocks in use, number of library calls so far, and the calls for which an error
message was printed -/
structure Dev (α : Type) where
  mem : Mem α
  live : List DevBlock
  calls : ℕ
  printed : List ℕ

/-- a program that uses the GPU -/
abbrev GpuM (α β : Type) := SM (Dev α) β

/-- The GPU libraries. `ok i` says whether call number `i` returns success. The solvers get the memory
and the addresses and sizes of their arguments, and leave a memory and their `info` (0: success). -/
structure GpuLib (α : Type) where
  ok : ℕ → Bool
  lwork : ℕ → ℕ
  zpotrf : (n A lda : ℕ) → Mem α → Mem α × ℤ
  zpotrs : (n nrhs A lda B ldb : ℕ) → Mem α → Mem α × ℤ
  zheevd : (n A lda w : ℕ) → Mem α → Mem α × ℤ

/-- LAPACK on the host, with the return code -/
structure HostLib (α : Type) where
  zpotrf : (n A lda : ℕ) → Mem α → Mem α × ℤ
  zpotrs : (n nrhs A lda B ldb : ℕ) → Mem α → Mem α × ℤ
  zheevd : (n A lda w : ℕ) → Mem α → Mem α × ℤ

section
variable {α : Type}

/-- one library call; tells whether it succeeded -/
def GpuLib.call (lib : GpuLib α) : GpuM α Bool := fun d => (.ok (lib.ok d.calls), { d with calls := d.calls + 1 })

/-- the message of `CALL_CUDA`, `CALL_HIP`, `CALL_ROCBLAS` for the last call: it is printed and the
program goes on. `src/la/cuda.hpp:13-27`, `src/la/rocm.hpp:15-46` -/
def printError : GpuM α Unit := SM.modify fun d => { d with printed := d.printed ++ [d.calls - 1] }

/-- a program on memory alone -/
def onMem {β : Type} (p : MemM α β) : GpuM α β := fun d => ((p d.mem).1, { d with mem := (p d.mem).2 })

/-- `CALL_CUDA(cudaMalloc, (&ptr, bytes))` for an uninitialised `ptr`: without success the pointer stays
indeterminate (`none`). The number of the call serves as address. `src/la/cuda.hpp:84-86` -/
def cudaMalloc (lib : GpuLib α) (bytes : ℕ) : GpuM α (Option ℕ) := do
  let d ← SM.get
  if ← lib.call then
    SM.modify fun d' => { d' with live := d'.live ++ [⟨d.calls, bytes⟩] }
    pure (some d.calls)
  else
    printError
    pure none

/-- `CALL_CUDA(cudaFree, (ptr))` -/
def cudaFree (lib : GpuLib α) (p : ℕ) : GpuM α Unit := do
  if ← lib.call then SM.modify fun d => { d with live := d.live.filter fun b => b.addr ≠ p }
  else printError

/-- use of the value of a pointer -/
def usePtr : Option ℕ → GpuM α ℕ
  | some p => pure p
  | none => SM.lift .ub

/-- `CALL_CUDA(cudaMemcpy, (&Info, dev_Info, sizeof(int), cudaMemcpyDeviceToHost))`: without success the
value of `Info` stays indeterminate (`none`) -/
def copyInfo (lib : GpuLib α) (info : ℤ) : GpuM α (Option ℤ) := do
  if ← lib.call then pure (some info)
  else
    printError
    pure none

/-- The end of the solver wrappers: for a status other than success a message with `Info` is printed
and `exit(1)` is called; printing an indeterminate `Info` is undefined. `src/la/cuda.hpp:91-97` -/
def checkStatus (st : Bool) (info : Option ℤ) : GpuM α Unit :=
  if st then pure ()
  else match info with
    | some _ => SM.lift .abort
    | none => SM.lift .ub

/-- The part that `potrf::call` and `zheevd::call` share: query the size of the work space, allocate it
and one `int`, run the solver, copy `info` to the host, release the work space, check the status.
A solver that does not return success is taken to leave the memory alone.
`src/la/cuda.hpp:67-138`, `246-334` -/
def cudaSolver (lib : GpuLib α) (n : ℕ) (run : Mem α → Mem α × ℤ) : GpuM α (Option ℤ) := do
  let stSize ← lib.call
  if stSize then
    let work ← cudaMalloc lib (lib.lwork n * 16)
    let devInfo ← cudaMalloc lib 4
    let workPtr ← usePtr work
    let _ ← usePtr devInfo
    let st ← lib.call
    let d ← SM.get
    if st then SM.modify fun d' => { d' with mem := (run d.mem).1 } else pure ()
    let info ← copyInfo lib (run d.mem).2
    cudaFree lib workPtr
    checkStatus st info
    pure info
  else SM.lift .abort

/-- `cuda::potrf::call`, `src/la/cuda.hpp:67-138` -/
def cudaPotrf (lib : GpuLib α) (n A lda : ℕ) : GpuM α (Option ℤ) := cudaSolver lib n (lib.zpotrf n A lda)

/-- `cuda::zheevd::call`, `src/la/cuda.hpp:246-334` -/
def cudaZheevd (lib : GpuLib α) (n A lda w : ℕ) : GpuM α (Option ℤ) := cudaSolver lib n (lib.zheevd n A lda w)

/-- `cuda::potrs::call`, `src/la/cuda.hpp:158-227` -/
def cudaPotrs (lib : GpuLib α) (n nrhs A lda B ldb : ℕ) : GpuM α Unit := do
  let devInfo ← cudaMalloc lib 4
  let _ ← usePtr devInfo
  let st ← lib.call
  let d ← SM.get
  let r := lib.zpotrs n nrhs A lda B ldb d.mem
  if st then SM.modify fun d' => { d' with mem := r.1 } else pure ()
  let info ← copyInfo lib r.2
  checkStatus st info

/-- `deep_copy(dst, src)` of two matrices, `src/la/dvector.hpp:262-268`; Kokkos throws if the extents
differ -/
def deepCopyK (sch : Sched) (dst src : MView) : MemM α Unit :=
  if dst.rows ≠ src.rows ∨ dst.cols ≠ src.cols then SM.lift (.throw .runtimeError)
  else forEach (sch.order (indexPairs src.rows src.cols)) fun p => do
    let x ← load (src.addr p.1 p.2)
    store (dst.addr p.1 p.2) x

/-- `eigh(U, w, S)` for CUDA, `src/la/lapack_cuda.hpp:9-33` -/
def eighCuda (lib : GpuLib α) (sch : Sched) (U : MView) (w : ℕ) (S : MView) : GpuM α Unit :=
  if U.isLocal && S.isLocal then do
    onMem (deepCopyK sch U S)
    let _ ← cudaZheevd lib U.rows U.data U.s1 w
    pure ()
  else SM.lift (.throw .runtimeError)

/-- `cholesky(A)` for CUDA, `src/la/lapack_cuda.hpp:35-54` -/
def choleskyCuda (lib : GpuLib α) (A : MView) : GpuM α Unit :=
  if A.isLocal then do
    let _ ← cudaPotrf lib A.rows A.data A.s1
    pure ()
  else SM.lift (.throw .runtimeError)

/-- `solve_sym(A, RHS)` for CUDA, `src/la/lapack_cuda.hpp:57-84` -/
def solveSymCuda (lib : GpuLib α) (A RHS : MView) : GpuM α Unit :=
  if A.isLocal && RHS.isLocal then do
    let _ ← cudaPotrf lib A.rows A.data A.s1
    cudaPotrs lib A.rows RHS.cols A.data A.s1 RHS.data RHS.s1
  else SM.lift (.throw .runtimeError)

/-! ## LAPACK on the host -/

/-- `eigh(U, w, S)` for the host, `src/la/lapack_cpu.hpp:22-52` -/
def eighHost (lib : HostLib α) (sch : Sched) (U : MView) (w : ℕ) (S : MView) : MemM α Unit :=
  if S.isLocal then do
    deepCopyK sch U S
    let m ← SM.get
    let r := lib.zheevd U.cols U.data U.s1 w m
    SM.modify fun _ => r.1
    if r.2 ≠ 0 then SM.lift (.throw .runtimeError) else pure ()
  else SM.lift (.throw .runtimeError)

/-- `solve_sym(A, RHS)` for the host, `src/la/lapack_cpu.hpp:55-86`; both return codes are dropped -/
def solveSymHost (lib : HostLib α) (A RHS : MView) : MemM α Unit :=
  if A.isLocal && RHS.isLocal then
    if A.s0 ≠ 1 ∨ RHS.s0 ≠ 1 then SM.lift (.throw .runtimeError)
    else do
      let m ← SM.get
      SM.modify fun _ => (lib.zpotrf A.rows A.data A.s1 m).1
      let m' ← SM.get
      SM.modify fun _ => (lib.zpotrs A.rows RHS.cols A.data A.s1 RHS.data RHS.s1 m').1
  else SM.lift (.throw .runtimeError)

/-! ## ROCm -/

/-- memory given back -/
def release (base n : ℕ) : MemM α Unit := fun m =>
  (.ok (), fun a => if base ≤ a ∧ a < base + n then none else m a)

/-- copy of `n` consecutive elements -/
def copyVec (dst src n : ℕ) : MemM α Unit := forEach (List.range n) fun k => do
  let x ← load (src + k)
  store (dst + k) x

/-- `create_mirror_view_and_copy(HostSpace(), v)`: a new contiguous matrix at `base`,
`src/la/dvector.hpp:271-279`. The mirror of a padded device matrix has the padding of the device matrix;
here it has none. -/
def mirror (sch : Sched) (v : MView) (base : ℕ) (garbage : ℕ → α) : MemM α MView := do
  let h : MView := ⟨base, v.rows, v.cols, 1, v.rows, v.isLocal⟩
  allocate base (v.rows * v.cols) garbage
  deepCopyK sch h v
  pure h

/-- `eigh(U, w, S)` for ROCm: `S` is copied to the host, LAPACK runs there, its return code is dropped,
the result is copied back. `w` has `n` elements. The host matrices are at `bases` and disappear at the
end. `src/la/lapack_rocm.hpp:21-67` -/
def eighRocm (lib : HostLib α) (sch : Sched) (U : MView) (w n : ℕ) (S : MView) (bases : Fin 3 → ℕ)
    (garbage : ℕ → α) : GpuM α Unit :=
  if U.isLocal && S.isLocal then onMem do
    deepCopyK sch U S
    allocate (bases 0) n garbage
    copyVec (bases 0) w n
    let sHost ← mirror sch S (bases 1) garbage
    let uHost : MView := ⟨bases 2, S.rows, S.cols, 1, S.rows, S.isLocal⟩
    allocate (bases 2) (S.rows * S.cols) garbage
    deepCopyK sch uHost sHost
    let m ← SM.get
    SM.modify fun _ => (lib.zheevd uHost.cols uHost.data uHost.s1 (bases 0) m).1
    copyVec w (bases 0) n
    deepCopyK sch U uHost
    release (bases 0) n
    release (bases 1) (S.rows * S.cols)
    release (bases 2) (S.rows * S.cols)
  else SM.lift (.throw .runtimeError)

/-- `cholesky(A)` for ROCm: MAGMA, whose `info` is checked. `src/la/lapack_rocm.hpp:69-87`,
`src/la/magma.cpp` (`zpotrf_magma`) -/
def choleskyRocm (lib : GpuLib α) (A : MView) : GpuM α Unit :=
  if A.isLocal then do
    let d ← SM.get
    let r := lib.zpotrf A.rows A.data A.s1 d.mem
    onMem (SM.modify fun _ => r.1)
    if r.2 ≠ 0 then SM.lift (.throw .runtimeError) else pure ()
  else SM.lift (.throw .runtimeError)

/-- `solve_sym(A, RHS)` for ROCm: on copies in host memory. `src/la/lapack_rocm.hpp:90-124` -/
def solveSymRocm (lib : HostLib α) (sch : Sched) (A RHS : MView) (bases : Fin 2 → ℕ) (garbage : ℕ → α) :
    GpuM α Unit := onMem do
  let aHost ← mirror sch A (bases 0) garbage
  let bHost ← mirror sch RHS (bases 1) garbage
  solveSymHost lib aHost bHost
  deepCopyK sch A aHost
  deepCopyK sch RHS bHost
  release (bases 0) (A.rows * A.cols)
  release (bases 1) (RHS.rows * RHS.cols)

/-! ## Products and sums -/

variable [Add α] [Mul α] [Zero α] [Star α] [DecidableEq α]

/-- what happens to a status other than success: dropped by CUDA, printed by ROCm.
`src/la/cuda.hpp:361`, `398`, `477`, `src/la/rocm.hpp:134`, `192` -/
def ignoreError : Backend → GpuM α Unit
  | .cuda => pure ()
  | .rocm => printError

/-- `cublasZgemm_v2`, `rocblas_zgemm` with their wrappers: like `gemm`, but a leading dimension that is
too small is answered by a status. `src/la/cuda.hpp:336-450`, `src/la/rocm.hpp:117-170` -/
def gemmGpu (b : Backend) (lib : GpuLib α) (ta tb : Trans) (m n k : ℕ) (alpha : α) (A lda B ldb : ℕ)
    (beta : α) (C ldc : ℕ) : GpuM α Unit := do
  let st ← lib.call
  if st = false ∨ lda < max 1 (match ta with | .N => m | .H => k) ∨
      ldb < max 1 (match tb with | .N => k | .H => n) ∨ ldc < max 1 m then ignoreError b
  else onMem (gemm ta tb m n k alpha A lda B ldb beta C ldc)

/-- `cublasZgeam`, `rocblas_zgeam` with their wrappers, without transposition. `B` is not read if `beta`
is 0. A result stored over `A` or `B` needs the same leading dimension.
`src/la/cuda.hpp:453-491`, `src/la/rocm.hpp:173-212` -/
def geamGpu (b : Backend) (lib : GpuLib α) (sch : Sched) (m n : ℕ) (alpha : α) (A lda : ℕ) (beta : α)
    (B ldb C ldc : ℕ) : GpuM α Unit := do
  let st ← lib.call
  if st = false ∨ lda < max 1 m ∨ ldb < max 1 m ∨ ldc < max 1 m ∨ (C = A ∧ ldc ≠ lda) ∨ (C = B ∧ ldc ≠ ldb)
    then ignoreError b
  else onMem (forEach (sch.order (indexPairs m n)) fun p => do
    let x ← load (A + (p.1 + lda * p.2))
    if beta = 0 then store (C + (p.1 + ldc * p.2)) (alpha * x)
    else do
      let y ← load (B + (p.1 + ldb * p.2))
      store (C + (p.1 + ldc * p.2)) (alpha * x + beta * y))

/-- `inner(c, a, b, alpha, beta)`, `src/la/lapack_cuda.hpp:86-126`, `src/la/lapack_rocm.hpp:126-166` -/
def innerG (b : Backend) (lib : GpuLib α) (C A B : MView) (alpha beta : α) : GpuM α Unit :=
  if A.isLocal && B.isLocal && C.isLocal then
    if A.s0 ≠ 1 ∨ B.s0 ≠ 1 ∨ C.s0 ≠ 1 then SM.lift (.throw .runtimeError)
    else gemmGpu b lib .H .N A.cols B.cols A.rows alpha A.data A.s1 B.data B.s1 beta C.data C.s1
  else SM.lift (.throw .runtimeError)

/-- `outer(c, a, b, alpha, beta)`, `src/la/lapack_cuda.hpp:128-176`, `src/la/lapack_rocm.hpp:168-217` -/
def outerG (b : Backend) (lib : GpuLib α) (C A B : MView) (alpha beta : α) : GpuM α Unit :=
  if A.isLocal && B.isLocal && C.isLocal then
    if A.s0 ≠ 1 ∨ B.s0 ≠ 1 ∨ C.s0 ≠ 1 then SM.lift (.throw .runtimeError)
    else gemmGpu b lib .N .H A.cols B.cols A.rows alpha A.data A.s1 B.data B.s1 beta C.data C.s1
  else SM.lift (.throw .runtimeError)

/-- `transform(C, beta, alpha, A, B)`, `src/la/lapack_cuda.hpp:178-222`,
`src/la/lapack_rocm.hpp:219-263` -/
def transformG (b : Backend) (lib : GpuLib α) (C : MView) (beta alpha : α) (A B : MView) : GpuM α Unit :=
  if A.isLocal && B.isLocal && C.isLocal then
    if A.s0 ≠ 1 ∨ B.s0 ≠ 1 ∨ C.s0 ≠ 1 then SM.lift (.throw .runtimeError)
    else gemmGpu b lib .N .N A.rows B.cols A.cols alpha A.data A.s1 B.data B.s1 beta C.data C.s1
  else SM.lift (.throw .runtimeError)

/-- `add(C, A, alpha, beta)`, `src/la/lapack_cuda.hpp:225-260`, `src/la/lapack_rocm.hpp:266-303` -/
def addG (b : Backend) (lib : GpuLib α) (sch : Sched) (C A : MView) (alpha beta : α) : GpuM α Unit :=
  if A.isLocal && C.isLocal then
    if A.s0 ≠ 1 ∨ C.s0 ≠ 1 then SM.lift (.throw .runtimeError)
    else geamGpu b lib sch A.rows C.cols alpha A.data A.s1 beta C.data C.s1 C.data C.s1
  else SM.lift (.throw .runtimeError)

end

/-! ## Sequences of operations -/

/-- one operation on matrices of the GPU -/
inductive GpuOp (α : Type)
  | eigh (U : MView) (w : ℕ) (S : MView)
  | cholesky (A : MView)
  | solveSym (A RHS : MView)
  | inner (C A B : MView) (alpha beta : α)
  | outer (C A B : MView) (alpha beta : α)
  | transform (C : MView) (beta alpha : α) (A B : MView)
  | add (C A : MView) (alpha beta : α)

section
variable {α : Type} [Add α] [Mul α] [Zero α] [Star α] [DecidableEq α]

/-- an operation as executed with CUDA -/
def cudaOp (lib : GpuLib α) (sch : Sched) : GpuOp α → GpuM α Unit
  | .eigh U w S => eighCuda lib sch U w S
  | .cholesky A => choleskyCuda lib A
  | .solveSym A RHS => solveSymCuda lib A RHS
  | .inner C A B alpha beta => innerG .cuda lib C A B alpha beta
  | .outer C A B alpha beta => outerG .cuda lib C A B alpha beta
  | .transform C beta alpha A B => transformG .cuda lib C beta alpha A B
  | .add C A alpha beta => addG .cuda lib sch C A alpha beta

/-- several operations, one after the other -/
def cudaOps (lib : GpuLib α) (sch : Sched) : List (GpuOp α) → GpuM α Unit
  | [] => pure ()
  | o :: l => do cudaOp lib sch o; cudaOps lib sch l

end

end Nlcg
