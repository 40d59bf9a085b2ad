import Mathlib.Data.Nat.Notation
import Mathlib.Data.Int.Notation
import Mathlib.Data.List.Basic

/-!
# MPI datatypes of pairs and the objects a gather leaves behind

`src/mpi/mpi_type.hpp:42-101`, `src/mpi/communicator.hpp`, `src/la/mvector.hpp:132-255`.

Trusted: the memory layout of `std::pair` (members in order, each at the next multiple of its alignment, the
whole padded to its alignment), and the definition of `MPI_Type_create_struct` in the MPI standard with the
alignments of the compiler.
-/

namespace Nlcg

/-- the C++ types with an MPI datatype: a basic type with its size and alignment, or a pair -/
inductive CType where
  | basic (size align : ℕ)
  | pair (a b : CType)

/-- the next multiple of `a` -/
def roundUp (x a : ℕ) : ℕ := (x + a - 1) / a * a

/-- `alignof(T)` -/
def CType.align : CType → ℕ
  | .basic _ a => a
  | .pair a b => max a.align b.align

/-- `sizeof(T)` -/
def CType.size : CType → ℕ
  | .basic s _ => s
  | .pair a b => roundUp (roundUp a.size b.align + b.size) (max a.align b.align)

/-- the offset of the member `second` -/
def CType.second (a b : CType) : ℕ := roundUp a.size b.align

/-- the offsets of the bytes that carry the value of an object (no padding) -/
def CType.value : CType → List ℕ
  | .basic s _ => List.range s
  | .pair a b => a.value ++ b.value.map (CType.second a b + ·)

/-- type map of `mpi_type<T>::type()`: the offsets of the bytes that are sent. The members of a pair are
declared at `0` and `sizeof(T1)`, `src/mpi/mpi_type.hpp:80-99` -/
def CType.typeMap : CType → List ℕ
  | .basic s _ => List.range s
  | .pair a b => a.typeMap ++ b.typeMap.map (a.size + ·)

/-- extent of `mpi_type<T>::type()`: upper end of the members, padded to the largest alignment -/
def CType.extent : CType → ℕ
  | .basic s _ => s
  | .pair a b => roundUp (max a.extent (a.size + b.extent)) (max a.align b.align)

/-- A message with `n` objects: contents of the receiving buffer, `src` being the sending buffer and `dst`
the receiving buffer before. Offset `p` is written if it belongs to one of the `n` items. -/
def transfer {β : Type} (t : CType) (n : ℕ) (src dst : ℕ → β) (p : ℕ) : β :=
  if ∃ i < n, ∃ d ∈ t.typeMap, p = i * t.extent + d then src p else dst p

/-- `int`, `double`, `std::complex<double>`, `Kokkos::complex<double>` on the usual platforms; the last one
is aligned to its size (`KOKKOS_ENABLE_COMPLEX_ALIGN`, the default) -/
def cInt : CType := .basic 4 4
def cDouble : CType := .basic 8 8
def cStdComplex : CType := .basic 16 8
def cKokkosComplex : CType := .basic 16 16

/-- `key_t`, `src/la/mvector.hpp:26` -/
def cKey : CType := .pair cInt cInt

/-- the MPI calls that create or release something, and the collectives -/
inductive MpiCall where
  | typeCreate
  | typeCommit
  | typeFree
  | commDup
  | commFree
  | collective
  deriving DecidableEq

/-- `mpi_type<T>::type()`, `src/mpi/mpi_type.hpp:80-99` -/
def typeCalls : CType → List MpiCall
  | .basic _ _ => []
  | .pair a b => typeCalls a ++ typeCalls b ++ [.typeCreate, .typeCommit]

/-- `Communicator::allgather(buffer, ...)`: the datatype, the collective, `src/mpi/communicator.hpp:122-165` -/
def gatherCalls (t : CType) : List MpiCall := typeCalls t ++ [.collective]

/-- `allgather` of a vector of values: sizes, values, `src/la/mvector.hpp:166-186`,
`src/mpi/communicator.hpp:167-190` -/
def gatherVecCalls (t : CType) : List MpiCall := gatherCalls cInt ++ gatherCalls t

/-- `mvector<T>::allgather` for scalars, `src/la/mvector.hpp:132-164`; copies of `Communicator` make no
call, `src/mpi/communicator.hpp:24-120` -/
def gatherScalarsCalls (t : CType) : List MpiCall := gatherCalls cInt ++ gatherCalls (.pair cKey t)

/-- `mvector<T>::allgather` for arrays: keys, sizes, data, `src/la/mvector.hpp:189-255` -/
def gatherArraysCalls (t : CType) : List MpiCall :=
  gatherVecCalls cKey ++ gatherVecCalls cInt ++ gatherCalls t

/-- datatypes committed and not freed by a list of calls -/
def openTypes (cs : List MpiCall) : ℤ := cs.count .typeCommit - cs.count .typeFree

end Nlcg
