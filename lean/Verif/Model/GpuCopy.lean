import Verif.Model.Gpu

/-!
# Copies of the host's matrices to the device

`src/gpu/acc.cpp`, and the copying `make_mmatrix`, `src/la/mvector.hpp:342-378`.
-/

namespace Nlcg
variable {α : Type}

/-- `acc::copy`, `src/gpu/acc.cpp:27-35`: `cudaMemcpy` of `n` elements. `CALL_DEVICE_API` (lines 10-21) prints a message
if it fails and goes on. A failed copy is taken to leave the destination alone. The assertions on the pointers are
dropped. -/
def accCopy (lib : GpuLib α) (dst src n : ℕ) : GpuM α Unit := do
  if ← lib.call then
    onMem (forEach (List.range n) fun k => do
      let x ← load (src + k)
      store (dst + k) x)
  else printError

/-- one matrix of the copying `make_mmatrix`, `src/la/mvector.hpp:361-374`: a new contiguous matrix, filled with 0, into
which the elements are copied -/
def copyMatrixGpu [Zero α] (lib : GpuLib α) (rows cols src base : ℕ) : GpuM α MView := do
  let mat : MView := ⟨base, rows, cols, 1, rows, true⟩
  onMem (allocate base (rows * cols) fun _ => 0)
  accCopy lib base src (rows * cols)
  pure mat

end Nlcg
