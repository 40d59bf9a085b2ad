import Verif.Model.GpuCopy
import Verif.Props.Gpu

/-!
# C72 and C43 for the copies of the host's matrices

`copyMatrixGpu` is the copy as the program makes it, through a library call that may fail.
-/

namespace Nlcg
open Spec
variable {α : Type}

/-- a copy that does not fail is the copy of `C43` -/
theorem copyMatrixGpu_ok [Zero α] {lib : GpuLib α} {d : Dev α} (h : lib.ok d.calls = true) (rows cols src base : ℕ) :
    copyMatrixGpu lib rows cols src base d =
      ((copyMatrix rows cols src base d.mem).1,
        { d with mem := (copyMatrix rows cols src base d.mem).2, calls := d.calls + 1 }) := by
  simp only [copyMatrixGpu, copyMatrix, accCopy, SM.bind_apply, onMem, GpuLib.call, allocate, h, if_true]
  generalize (forEach (List.range (rows * cols)) fun k => do
    let x ← load (src + k)
    store (base + k) x) _ = q
  obtain ⟨r, m⟩ := q
  cases r <;> rfl

/-- **C43_partial**, with the library call in view: if it succeeds, the copy of a buffer without padding is the host's
matrix. -/
theorem C43_copy_gpu_partial [Zero α] {lib : GpuLib α} {d : Dev α} (h : lib.ok d.calls = true)
    {rows cols ld src base : ℕ} {A : Matrix (Fin rows) (Fin cols) α}
    (hA : Holds d.mem ⟨src, rows, cols, 1, ld, true⟩ A) (hld : ld = rows ∨ cols ≤ 1)
    (hf : Free d.mem base (rows * cols)) :
    ∃ v d', copyMatrixGpu lib rows cols src base d = (.ok v, d') ∧ Holds d'.mem v A ∧ d'.printed = d.printed := by
  obtain ⟨v, m', e, hv, -⟩ := C43_copy_partial hA hld hf
  refine ⟨v, { d with mem := m', calls := d.calls + 1 }, ?_, hv, rfl⟩
  rw [copyMatrixGpu_ok h, e]

/-- **C72** fails: if the copy of a matrix of the host to the device fails, the call returns normally, and the matrix the
program goes on with is 0, whatever the host's matrix is. There is a message, and nothing else. -/
theorem C72_not_copy [Zero α] {lib : GpuLib α} {d : Dev α} (h : lib.ok d.calls = false) (rows cols src base : ℕ) :
    ∃ v d', copyMatrixGpu lib rows cols src base d = (.ok v, d') ∧
      Holds d'.mem v (0 : Matrix (Fin rows) (Fin cols) α) ∧ d'.printed = d.printed ++ [d.calls] := by
  refine ⟨⟨base, rows, cols, 1, rows, true⟩,
    { d with mem := (allocate base (rows * cols) (fun _ => (0 : α)) d.mem).2, calls := d.calls + 1,
             printed := d.printed ++ [d.calls] }, ?_, ⟨rfl, rfl, fun i j => ?_⟩, rfl⟩
  · simp [copyMatrixGpu, accCopy, SM.bind_apply, onMem, GpuLib.call, allocate, h, printError]
  · have := lt_mul_of_cell i.2 j.2
    dsimp only [allocate]
    rw [if_pos (by constructor <;> omega)]
    rfl

/-- the assumptions are met by `swapMat` on the host at address 0, copied to address 100 -/
example : (∃ v d', copyMatrixGpu goodLib 2 2 0 100 swapDev = (.ok v, d') ∧ Holds d'.mem v swapMat) ∧
    ∃ v d', copyMatrixGpu { goodLib with ok := fun _ => false } 2 2 0 100 swapDev = (.ok v, d') ∧
      Holds d'.mem v (0 : Matrix (Fin 2) (Fin 2) ℂ) := by
  constructor
  · obtain ⟨v, d', e, h, -⟩ := C43_copy_gpu_partial (lib := goodLib) (d := swapDev) rfl (base := 100) swapMem_holds
      (.inl rfl) (fun a h1 h2 => by show swapMem a = none; rw [swapMem, if_neg (by omega), if_neg (by omega)])
    exact ⟨v, d', e, h⟩
  · obtain ⟨v, d', e, h, -⟩ := C72_not_copy (lib := { goodLib with ok := fun _ => false }) (d := swapDev) rfl 2 2 0 100
    exact ⟨v, d', e, h⟩

end Nlcg
