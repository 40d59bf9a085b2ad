import Verif.Model.KMap
import Verif.Model.Memory
import Mathlib.Data.Real.Basic

/-!
# Layouts, fetching of vectors, small numerical helpers
-/

namespace Nlcg

/-- `Block`, `src/la/layout.hpp:9-30` -/
structure Block where
  x : ℤ
  y : ℤ
  nrows : ℤ
  ncols : ℤ

/-- the loop of the constructor: `nrow_` so far, `src/la/layout.hpp:77-82` -/
def slabLoop (ncol : ℤ) : List Block → ℤ → Res ℤ
  | [], nrow => .ok nrow
  | b :: bs, nrow =>
    let nrow := nrow + b.nrows
    if b.ncols ≠ ncol ∨ b.y ≠ 0 then .throw .runtimeError else slabLoop ncol bs nrow

/-- `SlabLayoutV(blocks, ncols = -1)`: number of rows and columns; `blocks[0]` of an empty list is
undefined. `src/la/layout.hpp:71-83`. Overflow of `int` is not modelled. -/
def slabLayout (blocks : List Block) (ncols : ℤ := -1) : Res (ℤ × ℤ) := do
  let ncol ← (if ncols = -1 then match blocks with
      | [] => .ub
      | b :: _ => .ok b.ncols
    else .ok ncols)
  let nrow ← slabLoop ncol blocks 0
  pure (nrow, ncol)

/-- one entry of `VectorBaseZ`: kind of memory, key of the k-point, values -/
structure HostVector (β : Type) where
  memtype : MemType
  key : Key
  values : β

/-- `make_mmvector`, `src/la/mvector.hpp:380-410`; `cuda`: compiled with CUDA -/
def makeMmvector {β : Type} (cuda : Bool) : List (HostVector β) → KMap Key β → Res (KMap Key β)
  | [], acc => .ok acc
  | v :: vs, acc =>
    if v.memtype = .device then
      if cuda then makeMmvector cuda vs (KMap.set v.key v.values acc) else .throw .runtimeError
    else if v.memtype = .host then makeMmvector cuda vs (KMap.set v.key v.values acc)
    else makeMmvector cuda vs acc

/-- `linspace`, `src/la/utils.hpp:93-105`, exact arithmetic; a negative length makes the constructor of
`std::vector` throw -/
noncomputable def linspace (start stop : ℝ) (npoints : ℤ) : Res (List ℝ) :=
  if npoints < 0 then .throw .runtimeError
  else
    let dx := if npoints > 1 then (stop - start) / (npoints - 1) else 0
    .ok ((List.range npoints.toNat).map fun (i : ℕ) => start + i * dx)

/-- one entry of the kinetic preconditioner, `src/preconditioner.hpp:82-89` -/
noncomputable def teterEntry (T : ℝ) : ℝ :=
  let T2 := T * T
  let T3 := T2 * T
  let T4 := T2 * T2
  let tp := 16 * T4 / (27 + 18 * T + 12 * T2 + 8 * T3)
  1 / (1 + tp)

/-- `PreconditionerTeter(ekin)` for host memory, `src/preconditioner.hpp:74-95` -/
noncomputable def teterPreconditioner (cuda : Bool) (ekin : List (HostVector (List ℝ))) :
    Res (KMap Key (List ℝ)) := do
  let v ← makeMmvector cuda ekin []
  pure (v.map fun e => (e.1, e.2.map teterEntry))

end Nlcg
