import Verif.Model.Basic
import Mathlib.Data.Nat.Notation

/-!
# The sizes of the host's data

The host gives orbitals, `H X` and band energies, each with its own sizes. Here the computation of the first search
direction (`src/mvp2/descent_direction.hpp:155-183`) is followed with the extents only: every kernel is represented by the
elements it reads and writes, and an access outside the extents of a view is undefined. No size is compared with another
one on the way, with or without assertions: the functions called here contain none.
-/

namespace Nlcg

/-- extents of a matrix -/
structure Extent where
  rows : ℕ
  cols : ℕ
  deriving DecidableEq, Repr

/-- a loop over `i < m`, `j < n` that accesses element `(i, j)` of a matrix -/
def touchMat (s : Extent) (m n : ℕ) : Res Unit :=
  if m = 0 ∨ n = 0 ∨ (m ≤ s.rows ∧ n ≤ s.cols) then .ok () else .ub

/-- a loop over `i < n` that accesses element `i` of a vector of length `len` -/
def touchVec (len n : ℕ) : Res Unit := if n ≤ len then .ok () else .ub

/-- a loop over `i < n` that accesses element `(i, i)` of a matrix -/
def touchDiag (s : Extent) (n : ℕ) : Res Unit := if n ≤ s.rows ∧ n ≤ s.cols then .ok () else .ub

/-- what the host gives for a k-point, `include/interface.hpp:70-117`: orbitals, `H X`, number of band energies; and how
the host's operators and the Cholesky factorisation end -/
structure KSizes where
  X : Extent
  hx : Extent
  ek : ℕ
  op : Res Unit
  chol : Res Unit

/-- `tmp = op(x)`: the result has the extents of `x`, `src/operator.hpp:57-80` -/
def opSizes (k : KSizes) (x : Extent) : Res Extent := do
  k.op
  pure x

/-- `inner_()(A, B)` with `gemm` on `A^H` and `B`, `src/la/lapack.hpp:232-248`, `src/la/lapack_cpu.hpp:89-156` -/
def innerSizes (A B : Extent) : Res Extent := do
  let C : Extent := ⟨A.cols, B.cols⟩
  touchMat A A.rows A.cols
  touchMat B A.rows B.cols
  touchMat C A.cols B.cols
  pure C

/-- `transform_alloc(A, B)`: the result has the extents of `A`, `src/la/lapack.hpp:428-440`, `src/la/lapack_cpu.hpp:227-294` -/
def transformSizes (A B : Extent) : Res Extent := do
  touchMat A A.rows A.cols
  touchMat B A.cols B.cols
  touchMat A A.rows B.cols
  pure A

/-- `solve_sym(A, RHS)`, `src/la/lapack_cpu.hpp:55-86` -/
def solveSizes (k : KSizes) (A R : Extent) : Res Unit := do
  touchMat A A.rows A.rows
  k.chol
  touchMat R A.rows R.cols

/-- `add(C, A, ..)`: as many rows as `A` and as many columns as `C` has, `src/la/lapack_cpu.hpp:297-333` -/
def addSizes (C A : Extent) : Res Unit := do
  touchMat A A.rows C.cols
  touchMat C A.rows C.cols

/-- `scale(dst, src, x, ..)`, `src/la/lapack.hpp:66-105` -/
def scaleColsSizes (dst src : Extent) (x : ℕ) : Res Unit := do
  touchMat src src.rows src.cols
  if src.rows = 0 then pure () else touchVec x src.cols
  touchMat dst src.rows src.cols

/-- `local::lmult`, `src/mvp2/mvp2.hpp:12-32` -/
def lmultSizes (k : KSizes) (sx hx : Extent) : Res Extent := do
  let psx ← opSizes k sx
  let xkx ← innerSizes sx psx
  let phx ← opSizes k hx
  let xkhx ← innerSizes sx phx
  solveSizes k xkx xkhx
  transformSizes sx xkhx

/-- `local::gradx`, `src/mvp2/mvp2.hpp:34-45` -/
def gradxSizes (x hx : Extent) (fn : ℕ) (xll : Extent) : Res Extent := do
  scaleColsSizes x hx fn
  addSizes x xll
  pure x

/-- `local::precondgx_us`, `src/mvp2/mvp2.hpp:66-82` -/
def precondgxSizes (k : KSizes) (x hx xll : Extent) : Res Extent := do
  addSizes x hx
  addSizes x xll
  opSizes k x

/-- `GradEta::g_eta`, `src/pseudo_hamiltonian/grad_eta.hpp:132-187`; the loop over the pairs `i ≠ j` reads the vectors at
both indices, `fn` only if the energies differ, and `fn` has the length of `ek` here -/
def gEtaSizes (hij : Extent) (ek fn : ℕ) : Res Extent := do
  let n := hij.rows
  touchVec ek n
  touchDiag hij n
  if n ≤ 1 then pure () else do
    touchVec fn n
    touchMat hij n n
  pure hij

/-- `_delta_eta::operator()`: the loop over the diagonal runs over the band energies,
`src/pseudo_hamiltonian/grad_eta.hpp:90-113` -/
def deltaEtaSizes (hij : Extent) (ek : ℕ) : Res Extent := do
  touchMat hij hij.rows hij.cols
  touchDiag hij ek
  touchVec ek ek
  pure hij

/-- `innerh_tr()(X, Y)`, `src/la/lapack.hpp:287-327` -/
def innerhSizes (X Y : Extent) : Res Unit := do
  touchMat X X.rows X.cols
  touchMat Y X.rows X.cols

/-- `exec_spc` (restart), `src/mvp2/descent_direction_impl.hpp:183-201`; there are as many occupations as band energies -/
def restartSizes (k : KSizes) : Res Unit := do
  let sx ← opSizes k k.X
  let llm ← lmultSizes k sx k.hx
  let gx ← gradxSizes sx k.hx k.ek llm
  let dx ← precondgxSizes k sx k.hx llm
  let hij ← innerSizes k.X k.hx
  let geta ← gEtaSizes hij k.ek k.ek
  let deta ← deltaEtaSizes hij k.ek
  innerhSizes gx dx
  innerhSizes geta deta

/-- all k-points of a rank in some order: `eval_threaded(tapply_async(functor, ..))`,
`src/mvp2/descent_direction.hpp:175` -/
def restartAllSizes : List KSizes → Res Unit
  | [] => .ok ()
  | k :: ks => do
    restartSizes k
    restartAllSizes ks

end Nlcg
