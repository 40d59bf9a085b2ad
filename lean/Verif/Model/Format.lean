import Verif.Model.Basic
import Mathlib.Data.Int.Notation
import Mathlib.Data.Nat.Notation

/-!
# String formatting and GPU workspaces: sizes of buffers
-/

namespace Nlcg

/-- an argument of `format` -/
inductive FmtArg where
  | int (n : ℤ)
  | str (s : List Char)

def FmtArg.text : FmtArg → List Char
  | .int n => (toString n).toList
  | .str s => s

/-- `std::sprintf` for the conversions `%d`, `%s` and `%%`: the text without its terminator. A missing
argument is undefined. -/
def sprintfText : List Char → List FmtArg → Res (List Char)
  | [], _ => .ok []
  | '%' :: '%' :: f, as => do let r ← sprintfText f as; pure ('%' :: r)
  | '%' :: 'd' :: f, a :: as => do let r ← sprintfText f as; pure (a.text ++ r)
  | '%' :: 's' :: f, a :: as => do let r ← sprintfText f as; pure (a.text ++ r)
  | '%' :: _ :: _, _ => .ub
  | ['%'], _ => .ub
  | c :: f, as => do let r ← sprintfText f as; pure (c :: r)

/-- `format(format_string, args...)`: the buffer has `format_string.size()` bytes, `sprintf` writes the
text and a terminating 0 into it; writing past its end is undefined. `src/utils/format.hpp:8-16` -/
def formatString (fmt : List Char) (args : List FmtArg) : Res (List Char) := do
  let t ← sprintfText fmt args
  if t.length + 1 ≤ fmt.length then pure t else .ub

/-- Number of elements allocated and announced for the four work arrays of `magma_zheevd_gpu`;
`nb = magma_get_zhetrd_nb(n)`. `src/la/magma.cpp:39-58` -/
structure MagmaWork where
  wA : ℤ
  wANeeded : ℤ
  work : ℤ
  lwork : ℤ
  rwork : ℤ
  lrwork : ℤ
  iwork : ℤ
  liwork : ℤ

/-- `magma_roundup(a, b)` -/
def roundup (a b : ℤ) : ℤ := (a + b - 1) / b * b

/-- `src/la/magma.cpp:39-58`; the routine uses `ldwa * n` elements of `wA` -/
def magmaWork (n lda nb : ℤ) : MagmaWork :=
  let ldwa := roundup lda 32
  { wA := n * ldwa, wANeeded := ldwa * n, work := n, lwork := max (n + n * nb) (2 * n + n * n),
    rwork := 1 + 5 * n + 2 * n * n, lrwork := 1 + 5 * n + 2 * n * n, iwork := 3 + 5 * n,
    liwork := 3 + 5 * n }

/-! ## Handles of GPU libraries -/

/-- state of `cublasHandle` / `cusolverDnHandle` and of the library: the static variable, the handles
created and not destroyed, and the calls of the destroy function with their argument -/
structure HandleState where
  handle : Option ℕ
  live : List ℕ
  created : ℕ
  destroyed : List (Option ℕ)

def handleInit : HandleState := ⟨none, [], 0, []⟩

inductive HandleOp
  | get
  | destroy

/-- `get` and `destroy`; creation succeeds. `src/la/cublas.hpp:15-30`, `src/la/cusolver.hpp:31-53` -/
def handleStep (s : HandleState) : HandleOp → HandleState
  | .get => match s.handle with
    | some _ => s
    | none => { s with handle := some s.created, live := s.created :: s.live, created := s.created + 1 }
  | .destroy =>
    let s' := match s.handle with
      | none => { s with destroyed := s.destroyed ++ [none] }
      | some _ => s
    { s' with handle := none }

def handleRun (s : HandleState) : List HandleOp → HandleState
  | [] => s
  | o :: os => handleRun (handleStep s o) os

end Nlcg
