import Verif.Model.LinAlg

/-!
# The check of the overlap operator, and iteration over the k-points of an operator

`src/nlcglib.cpp:143-197` and `src/operator.hpp:10-54`.
-/

namespace Nlcg
open Matrix

variable {K : ℕ} {n b : Fin K → ℕ}

/-- `l2norm(x)` on one rank, over the k-points of this rank (`C39`), `src/la/lapack.hpp:339-349` -/
noncomputable def l2normK (x : (k : Fin K) → Mat (n k) (b k)) : ℝ := √(∑ k, innerhTr (x k) (x k)).re

/-- what `check_overlap` prints: three norms, the trace, the number after `** check` -/
structure OverlapReport where
  normX : ℝ
  normSX : ℝ
  normSinvX : ℝ
  trXSX : ℝ
  error : ℝ

/-- `check_overlap(e, Sb, Sib)`, `src/nlcglib.cpp:143-191`: the operators of the host are functions on
matrices; `Xref2` (lines 173-181) is deferred and never evaluated. Text output is a record. -/
noncomputable def checkOverlap (S Sinv : (k : Fin K) → Mat (n k) (b k) → Mat (n k) (b k))
    (X : (k : Fin K) → Mat (n k) (b k)) : OverlapReport :=
  let SX := fun k => S k (X k)
  let SinvX := fun k => Sinv k (X k)
  let Xref := fun k => Sinv k (S k (X k))
  let error := fun k => addM (X k) (Xref k) (-1) 1
  { normX := l2normK X
    normSX := l2normK SX
    normSinvX := l2normK SinvX
    trXSX := (∑ k, innerhTr (X k) (SX k)).re
    error := l2normK error }

/-- an `op_iterator`: position and the pair it refers to, `src/operator.hpp:46-50` -/
structure OpIter (κ α : Type) where
  pos : ℕ
  pair : Option (κ × α)

variable {κ α : Type}

/-- `keys[i]`: reading outside a vector is undefined -/
def keyAt (keys : List κ) (i : ℕ) : Res κ :=
  match keys[i]? with
  | some k => .ok k
  | none => .ub

/-- `op_iterator(keys, obj, false)`, `src/operator.hpp:18-27` -/
def OpIter.first (keys : List κ) (obj : κ → α) : Res (OpIter κ α) := do
  let k ← keyAt keys 0
  pure { pos := 0, pair := some (k, obj k) }

/-- `op_iterator(keys, obj, true)`, `src/operator.hpp:22-23` -/
def OpIter.last (keys : List κ) : OpIter κ α := { pos := keys.length, pair := none }

/-- `operator++`, `src/operator.hpp:29-34` -/
def OpIter.next (keys : List κ) (obj : κ → α) (it : OpIter κ α) : Res (OpIter κ α) := do
  let k ← keyAt keys (it.pos + 1)
  pure { pos := it.pos + 1, pair := some (k, obj k) }

/-- `operator*`, `src/operator.hpp:36-41`: an empty `unique_ptr` must not be dereferenced -/
def OpIter.deref (it : OpIter κ α) : Res (κ × α) :=
  match it.pair with
  | some p => .ok p
  | none => .ub

/-- `for (; it != op.end(); ++it) visit(*it)` for at most `fuel` rounds: what has been visited -/
def OpIter.loop (keys : List κ) (obj : κ → α) : ℕ → OpIter κ α → List (κ × α) → Res (Option (List (κ × α)))
  | 0, _, _ => .ok none
  | fuel + 1, it, seen =>
    if it.pos = (OpIter.last (α := α) keys).pos then .ok (some seen)
    else do
      let p ← it.deref
      let it' ← it.next keys obj
      OpIter.loop keys obj fuel it' (seen ++ [p])

/-- `for (auto& elem : op)`: begin, loop -/
def traverseOp (keys : List κ) (obj : κ → α) (fuel : ℕ) : Res (Option (List (κ × α))) := do
  let it ← OpIter.first keys obj
  OpIter.loop keys obj fuel it []

/-- `m` increments after `begin()` -/
def OpIter.advance (keys : List κ) (obj : κ → α) : ℕ → Res (OpIter κ α)
  | 0 => OpIter.first keys obj
  | m + 1 => do
    let it ← OpIter.advance keys obj m
    it.next keys obj

end Nlcg
