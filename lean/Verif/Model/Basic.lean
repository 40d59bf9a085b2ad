/-!
# Outcomes of C++ code and the `while` loop

`Res` is the outcome of a piece of C++ code: a value, a thrown exception, undefined
behaviour, or an `abort()` (failed `assert`, `MPI_Abort`).
-/

namespace Nlcg

/-- The exceptions thrown by the modelled code.
`src/exceptions.hpp:7-28` (`SlopeError`, `StepError`, `DescentError`),
`src/dft/newton_minimization_smearing.hpp:11-13` (`failed_to_converge`), and the
standard ones (`std::runtime_error`, `std::out_of_range` from `std::map::at`).
Messages are dropped. -/
inductive Exc where
  | runtimeError
  | outOfRange
  | failedToConverge
  | slopeError
  | stepError
  | descentError
  deriving DecidableEq, Repr

/-- Outcome of a piece of C++ code. -/
inductive Res (β : Type) where
  | ok (b : β)
  | throw (e : Exc)
  | ub
  | abort
  deriving DecidableEq, Repr

namespace Res

def bind {β γ : Type} : Res β → (β → Res γ) → Res γ
  | ok b, f => f b
  | throw e, _ => throw e
  | ub, _ => ub
  | abort, _ => abort

instance : Monad Res where
  pure := Res.ok
  bind := Res.bind

@[simp] theorem pure_eq {β : Type} (b : β) : (pure b : Res β) = ok b := rfl
@[simp] theorem bind_ok {β γ : Type} (b : β) (f : β → Res γ) : (ok b >>= f) = f b := rfl
@[simp] theorem bind_throw {β γ : Type} (e : Exc) (f : β → Res γ) :
    ((throw e : Res β) >>= f) = throw e := rfl
@[simp] theorem bind_ub {β γ : Type} (f : β → Res γ) : ((ub : Res β) >>= f) = ub := rfl
@[simp] theorem bind_abort {β γ : Type} (f : β → Res γ) : ((abort : Res β) >>= f) = abort := rfl

theorem bind_eq_ok {β γ : Type} {r : Res β} {f : β → Res γ} {c : γ} :
    (r >>= f) = ok c ↔ ∃ b, r = ok b ∧ f b = ok c := by
  cases r <;> simp

instance : LawfulMonad Res := LawfulMonad.mk'
  (id_map := by intro α x; cases x <;> rfl)
  (pure_bind := by intros; rfl)
  (bind_assoc := by intro α β γ x f g; cases x <;> rfl)

end Res

/-- A C++ `while (guard) body` with a fuel argument: `none` means the fuel ran out
before the guard became false. Nothing is claimed from `none`; termination of a loop
is the theorem that for enough fuel the result is not `none`. -/
def whileFuel {σ : Type} (guard : σ → Bool) (body : σ → σ) : Nat → σ → Option σ
  | 0, s => if guard s then none else some s
  | n + 1, s => if guard s then whileFuel guard body n (body s) else some s

end Nlcg
