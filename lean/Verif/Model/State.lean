import Verif.Model.Basic

/-! # Programs that change a state -/

namespace Nlcg

/-- a program that may fail and always leaves a state behind -/
def SM (σ β : Type) := σ → Res β × σ

namespace SM
variable {σ β γ : Type}

protected def bind (m : SM σ β) (f : β → SM σ γ) : SM σ γ := fun s =>
  match m s with
  | (.ok b, s') => f b s'
  | (.throw e, s') => (.throw e, s')
  | (.ub, s') => (.ub, s')
  | (.abort, s') => (.abort, s')

instance : Monad (SM σ) where
  pure b := fun s => (.ok b, s)
  bind := SM.bind

/-- a computation that does not touch the state -/
def lift (r : Res β) : SM σ β := fun s => (r, s)
def get : SM σ σ := fun s => (.ok s, s)
def modify (f : σ → σ) : SM σ Unit := fun s => (.ok (), f s)

end SM

section
variable {σ β γ : Type}

theorem SM.bind_apply (m : SM σ β) (f : β → SM σ γ) (s : σ) : (m >>= f) s =
    match m s with
    | (.ok b, s') => f b s'
    | (.throw e, s') => (.throw e, s')
    | (.ub, s') => (.ub, s')
    | (.abort, s') => (.abort, s') := rfl

@[simp] theorem SM.pure_apply (x : β) (s : σ) : (pure x : SM σ β) s = (.ok x, s) := rfl
@[simp] theorem SM.lift_apply (r : Res β) (s : σ) : (SM.lift r : SM σ β) s = (r, s) := rfl
@[simp] theorem SM.get_bind (f : σ → SM σ γ) (s : σ) : ((SM.get : SM σ σ) >>= f) s = f s s := rfl
@[simp] theorem SM.modify_apply (f : σ → σ) (s : σ) : SM.modify f s = (.ok (), f s) := rfl

theorem SM.lift_bind (r : Res β) (f : β → SM σ γ) (s : σ) : (SM.lift r >>= f) s =
    match r with
    | .ok b => f b s
    | .throw e => (.throw e, s)
    | .ub => (.ub, s)
    | .abort => (.abort, s) := by cases r <;> rfl

end

end Nlcg
