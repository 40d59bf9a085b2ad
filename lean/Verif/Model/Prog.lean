import Verif.Model.Basic

/-!
# Programs with state, exceptions and possible non-termination

`FM σ β` is a C++ function body that reads and writes a state `σ`, returns a value of type `β`,
throws, or is undefined. `none` means that some loop inside has used up its fuel. The state after
an exception is kept: effects made before a `throw` stay visible to the handler.
-/

namespace Nlcg

def FM (σ β : Type) := σ → Option (Res β × σ)

namespace FM
variable {σ β γ : Type}

def pure (b : β) : FM σ β := fun s => some (.ok b, s)

def bind (m : FM σ β) (f : β → FM σ γ) : FM σ γ := fun s =>
  match m s with
  | none => none
  | some (.ok b, s') => f b s'
  | some (.throw e, s') => some (.throw e, s')
  | some (.ub, s') => some (.ub, s')
  | some (.abort, s') => some (.abort, s')

instance : Monad (FM σ) where
  pure := FM.pure
  bind := FM.bind

def throw (e : Exc) : FM σ β := fun s => some (.throw e, s)
/-- the fuel of a loop is used up -/
def stuck : FM σ β := fun _ => none
def ub : FM σ β := fun s => some (.ub, s)
def get : FM σ σ := fun s => some (.ok s, s)
def modify (f : σ → σ) : FM σ Unit := fun s => some (.ok (), f s)

/-- `try { m } catch (..)`: a thrown exception becomes a value, undefined behaviour does not. -/
def attempt (m : FM σ β) : FM σ (Except Exc β) := fun s =>
  match m s with
  | none => none
  | some (.ok b, s') => some (.ok (.ok b), s')
  | some (.throw e, s') => some (.ok (.error e), s')
  | some (.ub, s') => some (.ub, s')
  | some (.abort, s') => some (.abort, s')

@[simp] theorem pure_apply (b : β) (s : σ) : (Pure.pure b : FM σ β) s = some (.ok b, s) := rfl
@[simp] theorem throw_apply (e : Exc) (s : σ) : (throw e : FM σ β) s = some (.throw e, s) := rfl
@[simp] theorem stuck_apply (s : σ) : (stuck : FM σ β) s = none := rfl
@[simp] theorem ub_apply (s : σ) : (ub : FM σ β) s = some (.ub, s) := rfl
@[simp] theorem get_apply (s : σ) : (get : FM σ σ) s = some (.ok s, s) := rfl
@[simp] theorem modify_apply (f : σ → σ) (s : σ) : (modify f) s = some (.ok (), f s) := rfl
theorem bind_apply (m : FM σ β) (f : β → FM σ γ) (s : σ) : (m >>= f) s =
    match m s with
    | none => none
    | some (.ok b, s') => f b s'
    | some (.throw e, s') => some (.throw e, s')
    | some (.ub, s') => some (.ub, s')
    | some (.abort, s') => some (.abort, s') := rfl

theorem bind_ok {m : FM σ β} {s s' : σ} {b : β} (h : m s = some (.ok b, s')) (f : β → FM σ γ) :
    (m >>= f) s = f b s' := by rw [bind_apply, h]

/-- inversion of sequencing -/
theorem bind_inv {m : FM σ β} {f : β → FM σ γ} {s s' : σ} {o : Res γ}
    (h : (m >>= f) s = some (o, s')) :
    (∃ b s1, m s = some (.ok b, s1) ∧ f b s1 = some (o, s')) ∨
    (∃ e, m s = some (.throw e, s') ∧ o = .throw e) ∨
    (m s = some (.ub, s') ∧ o = .ub) ∨ (m s = some (.abort, s') ∧ o = .abort) := by
  rw [bind_apply] at h
  cases hm : m s with
  | none => rw [hm] at h; simp at h
  | some q =>
    obtain ⟨r, s1⟩ := q
    rw [hm] at h
    cases r with
    | ok b => exact Or.inl ⟨b, s1, rfl, h⟩
    | throw e =>
      simp only [Option.some.injEq, Prod.mk.injEq] at h
      obtain ⟨rfl, rfl⟩ := h
      exact Or.inr (Or.inl ⟨e, rfl, rfl⟩)
    | ub =>
      simp only [Option.some.injEq, Prod.mk.injEq] at h
      obtain ⟨rfl, rfl⟩ := h
      exact Or.inr (Or.inr (Or.inl ⟨rfl, rfl⟩))
    | abort =>
      simp only [Option.some.injEq, Prod.mk.injEq] at h
      obtain ⟨rfl, rfl⟩ := h
      exact Or.inr (Or.inr (Or.inr ⟨rfl, rfl⟩))

end FM
end Nlcg
