import Verif.Model.Driver

/-! Partial-correctness rules for programs. -/

namespace Nlcg
variable {σ β γ : Type}

/-- `wp m Q s`: if `m` started in `s` ends, outcome and final state satisfy `Q`. -/
def FM.wp (m : FM σ β) (Q : Res β → σ → Prop) (s : σ) : Prop :=
  ∀ o s', m s = some (o, s') → Q o s'

namespace FM

/-- postcondition for the first part of a sequence -/
def after (f : β → FM σ γ) (Q : Res γ → σ → Prop) : Res β → σ → Prop
  | .ok b, s => wp (f b) Q s
  | .throw e, s => Q (.throw e) s
  | .ub, s => Q .ub s
  | .abort, s => Q .abort s

@[simp] theorem after_ok (f : β → FM σ γ) (Q : Res γ → σ → Prop) (b : β) (s : σ) :
    after f Q (.ok b) s = wp (f b) Q s := rfl
@[simp] theorem after_throw (f : β → FM σ γ) (Q : Res γ → σ → Prop) (e : Exc) (s : σ) :
    after f Q (.throw e) s = Q (.throw e) s := rfl
@[simp] theorem after_ub (f : β → FM σ γ) (Q : Res γ → σ → Prop) (s : σ) :
    after f Q .ub s = Q .ub s := rfl
@[simp] theorem after_abort (f : β → FM σ γ) (Q : Res γ → σ → Prop) (s : σ) :
    after f Q .abort s = Q .abort s := rfl

theorem wp_pure (b : β) (Q : Res β → σ → Prop) (s : σ) :
    wp (Pure.pure b : FM σ β) Q s ↔ Q (.ok b) s := by
  simp [wp]
theorem wp_throw (e : Exc) (Q : Res β → σ → Prop) (s : σ) :
    wp (throw e : FM σ β) Q s ↔ Q (.throw e) s := by
  simp [wp]
theorem wp_ub (Q : Res β → σ → Prop) (s : σ) : wp (ub : FM σ β) Q s ↔ Q .ub s := by
  simp [wp]
theorem wp_get (Q : Res σ → σ → Prop) (s : σ) : wp (get : FM σ σ) Q s ↔ Q (.ok s) s := by
  simp [wp]
theorem wp_modify (f : σ → σ) (Q : Res Unit → σ → Prop) (s : σ) :
    wp (modify f) Q s ↔ Q (.ok ()) (f s) := by
  simp [wp]
theorem wp_bind (m : FM σ β) (f : β → FM σ γ) (Q : Res γ → σ → Prop) (s : σ) :
    wp (m >>= f) Q s ↔ wp m (after f Q) s := by
  constructor
  · intro h o s1 hm
    cases o with
    | ok b => intro o' s' hf; exact h o' s' (by rw [bind_apply, hm]; exact hf)
    | throw e => exact h _ _ (by rw [bind_apply, hm])
    | ub => exact h _ _ (by rw [bind_apply, hm])
    | abort => exact h _ _ (by rw [bind_apply, hm])
  · intro h o s' hb
    rcases bind_inv hb with ⟨b, s1, h1, h2⟩ | ⟨e, h1, rfl⟩ | ⟨h1, rfl⟩ | ⟨h1, rfl⟩
    · exact h _ _ h1 _ _ h2
    · exact h _ _ h1
    · exact h _ _ h1
    · exact h _ _ h1
theorem wp_attempt (m : FM σ β) (Q : Res (Except Exc β) → σ → Prop) (s : σ) :
    wp (attempt m) Q s ↔ wp m (fun o s' => match o with
      | .ok b => Q (.ok (.ok b)) s'
      | .throw e => Q (.ok (.error e)) s'
      | .ub => Q .ub s'
      | .abort => Q .abort s') s := by
  constructor
  · intro h o s' hm
    cases o <;> exact h _ _ (by rw [attempt, hm])
  · intro h o s' ha
    rw [attempt] at ha
    cases hm : m s with
    | none => rw [hm] at ha; simp at ha
    | some q =>
      obtain ⟨r, s1⟩ := q
      rw [hm] at ha
      have := h r s1 hm
      cases r <;> simp only [Option.some.injEq, Prod.mk.injEq] at ha <;>
        (obtain ⟨rfl, rfl⟩ := ha; exact this)

theorem wp_mono {m : FM σ β} {P Q : Res β → σ → Prop} {s : σ} (h : wp m P s)
    (hpq : ∀ o s', P o s' → Q o s') : wp m Q s := fun o s' hm => hpq _ _ (h o s' hm)

theorem wp_and {m : FM σ β} {P Q : Res β → σ → Prop} {s : σ} (h1 : wp m P s) (h2 : wp m Q s) :
    wp m (fun o s' => P o s' ∧ Q o s') s := fun o s' hm => ⟨h1 o s' hm, h2 o s' hm⟩

end FM

open Arith
variable {α ρ δ : Type} [Arith α]

theorem wp_liftOp (f : σ → Res β × σ) (Q : Res β → NState α σ → Prop) (w : NState α σ) :
    FM.wp (liftOp f) Q w ↔ Q (f w.s).1 { w with s := (f w.s).2 } := by
  simp [FM.wp, liftOp]

theorem wp_emit (e : Ev α) (Q : Res Unit → NState α σ → Prop) (w : NState α σ) :
    FM.wp (emit e) Q w ↔ Q (.ok ()) { w with trace := w.trace ++ [e] } := by
  rw [emit, FM.wp_modify]

theorem wp_setInfo (ops : Ops α σ ρ δ) (i : Nat) (slope : α) (Q : Res Unit → NState α σ → Prop)
    (w : NState α σ) :
    FM.wp (setInfo ops i slope) Q w ↔ Q (.ok ()) { w with
      info := printInfo (ops.getF w.s) (ops.getS w.s) slope i
      trace := w.trace ++ [.report i (ops.getF w.s) (ops.getS w.s) slope] } := by
  rw [setInfo, FM.wp_modify]

/-- the line search inside the driver -/
theorem wp_runSearch (ops : Ops α σ ρ δ) (prm : NlcgParams α) (fuel i : Nat) (v : Vars α ρ δ)
    (Q : Res ρ → NState α σ → Prop) (w : NState α σ)
    (h : ∀ o st, lineSearch { G := ops.geo v.pt v.dir, getF := ops.getF }
      { tTrial := lit (2 / 10), tau := prm.tau } fuel v.slope
      { s := w.s, forceRestart := w.force, evals := [] } = some (o, st) →
      match o with
      | .ok r => Q (.ok r) { w with s := st.s, force := st.forceRestart,
                                    trace := w.trace ++ [.search i w.force, .found i st.forceRestart] }
      | .throw e => Q (.throw e) { w with s := st.s, force := st.forceRestart,
                                          trace := w.trace ++ [.search i w.force, .failed i e] }
      | .ub => Q .ub { w with s := st.s, force := st.forceRestart }
      | .abort => Q .abort { w with s := st.s, force := st.forceRestart }) :
    FM.wp (runSearch ops prm fuel i v) Q w := by
  intro o w' hr
  rw [runSearch] at hr
  split at hr
  · simp at hr
  all_goals
    next heq =>
      simp only [Option.some.injEq, Prod.mk.injEq] at hr
      obtain ⟨rfl, rfl⟩ := hr
      exact h _ _ heq

end Nlcg
