import Verif.Model.LineSearch

/-! Helper lemmas about the line search. -/

namespace Nlcg
open Arith
variable {α σ ρ : Type} [Arith α]

/-- The result `r` comes from the most recent evaluation. -/
def LastEval (env : LSEnv α σ ρ) (r : ρ) (st : LSState α σ) : Prop :=
  ∃ t s0 rest, env.G t s0 = (.ok r, st.s) ∧ st.evals = t :: rest

theorem evalG_ok {env : LSEnv α σ ρ} {t : α} {st st' : LSState α σ} {r : Res ρ}
    (h : evalG env t st = some (r, st')) :
    env.G t st.s = (r, st'.s) ∧ st'.evals = t :: st.evals ∧ st'.forceRestart = st.forceRestart := by
  simp only [evalG, Option.some.injEq, Prod.mk.injEq] at h
  obtain ⟨h1, h2⟩ := h
  subst h2
  exact ⟨by rw [← h1], rfl, rfl⟩

@[simp] theorem readF_apply (env : LSEnv α σ ρ) (st : LSState α σ) :
    readF env st = some (.ok (env.getF st.s), st) := rfl

@[simp] theorem setRestart_apply (b : Bool) (st : LSState α σ) :
    setRestart b st = some (.ok (), { st with forceRestart := b }) := rfl

theorem evalG_ne_none (env : LSEnv α σ ρ) (t : α) (st : LSState α σ) : evalG env t st ≠ none := by
  simp [evalG]

/-- inversion of a bind with an evaluation -/
theorem evalG_bind {γ : Type} {env : LSEnv α σ ρ} {t : α} {f : ρ → FM (LSState α σ) γ}
    {st : LSState α σ} {o : Option (Res γ × LSState α σ)} (h : (evalG env t >>= f) st = o) :
    (∃ r st1, evalG env t st = some (.ok r, st1) ∧ f r st1 = o) ∨
    (∃ st1 e, evalG env t st = some (.throw e, st1) ∧ o = some (.throw e, st1)) ∨
    (∃ st1, evalG env t st = some (.ub, st1) ∧ o = some (.ub, st1)) ∨
    (∃ st1, evalG env t st = some (.abort, st1) ∧ o = some (.abort, st1)) := by
  rw [FM.bind_apply] at h
  cases hr : evalG env t st with
  | none => exact absurd hr (evalG_ne_none _ _ _)
  | some p =>
    obtain ⟨r, st1⟩ := p
    rw [hr] at h
    cases r with
    | ok b => exact Or.inl ⟨b, st1, rfl, h⟩
    | throw e => exact Or.inr (Or.inl ⟨st1, e, rfl, h.symm⟩)
    | ub => exact Or.inr (Or.inr (Or.inl ⟨st1, rfl, h.symm⟩))
    | abort => exact Or.inr (Or.inr (Or.inr ⟨st1, rfl, h.symm⟩))

theorem evalG_bind_ok {γ : Type} {env : LSEnv α σ ρ} {t : α} {r : ρ} {s' : σ} {st : LSState α σ}
    (h : env.G t st.s = (.ok r, s')) (f : ρ → FM (LSState α σ) γ) :
    (evalG env t >>= f) st = f r { st with s := s', evals := t :: st.evals } := by
  rw [FM.bind_apply]
  simp only [evalG, h]

theorem readF_bind {γ : Type} {env : LSEnv α σ ρ} (f : α → FM (LSState α σ) γ) (st : LSState α σ) :
    (readF env >>= f) st = f (env.getF st.s) st := rfl

theorem setRestart_bind {γ : Type} (b : Bool) (f : Unit → FM (LSState α σ) γ) (st : LSState α σ) :
    (setRestart b >>= f) st = f () { st with forceRestart := b } := rfl

theorem get_bind {γ σ : Type} (f : σ → FM σ γ) (st : σ) :
    ((FM.get : FM σ σ) >>= f) st = f st st := rfl

/-- `o` is a failure raised by an evaluation that left the state `st`. -/
def FailedEval {β : Type} (env : LSEnv α σ ρ) (o : Res β) (st : LSState α σ) : Prop :=
  ∃ t s0, (∃ e, o = .throw e ∧ env.G t s0 = (.throw e, st.s)) ∨
    (o = .ub ∧ env.G t s0 = (.ub, st.s)) ∨ (o = .abort ∧ env.G t s0 = (.abort, st.s))

/-- The steps tried by `k` rounds of backtracking. -/
def geomSteps (t tau : α) : Nat → List α
  | 0 => []
  | k + 1 => t :: geomSteps (t *ᶠ tau) tau k

theorem btLoop_spec (env : LSEnv α σ ρ) (tau F0 : α) :
    ∀ (n : Nat) (t : α) (st st' : LSState α σ) (o : Res (Option ρ)),
      btLoop env tau F0 n t st = some (o, st') →
      (∃ k, st'.evals = (geomSteps t tau k).reverse ++ st.evals ∧
        (∀ x ∈ geomSteps t tau k, (lit (1 / 10 ^ 8) <ᶠ x) = true)) ∧
      (∀ r, o = .ok (some r) → LastEval env r st' ∧ (env.getF st'.s <ᶠ F0) = true ∧
        st'.forceRestart = false) ∧
      ((∀ r, o ≠ .ok (some r)) → st'.forceRestart = st.forceRestart) ∧
      ((∀ w, o ≠ .ok w) → FailedEval env o st') := by
  intro n
  induction n with
  | zero =>
    intro t st st' o h
    rw [btLoop] at h
    by_cases hg : (lit (1 / 10 ^ 8) <ᶠ t) = true
    · rw [if_pos hg] at h; simp at h
    · rw [if_neg hg] at h
      simp only [FM.pure_apply, Option.some.injEq, Prod.mk.injEq] at h
      obtain ⟨rfl, rfl⟩ := h
      exact ⟨⟨0, by simp [geomSteps], by simp [geomSteps]⟩, by simp, fun _ => rfl, fun hc => absurd rfl (hc _)⟩
  | succ n ih =>
    intro t st st' o h
    rw [btLoop] at h
    split at h
    case isFalse hg =>
      simp only [FM.pure_apply, Option.some.injEq, Prod.mk.injEq] at h
      obtain ⟨rfl, rfl⟩ := h
      exact ⟨⟨0, by simp [geomSteps], by simp [geomSteps]⟩, by simp, fun _ => rfl, fun hc => absurd rfl (hc _)⟩
    case isTrue hg =>
      rcases evalG_bind h with ⟨r, st1, he, h2⟩ | ⟨st1, e, he, h2⟩ | ⟨st1, he, h2⟩ | ⟨st1, he, h2⟩
      · obtain ⟨hG, hev, hfr⟩ := evalG_ok he
        rw [readF_bind] at h2
        split at h2
        case isTrue hlt =>
          rw [setRestart_bind] at h2
          simp only [FM.pure_apply, Option.some.injEq, Prod.mk.injEq] at h2
          obtain ⟨rfl, rfl⟩ := h2
          refine ⟨⟨1, by simp [geomSteps, hev], by simp only [geomSteps, List.mem_singleton]; rintro x rfl; exact hg⟩, ?_, ?_⟩
          · intro r' hr'
            cases hr'
            exact ⟨⟨t, st.s, st.evals, hG, hev⟩, hlt, rfl⟩
          · exact ⟨fun hc => absurd rfl (hc r), fun hc => absurd rfl (hc _)⟩
        case isFalse hlt =>
          obtain ⟨⟨k, hk, hk2⟩, h3, h4, h5⟩ := ih _ _ _ _ h2
          refine ⟨⟨k + 1, by simp [geomSteps, hk, hev], ?_⟩, h3, fun hc => (h4 hc).trans hfr, h5⟩
          intro x hx
          simp only [geomSteps, List.mem_cons] at hx
          rcases hx with rfl | hx
          · exact hg
          · exact hk2 x hx
      all_goals
        obtain ⟨hG, hev, hfr⟩ := evalG_ok he
        simp only [Option.some.injEq, Prod.mk.injEq] at h2
        obtain ⟨rfl, rfl⟩ := h2
        exact ⟨⟨1, by simp [geomSteps, hev], by simp only [geomSteps, List.mem_singleton]; rintro x rfl; exact hg⟩,
          by simp, fun _ => hfr, fun _ => ⟨t, st.s, by simp [hG]⟩⟩

/-- inversion of `btSearch` -/
theorem btSearch_spec (env : LSEnv α σ ρ) (p : LSParams α) (fuel : Nat) (F0 : α)
    (st st' : LSState α σ) (o : Res ρ) (h : btSearch env p fuel F0 st = some (o, st')) :
    ((lit 1 ≤ᶠ p.tau) = true ∧ o = .throw .runtimeError ∧ st' = st) ∨
    ((lit 1 ≤ᶠ p.tau) = false ∧ ∃ k stm,
      stm.evals = (geomSteps p.tTrial p.tau k).reverse ++ st.evals ∧
      (∀ x ∈ geomSteps p.tTrial p.tau k, (lit (1 / 10 ^ 8) <ᶠ x) = true) ∧
      ((∃ r, o = .ok r ∧ st' = stm ∧ LastEval env r stm ∧ (env.getF stm.s <ᶠ F0) = true ∧
          stm.forceRestart = false ∧
          btLoop env p.tau F0 fuel p.tTrial st = some (.ok (some r), stm)) ∨
       (btLoop env p.tau F0 fuel p.tTrial st = some (.ok none, stm) ∧
          stm.forceRestart = st.forceRestart ∧
          ((st.forceRestart = true ∧ o = .throw .descentError ∧ st' = stm) ∨
           (st.forceRestart = false ∧
              evalG env (lit 0) { stm with forceRestart := true } = some (o, st')))) ∨
       (st' = stm ∧ stm.forceRestart = st.forceRestart ∧ (∀ r, o ≠ .ok r) ∧ FailedEval env o st'))) := by
  rw [btSearch] at h
  split at h
  case isTrue hc =>
    simp only [FM.throw_apply, Option.some.injEq, Prod.mk.injEq] at h
    exact Or.inl ⟨hc, h.1.symm, h.2.symm⟩
  case isFalse hc =>
    refine Or.inr ⟨by simpa using hc, ?_⟩
    rw [FM.bind_apply] at h
    cases hb : btLoop env p.tau F0 fuel p.tTrial st with
    | none => rw [hb] at h; simp at h
    | some q =>
      obtain ⟨b, stm⟩ := q
      rw [hb] at h
      obtain ⟨⟨k, hk1, hk2⟩, h3, h4, h5⟩ := btLoop_spec env p.tau F0 fuel p.tTrial st stm b hb
      refine ⟨k, stm, hk1, hk2, ?_⟩
      cases b with
      | ok w =>
        cases w with
        | some r =>
          simp only [FM.pure_apply, Option.some.injEq, Prod.mk.injEq] at h
          obtain ⟨rfl, rfl⟩ := h
          obtain ⟨a1, a2, a3⟩ := h3 r rfl
          exact Or.inl ⟨r, rfl, rfl, a1, a2, a3, rfl⟩
        | none =>
          refine Or.inr (Or.inl ⟨rfl, h4 (by simp), ?_⟩)
          have hfr := h4 (by simp)
          simp only [get_bind] at h
          rw [hfr] at h
          split at h
          case isTrue hf =>
            simp only [FM.throw_apply, Option.some.injEq, Prod.mk.injEq] at h
            exact Or.inl ⟨hf, h.1.symm, h.2.symm⟩
          case isFalse hf =>
            rw [setRestart_bind] at h
            exact Or.inr ⟨by simpa using hf, h⟩
      | _ =>
        simp only [Option.some.injEq, Prod.mk.injEq] at h
        obtain ⟨rfl, rfl⟩ := h
        refine Or.inr (Or.inr ⟨rfl, h4 (by simp), by simp, ?_⟩)
        obtain ⟨t, s0, h6⟩ := h5 (by simp)
        exact ⟨t, s0, by simpa using h6⟩

theorem qlineLoop_spec (env : LSEnv α σ ρ) (F0 slope : α) :
    ∀ (n : Nat) (t : α) (st st' : LSState α σ) (o : Res α),
      qlineLoop env F0 slope n t st = some (o, st') →
      st'.forceRestart = st.forceRestart ∧
      (∃ k, st'.evals = (geomSteps t (lit 5) (k + 1)).reverse ++ st.evals ∧ k < n) ∧
      ((∀ w, o ≠ .ok w) → FailedEval env o st') := by
  intro n
  induction n with
  | zero => intro t st st' o h; simp [qlineLoop] at h
  | succ n ih =>
    intro t st st' o h
    rw [qlineLoop] at h
    rcases evalG_bind h with ⟨r, st1, he, h2⟩ | ⟨st1, e, he, h2⟩ | ⟨st1, he, h2⟩ | ⟨st1, he, h2⟩
    · obtain ⟨hG, hev, hfr⟩ := evalG_ok he
      rw [readF_bind] at h2
      split at h2
      case isTrue hlt =>
        obtain ⟨h3, ⟨k, hk, hkn⟩, h5⟩ := ih _ _ _ _ h2
        refine ⟨h3.trans hfr, ⟨k + 1, ?_, by omega⟩, h5⟩
        rw [hk, hev]
        simp [geomSteps]
      case isFalse hlt =>
        simp only [FM.pure_apply, Option.some.injEq, Prod.mk.injEq] at h2
        obtain ⟨rfl, rfl⟩ := h2
        exact ⟨hfr, ⟨0, by simp [geomSteps, hev], by omega⟩, fun hc => absurd rfl (hc _)⟩
    all_goals
      obtain ⟨hG, hev, hfr⟩ := evalG_ok he
      simp only [Option.some.injEq, Prod.mk.injEq] at h2
      obtain ⟨rfl, rfl⟩ := h2
      exact ⟨hfr, ⟨0, by simp [geomSteps, hev], by omega⟩, fun _ => ⟨t, st.s, by simp [hG]⟩⟩

theorem qline_spec (env : LSEnv α σ ρ) (p : LSParams α) (fuel : Nat) (slope : α)
    (st st' : LSState α σ) (o : Res ρ) (h : qline env p fuel slope st = some (o, st')) :
    (∃ new, st'.evals = new ++ st.evals) ∧
    ((∃ r, o = .ok r ∧ LastEval env r st' ∧ (env.getF st.s <ᶠ env.getF st'.s) = false ∧
        st'.forceRestart = false) ∨
     (o = .throw .stepError ∧ st'.forceRestart = st.forceRestart ∧
        (env.getF st.s <ᶠ env.getF st'.s) = true ∧ ∃ r, LastEval env r st') ∨
     ((∀ r, o ≠ .ok r) ∧ st'.forceRestart = st.forceRestart ∧ FailedEval env o st')) := by
  rw [qline, readF_bind, FM.bind_apply] at h
  cases hb : qlineLoop env (env.getF st.s) slope fuel p.tTrial st with
  | none => rw [hb] at h; simp at h
  | some q =>
    obtain ⟨b, stm⟩ := q
    rw [hb] at h
    obtain ⟨h3, ⟨k, h4, -⟩, h5⟩ := qlineLoop_spec env _ slope fuel p.tTrial st stm b hb
    cases b with
    | ok tm =>
      rcases evalG_bind h with ⟨r, st1, he, h2⟩ | ⟨st1, e, he, h2⟩ | ⟨st1, he, h2⟩ | ⟨st1, he, h2⟩
      · obtain ⟨hG, hev, hfr⟩ := evalG_ok he
        rw [readF_bind] at h2
        split at h2
        case isTrue hlt =>
          simp only [FM.throw_apply, Option.some.injEq, Prod.mk.injEq] at h2
          obtain ⟨rfl, rfl⟩ := h2
          refine ⟨⟨_, by rw [hev, h4, ← List.cons_append]⟩, Or.inr (Or.inl ⟨rfl, hfr.trans h3, hlt, r, ?_⟩)⟩
          exact ⟨tm, stm.s, _, hG, hev⟩
        case isFalse hlt =>
          rw [setRestart_bind] at h2
          simp only [FM.pure_apply, Option.some.injEq, Prod.mk.injEq] at h2
          obtain ⟨rfl, rfl⟩ := h2
          refine ⟨⟨_, by rw [hev, h4, ← List.cons_append]⟩, Or.inl ⟨r, rfl, ⟨tm, stm.s, _, hG, hev⟩, by simpa using hlt, rfl⟩⟩
      all_goals
        obtain ⟨hG, hev, hfr⟩ := evalG_ok he
        simp only [Option.some.injEq, Prod.mk.injEq] at h2
        obtain ⟨rfl, rfl⟩ := h2
        exact ⟨⟨_, by rw [hev, h4, ← List.cons_append]⟩, Or.inr (Or.inr ⟨by simp, hfr.trans h3, tm, stm.s, by simp [hG]⟩)⟩
    | _ =>
      simp only [Option.some.injEq, Prod.mk.injEq] at h
      obtain ⟨rfl, rfl⟩ := h
      refine ⟨⟨_, h4⟩, Or.inr (Or.inr ⟨by simp, h3, ?_⟩)⟩
      obtain ⟨t, s0, h6⟩ := h5 (by simp)
      exact ⟨t, s0, by simpa using h6⟩

/-- inversion of `lineSearch` -/
theorem lineSearch_inv (env : LSEnv α σ ρ) (p : LSParams α) (fuel : Nat) (slope : α)
    (st st' : LSState α σ) (o : Res ρ) (h : lineSearch env p fuel slope st = some (o, st')) :
    ((lit 0 <ᶠ slope) = true ∧ o = .throw .slopeError ∧ st' = st) ∨
    ((lit 0 <ᶠ slope) = false ∧
      ((qline env p fuel slope st = some (o, st') ∧ o ≠ .throw .stepError) ∨
       (∃ stm, qline env p fuel slope st = some (.throw .stepError, stm) ∧
          btSearch env p fuel (env.getF st.s) stm = some (o, st')))) := by
  rw [lineSearch] at h
  split at h
  case isTrue hc =>
    simp only [FM.throw_apply, Option.some.injEq, Prod.mk.injEq] at h
    exact Or.inl ⟨hc, h.1.symm, h.2.symm⟩
  case isFalse hc =>
    refine Or.inr ⟨by simpa using hc, ?_⟩
    rw [readF_bind, FM.bind_apply, FM.attempt] at h
    cases hq : qline env p fuel slope st with
    | none => rw [hq] at h; simp at h
    | some q =>
      obtain ⟨b, stm⟩ := q
      rw [hq] at h
      cases b with
      | throw e =>
        cases e
        case stepError => exact Or.inr ⟨stm, rfl, h⟩
        all_goals
          simp only [FM.throw_apply, Option.some.injEq, Prod.mk.injEq] at h
          obtain ⟨rfl, rfl⟩ := h
          exact Or.inl ⟨rfl, by simp⟩
      | _ =>
        simp only [FM.pure_apply, Option.some.injEq, Prod.mk.injEq] at h
        obtain ⟨rfl, rfl⟩ := h
        exact Or.inl ⟨rfl, by simp⟩

end Nlcg
