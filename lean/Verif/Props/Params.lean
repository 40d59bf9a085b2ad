import Verif.Proofs.Driver
import Verif.Props.Driver

/-!
# C135: parameters matter only where they are used
-/

namespace Nlcg
open Arith
variable {α σ ρ δ : Type} [Arith α]

/-! ## The restart interval -/

theorem cgBody_restart {ops : Ops α σ ρ δ} {prm prm' : NlcgParams α} (fuel rank i : ℕ) (v : Vars α ρ δ)
    (ht : prm'.tau = prm.tau) (h0 : prm.restart = 0 ↔ prm'.restart = 0)
    (hi : prm.restart ∣ (i : ℤ) ↔ prm'.restart ∣ (i : ℤ)) :
    cgBody ops prm fuel rank i v = cgBody ops prm' fuel rank i v := by
  have hd : ∀ r : ℤ, Int.tmod (i : ℤ) r = 0 ↔ r ∣ (i : ℤ) := fun r => Int.dvd_iff_tmod_eq_zero.symm
  have hs : runSearch ops prm fuel i v = runSearch ops prm' fuel i v := by
    funext w
    simp only [runSearch, ht]
  have e1 : (prm.restart = 0) = (prm'.restart = 0) := propext h0
  have e2 : (Int.tmod (i : ℤ) prm.restart = 0) = (Int.tmod (i : ℤ) prm'.restart = 0) :=
    propext ((hd _).trans (hi.trans (hd _).symm))
  unfold cgBody
  simp only [hs, e1, e2]

theorem cgLoop_restart {ops : Ops α σ ρ δ} {prm prm' : NlcgParams α} (fuel rank : ℕ) (htol : prm'.tol = prm.tol)
    (ht : prm'.tau = prm.tau) (h0 : prm.restart = 0 ↔ prm'.restart = 0) {m : ℕ}
    (hi : ∀ i < m, prm.restart ∣ (i : ℤ) ↔ prm'.restart ∣ (i : ℤ)) :
    ∀ n i v, i + n ≤ m → cgLoop ops prm fuel rank n i v = cgLoop ops prm' fuel rank n i v
  | 0, _, _, _ => rfl
  | n + 1, i, v, h => by
    have ih := fun v' => cgLoop_restart (ops := ops) fuel rank htol ht h0 hi n (i + 1) v' (by omega)
    have hb := cgBody_restart (ops := ops) fuel rank i v ht h0 (hi i (by omega))
    rw [cgLoop, cgLoop, htol, hb]
    simp only [ih]

/-- **C135.** Only the multiples of the restart interval below the iteration limit matter: two intervals with the same
ones give the same run, from every state and however it ends. -/
theorem C135_restart (ops : Ops α σ ρ δ) (prm : NlcgParams α) (restart' : ℤ) (h0 : prm.restart = 0 ↔ restart' = 0)
    (hi : ∀ i : ℕ, (i : ℤ) < prm.maxiter → (prm.restart ∣ (i : ℤ) ↔ restart' ∣ (i : ℤ))) (fuel rank : ℕ) :
    nlcg ops prm fuel rank = nlcg ops { prm with restart := restart' } fuel rank := by
  have hl := cgLoop_restart (ops := ops) (prm := prm) (prm' := { prm with restart := restart' }) fuel rank rfl rfl h0
    (m := prm.maxiter.toNat) (fun i h => hi i (by omega)) prm.maxiter.toNat 0
  unfold nlcg
  simp only [fun v => hl v (by omega)]

/-- **C135.** The sign of the restart interval does not matter. -/
theorem C135_sign (ops : Ops α σ ρ δ) (prm : NlcgParams α) (fuel rank : ℕ) :
    nlcg ops prm fuel rank = nlcg ops { prm with restart := -prm.restart } fuel rank :=
  C135_restart ops prm _ (by simp) (fun i _ => (neg_dvd).symm) fuel rank

/-- **C135.** All intervals not below the iteration limit are the same: restart never, except after the first step. -/
theorem C135_never (ops : Ops α σ ρ δ) (prm : NlcgParams α) (restart' : ℤ) (h0 : prm.restart ≠ 0) (h0' : restart' ≠ 0)
    (h : prm.maxiter ≤ |prm.restart|) (h' : prm.maxiter ≤ |restart'|) (fuel rank : ℕ) :
    nlcg ops prm fuel rank = nlcg ops { prm with restart := restart' } fuel rank := by
  refine C135_restart ops prm _ (by simp [h0, h0']) (fun i hi => ?_) fuel rank
  have key : ∀ r : ℤ, prm.maxiter ≤ |r| → (r ∣ (i : ℤ) ↔ i = 0) := by
    intro r hr
    refine ⟨fun hd => ?_, fun hz => by simp [hz]⟩
    by_contra hz
    have := Int.le_of_dvd (by omega) ((abs_dvd r (i : ℤ)).2 hd)
    omega
  rw [key _ h, key _ h']

/-! ## The factor of backtracking -/

/-- the same, or the first ends with a runtime error -/
def SameOr {β τ : Type} (a b : Option (Res β × τ)) : Prop := a = b ∨ ∃ s, a = some (.throw .runtimeError, s)

theorem lineSearch_tau (env : LSEnv α σ ρ) (p : LSParams α) {tau : α} (h : (lit 1 ≤ᶠ tau) = true) (fuel : ℕ) (slope : α)
    (st : LSState α σ) :
    SameOr (lineSearch env { p with tau := tau } fuel slope st) (lineSearch env p fuel slope st) := by
  have hq : qline env { p with tau := tau } fuel slope = qline env p fuel slope := rfl
  have hb : ∀ F0 s, btSearch env { p with tau := tau } fuel F0 s = some (.throw .runtimeError, s) := by
    intro F0 s
    rw [btSearch, if_pos h]
    rfl
  rw [lineSearch, lineSearch, hq]
  split
  · exact .inl rfl
  · simp only [FM.bind_apply]
    rcases readF env st with _ | ⟨F0 | e | _ | _, s1⟩
    all_goals try exact .inl rfl
    simp only
    rcases FM.attempt (qline env p fuel slope) s1 with _ | ⟨(e | r) | e | _ | _, s2⟩
    all_goals try exact .inl rfl
    cases e
    case stepError => exact .inr ⟨_, hb F0 s2⟩
    all_goals exact .inl rfl

theorem SameOr.bind {τ β γ : Type} {m m' : FM τ β} {f f' : β → FM τ γ} {s : τ} (h : SameOr (m s) (m' s))
    (hf : ∀ x s, SameOr (f x s) (f' x s)) : SameOr ((m >>= f) s) ((m' >>= f') s) := by
  rw [FM.bind_apply, FM.bind_apply]
  rcases h with h | ⟨s1, h⟩
  · rw [h]
    rcases m' s with _ | ⟨x | e | _ | _, s1⟩
    · exact .inl rfl
    · exact hf x s1
    all_goals exact .inl rfl
  · rw [h]; exact .inr ⟨s1, rfl⟩

theorem runSearch_tau (ops : Ops α σ ρ δ) (prm : NlcgParams α) {tau : α} (h : (lit 1 ≤ᶠ tau) = true) (fuel i : ℕ)
    (v : Vars α ρ δ) (w : NState α σ) :
    SameOr (runSearch ops { prm with tau := tau } fuel i v w) (runSearch ops prm fuel i v w) := by
  have := lineSearch_tau { G := ops.geo v.pt v.dir, getF := ops.getF } { tTrial := lit (2 / 10), tau := prm.tau } h fuel
    v.slope { s := w.s, forceRestart := w.force, evals := [] }
  simp only [runSearch]
  rcases this with e | ⟨s, e⟩
  · exact .inl (by simp only at e; rw [e])
  · simp only at e
    rw [e]
    exact .inr ⟨_, rfl⟩

theorem cgBody_tau (ops : Ops α σ ρ δ) (prm : NlcgParams α) {tau : α} (h : (lit 1 ≤ᶠ tau) = true) (fuel rank i : ℕ)
    (v : Vars α ρ δ) (w : NState α σ) :
    SameOr (cgBody ops { prm with tau := tau } fuel rank i v w) (cgBody ops prm fuel rank i v w) := by
  unfold cgBody
  exact .bind (.inl rfl) fun _ _ => .bind (.inl rfl) fun _ _ => .bind (.inl rfl) fun _ _ =>
    .bind (runSearch_tau ops prm h fuel i v _) fun _ _ => .inl rfl

theorem cgLoop_tau (ops : Ops α σ ρ δ) (prm : NlcgParams α) {tau : α} (h : (lit 1 ≤ᶠ tau) = true) (fuel rank : ℕ) :
    ∀ n i v w, SameOr (cgLoop ops { prm with tau := tau } fuel rank n i v w) (cgLoop ops prm fuel rank n i v w)
  | 0, _, _, _ => .inl rfl
  | n + 1, i, v, w => by
    rw [cgLoop, cgLoop]
    refine .bind (.inl rfl) fun _ w => ?_
    split
    · exact .inl rfl
    · rw [FM.bind_apply, FM.bind_apply, FM.attempt, FM.attempt]
      rcases cgBody_tau ops prm h fuel rank i v w with e | ⟨s, e⟩
      · rw [e]
        rcases cgBody ops prm fuel rank i v w with _ | ⟨v' | e | _ | _, w1⟩
        · exact .inl rfl
        · exact cgLoop_tau ops prm h fuel rank n (i + 1) v' w1
        · cases e <;> exact .inl rfl
        all_goals exact .inl rfl
      · rw [e]
        exact .inr ⟨_, rfl⟩

/-- **C135.** With a factor of 1 or more the first search that has to backtrack ends the call with an exception. If
such a call returns, then so does the call with any other factor, with the same result and the same record: the factor
is used by backtracking only. -/
theorem C135_tau (ops : Ops α σ ρ δ) (prm : NlcgParams α) (h : (lit 1 ≤ᶠ prm.tau) = true) (fuel rank : ℕ)
    {w w' : NState α σ} {o : Res (Info α)} (ho : o ≠ .throw .runtimeError)
    (hr : nlcg ops prm fuel rank w = some (o, w')) (tau : α) :
    nlcg ops { prm with tau := tau } fuel rank w = some (o, w') := by
  have key : SameOr (nlcg ops prm fuel rank w) (nlcg ops { prm with tau := tau } fuel rank w) := by
    unfold nlcg
    exact .bind (.inl rfl) fun _ _ => .bind (.inl rfl) fun _ _ => .bind (.inl rfl) fun _ _ => .bind (.inl rfl)
      fun _ _ => .bind (.inl rfl) fun _ _ => .bind (.inl rfl) fun _ _ =>
        cgLoop_tau ops { prm with tau := tau } h fuel rank _ _ _ _
  rcases key with e | ⟨s, e⟩
  · rw [← e, hr]
  · rw [hr] at e
    cases e
    exact absurd rfl ho

/-! ## Examples -/

/-- a call with a factor of 2 that returns after two iterations -/
example : (nlcg (toyOps (1 : ℚ)) { maxiter := 5, tol := 1 / 100, tau := 2, restart := 2 } 9 0
    { s := 0, file := [], info := { vals := none, converged := false }, force := false, trace := [] }).map
      (fun r => (r.1.isOk, r.2.info.converged)) = some (true, true) := by
  decide +kernel

/-- a call that has to backtrack: with a factor of 2 it ends with an exception, with others it goes on -/
example :
    (nlcg badOps { maxiter := 1, tol := 1 / 100, tau := 2, restart := 2 } 30 0
      { s := 0, file := [], info := { vals := none, converged := false }, force := false, trace := [] }).map
        (fun r => decide (r.1 = .throw .runtimeError)) = some true ∧
    (nlcg badOps { maxiter := 1, tol := 1 / 100, tau := 1 / 10, restart := 2 } 30 0
      { s := 0, file := [], info := { vals := none, converged := false }, force := false, trace := [] }).map
        (fun r => r.1.isOk) = some true := by
  decide +kernel

/-- the interval does matter if the multiples differ -/
example : (nlcg (toyOps (1 : ℚ)) { maxiter := 3, tol := 0, tau := 1 / 10, restart := 2 } 9 0
      { s := 0, file := [], info := { vals := none, converged := false }, force := false, trace := [] }).map
        (fun r => r.2.trace) ≠
    (nlcg (toyOps (1 : ℚ)) { maxiter := 3, tol := 0, tau := 1 / 10, restart := 1 } 9 0
      { s := 0, file := [], info := { vals := none, converged := false }, force := false, trace := [] }).map
        (fun r => r.2.trace) := by
  decide +kernel

end Nlcg
