import Verif.Proofs.DriverTotal

/-! On which side of the energy in the backend the energy in the record is. -/

namespace Nlcg
open Spec Arith

section
variable {α σ ρ δ : Type} [Arith α]

/-- backtracking that found nothing has left a state that is not lower -/
theorem btLoop_none (env : LSEnv α σ ρ) (tau F0 : α) :
    ∀ (n : Nat) (t : α) (st st' : LSState α σ), btLoop env tau F0 n t st = some (.ok none, st') →
      (lit (1 / 10 ^ 8) <ᶠ t) = true ∨ (env.getF st.s <ᶠ F0) = false → (env.getF st'.s <ᶠ F0) = false := by
  intro n
  induction n with
  | zero =>
    intro t st st' h h0
    rw [btLoop] at h
    by_cases hg : (lit (1 / 10 ^ 8) <ᶠ t) = true
    · rw [if_pos hg] at h; simp at h
    · rw [if_neg hg] at h
      simp only [FM.pure_apply, Option.some.injEq, Prod.mk.injEq] at h
      obtain ⟨-, rfl⟩ := h
      exact h0.resolve_left hg
  | succ n ih =>
    intro t st st' h h0
    rw [btLoop] at h
    split at h
    case isFalse hg =>
      simp only [FM.pure_apply, Option.some.injEq, Prod.mk.injEq] at h
      obtain ⟨-, rfl⟩ := h
      exact h0.resolve_left hg
    case isTrue hg =>
      rcases evalG_bind h with ⟨r, st1, he, h2⟩ | ⟨st1, e, he, h2⟩ | ⟨st1, he, h2⟩ | ⟨st1, he, h2⟩
      · rw [readF_bind] at h2
        split at h2
        case isTrue hlt =>
          rw [setRestart_bind] at h2
          simp at h2
        case isFalse hlt =>
          exact ih _ _ _ h2 (.inr (by simpa using hlt))
      all_goals simp at h2

/-- so has a line search that has failed for good -/
theorem lineSearch_failed (env : LSEnv α σ ρ) (p : LSParams α) (fuel : Nat) (slope : α) (st st' : LSState α σ)
    (hG : ∀ t s, (env.G t s).1.Clean) (ht : (lit (1 / 10 ^ 8) <ᶠ p.tTrial) = true)
    (h : lineSearch env p fuel slope st = some (.throw .descentError, st')) :
    (env.getF st'.s <ᶠ env.getF st.s) = false := by
  have hG' : ∀ t s, (env.G t s).1 ≠ .throw .descentError := fun t s => (hG t s).2
  rcases lineSearch_inv _ _ _ _ _ _ _ h with ⟨_, h1, _⟩ | ⟨_, ⟨h1, _⟩ | ⟨stm, h1, h2⟩⟩
  · simp at h1
  · rcases (qline_spec _ _ _ _ _ _ _ h1).2 with ⟨r', hr, -⟩ | ⟨h3, -⟩ | ⟨-, -, h3⟩
    · simp at hr
    · simp at h3
    · exact absurd h3 (failedEval_not hG' _)
  · rcases btSearch_spec _ _ _ _ _ _ _ h2 with ⟨_, h3, _⟩ | ⟨_, k, stn, hk, hk2, hc⟩
    · simp at h3
    · rcases hc with ⟨r', hr, -⟩ | ⟨hb, h4, ⟨-, -, rfl⟩ | ⟨h5, h6⟩⟩ | ⟨-, -, -, h5⟩
      · simp at hr
      · exact btLoop_none _ _ _ _ _ _ _ hb (.inl ht)
      · exact absurd (by rw [(evalG_ok h6).1]) (hG' (lit 0) _)
      · exact absurd h5 (failedEval_not hG' _)

end

variable {σ ρ δ : Type}

/-- How a loop that ends normally has ended: at the iteration limit or converged, with a positive slope, or with a failed
search. -/
theorem LoopRun.side {ops : Ops ℝ σ ρ δ} {E : ρ → ℝ} (hc : ops.Clean) (hE : ops.Reproducible E)
    {prm : NlcgParams ℝ} {fuel rank : Nat} {n i : Nat} {v : Vars ℝ ρ δ} {w : NState ℝ σ}
    {o : Res (Info ℝ)} {w' : NState ℝ σ} (h : LoopRun ops prm fuel rank n i v w o w') :
    ops.getF w.s = E v.pt → ∀ info, o = .ok info →
    (n = 0 ∧ w' = w ∧ info = w.info) ∨
    ∃ vals tail, info.vals = some vals ∧ w'.trace = w.trace ++ tail ∧
      ((ops.getF w'.s ≤ vals.F ∧ ∀ j e, Ev.failed j e ∉ tail) ∨
       ((∃ j, Ev.failed j .slopeError ∈ tail) ∧ ∀ j, Ev.failed j .descentError ∉ tail) ∨
       (vals.F ≤ ops.getF w'.s ∧ ∃ j, Ev.failed j .descentError ∈ tail)) := by
  induction h with
  | limit i v w => rintro - info hi; cases hi; exact .inl ⟨rfl, rfl, rfl⟩
  | success n i v w s1 s2 file' h1 h2 h3 =>
    rintro - info hi; cases hi
    refine .inr ⟨_, _, rfl, rfl, .inl ⟨?_, by simp⟩⟩
    have hp := hE.hostPrint s1
    rw [h3] at hp
    show ops.getF s2 ≤ ops.getF w.s
    exact (hp.trans (h2.getF hE)).le
  | successJson n i v w o s1 file' h1 h2 h3 => exact fun _ info hi => absurd hi (Res.fail_ne_ok _ _)
  | successPrint n i v w s1 file' o s2 h1 h2 h3 h4 =>
    exact fun _ info hi => absurd hi (Res.fail_ne_ok _ _)
  | step n i v w v' w1 o w' h1 h2 h3 ih =>
    intro h0 info hi
    right
    obtain ⟨e1, e2⟩ := h2.energy hE (w := started i v.slope w) h0
    obtain ⟨F, S, flag1, dirs, ht, -, -, hd, hcv⟩ := (h2.spec hc).1 v' rfl
    have hbody : ∃ vals, w1.info.vals = some vals ∧ vals.F = ops.getF w.s := by
      generalize ho : (Res.ok v' : Res (Vars ℝ ρ δ)) = o' at h2
      cases h2 with
      | json o s1 file' g1 g2 => exact absurd ho.symm (Res.fail_ne_ok _ _)
      | hostPrint s1 s2 file' o g1 g2 g3 => exact absurd ho.symm (Res.fail_ne_ok _ _)
      | search s1 s2 file' o st tr g1 => exact absurd ho.symm (Res.fail_ne_ok _ _)
      | searched s1 s2 file' r st _ dirs s' force' g1 g2 g3 g4 => exact ⟨_, rfl, g1.getF hE⟩
    have htail : ∃ t1, w1.trace = w.trace ++ t1 ∧ ∀ j e, Ev.failed j e ∉ t1 := by
      rw [ht]
      refine ⟨_, by simp [started]; rfl, ?_⟩
      intro j e
      have := hd.no_failed j e
      simp [this]
    obtain ⟨t1, ht1, hn1⟩ := htail
    rcases ih e1 info hi with ⟨rfl, rfl, rfl⟩ | ⟨vals, tail, f1, f2, f3⟩
    · obtain ⟨vals, g1, g2⟩ := hbody
      refine ⟨vals, t1, g1, ht1, .inl ⟨?_, hn1⟩⟩
      rw [g2]
      exact e2
    · refine ⟨vals, t1 ++ tail, f1, by rw [f2, ht1, List.append_assoc], ?_⟩
      simpa [hn1] using f3
  | caught n i v w e w1 h1 h2 h3 =>
    rintro - info hi; cases hi
    right
    obtain ⟨s1, s2, st, g1, g2, g3, g4⟩ := h2.caught_inv hc h3
    rw [g4]
    refine ⟨_, _, rfl, by simp [searchStart, started]; rfl, ?_⟩
    rcases h3 with rfl | rfl
    · refine .inr (.inr ⟨?_, by simp⟩)
      have := lineSearch_failed _ _ _ _ _ _ (fun t s => hc.geo v.pt v.dir t s) (by simp [real_lt]; norm_num) g3
      simp only [real_lt, decide_eq_false_iff_not, not_lt] at this
      have hp := hE.hostPrint s1
      rw [g2] at hp
      rw [hp] at this
      exact this
    · exact .inr (.inl ⟨by simp, by simp⟩)
  | uncaught n i v w o w1 h1 h2 h3 h4 => exact fun _ info hi => absurd hi (Res.fail_ne_ok _ _)

end Nlcg
