import Verif.Proofs.Driver
import Mathlib.Tactic.Linarith

/-! Invariants of the solver loop. -/

namespace Nlcg
open Arith
variable {α σ ρ δ : Type} [Arith α]

theorem Res.fail_clean {β γ : Type} {o : Res β} (h : o.Clean) : (o.fail : Res γ).Clean := by
  cases o <;> simp_all [Res.fail, Res.Clean]

theorem Res.fail_ne_ok {β γ : Type} (o : Res β) (v : γ) : (o.fail : Res γ) ≠ .ok v := by
  cases o <;> simp [Res.fail]

theorem JsonRun.clean {ops : Ops α σ ρ δ} (hc : ops.Clean) {rank i : Nat} {slope : α} {pt : ρ}
    {w : NState α σ} {o : Res Unit} {s' : σ} {file' : List (JsonRec α)}
    (h : JsonRun ops rank i slope pt w o s' file') : o.Clean := by
  obtain ⟨h1, -⟩ := h
  split at h1
  · have := hc.gather pt w.s; rw [← h1] at this; exact this
  · cases h1; exact ⟨by simp, by simp⟩

theorem DirRun.spec {ops : Ops α σ ρ δ} (hc : ops.Clean) {prm : NlcgParams α} {i : Nat}
    {v : Vars α ρ δ} {r : ρ} {st : LSState α σ} {o : Res (Vars α ρ δ)} {dirs : List (Ev α)} {s' : σ}
    {force' : Bool} (h : DirRun ops prm i v r st o dirs s' force') :
    o.Clean ∧ (∀ v', o = .ok v' →
      Spec.Directions prm.restart i st.forceRestart dirs v'.slope force') := by
  cases h with
  | refresh o s4 h1 h2 =>
    refine ⟨Res.fail_clean ?_, fun v' hv => absurd hv (Res.fail_ne_ok _ _)⟩
    have := hc.refresh r st.s; rw [h1] at this; exact this
  | ub => exact ⟨⟨by simp, by simp⟩, by simp⟩
  | steepestFail pt s4 o s5 h1 h2 h3 h4 h5 =>
    refine ⟨Res.fail_clean ?_, fun v' hv => absurd hv (Res.fail_ne_ok _ _)⟩
    have := hc.restarted pt s4; rw [h4] at this; exact this
  | steepest pt s4 sl dir s5 h1 h2 h3 h4 =>
    refine ⟨⟨by simp, by simp⟩, ?_⟩
    rintro v' hv; cases hv
    exact .steepest _ _ h3
  | conjugateFail pt s4 o s5 h1 h2 h3 h4 h5 h6 =>
    refine ⟨Res.fail_clean ?_, fun v' hv => absurd hv (Res.fail_ne_ok _ _)⟩
    have := hc.conjugated v.fr pt v.dir s4; rw [h5] at this; exact this
  | conjugate pt s4 fr sl dir s5 h1 h2 h3 h4 h5 h6 =>
    refine ⟨⟨by simp, by simp⟩, ?_⟩
    rintro v' hv; cases hv
    rw [h4]
    exact .conjugate _ h3 h6
  | rejectedFail pt s4 fr c dir s5 o s6 h1 h2 h3 h4 h5 h6 h7 h8 =>
    refine ⟨Res.fail_clean ?_, fun v' hv => absurd hv (Res.fail_ne_ok _ _)⟩
    have := hc.restarted pt s5; rw [h7] at this; exact this
  | rejected pt s4 fr c dir s5 sl dir6 s6 h1 h2 h3 h4 h5 h6 h7 =>
    refine ⟨⟨by simp, by simp⟩, ?_⟩
    rintro v' hv; cases hv
    rw [h4]
    exact .rejected _ _ h3 h6

/-- Trace, flag and slope produced by one iteration. -/
theorem BodyRun.spec {ops : Ops α σ ρ δ} (hc : ops.Clean) {prm : NlcgParams α} {fuel rank i : Nat}
    {v : Vars α ρ δ} {w : NState α σ} {o : Res (Vars α ρ δ)} {w' : NState α σ}
    (h : BodyRun ops prm fuel rank i v w o w') :
    (∀ v', o = .ok v' → ∃ F S flag1 dirs, w'.trace = w.trace ++
        ([.report i F S v.slope, .search i w.force, .found i flag1] ++ dirs) ∧
        (lit 0 <ᶠ v.slope) = false ∧ (w.force = true → flag1 = false) ∧
        Spec.Directions prm.restart i flag1 dirs v'.slope w'.force ∧
        w'.info.converged = false) ∧
    (o = .throw .slopeError → (lit 0 <ᶠ v.slope) = true ∧ w'.info.converged = false ∧
        ∃ F S, w'.trace = w.trace ++
        [.report i F S v.slope, .search i w.force, .failed i .slopeError]) ∧
    (o = .throw .descentError → (lit 0 <ᶠ v.slope) = false ∧ w.force = true ∧
        w'.info.converged = false ∧ ∃ F S,
        w'.trace = w.trace ++ [.report i F S v.slope, .search i w.force, .failed i .descentError]) := by
  have triv : ∀ (o : Res (Vars α ρ δ)) (P Q : Prop) (R : Vars α ρ δ → Prop), o.Clean → (∀ v', o ≠ .ok v') →
      ((∀ v', o = .ok v' → R v') ∧ (o = .throw .slopeError → P) ∧ (o = .throw .descentError → Q)) :=
    fun o P Q R h1 h2 => ⟨fun v' h => absurd h (h2 v'), fun h => absurd h h1.1, fun h => absurd h h1.2⟩
  cases h with
  | json o s1 file' h1 h2 => exact triv _ _ _ _ (Res.fail_clean (h1.clean hc)) (Res.fail_ne_ok _)
  | hostPrint s1 s2 file' o h1 h2 h3 =>
    refine triv _ _ _ _ (Res.fail_clean ?_) (Res.fail_ne_ok _)
    have := hc.hostPrint s1; rw [h2] at this; exact this
  | search s1 s2 file' o st tr h1 h2 h3 h4 h5 h6 =>
    obtain ⟨f1, f2, -⟩ := lineSearch_flags _ _ _ _ _ _ _ (fun t s => hc.geo v.pt v.dir t s) h3
    refine ⟨fun v' h => absurd h (Res.fail_ne_ok _ _), ?_, ?_⟩
    · intro he
      cases o with
      | throw e =>
        cases he
        refine ⟨(f1 rfl).1, rfl, ops.getF s1, ops.getS s1, ?_⟩
        rw [h5 _ rfl]
        simp only [searchStart, List.append_assoc, List.singleton_append]
      | _ => simp [Res.fail] at he
    · intro he
      cases o with
      | throw e =>
        cases he
        refine ⟨(f2 rfl).1, (f2 rfl).2, rfl, ops.getF s1, ops.getS s1, ?_⟩
        rw [h5 _ rfl]
        simp only [searchStart, List.append_assoc, List.singleton_append]
      | _ => simp [Res.fail] at he
  | searched s1 s2 file' r st _ dirs s' force' h1 h2 h3 h4 =>
    obtain ⟨-, -, f3⟩ := lineSearch_flags _ _ _ _ _ _ _ (fun t s => hc.geo v.pt v.dir t s) h3
    obtain ⟨d1, d2⟩ := h4.spec hc
    refine ⟨?_, fun h => absurd h d1.1, fun h => absurd h d1.2⟩
    intro v' hv'
    refine ⟨ops.getF s1, ops.getS s1, st.forceRestart, dirs, ?_, (f3 r rfl).1, (f3 r rfl).2, d2 v' hv', rfl⟩
    simp only [searchStart, List.append_assoc, List.singleton_append, List.cons_append, List.nil_append]

/-- The events of the loop form a legal history. -/
theorem LoopRun.trace {ops : Ops α σ ρ δ} (hc : ops.Clean) {prm : NlcgParams α} {fuel rank : Nat}
    {n i : Nat} {v : Vars α ρ δ} {w : NState α σ} {o : Res (Info α)} {w' : NState α σ}
    (h : LoopRun ops prm fuel rank n i v w o w') :
    w.info.converged = false → ∀ info, o = .ok info → ∃ tr e, w'.trace = w.trace ++ tr ∧
      Spec.Trace prm.restart prm.tol n i v.slope w.force tr e ∧
      (info.converged = true ↔ e = .converged) ∧ w'.info = info := by
  induction h with
  | limit i v w =>
    rintro hw info hi; cases hi
    exact ⟨[], .limit, by simp, .limit _ _ _, by simp [hw], rfl⟩
  | success n i v w s1 s2 file' h1 h2 h3 =>
    rintro - info hi; cases hi
    exact ⟨_, .converged, rfl, .converged _ _ _ _ _ _ h1, by simp, rfl⟩
  | successJson n i v w o s1 file' h1 h2 h3 => exact fun _ info hi => absurd hi (Res.fail_ne_ok _ _)
  | successPrint n i v w s1 file' o s2 h1 h2 h3 h4 =>
    exact fun _ info hi => absurd hi (Res.fail_ne_ok _ _)
  | step n i v w v' w1 o w' h1 h2 h3 ih =>
    intro hw info hi
    obtain ⟨b1, -, -⟩ := h2.spec hc
    obtain ⟨F, S, flag1, dirs, ht, hs, hf, hd, hcv⟩ := b1 v' rfl
    obtain ⟨tr, e, e1, e2, e3⟩ := ih hcv info hi
    refine ⟨_, e, ?_, .step n i v.slope w.force F S flag1 dirs v'.slope w1.force tr e h1 hs hf hd e2, e3⟩
    rw [e1, ht]
    simp [started]
  | caught n i v w e w1 h1 h2 h3 =>
    rintro - info hi; cases hi
    obtain ⟨-, b2, b3⟩ := h2.spec hc
    rcases h3 with rfl | rfl
    · obtain ⟨hs, hf, hcv, F, S, ht⟩ := b3 rfl
      have hf' : w.force = true := hf
      refine ⟨[.start i v.slope, .report i F S v.slope, .search i true, .failed i .descentError],
        .failed, ?_, ?_, by simp [hcv], rfl⟩
      · rw [ht]; simp [started, hf']
      · rw [hf']; exact .descentFailed n i v.slope F S h1 hs
    · obtain ⟨hs, hcv, F, S, ht⟩ := b2 rfl
      refine ⟨_, .failed, ?_, .slopeFailed n i v.slope w.force F S h1 hs, by simp [hcv], rfl⟩
      rw [ht]
      simp [started]
  | uncaught n i v w o w1 h1 h2 h3 h4 => exact fun _ info hi => absurd hi (Res.fail_ne_ok _ _)

end Nlcg
