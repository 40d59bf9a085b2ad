import Verif.Proofs.RunRule

/-! Two backends whose steps agree wherever the first one can be give the same run. -/

namespace Nlcg
open Arith
variable {α σ ρ δ : Type} [Arith α]

theorem FM.bind_congr {σ β γ : Type} {m m' : FM σ β} {f f' : β → FM σ γ} {s : σ} (h : m s = m' s)
    (h2 : ∀ b s', m s = some (.ok b, s') → f b s' = f' b s') : (m >>= f) s = (m' >>= f') s := by
  rw [FM.bind_apply, FM.bind_apply, ← h]
  rcases hm : m s with _ | ⟨_ | _ | _ | _, s'⟩
  · rfl
  · exact h2 _ _ hm
  all_goals rfl

theorem FM.attempt_congr {σ β : Type} {m m' : FM σ β} {s : σ} (h : m s = m' s) :
    FM.attempt m s = FM.attempt m' s := by rw [FM.attempt, FM.attempt, h]

section search
variable {env : LSEnv α σ ρ} {G' : α → σ → Res ρ × σ} {I E : σ → Prop} {P : ρ → σ → Prop}
  (hE : ∀ s, I s → E s) (h : ∀ t s, I s → Keeps I E P (env.G t s))
  (hg : ∀ t s, I s → env.G t s = G' t s)
include hg

omit [Arith α] in
theorem evalG_congr (t : α) (st : LSState α σ) (hs : I st.s) :
    evalG env t st = evalG { env with G := G' } t st := by
  simp only [evalG, hg t st.s hs]

include h

theorem evalG_inv {t : α} {st st' : LSState α σ} {r : ρ} (hs : I st.s)
    (he : evalG env t st = some (.ok r, st')) : I st'.s := by
  obtain ⟨h1, -, -⟩ := evalG_ok he
  have := h t st.s hs
  rw [h1] at this
  exact this.soft trivial

theorem btLoop_congr (tau F0 : α) : ∀ (n : Nat) (t : α) (st : LSState α σ), I st.s →
    btLoop env tau F0 n t st = btLoop { env with G := G' } tau F0 n t st := by
  intro n
  induction n with
  | zero => intro t st _; rfl
  | succ n ih =>
    intro t st hs
    rw [btLoop, btLoop]
    split
    · refine FM.bind_congr (evalG_congr hg t st hs) fun r st' he => ?_
      have hs' := evalG_inv h hg hs he
      rw [readF_bind, readF_bind]
      simp only
      split
      · rfl
      · exact ih _ _ hs'
    · rfl

include hE

theorem btSearch_congr (p : LSParams α) (fuel : Nat) (F0 : α) (st : LSState α σ) (hs : I st.s) :
    btSearch env p fuel F0 st = btSearch { env with G := G' } p fuel F0 st := by
  rw [btSearch, btSearch]
  split
  · rfl
  · refine FM.bind_congr (btLoop_congr h hg p.tau F0 fuel p.tTrial st hs) fun q st' he => ?_
    have hs' := (wp_btLoop hE h p.tau F0 fuel p.tTrial st hs _ _ he).soft trivial
    cases q with
    | some r => rfl
    | none =>
      simp only
      rw [get_bind, get_bind]
      split
      · rfl
      · rw [setRestart_bind, setRestart_bind]
        exact evalG_congr hg _ _ hs'

omit hE in
theorem qlineLoop_congr (F0 slope : α) : ∀ (n : Nat) (t : α) (st : LSState α σ), I st.s →
    qlineLoop env F0 slope n t st = qlineLoop { env with G := G' } F0 slope n t st := by
  intro n
  induction n with
  | zero => intro t st _; rfl
  | succ n ih =>
    intro t st hs
    rw [qlineLoop, qlineLoop]
    refine FM.bind_congr (evalG_congr hg t st hs) fun r st' he => ?_
    have hs' := evalG_inv h hg hs he
    rw [readF_bind, readF_bind]
    simp only
    split
    · exact ih _ _ hs'
    · rfl

omit hE in
theorem qline_congr (p : LSParams α) (fuel : Nat) (slope : α) (st : LSState α σ) (hs : I st.s) :
    qline env p fuel slope st = qline { env with G := G' } p fuel slope st := by
  rw [qline, qline, readF_bind, readF_bind]
  refine FM.bind_congr (qlineLoop_congr h hg _ _ _ _ st hs) fun tm st' he => ?_
  have hs' := (wp_qlineLoop h _ slope fuel p.tTrial st hs _ _ he).soft trivial
  exact FM.bind_congr (evalG_congr hg _ _ hs') fun r st2 _ => rfl

theorem lineSearch_congr (p : LSParams α) (fuel : Nat) (slope : α) (st : LSState α σ) (hs : I st.s) :
    lineSearch env p fuel slope st = lineSearch { env with G := G' } p fuel slope st := by
  rw [lineSearch, lineSearch]
  split
  · rfl
  · rw [readF_bind, readF_bind]
    refine FM.bind_congr (FM.attempt_congr (qline_congr h hg p fuel slope st hs)) fun r st' he => ?_
    rcases r with e | r
    · cases e with
      | stepError =>
        simp only
        refine btSearch_congr hE h hg p fuel _ _ ?_
        rw [FM.attempt] at he
        rcases hq : qline env p fuel slope st with _ | ⟨_ | _ | _ | _, s1⟩ <;> rw [hq] at he <;>
          simp only [reduceCtorEq, Option.some.injEq, Prod.mk.injEq, Res.ok.injEq,
            Except.error.injEq, false_and] at he
        obtain ⟨rfl, rfl⟩ := he
        exact (wp_qline hE h p fuel slope st hs _ _ hq).soft trivial
      | _ => rfl
    · rfl

end search

variable {ops : Ops α σ ρ δ} {I0 I E : σ → Prop} {J G : ρ → σ → Prop} {D : ρ → δ → α → Prop}
  {geo' : ρ → δ → α → σ → Res ρ × σ} {setup' : σ → Res ρ × σ} {restarted' : ρ → σ → Res (α × δ) × σ}
  {conjugated' : α → ρ → δ → σ → Res (α × α × δ) × σ} {refresh' : ρ → σ → Res ρ × σ}

omit [Arith α] in
theorem liftOp_congr {β : Type} {f f' : σ → Res β × σ} {w : NState α σ} (h : f w.s = f' w.s) :
    liftOp f w = liftOp f' w := by simp only [liftOp, h]

theorem RunRule.callRestarted_congr (hd : ∀ pt s, I s → J pt s → ops.restarted pt s = restarted' pt s)
    (i : Nat) (pt : ρ) (w : NState α σ) (hI : I w.s) (hJ : J pt w.s) :
    callRestarted ops i pt w = callRestarted
      { ops with geo := geo', setup := setup', restarted := restarted', conjugated := conjugated', refresh := refresh' } i pt w := by
  rw [callRestarted, callRestarted]
  exact FM.bind_congr (liftOp_congr (hd pt w.s hI hJ)) fun _ _ _ => rfl

theorem RunRule.body_congr (hr : RunRule ops I0 I E J G D)
    (hg : ∀ pt dir sl t s, I s → D pt dir sl → ops.geo pt dir t s = geo' pt dir t s)
    (hd : ∀ pt s, I s → J pt s → ops.restarted pt s = restarted' pt s)
    (hc : ∀ fr pt dir s, I s → J pt s → ops.conjugated fr pt dir s = conjugated' fr pt dir s)
    (hf : ∀ r s, I s → G r s → ops.refresh r s = refresh' r s)
    (prm : NlcgParams α) (fuel rank i : Nat) (v : Vars α ρ δ) (w : NState α σ) (hI : I w.s)
    (hJ : J v.pt w.s) (hD : D v.pt v.dir v.slope) :
    cgBody ops prm fuel rank i v w = cgBody { ops with geo := geo', setup := setup', restarted := restarted', conjugated := conjugated', refresh := refresh' } prm fuel rank i v w := by
  rw [cgBody, cgBody]
  refine FM.bind_congr rfl fun u1 w1 h1 => ?_
  have a : I w1.s ∧ J v.pt w1.s := by
    refine wp_writeJson ops rank i v.slope v.pt (fun o w1 => o = .ok u1 → I w1.s ∧ J v.pt w1.s) w
      ?_ _ _ h1 rfl
    rintro o s' file' hj rfl
    have p := hr.json hj hI hJ
    exact ⟨p.soft trivial, p.ok _ rfl⟩
  refine FM.bind_congr rfl fun u2 w2 h2 => ?_
  have e2 : w2.s = w1.s := by
    simp only [setInfo, FM.modify_apply, Option.some.injEq, Prod.mk.injEq] at h2
    rw [← h2.2]
  refine FM.bind_congr rfl fun u3 w3 h3 => ?_
  have c : I w3.s ∧ J v.pt w3.s := by
    simp only [liftOp, Option.some.injEq, Prod.mk.injEq] at h3
    have p := hr.print v.pt w2.s (e2 ▸ a.1) (e2 ▸ a.2)
    unfold Keeps at p
    rw [h3.1] at p
    rw [← h3.2]
    exact ⟨p.soft trivial, p.ok _ rfl⟩
  refine FM.bind_congr ?_ fun r w4 h4 => ?_
  rotate_left
  · have hl : I w4.s ∧ G r w4.s := by
      refine wp_runSearch ops prm fuel i v (fun o w4 => o = .ok r → I w4.s ∧ G r w4.s) w3 ?_ _ _ h4 rfl
      intro o st hst
      have p := wp_lineSearch hr.weaken (fun t s hs => hr.geo v.pt v.dir v.slope t s hs hD) _ _ _ _ c.1 _ _ hst
      cases o with
      | ok x => rintro ⟨⟩; exact ⟨p.soft trivial, p.ok _ rfl⟩
      | throw e => simp
      | ub => simp
      | abort => simp
    refine FM.bind_congr (liftOp_congr (hf r w4.s hl.1 hl.2)) fun pt w5 h5 => ?_
    simp only [liftOp, Option.some.injEq, Prod.mk.injEq] at h5
    have q := hr.refresh r w4.s hl.1 hl.2
    unfold Keeps at q
    rw [h5.1] at q
    have q1 : I w5.s ∧ J pt w5.s := by rw [← h5.2]; exact ⟨q.soft trivial, q.ok _ rfl⟩
    split
    · rfl
    · rw [get_bind, get_bind]
      split
      · exact RunRule.callRestarted_congr hd i pt w5 q1.1 q1.2
      · refine FM.bind_congr (liftOp_congr (hc v.fr pt v.dir w5.s q1.1 q1.2)) fun x w6 h6 => ?_
        simp only [liftOp, Option.some.injEq, Prod.mk.injEq] at h6
        have z := hr.conjugated v.fr pt v.dir w5.s v.pt v.slope q1.1 q1.2 hD
        unfold Keeps at z
        rw [h6.1] at z
        have z1 : I w6.s ∧ J pt w6.s := by rw [← h6.2]; exact ⟨z.soft trivial, (z.ok _ rfl).1⟩
        refine FM.bind_congr rfl fun u7 w7 h7 => ?_
        have e7 : w7.s = w6.s := by
          simp only [emit, FM.modify_apply, Option.some.injEq, Prod.mk.injEq] at h7
          rw [← h7.2]
        split
        · exact FM.bind_congr (RunRule.callRestarted_congr hd i pt w7 (e7 ▸ z1.1) (e7 ▸ z1.2)) fun _ _ _ => rfl
        · rfl
  have := lineSearch_congr (env := { G := ops.geo v.pt v.dir, getF := ops.getF })
    (G' := geo' v.pt v.dir) hr.weaken (fun t s hs => hr.geo v.pt v.dir v.slope t s hs hD)
    (fun t s hs => hg v.pt v.dir v.slope t s hs hD) { tTrial := lit (2 / 10), tau := prm.tau } fuel
    v.slope { s := w3.s, forceRestart := w3.force, evals := [] } c.1
  simp only [runSearch, this]

theorem RunRule.loop_congr (hr : RunRule ops I0 I E J G D)
    (hg : ∀ pt dir sl t s, I s → D pt dir sl → ops.geo pt dir t s = geo' pt dir t s)
    (hd : ∀ pt s, I s → J pt s → ops.restarted pt s = restarted' pt s)
    (hc : ∀ fr pt dir s, I s → J pt s → ops.conjugated fr pt dir s = conjugated' fr pt dir s)
    (hf : ∀ r s, I s → G r s → ops.refresh r s = refresh' r s)
    (prm : NlcgParams α) (fuel rank : Nat) : ∀ (n i : Nat) (v : Vars α ρ δ) (w : NState α σ), I w.s →
    J v.pt w.s → D v.pt v.dir v.slope →
    cgLoop ops prm fuel rank n i v w = cgLoop { ops with geo := geo', setup := setup', restarted := restarted', conjugated := conjugated', refresh := refresh' } prm fuel rank n i v w := by
  intro n
  induction n with
  | zero => intros; rfl
  | succ n ih =>
    intro i v w hI hJ hD
    rw [cgLoop, cgLoop]
    refine FM.bind_congr rfl fun u w1 h1 => ?_
    have e1 : w1.s = w.s := by
      simp only [emit, FM.modify_apply, Option.some.injEq, Prod.mk.injEq] at h1
      rw [← h1.2]
    split
    · rfl
    · have hI1 : I w1.s := e1 ▸ hI
      have hJ1 : J v.pt w1.s := e1 ▸ hJ
      refine FM.bind_congr (FM.attempt_congr (hr.body_congr hg hd hc hf prm fuel rank i v w1 hI1 hJ1 hD))
        fun r w2 h2 => ?_
      rcases r with e | v'
      · cases e <;> rfl
      · simp only
        rw [FM.attempt] at h2
        rcases hq : cgBody ops prm fuel rank i v w1 with _ | ⟨_ | _ | _ | _, s1⟩ <;> rw [hq] at h2 <;>
          simp only [reduceCtorEq, Option.some.injEq, Prod.mk.injEq, Res.ok.injEq,
            Except.ok.injEq, false_and] at h2
        obtain ⟨rfl, rfl⟩ := h2
        have p := hr.body (cgBody_run ops prm fuel rank i v w1 _ _ hq) hI1 hJ1 hD
        exact ih _ _ _ (p.soft trivial) (p.ok _ rfl).1 (p.ok _ rfl).2

/-- operations that agree wherever the run can be give the same run -/
theorem RunRule.congr_ops (hr : RunRule ops I0 I E J G D)
    (hg : ∀ pt dir sl t s, I s → D pt dir sl → ops.geo pt dir t s = geo' pt dir t s)
    (hd : ∀ pt s, I s → J pt s → ops.restarted pt s = restarted' pt s)
    (hc : ∀ fr pt dir s, I s → J pt s → ops.conjugated fr pt dir s = conjugated' fr pt dir s)
    (hf : ∀ r s, I s → G r s → ops.refresh r s = refresh' r s)
    (hst : ∀ s, I0 s → ops.setup s = setup' s)
    (prm : NlcgParams α) (fuel rank : Nat) (w : NState α σ) (h0 : I0 w.s) :
    nlcg ops prm fuel rank w = nlcg { ops with geo := geo', setup := setup', restarted := restarted', conjugated := conjugated', refresh := refresh' } prm fuel rank w := by
  rw [nlcg, nlcg]
  refine FM.bind_congr rfl fun u0 w0 g0 => ?_
  simp only [FM.modify_apply, Option.some.injEq, Prod.mk.injEq] at g0
  refine FM.bind_congr rfl fun u1 w1 g1 => ?_
  simp only [liftOp, Option.some.injEq, Prod.mk.injEq] at g1
  have a := hr.construct w0.s (by rw [← g0.2]; exact h0)
  unfold Keeps at a
  rw [g1.1] at a
  have a1 : I0 w1.s := by rw [← g1.2]; exact a.soft trivial
  refine FM.bind_congr rfl fun u2 w2 g2 => ?_
  simp only [FM.modify_apply, Option.some.injEq, Prod.mk.injEq] at g2
  have a2 : I0 w2.s := by rw [← g2.2]; exact a1
  refine FM.bind_congr (by simp only [liftOp]; rw [hst _ a2]) fun pt w3 g3 => ?_
  simp only [liftOp, Option.some.injEq, Prod.mk.injEq] at g3
  have c := hr.setup w2.s a2
  unfold Keeps at c
  rw [g3.1] at c
  have c1 : I w3.s ∧ J pt w3.s := by rw [← g3.2]; exact c.ok pt rfl
  refine FM.bind_congr (liftOp_congr (hd pt w3.s c1.1 c1.2)) fun q w4 g4 => ?_
  simp only [liftOp, Option.some.injEq, Prod.mk.injEq] at g4
  have d := hr.restarted pt w3.s c1.1 c1.2
  unfold Keeps at d
  rw [g4.1] at d
  have d1 : I w4.s ∧ J pt w4.s ∧ D pt q.2 q.1 := by
    rw [← g4.2]; exact ⟨d.soft trivial, d.ok q rfl⟩
  refine FM.bind_congr rfl fun u5 w5 g5 => ?_
  simp only [FM.modify_apply, Option.some.injEq, Prod.mk.injEq] at g5
  have e5 : w5.s = w4.s := by rw [← g5.2]
  exact hr.loop_congr hg hd hc hf prm fuel rank _ _ _ _ (e5 ▸ d1.1) (e5 ▸ d1.2.1) d1.2.2

/-- the same for all operations but `refresh` -/
theorem RunRule.congr_all (hr : RunRule ops I0 I E J G D)
    (hg : ∀ pt dir sl t s, I s → D pt dir sl → ops.geo pt dir t s = geo' pt dir t s)
    (hd : ∀ pt s, I s → J pt s → ops.restarted pt s = restarted' pt s)
    (hc : ∀ fr pt dir s, I s → J pt s → ops.conjugated fr pt dir s = conjugated' fr pt dir s)
    (hst : ∀ s, I0 s → ops.setup s = setup' s)
    (prm : NlcgParams α) (fuel rank : Nat) (w : NState α σ) (h0 : I0 w.s) :
    nlcg ops prm fuel rank w = nlcg { ops with geo := geo', setup := setup', restarted := restarted', conjugated := conjugated' } prm fuel rank w :=
  hr.congr_ops hg hd hc (fun _ _ _ _ => rfl) hst prm fuel rank w h0

/-- steps that agree wherever the run can be give the same run -/
theorem RunRule.congr (hr : RunRule ops I0 I E J G D)
    (hg : ∀ pt dir sl t s, I s → D pt dir sl → ops.geo pt dir t s = geo' pt dir t s)
    (hst : ∀ s, I0 s → ops.setup s = setup' s)
    (prm : NlcgParams α) (fuel rank : Nat) (w : NState α σ) (h0 : I0 w.s) :
    nlcg ops prm fuel rank w = nlcg { ops with geo := geo', setup := setup' } prm fuel rank w :=
  hr.congr_all hg (fun _ _ _ _ => rfl) (fun _ _ _ _ _ _ => rfl) hst prm fuel rank w h0

end Nlcg
