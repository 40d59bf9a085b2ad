import Verif.Proofs.DriverInv

/-! Termination of the driver, and energies in exact arithmetic. -/

namespace Nlcg
open Arith

theorem FM.bind_ne_none {σ β γ : Type} {m : FM σ β} {f : β → FM σ γ} {s : σ} (h1 : m s ≠ none)
    (h2 : ∀ b s', m s = some (.ok b, s') → f b s' ≠ none) : (m >>= f) s ≠ none := by
  rw [FM.bind_apply]
  cases hm : m s with
  | none => exact absurd hm h1
  | some q =>
    obtain ⟨r, s1⟩ := q
    cases r with
    | ok b => exact h2 b s1 hm
    | _ => simp

section
variable {α σ ρ δ : Type} [Arith α]

theorem liftOp_ne_none {β : Type} (f : σ → Res β × σ) (w : NState α σ) :
    (liftOp f : FM (NState α σ) β) w ≠ none := by simp [liftOp]

theorem emit_ne_none (e : Ev α) (w : NState α σ) : (emit e : FM (NState α σ) Unit) w ≠ none := by
  simp [emit]

theorem callRestarted_ne_none (ops : Ops α σ ρ δ) (i : Nat) (pt : ρ) (w : NState α σ) :
    callRestarted ops i pt w ≠ none := by
  rw [callRestarted]
  refine FM.bind_ne_none (liftOp_ne_none _ _) fun b s' _ => ?_
  refine FM.bind_ne_none (emit_ne_none _ _) fun b s' _ => ?_
  simp

theorem cgBody_ne_none (ops : Ops α σ ρ δ) (prm : NlcgParams α) (fuel rank i : Nat) (v : Vars α ρ δ)
    (w : NState α σ)
    (h : ∀ s1 s2 file', JsonRun ops rank i v.slope v.pt w (.ok ()) s1 file' →
      ops.hostPrint s1 = (.ok (), s2) →
      lineSearch { G := ops.geo v.pt v.dir, getF := ops.getF }
        { tTrial := lit (2 / 10), tau := prm.tau } fuel v.slope
        { s := s2, forceRestart := w.force, evals := [] } ≠ none) :
    cgBody ops prm fuel rank i v w ≠ none := by
  rw [cgBody]
  refine FM.bind_ne_none (by simp [writeJson]) fun u w1 h1 => ?_
  have hj := wp_writeJson ops rank i v.slope v.pt
    (fun o w1 => ∃ s1 file', JsonRun ops rank i v.slope v.pt w o s1 file' ∧
      w1 = { w with s := s1, file := file' }) w (fun o s1 file' h => ⟨s1, file', h, rfl⟩) _ _ h1
  obtain ⟨s1, file', hj, rfl⟩ := hj
  refine FM.bind_ne_none (by simp [setInfo]) fun u2 w2 h2 => ?_
  simp only [setInfo, FM.modify_apply, Option.some.injEq, Prod.mk.injEq] at h2
  obtain ⟨-, rfl⟩ := h2
  refine FM.bind_ne_none (liftOp_ne_none _ _) fun u3 w3 h3 => ?_
  simp only [liftOp, Option.some.injEq, Prod.mk.injEq] at h3
  obtain ⟨h3, rfl⟩ := h3
  have hls := h s1 (ops.hostPrint s1).2 file' hj (by rw [← h3])
  refine FM.bind_ne_none ?_ fun r w4 _ => ?_
  · rw [runSearch]
    split
    · next heq => exact absurd heq hls
    all_goals simp
  · refine FM.bind_ne_none (liftOp_ne_none _ _) fun pt w5 _ => ?_
    split
    · simp
    · refine FM.bind_ne_none (by simp) fun w6 w7 _ => ?_
      split
      · exact callRestarted_ne_none _ _ _ _
      · refine FM.bind_ne_none (liftOp_ne_none _ _) fun q w8 _ => ?_
        obtain ⟨fr, slope, dir⟩ := q
        refine FM.bind_ne_none (emit_ne_none _ _) fun _ w9 _ => ?_
        split
        · refine FM.bind_ne_none (callRestarted_ne_none _ _ _ _) fun _ w10 _ => ?_
          refine FM.bind_ne_none (by simp) fun _ w11 _ => ?_
          simp
        · simp

/-- The loop ends if every search it can reach ends; `P` is an invariant of the loop head. -/
theorem cgLoop_ne_none (ops : Ops α σ ρ δ) (prm : NlcgParams α) (fuel rank : Nat)
    (P : Nat → Vars α ρ δ → NState α σ → Prop)
    (hstep : ∀ n i v w v' w1, P (n + 1) v w → (Arith.abs v.slope <ᶠ prm.tol) = false →
      BodyRun ops prm fuel rank i v (started i v.slope w) (.ok v') w1 →
      P n v' w1)
    (hls : ∀ n i v w s1 s2 file', P (n + 1) v w → (Arith.abs v.slope <ᶠ prm.tol) = false →
      JsonRun ops rank i v.slope v.pt (started i v.slope w) (.ok ()) s1 file' →
      ops.hostPrint s1 = (.ok (), s2) →
      lineSearch { G := ops.geo v.pt v.dir, getF := ops.getF }
        { tTrial := lit (2 / 10), tau := prm.tau } fuel v.slope
        { s := s2, forceRestart := w.force, evals := [] } ≠ none) :
    ∀ n i v w, P n v w → cgLoop ops prm fuel rank n i v w ≠ none := by
  intro n
  induction n with
  | zero =>
    intro i v w _
    rw [cgLoop]
    exact FM.bind_ne_none (by simp) fun _ _ _ => by simp
  | succ n ih =>
    intro i v w hP
    rw [cgLoop]
    refine FM.bind_ne_none (emit_ne_none _ _) fun _ w1 h1 => ?_
    simp only [emit, FM.modify_apply, Option.some.injEq, Prod.mk.injEq] at h1
    obtain ⟨-, rfl⟩ := h1
    split
    · rw [cgSuccess]
      refine FM.bind_ne_none (by simp [setInfo]) fun _ _ _ => ?_
      refine FM.bind_ne_none (by simp [writeJson]) fun _ _ _ => ?_
      refine FM.bind_ne_none (liftOp_ne_none _ _) fun _ _ _ => ?_
      refine FM.bind_ne_none (by simp) fun _ _ _ => ?_
      exact FM.bind_ne_none (by simp) fun _ _ _ => by simp
    · next ht =>
      have ht' : (Arith.abs v.slope <ᶠ prm.tol) = false := by simpa using ht
      have hb : cgBody ops prm fuel rank i v (started i v.slope w) ≠ none :=
        cgBody_ne_none ops prm fuel rank i v _ fun s1 s2 file' hj hp =>
          hls n i v w s1 s2 file' hP ht' hj hp
      refine FM.bind_ne_none ?_ fun r w2 h2 => ?_
      · rw [FM.attempt]
        cases hc : cgBody ops prm fuel rank i v (started i v.slope w) with
        | none => exact absurd hc hb
        | some q =>
          obtain ⟨r, s⟩ := q
          have hc' := hc
          rw [started] at hc'
          rw [hc']
          cases r <;> simp
      · rw [FM.attempt] at h2
        cases hc : cgBody ops prm fuel rank i v (started i v.slope w) with
        | none => exact absurd hc hb
        | some q =>
          obtain ⟨r', s⟩ := q
          have hc' := hc
          rw [started] at hc'
          rw [hc'] at h2
          cases r' with
          | ok v' =>
            simp only [Option.some.injEq, Prod.mk.injEq, Res.ok.injEq] at h2
            obtain ⟨rfl, rfl⟩ := h2
            exact ih _ _ _ (hstep n i v w v' s hP ht' (cgBody_run ops prm fuel rank i v _ _ _ hc))
          | throw e =>
            simp only [Option.some.injEq, Prod.mk.injEq, Res.ok.injEq] at h2
            obtain ⟨rfl, rfl⟩ := h2
            cases e
            case descentError => exact FM.bind_ne_none (by simp) fun _ _ _ => by simp
            case slopeError => exact FM.bind_ne_none (by simp) fun _ _ _ => by simp
            all_goals simp
          | _ => simp at h2

/-- A run ends if every search it can reach ends; the invariant may depend on the number of iterations
left. -/
theorem nlcg_ne_none_left (ops : Ops α σ ρ δ) (prm : NlcgParams α) (fuel rank : Nat)
    (P : Nat → Vars α ρ δ → NState α σ → Prop) (w : NState α σ)
    (hinit : ∀ s1 pt s2 slope dir s3, ops.construct w.s = (.ok (), s1) → ops.setup s1 = (.ok pt, s2) →
      ops.restarted pt s2 = (.ok (slope, dir), s3) →
      P prm.maxiter.toNat { pt := pt, dir := dir, slope := slope, fr := slope }
        { s := s3, file := [], info := { vals := none, converged := false }, force := false, trace := [] })
    (hstep : ∀ n i v w v' w1, P (n + 1) v w → (Arith.abs v.slope <ᶠ prm.tol) = false →
      BodyRun ops prm fuel rank i v (started i v.slope w) (.ok v') w1 →
      P n v' w1)
    (hls : ∀ n i v w s1 s2 file', P (n + 1) v w → (Arith.abs v.slope <ᶠ prm.tol) = false →
      JsonRun ops rank i v.slope v.pt (started i v.slope w) (.ok ()) s1 file' →
      ops.hostPrint s1 = (.ok (), s2) →
      lineSearch { G := ops.geo v.pt v.dir, getF := ops.getF }
        { tTrial := lit (2 / 10), tau := prm.tau } fuel v.slope
        { s := s2, forceRestart := w.force, evals := [] } ≠ none) :
    nlcg ops prm fuel rank w ≠ none := by
  rw [nlcg]
  refine FM.bind_ne_none (by simp) fun _ w1 h1 => ?_
  simp only [FM.modify_apply, Option.some.injEq, Prod.mk.injEq] at h1
  obtain ⟨-, rfl⟩ := h1
  refine FM.bind_ne_none (liftOp_ne_none _ _) fun u w2 h2 => ?_
  simp only [liftOp, Option.some.injEq, Prod.mk.injEq] at h2
  obtain ⟨h2, rfl⟩ := h2
  refine FM.bind_ne_none (by simp) fun _ w3 h3 => ?_
  simp only [FM.modify_apply, Option.some.injEq, Prod.mk.injEq] at h3
  obtain ⟨-, rfl⟩ := h3
  refine FM.bind_ne_none (liftOp_ne_none _ _) fun pt w4 h4 => ?_
  simp only [liftOp, Option.some.injEq, Prod.mk.injEq] at h4
  obtain ⟨h4, rfl⟩ := h4
  refine FM.bind_ne_none (liftOp_ne_none _ _) fun q w5 h5 => ?_
  simp only [liftOp, Option.some.injEq, Prod.mk.injEq] at h5
  obtain ⟨h5, rfl⟩ := h5
  obtain ⟨slope, dir⟩ := q
  refine FM.bind_ne_none (by simp) fun _ w6 h6 => ?_
  simp only [FM.modify_apply, Option.some.injEq, Prod.mk.injEq] at h6
  obtain ⟨-, rfl⟩ := h6
  refine cgLoop_ne_none ops prm fuel rank P hstep hls _ _ _ _ ?_
  exact hinit _ pt _ slope dir _ (Prod.ext h2 rfl) (Prod.ext h4 rfl) (Prod.ext h5 rfl)

/-- A run ends if every search it can reach ends. -/
theorem nlcg_ne_none (ops : Ops α σ ρ δ) (prm : NlcgParams α) (fuel rank : Nat)
    (P : Vars α ρ δ → NState α σ → Prop) (w : NState α σ)
    (hinit : ∀ s1 pt s2 slope dir s3, ops.construct w.s = (.ok (), s1) → ops.setup s1 = (.ok pt, s2) →
      ops.restarted pt s2 = (.ok (slope, dir), s3) →
      P { pt := pt, dir := dir, slope := slope, fr := slope }
        { s := s3, file := [], info := { vals := none, converged := false }, force := false, trace := [] })
    (hstep : ∀ i v w v' w1, P v w → (Arith.abs v.slope <ᶠ prm.tol) = false →
      BodyRun ops prm fuel rank i v (started i v.slope w) (.ok v') w1 →
      P v' w1)
    (hls : ∀ i v w s1 s2 file', P v w → (Arith.abs v.slope <ᶠ prm.tol) = false →
      JsonRun ops rank i v.slope v.pt (started i v.slope w) (.ok ()) s1 file' →
      ops.hostPrint s1 = (.ok (), s2) →
      lineSearch { G := ops.geo v.pt v.dir, getF := ops.getF }
        { tTrial := lit (2 / 10), tau := prm.tau } fuel v.slope
        { s := s2, forceRestart := w.force, evals := [] } ≠ none) :
    nlcg ops prm fuel rank w ≠ none :=
  nlcg_ne_none_left ops prm fuel rank (fun _ => P) w hinit (fun _ => hstep) (fun _ => hls)

end

/-! ## Exact arithmetic -/

section
variable {σ ρ δ : Type}
open Spec

/-- One iteration does not raise the energy. -/
theorem BodyRun.energy {ops : Ops ℝ σ ρ δ} {E : ρ → ℝ} (hE : ops.Reproducible E)
    {prm : NlcgParams ℝ} {fuel rank i : Nat} {v v' : Vars ℝ ρ δ} {w w' : NState ℝ σ}
    (h : BodyRun ops prm fuel rank i v w (.ok v') w') (h0 : ops.getF w.s = E v.pt) :
    ops.getF w'.s = E v'.pt ∧ ops.getF w'.s ≤ ops.getF w.s := by
  generalize ho : (Res.ok v' : Res (Vars ℝ ρ δ)) = o' at h
  cases h with
  | json o s1 file' g1 g2 => exact absurd ho.symm (Res.fail_ne_ok _ _)
  | hostPrint s1 s2 file' o g1 g2 g3 => exact absurd ho.symm (Res.fail_ne_ok _ _)
  | search s1 s2 file' o st tr g1 => exact absurd ho.symm (Res.fail_ne_ok _ _)
  | searched s1 s2 file' r st _ dirs s' force' g1 g2 g3 g4 =>
    obtain ⟨d1, d2⟩ := g4.getF hE v' ho.symm
    have hp := hE.hostPrint s1
    rw [g2] at hp
    have hF : ops.getF s2 = ops.getF w.s := hp.trans (g1.getF hE)
    -- the returned point is the last evaluation
    have hlast : ops.getF st.s = E r := by
      rcases lineSearch_inv _ _ _ _ _ _ _ g3 with ⟨_, h1, _⟩ | ⟨_, ⟨h1, _⟩ | ⟨stm, h1, h2⟩⟩
      · simp at h1
      · rcases (qline_spec _ _ _ _ _ _ _ h1).2 with ⟨r', hr, ⟨t, s0, rest, h2, -⟩, -⟩ | ⟨h3, -⟩ | ⟨h3, -⟩
        · cases hr; exact hE.geo _ _ _ _ _ _ h2
        · simp at h3
        · exact absurd rfl (h3 r)
      · rcases btSearch_spec _ _ _ _ _ _ _ h2 with ⟨_, h3, _⟩ | ⟨_, k, stn, hk, hk2, hc⟩
        · simp at h3
        · rcases hc with ⟨r', hr, rfl, ⟨t, s0, rest, h4, -⟩, -⟩ | ⟨-, h4, ⟨-, h5, -⟩ | ⟨h5, h6⟩⟩ | ⟨-, -, h5, -⟩
          · cases hr; exact hE.geo _ _ _ _ _ _ h4
          · simp at h5
          · exact hE.geo _ _ _ _ _ _ (evalG_ok h6).1
          · exact absurd rfl (h5 r)
    refine ⟨by rw [d2]; simp only; rw [d1]; exact hlast, ?_⟩
    simp only
    rw [d1]
    rcases lineSearch_inv _ _ _ _ _ _ _ g3 with ⟨_, h1, _⟩ | ⟨_, ⟨h1, _⟩ | ⟨stm, h1, h2⟩⟩
    · simp at h1
    · rcases (qline_spec _ _ _ _ _ _ _ h1).2 with ⟨r', hr, -, h3, -⟩ | ⟨h3, -⟩ | ⟨h3, -⟩
      · simp only [real_lt, decide_eq_false_iff_not, not_lt] at h3
        rw [← hF]; exact h3
      · simp at h3
      · exact absurd rfl (h3 r)
    · rcases btSearch_spec _ _ _ _ _ _ _ h2 with ⟨_, h3, _⟩ | ⟨_, k, stn, hk, hk2, hc⟩
      · simp at h3
      · rcases hc with ⟨r', hr, rfl, -, h4, -⟩ | ⟨-, h4, ⟨-, h5, -⟩ | ⟨h5, h6⟩⟩ | ⟨-, -, h5, -⟩
        · simp only [real_lt, decide_eq_true_eq] at h4
          rw [← hF]; exact h4.le
        · simp at h5
        · have := hE.zero _ _ _ _ _ (evalG_ok h6).1
          rw [hlast, this, h0]
        · exact absurd rfl (h5 r)

theorem BodyRun.reports_le {ops : Ops ℝ σ ρ δ} {E : ρ → ℝ} (hE : ops.Reproducible E)
    {prm : NlcgParams ℝ} {fuel rank i : Nat} {v : Vars ℝ ρ δ} {o : Res (Vars ℝ ρ δ)} {w w' : NState ℝ σ}
    (h : BodyRun ops prm fuel rank i v w o w') :
    ∃ new, reports w'.trace = reports w.trace ++ new ∧
      (new = [] ∨ ∃ S, new = [(i, ops.getF w.s, S, v.slope)]) := by
  cases h with
  | json o s1 file' g1 g2 => exact ⟨[], by simp, Or.inl rfl⟩
  | hostPrint s1 s2 file' o g1 g2 g3 =>
    refine ⟨[(i, ops.getF s1, ops.getS s1, v.slope)], ?_, Or.inr ⟨ops.getS s1, by rw [g1.getF hE]⟩⟩
    simp [searchStart, reports_append, reports]
  | search s1 s2 file' o st tr g1 g2 g3 g4 g5 g6 =>
    have : reports tr = [] := by
      cases o with
      | ok => simp [Res.isOk] at g4
      | throw e => rw [g5 e rfl]; rfl
      | ub => rw [g6 (Or.inl rfl)]; rfl
      | abort => rw [g6 (Or.inr rfl)]; rfl
    refine ⟨[(i, ops.getF s1, ops.getS s1, v.slope)], ?_, Or.inr ⟨ops.getS s1, by rw [g1.getF hE]⟩⟩
    simp [searchStart, reports_append, reports, this]
  | searched s1 s2 file' r st _ dirs s' force' g1 g2 g3 g4 =>
    refine ⟨[(i, ops.getF s1, ops.getS s1, v.slope)], ?_, Or.inr ⟨ops.getS s1, by rw [g1.getF hE]⟩⟩
    simp [searchStart, reports_append, reports, g4.proj.2.1]

/-- The reported energies do not increase. -/
theorem LoopRun.energies {ops : Ops ℝ σ ρ δ} {E : ρ → ℝ} (hE : ops.Reproducible E)
    {prm : NlcgParams ℝ} {fuel rank : Nat} {n i : Nat} {v : Vars ℝ ρ δ} {w : NState ℝ σ}
    {o : Res (Info ℝ)} {w' : NState ℝ σ} (h : LoopRun ops prm fuel rank n i v w o w') :
    ops.getF w.s = E v.pt →
    ∃ new, reports w'.trace = reports w.trace ++ new ∧ (∀ x ∈ new, x.2.1 ≤ ops.getF w.s) ∧
      (new.map (·.2.1)).Pairwise (· ≥ ·) := by
  have last : ∀ (i : Nat) (v : Vars ℝ ρ δ) (w w1 : NState ℝ σ) (o : Res (Vars ℝ ρ δ)),
      BodyRun ops prm fuel rank i v (started i v.slope w) o w1 →
      ∃ new, reports w1.trace = reports w.trace ++ new ∧ (∀ x ∈ new, x.2.1 ≤ ops.getF w.s) ∧
        (new.map (·.2.1)).Pairwise (· ≥ ·) := by
    intro i v w w1 o hb
    obtain ⟨new, e1, e2⟩ := hb.reports_le hE
    refine ⟨new, by rw [e1]; simp [started, reports_append, reports], ?_⟩
    rcases e2 with rfl | ⟨S, rfl⟩ <;> simp [started]
  induction h with
  | limit => intro _; exact ⟨[], by simp, by simp, by simp⟩
  | success n i v w s1 s2 file' h1 h2 h3 =>
    exact fun _ => ⟨[(i, ops.getF w.s, ops.getS w.s, v.slope)], by simp [reports_append, reports], by simp, by simp⟩
  | successJson n i v w o s1 file' h1 h2 h3 =>
    exact fun _ => ⟨[(i, ops.getF w.s, ops.getS w.s, v.slope)], by simp [reports_append, reports], by simp, by simp⟩
  | successPrint n i v w s1 file' o s2 h1 h2 h3 h4 =>
    exact fun _ => ⟨[(i, ops.getF w.s, ops.getS w.s, v.slope)], by simp [reports_append, reports], by simp, by simp⟩
  | step n i v w v' w1 o w' h1 h2 h3 ih =>
    intro h0
    obtain ⟨e1, e2⟩ := h2.energy hE (w := started i v.slope w) h0
    obtain ⟨new0, a1, a2⟩ := h2.reports_le hE
    obtain ⟨new, b1, b2, b3⟩ := ih e1
    have e2' : ops.getF w1.s ≤ ops.getF w.s := e2
    refine ⟨new0 ++ new, by rw [b1, a1]; simp [started, reports_append, reports], ?_, ?_⟩
    · intro x hx
      rcases List.mem_append.1 hx with hx | hx
      · rcases a2 with rfl | ⟨S, rfl⟩
        · simp at hx
        · simp at hx; subst hx; simp [started]
      · exact (b2 x hx).trans e2'
    · rcases a2 with rfl | ⟨S, rfl⟩
      · simpa using b3
      · simp only [List.singleton_append, List.map_cons, List.pairwise_cons]
        refine ⟨?_, b3⟩
        intro y hy
        obtain ⟨x, hx, rfl⟩ := List.mem_map.1 hy
        exact (b2 x hx).trans e2'
  | caught n i v w e w1 h1 h2 h3 => exact fun _ => last i v w w1 _ h2
  | uncaught n i v w o w1 h1 h2 h3 h4 => exact fun _ => last i v w w1 _ h2

end
end Nlcg
