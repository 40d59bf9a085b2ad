import Verif.Proofs.NaN
import Verif.Proofs.Reduce
import Verif.Spec.ZeroWeight

/-! NaN slopes: where they come from and what a run does with them. -/

namespace Nlcg
open Arith Spec
variable {α σ ρ δ : Type} [Arith α] {zero bad : α → Prop}

theorem scaled_bad (hz : ZeroLaws zero bad) {wk : α} (hw : zero wk) (kappa x : α) :
    bad ((kappa /ᶠ wk) *ᶠ (wk *ᶠ x)) := by
  rcases hz.zero_mul wk x hw with h | h
  · exact hz.div_zero_mul _ _ _ hw h
  · exact hz.mul_right _ _ h

theorem deltaEtaA_bad (hz : ZeroLaws zero bad) {n : ℕ} {wk : α} (hw : zero wk) (kappa : α)
    (ip : Fin n → Fin n → Cx α) (ek : Fin n → α) (i j : Fin n) :
    bad (deltaEtaA kappa (hijW wk ip) ek wk i j).1 ∧ bad (deltaEtaA kappa (hijW wk ip) ek wk i j).2 := by
  unfold deltaEtaA
  simp only
  split
  · exact ⟨hz.sub_left _ _ (scaled_bad hz hw _ _), scaled_bad hz hw _ _⟩
  · exact ⟨scaled_bad hz hw _ _, scaled_bad hz hw _ _⟩

omit [Arith α] in
theorem foldl_bad_start {β : Type} (f : α → β → α) (hf : ∀ a b, bad a → bad (f a b)) (l : List β) (a : α)
    (h : bad a) : bad (l.foldl f a) := by
  induction l generalizing a with
  | nil => exact h
  | cons b l ih => exact ih _ (hf a b h)

omit [Arith α] in
theorem foldl_bad_mem {β : Type} (f : α → β → α) (hf : ∀ a b, bad a → bad (f a b)) (l : List β) (b : β)
    (hb : b ∈ l) (h : ∀ a, bad (f a b)) (a : α) : bad (l.foldl f a) := by
  induction l generalizing a with
  | nil => simp at hb
  | cons c l ih =>
    rcases List.mem_cons.1 hb with rfl | hb
    · exact foldl_bad_start f hf l _ (h a)
    · exact ih hb _

/-- the real part of a complex sum -/
theorem foldl_cxAdd_fst {β : Type} (f : β → Cx α) (l : List β) (z : Cx α) :
    (l.foldl (fun s b => Cx.add s (f b)) z).1 = l.foldl (fun s b => s +ᶠ (f b).1) z.1 := by
  induction l generalizing z with
  | nil => rfl
  | cons b l ih => exact ih _

theorem innerhTrA_bad (hz : ZeroLaws zero bad) {n m : ℕ} (x y : Fin n → Fin m → Cx α) (i : Fin n) (j : Fin m)
    (h : bad (y i j).1) : bad (innerhTrA x y).1 := by
  unfold innerhTrA
  rw [foldl_cxAdd_fst]
  refine foldl_bad_mem _ (fun a b ha => hz.add_left _ _ ha) _ i (List.mem_finRange i) (fun a => ?_) _
  apply hz.add_right
  rw [foldl_cxAdd_fst]
  refine foldl_bad_mem _ (fun a b ha => hz.add_left _ _ ha) _ j (List.mem_finRange j) (fun a => ?_) _
  exact hz.add_right _ _ (hz.sub_left _ _ (hz.mul_right _ _ h))

theorem KPoint.fr_bad (hz : ZeroLaws zero bad) (kappa : α) (k : KPoint α) (h : ZeroWeight zero k) :
    bad (k.fr kappa) :=
  hz.add_right _ _ (innerhTrA_bad hz _ _ ⟨0, h.2⟩ ⟨0, h.2⟩ (deltaEtaA_bad hz h.1 kappa k.ip k.ek _ _).1)

theorem reduce_bad (hz : ZeroLaws zero bad) (xs : List α) (r : ℕ) (x : α) (hx : xs[r]? = some x) (hb : bad x)
    (o : Order) (hr : r ∈ o.ranks) (c : α) (h : @Order.reduce α ⟨Arith.add⟩ xs o = .ok c) : bad c := by
  induction o generalizing c with
  | rank r' =>
    simp only [Order.ranks, List.mem_singleton] at hr
    subst hr
    simp only [Order.reduce, hx, Res.ok.injEq] at h
    exact h ▸ hb
  | join a b iha ihb =>
    simp only [Order.reduce] at h
    cases ha : @Order.reduce α ⟨Arith.add⟩ xs a with
    | ok u =>
      cases hb' : @Order.reduce α ⟨Arith.add⟩ xs b with
      | ok v =>
        rw [ha, hb'] at h
        have h' : u +ᶠ v = c := Res.ok.inj h
        rw [← h']
        simp only [Order.ranks, List.mem_append] at hr
        rcases hr with hr | hr
        · exact hz.add_left _ _ (iha hr u ha)
        · exact hz.add_right _ _ (ihb hr v hb')
      | _ => rw [ha, hb'] at h; cases h
    | _ => rw [ha] at h; cases h

theorem frTotal_bad (hz : ZeroLaws zero bad) (kappa : α) (o : Order) (ranks : List (List (KPoint α)))
    (hc : Covers o ranks.length) (hk : ∃ ks ∈ ranks, ∃ k ∈ ks, ZeroWeight zero k) (fr : α)
    (h : frTotal kappa o ranks = .ok fr) : bad fr := by
  obtain ⟨ks, hks, k, hk, hw⟩ := hk
  obtain ⟨r, hr, rfl⟩ := List.mem_iff_getElem.1 hks
  refine reduce_bad hz _ r (ranks[r].foldl (fun s k => s +ᶠ k.fr kappa) (lit 0)) (by simp [hr]) ?_ o ?_ fr h
  · exact foldl_bad_mem _ (fun a b ha => hz.add_left _ _ ha) _ k hk
      (fun a => hz.add_right _ _ (KPoint.fr_bad hz kappa k hw)) _
  · exact hc.mem_iff.2 (List.mem_range.2 hr)

theorem cgSlope_bad (hz : ZeroLaws zero bad) {fr : α} (frOld slopeZp : α) (h : bad fr) :
    bad (cgSlope fr frOld slopeZp) := hz.add_left _ _ h

/-! ## Runs with such slopes -/

theorem qCurv_bad_slope (hz : ZeroLaws zero bad) {F0 slope F1 t : α} (h : bad slope) : bad (qCurv F0 slope F1 t) :=
  hz.div_left _ _ (hz.sub_left _ _ (hz.sub_right _ _ (hz.mul_left _ _ h)))

theorem qMin_bad_slope (hz : ZeroLaws zero bad) {slope a : α} (h : bad slope) : bad (qMin slope a) :=
  hz.div_left _ _ (hz.neg _ h)

/-- one round of the loop of the quadratic search ends it -/
theorem qlineLoop_bad_slope (hz : ZeroLaws zero bad) (env : LSEnv α σ ρ) (F0 slope t : α) (fuel : Nat)
    (st : LSState α σ) (hs : bad slope) {r1 : ρ} {s1 : σ} (h1 : env.G t st.s = (.ok r1, s1)) :
    qlineLoop env F0 slope (fuel + 1) t st =
      some (.ok (qMin slope (qCurv F0 slope (env.getF s1) t)), { st with s := s1, evals := t :: st.evals }) := by
  rw [qlineLoop, FM.bind_apply]
  simp only [evalG, h1, readF_bind]
  rw [if_neg (by rw [hz.lt_left _ _ (qCurv_bad_slope hz hs)]; simp)]
  rfl

theorem lineSearch_bad_slope (hz : ZeroLaws zero bad) (env : LSEnv α σ ρ) (p : LSParams α) (fuel : Nat) (slope : α)
    (st : LSState α σ) (hs : bad slope) {r1 r2 : ρ} {s1 s2 : σ}
    (h1 : env.G p.tTrial st.s = (.ok r1, s1))
    (h2 : env.G (qMin slope (qCurv (env.getF st.s) slope (env.getF s1) p.tTrial)) s1 = (.ok r2, s2))
    (hF : (env.getF st.s <ᶠ env.getF s2) = false) :
    lineSearch env p (fuel + 1) slope st = some (.ok r2,
      { s := s2, forceRestart := false,
        evals := qMin slope (qCurv (env.getF st.s) slope (env.getF s1) p.tTrial) :: p.tTrial :: st.evals }) := by
  rw [lineSearch, if_neg (by rw [hz.lt_right _ _ hs]; simp), readF_bind, FM.bind_apply, FM.attempt, qline, readF_bind,
    FM.bind_apply, qlineLoop_bad_slope hz env _ slope p.tTrial fuel st hs h1]
  simp only
  rw [FM.bind_apply]
  simp only [evalG, h2, readF_bind]
  rw [if_neg (by rw [hF]; simp)]
  rfl

/-- what the quadratic search does with such a slope -/
theorem qline_bad_slope (hz : ZeroLaws zero bad) {env : LSEnv α σ ρ} {p : LSParams α} {fuel : Nat} {slope : α}
    {st st' : LSState α σ} {o : Res ρ} (hs : bad slope) (hG : Absorbs bad env.G env.getF)
    (hst : ∀ t s, (env.G t s).1 ≠ .throw .stepError) (h : qline env p fuel slope st = some (o, st')) :
    o ≠ .throw .stepError ∧ (∀ r, o = .ok r → bad (env.getF st'.s)) := by
  cases fuel with
  | zero => rw [qline, readF_bind, FM.bind_apply] at h; simp [qlineLoop] at h
  | succ fuel =>
    rw [qline, readF_bind, FM.bind_apply] at h
    rcases hg : env.G p.tTrial st.s with ⟨o1, s1⟩
    have hne : o1 ≠ .throw .stepError := by have := hst p.tTrial st.s; rwa [hg] at this
    cases o1 with
    | ok r1 =>
      rw [qlineLoop_bad_slope hz env _ slope p.tTrial fuel st hs hg] at h
      simp only at h
      rcases evalG_bind h with ⟨r2, st1, he, h2⟩ | ⟨st1, e, he, h2⟩ | ⟨st1, he, h2⟩ | ⟨st1, he, h2⟩
      · obtain ⟨hG2, -, -⟩ := evalG_ok he
        have hF := hG _ _ _ _ (qMin_bad_slope hz hs) hG2
        rw [readF_bind, if_neg (by rw [hz.lt_right _ _ hF]; simp), setRestart_bind] at h2
        simp only [FM.pure_apply, Option.some.injEq, Prod.mk.injEq] at h2
        obtain ⟨rfl, rfl⟩ := h2
        exact ⟨by simp, fun _ _ => hF⟩
      · simp only [Option.some.injEq, Prod.mk.injEq] at h2
        obtain ⟨rfl, rfl⟩ := h2
        obtain ⟨hG2, -, -⟩ := evalG_ok he
        refine ⟨fun h => ?_, by simp⟩
        have := hst (qMin slope (qCurv (env.getF st.s) slope (env.getF s1) p.tTrial)) s1
        rw [hG2] at this
        exact this h
      · simp only [Option.some.injEq, Prod.mk.injEq] at h2
        obtain ⟨rfl, rfl⟩ := h2
        simp
      · simp only [Option.some.injEq, Prod.mk.injEq] at h2
        obtain ⟨rfl, rfl⟩ := h2
        simp
    | throw e =>
      rw [qlineLoop, FM.bind_apply] at h
      simp [evalG, hg] at h
      obtain ⟨rfl, rfl⟩ := h
      exact ⟨fun h => hne (by rw [Res.throw.inj h]), by simp⟩
    | ub =>
      rw [qlineLoop, FM.bind_apply] at h
      simp [evalG, hg] at h
      obtain ⟨rfl, rfl⟩ := h
      simp
    | abort =>
      rw [qlineLoop, FM.bind_apply] at h
      simp [evalG, hg] at h
      obtain ⟨rfl, rfl⟩ := h
      simp

theorem lineSearch_bad_slope_inv (hz : ZeroLaws zero bad) {env : LSEnv α σ ρ} {p : LSParams α} {fuel : Nat}
    {slope : α} {st st' : LSState α σ} {r : ρ} (hs : bad slope) (hG : Absorbs bad env.G env.getF)
    (hst : ∀ t s, (env.G t s).1 ≠ .throw .stepError) (h : lineSearch env p fuel slope st = some (.ok r, st')) :
    bad (env.getF st'.s) := by
  rcases lineSearch_inv _ _ _ _ _ _ _ h with ⟨_, h1, _⟩ | ⟨-, ⟨h1, _⟩ | ⟨stm, h1, h2⟩⟩
  · simp at h1
  · exact (qline_bad_slope hz hs hG hst h1).2 r rfl
  · exact absurd rfl (qline_bad_slope hz hs hG hst h1).1

theorem DirRun.bad_slope (hz : ZeroLaws zero bad) {kappa : α} {ops : Ops α σ ρ δ} (hops : SlopesWithZero zero kappa ops)
    {prm : NlcgParams α} {i : Nat} {v : Vars α ρ δ}
    {r : ρ} {st : LSState α σ} {o : Res (Vars α ρ δ)} {dirs : List (Ev α)} {s' : σ} {force' : Bool}
    (h : DirRun ops prm i v r st o dirs s' force') (v' : Vars α ρ δ) (hv : o = .ok v') : bad v'.slope := by
  cases h with
  | refresh => exact absurd hv (Res.fail_ne_ok _ _)
  | ub => simp at hv
  | steepestFail => exact absurd hv (Res.fail_ne_ok _ _)
  | steepest pt s4 sl dir s5 g1 g2 g3 g4 =>
    obtain ⟨o, ranks, a1, a2, a3⟩ := hops.restarted _ _ _ _ _ g4
    obtain rfl := Res.ok.inj hv
    exact frTotal_bad hz _ _ _ a1 a2 _ a3
  | conjugateFail => exact absurd hv (Res.fail_ne_ok _ _)
  | conjugate pt s4 fr sl dir s5 g1 g2 g3 g4 g5 g6 =>
    obtain ⟨o, ranks, zp, a1, a2, a3, a4⟩ := hops.conjugated _ _ _ _ _ _ _ _ g5
    obtain rfl := Res.ok.inj hv
    simp only [a4]
    exact cgSlope_bad hz _ _ (frTotal_bad hz _ _ _ a1 a2 _ a3)
  | rejectedFail => exact absurd hv (Res.fail_ne_ok _ _)
  | rejected pt s4 fr c dir s5 sl dir6 s6 g1 g2 g3 g4 g5 g6 g7 =>
    obtain ⟨o, ranks, a1, a2, a3⟩ := hops.restarted _ _ _ _ _ g7
    obtain rfl := Res.ok.inj hv
    exact frTotal_bad hz _ _ _ a1 a2 _ a3

theorem BodyRun.bad_slope (hz : ZeroLaws zero bad) {kappa : α} {ops : Ops α σ ρ δ} (hops : SlopesWithZero zero kappa ops)
    {prm : NlcgParams α} {fuel rank i : Nat} {v v' : Vars α ρ δ} {w w' : NState α σ}
    (h : BodyRun ops prm fuel rank i v w (.ok v') w') : bad v'.slope := by
  generalize ho : (Res.ok v' : Res (Vars α ρ δ)) = o' at h
  cases h with
  | json o s1 file' g1 g2 => exact absurd ho.symm (Res.fail_ne_ok _ _)
  | hostPrint s1 s2 file' o g1 g2 g3 => exact absurd ho.symm (Res.fail_ne_ok _ _)
  | search s1 s2 file' o st tr g1 => exact absurd ho.symm (Res.fail_ne_ok _ _)
  | searched s1 s2 file' r st _ dirs s' force' g1 g2 g3 g4 => exact g4.bad_slope hz hops v' ho.symm

theorem BodyRun.bad_energy (hz : ZeroLaws zero bad) {ops : Ops α σ ρ δ} (hk : KeepsEnergy ops)
    (hG : ∀ pt dir, Absorbs bad (ops.geo pt dir) ops.getF)
    (hst : ∀ pt dir t s, (ops.geo pt dir t s).1 ≠ .throw .stepError)
    {prm : NlcgParams α} {fuel rank i : Nat} {v v' : Vars α ρ δ} {w w' : NState α σ} (hs : bad v.slope)
    (h : BodyRun ops prm fuel rank i v w (.ok v') w') : bad (ops.getF w'.s) := by
  generalize ho : (Res.ok v' : Res (Vars α ρ δ)) = o' at h
  cases h with
  | json o s1 file' g1 g2 => exact absurd ho.symm (Res.fail_ne_ok _ _)
  | hostPrint s1 s2 file' o g1 g2 g3 => exact absurd ho.symm (Res.fail_ne_ok _ _)
  | search s1 s2 file' o st tr g1 => exact absurd ho.symm (Res.fail_ne_ok _ _)
  | searched s1 s2 file' r st _ dirs s' force' g1 g2 g3 g4 =>
    show bad (ops.getF s')
    rw [g4.keeps hk v' ho.symm]
    exact lineSearch_bad_slope_inv hz hs (hG v.pt v.dir) (hst v.pt v.dir) g3

/-- all reports of a loop whose slopes are not numbers: the first may have an energy that is a number -/
theorem LoopRun.bad_slope (hz : ZeroLaws zero bad) {kappa : α} {ops : Ops α σ ρ δ} (hops : SlopesWithZero zero kappa ops)
    (hk : KeepsEnergy ops)
    (hG : ∀ pt dir, Absorbs bad (ops.geo pt dir) ops.getF)
    (hst : ∀ pt dir t s, (ops.geo pt dir t s).1 ≠ .throw .stepError)
    {prm : NlcgParams α} {fuel rank : Nat} {n i : Nat} {v : Vars α ρ δ} {w : NState α σ}
    {o : Res (Info α)} {w' : NState α σ} (h : LoopRun ops prm fuel rank n i v w o w') (hs : bad v.slope)
    (hw : w.info.converged = false) (h0 : i ≠ 0 → bad (ops.getF w.s)) :
    (∃ new, reports w'.trace = reports w.trace ++ new ∧
      ∀ x ∈ new, bad x.2.2.2 ∧ (x.1 ≠ 0 → bad x.2.1)) ∧ w'.info.converged = false ∧
      (∀ info, o = .ok info → info.converged = false) := by
  have nope : ∀ v : Vars α ρ δ, bad v.slope → (Arith.abs v.slope <ᶠ prm.tol) = true → False := by
    intro v hb h
    rw [hz.lt_left _ _ (hz.abs _ hb)] at h; simp at h
  have body : ∀ (i : Nat) (v : Vars α ρ δ) (w w1 : NState α σ) (o : Res (Vars α ρ δ)), bad v.slope →
      (i ≠ 0 → bad (ops.getF w.s)) →
      BodyRun ops prm fuel rank i v (started i v.slope w) o w1 →
      ∃ new, reports w1.trace = reports w.trace ++ new ∧ ∀ x ∈ new, bad x.2.2.2 ∧ (x.1 ≠ 0 → bad x.2.1) := by
    intro i v w w1 o hs h0 hb
    obtain ⟨new, e1, e2⟩ := hb.reports_keeps hk
    refine ⟨new, by rw [e1]; simp [started, reports_append, reports], ?_⟩
    rcases e2 with rfl | ⟨S, rfl⟩
    · simp
    · simpa [started] using ⟨hs, h0⟩
  have conv : ∀ (i : Nat) (v : Vars α ρ δ) (w w1 : NState α σ) (o : Res (Vars α ρ δ)),
      w.info.converged = false → BodyRun ops prm fuel rank i v (started i v.slope w) o w1 →
      w1.info.converged = false := by
    intro i v w w1 o hw hb
    cases hb <;> first | exact hw | rfl
  induction h with
  | limit i v w => exact ⟨⟨[], by simp, by simp⟩, hw, fun info h => by cases h; exact hw⟩
  | success n i v w s1 s2 file' h1 => exact (nope v hs h1).elim
  | successJson n i v w o s1 file' h1 => exact (nope v hs h1).elim
  | successPrint n i v w s1 file' o s2 h1 => exact (nope v hs h1).elim
  | step n i v w v' w1 o w' h1 h2 h3 ih =>
    obtain ⟨new0, a1, a2⟩ := body i v w w1 _ hs h0 h2
    obtain ⟨⟨new, b1, b2⟩, b3, b4⟩ := ih (h2.bad_slope hz hops) (conv i v w w1 _ hw h2)
      (fun _ => h2.bad_energy hz hk hG hst hs)
    refine ⟨⟨new0 ++ new, by rw [b1, a1]; simp, ?_⟩, b3, b4⟩
    intro x hx
    rcases List.mem_append.1 hx with hx | hx
    · exact a2 x hx
    · exact b2 x hx
  | caught n i v w e w1 h1 h2 h3 =>
    exact ⟨body i v w w1 _ hs h0 h2, conv i v w w1 _ hw h2, fun info h => by cases h; exact conv i v w w1 _ hw h2⟩
  | uncaught n i v w o w1 h1 h2 h3 h4 =>
    exact ⟨body i v w w1 _ hs h0 h2, conv i v w w1 _ hw h2, fun info h => absurd h (Res.fail_ne_ok _ _)⟩

end Nlcg
