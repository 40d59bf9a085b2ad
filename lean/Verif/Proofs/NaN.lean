import Verif.Proofs.DriverTotal
import Verif.Spec.NaN

/-! Searches and runs with energies that are not numbers. -/

namespace Nlcg
open Arith Spec
variable {α σ ρ δ : Type} [Arith α] {bad : α → Prop}

theorem qCurv_bad (hn : NaNLaws bad) {F0 slope F1 t : α} (h : bad F0 ∨ bad F1) : bad (qCurv F0 slope F1 t) := by
  apply hn.div_left
  rcases h with h | h
  · exact hn.sub_right _ _ h
  · exact hn.sub_left _ _ (hn.sub_left _ _ h)

theorem qMin_bad (hn : NaNLaws bad) {slope a : α} (h : bad a) : bad (qMin slope a) :=
  hn.div_right _ _ (hn.mul_right _ _ h)

/-- one round of the loop of the quadratic search ends it -/
theorem qlineLoop_bad (hn : NaNLaws bad) (env : LSEnv α σ ρ) (F0 slope t : α) (fuel : Nat) (st : LSState α σ)
    {r1 : ρ} {s1 : σ} (h1 : env.G t st.s = (.ok r1, s1)) (hb : bad F0 ∨ bad (env.getF s1)) :
    qlineLoop env F0 slope (fuel + 1) t st =
      some (.ok (qMin slope (qCurv F0 slope (env.getF s1) t)),
        { st with s := s1, evals := t :: st.evals }) := by
  rw [qlineLoop, FM.bind_apply]
  simp only [evalG, h1, readF_bind]
  rw [if_neg (by rw [hn.lt_left _ _ (qCurv_bad hn hb)]; simp)]
  rfl

/-- a search in which the starting energy or the energy of the trial step is not a number -/
theorem lineSearch_bad_eq (hn : NaNLaws bad) (env : LSEnv α σ ρ) (p : LSParams α) (fuel : Nat) (slope : α)
    (st : LSState α σ) (hs : (lit 0 <ᶠ slope) = false) {r1 r2 : ρ} {s1 s2 : σ}
    (h1 : env.G p.tTrial st.s = (.ok r1, s1)) (hb : bad (env.getF st.s) ∨ bad (env.getF s1))
    (h2 : env.G (qMin slope (qCurv (env.getF st.s) slope (env.getF s1) p.tTrial)) s1 = (.ok r2, s2))
    (hF : (env.getF st.s <ᶠ env.getF s2) = false) :
    lineSearch env p (fuel + 1) slope st = some (.ok r2,
      { s := s2, forceRestart := false,
        evals := qMin slope (qCurv (env.getF st.s) slope (env.getF s1) p.tTrial) :: p.tTrial :: st.evals }) := by
  rw [lineSearch, if_neg (by rw [hs]; simp), readF_bind, FM.bind_apply, FM.attempt, qline, readF_bind,
    FM.bind_apply, qlineLoop_bad hn env _ slope p.tTrial fuel st h1 hb]
  simp only
  rw [FM.bind_apply]
  simp only [evalG, h2, readF_bind]
  rw [if_neg (by rw [hF]; simp)]
  rfl

/-- a search that starts with an energy that is not a number and returns -/
theorem lineSearch_bad_inv (hn : NaNLaws bad) {env : LSEnv α σ ρ} {p : LSParams α} {fuel : Nat} {slope : α}
    {st st' : LSState α σ} {r : ρ} (hG : Absorbs bad env.G env.getF)
    (hst : ∀ t s, (env.G t s).1 ≠ .throw .stepError) (hb : bad (env.getF st.s))
    (h : lineSearch env p fuel slope st = some (.ok r, st')) : bad (env.getF st'.s) := by
  rcases lineSearch_inv _ _ _ _ _ _ _ h with ⟨_, h1, _⟩ | ⟨hs, ⟨h1, _⟩ | ⟨stm, h1, h2⟩⟩
  · simp at h1
  · cases fuel with
    | zero => rw [qline, readF_bind, FM.bind_apply] at h1; simp [qlineLoop] at h1
    | succ fuel =>
      rcases hg : env.G p.tTrial st.s with ⟨o1, s1⟩
      cases o1 with
      | ok r1 =>
        rw [qline, readF_bind, FM.bind_apply, qlineLoop_bad hn env _ slope p.tTrial fuel st hg (Or.inl hb)] at h1
        simp only at h1
        rcases evalG_bind h1 with ⟨r2, st1, he, h2⟩ | ⟨st1, e, he, h2⟩ | ⟨st1, he, h2⟩ | ⟨st1, he, h2⟩
        · obtain ⟨hG2, -, -⟩ := evalG_ok he
          rw [readF_bind, if_neg (by rw [hn.lt_left _ _ hb]; simp), setRestart_bind] at h2
          simp only [FM.pure_apply, Option.some.injEq, Prod.mk.injEq, Res.ok.injEq] at h2
          obtain ⟨rfl, rfl⟩ := h2
          exact hG _ _ _ _ (qMin_bad hn (qCurv_bad hn (Or.inl hb))) hG2
        all_goals simp at h2
      | _ =>
        rw [qline, readF_bind, FM.bind_apply, qlineLoop, FM.bind_apply] at h1
        simp [evalG, hg] at h1
  · exfalso
    rcases (qline_spec _ _ _ _ _ _ _ h1).2 with ⟨r', hr, -⟩ | ⟨-, -, h3, -⟩ | ⟨-, -, t, s0, h4⟩
    · simp at hr
    · rw [hn.lt_left _ _ hb] at h3; simp at h3
    · rcases h4 with ⟨e, he, hg⟩ | ⟨he, -⟩ | ⟨he, -⟩
      · cases he; exact hst t s0 (by rw [hg])
      · simp at he
      · simp at he

theorem DirRun.keeps {ops : Ops α σ ρ δ} (hk : KeepsEnergy ops) {prm : NlcgParams α} {i : Nat} {v : Vars α ρ δ}
    {r : ρ} {st : LSState α σ} {o : Res (Vars α ρ δ)} {dirs : List (Ev α)} {s' : σ} {force' : Bool}
    (h : DirRun ops prm i v r st o dirs s' force') (v' : Vars α ρ δ) (hv : o = .ok v') :
    ops.getF s' = ops.getF st.s := by
  cases h with
  | refresh => exact absurd hv (Res.fail_ne_ok _ _)
  | ub => simp at hv
  | steepestFail => exact absurd hv (Res.fail_ne_ok _ _)
  | steepest pt s4 sl dir s5 g1 g2 g3 g4 =>
    have a := hk.refresh r st.s; rw [g1] at a
    have b := hk.restarted pt s4; rw [g4] at b
    exact b.trans a
  | conjugateFail => exact absurd hv (Res.fail_ne_ok _ _)
  | conjugate pt s4 fr sl dir s5 g1 g2 g3 g4 g5 g6 =>
    have a := hk.refresh r st.s; rw [g1] at a
    have b := hk.conjugated v.fr pt v.dir s4; rw [g5] at b
    exact b.trans a
  | rejectedFail => exact absurd hv (Res.fail_ne_ok _ _)
  | rejected pt s4 fr c dir s5 sl dir6 s6 g1 g2 g3 g4 g5 g6 g7 =>
    have a := hk.refresh r st.s; rw [g1] at a
    have b := hk.conjugated v.fr pt v.dir s4; rw [g5] at b
    have c := hk.restarted pt s5; rw [g7] at c
    exact c.trans (b.trans a)

theorem JsonRun.keeps {ops : Ops α σ ρ δ} (hk : KeepsEnergy ops) {rank i : Nat} {slope : α} {pt : ρ}
    {w : NState α σ} {o : Res Unit} {s' : σ} {file' : List (JsonRec α)}
    (h : JsonRun ops rank i slope pt w o s' file') : ops.getF s' = ops.getF w.s := by
  obtain ⟨h1, -⟩ := h
  split at h1
  · have a := hk.gather pt w.s
    rw [← h1] at a
    exact a
  · cases h1; rfl

/-- what an iteration reports, and the energy it leaves -/
theorem BodyRun.stays_bad {ops : Ops α σ ρ δ} (hn : NaNLaws bad) (hk : KeepsEnergy ops)
    (hG : ∀ pt dir, Absorbs bad (ops.geo pt dir) ops.getF)
    (hst : ∀ pt dir t s, (ops.geo pt dir t s).1 ≠ .throw .stepError)
    {prm : NlcgParams α} {fuel rank i : Nat} {v v' : Vars α ρ δ} {w w' : NState α σ}
    (h : BodyRun ops prm fuel rank i v w (.ok v') w') (h0 : bad (ops.getF w.s)) : bad (ops.getF w'.s) := by
  generalize ho : (Res.ok v' : Res (Vars α ρ δ)) = o' at h
  cases h with
  | json o s1 file' g1 g2 => exact absurd ho.symm (Res.fail_ne_ok _ _)
  | hostPrint s1 s2 file' o g1 g2 g3 => exact absurd ho.symm (Res.fail_ne_ok _ _)
  | search s1 s2 file' o st tr g1 => exact absurd ho.symm (Res.fail_ne_ok _ _)
  | searched s1 s2 file' r st _ dirs s' force' g1 g2 g3 g4 =>
    have hp := hk.hostPrint s1
    rw [g2] at hp
    have hF : ops.getF s2 = ops.getF w.s := hp.trans (g1.keeps hk)
    show bad (ops.getF s')
    rw [g4.keeps hk v' ho.symm]
    exact lineSearch_bad_inv hn (hG v.pt v.dir) (hst v.pt v.dir) (by simpa only [hF] using h0) g3

theorem BodyRun.reports_keeps {ops : Ops α σ ρ δ} (hk : KeepsEnergy ops)
    {prm : NlcgParams α} {fuel rank i : Nat} {v : Vars α ρ δ} {o : Res (Vars α ρ δ)} {w w' : NState α σ}
    (h : BodyRun ops prm fuel rank i v w o w') :
    ∃ new, reports w'.trace = reports w.trace ++ new ∧
      (new = [] ∨ ∃ S, new = [(i, ops.getF w.s, S, v.slope)]) := by
  cases h with
  | json o s1 file' g1 g2 => exact ⟨[], by simp, Or.inl rfl⟩
  | hostPrint s1 s2 file' o g1 g2 g3 =>
    refine ⟨[(i, ops.getF s1, ops.getS s1, v.slope)], ?_, Or.inr ⟨ops.getS s1, by rw [g1.keeps hk]⟩⟩
    simp [searchStart, reports_append, reports]
  | search s1 s2 file' o st tr g1 g2 g3 g4 g5 g6 =>
    have : reports tr = [] := by
      cases o with
      | ok => simp [Res.isOk] at g4
      | throw e => rw [g5 e rfl]; rfl
      | ub => rw [g6 (Or.inl rfl)]; rfl
      | abort => rw [g6 (Or.inr rfl)]; rfl
    refine ⟨[(i, ops.getF s1, ops.getS s1, v.slope)], ?_, Or.inr ⟨ops.getS s1, by rw [g1.keeps hk]⟩⟩
    simp [searchStart, reports_append, reports, this]
  | searched s1 s2 file' r st _ dirs s' force' g1 g2 g3 g4 =>
    refine ⟨[(i, ops.getF s1, ops.getS s1, v.slope)], ?_, Or.inr ⟨ops.getS s1, by rw [g1.keeps hk]⟩⟩
    simp [searchStart, reports_append, reports, g4.proj.2.1]

/-- once a reported energy is not a number, all later ones are not -/
theorem LoopRun.stays_bad {ops : Ops α σ ρ δ} (hn : NaNLaws bad) (hk : KeepsEnergy ops)
    (hG : ∀ pt dir, Absorbs bad (ops.geo pt dir) ops.getF)
    (hst : ∀ pt dir t s, (ops.geo pt dir t s).1 ≠ .throw .stepError)
    {prm : NlcgParams α} {fuel rank : Nat} {n i : Nat} {v : Vars α ρ δ} {w : NState α σ}
    {o : Res (Info α)} {w' : NState α σ} (h : LoopRun ops prm fuel rank n i v w o w') :
    ∃ new, reports w'.trace = reports w.trace ++ new ∧ (bad (ops.getF w.s) → ∀ x ∈ new, bad x.2.1) ∧
      new.Pairwise (fun x y => bad x.2.1 → bad y.2.1) := by
  have last : ∀ (i : Nat) (v : Vars α ρ δ) (w w1 : NState α σ) (o : Res (Vars α ρ δ)),
      BodyRun ops prm fuel rank i v (started i v.slope w) o w1 →
      ∃ new, reports w1.trace = reports w.trace ++ new ∧ (bad (ops.getF w.s) → ∀ x ∈ new, bad x.2.1) ∧
      new.Pairwise (fun x y => bad x.2.1 → bad y.2.1) := by
    intro i v w w1 o hb
    obtain ⟨new, e1, e2⟩ := hb.reports_keeps hk
    refine ⟨new, by rw [e1]; simp [started, reports_append, reports], ?_⟩
    rcases e2 with rfl | ⟨S, rfl⟩ <;> simp [started]
  induction h with
  | limit => exact ⟨[], by simp, by simp, by simp⟩
  | success n i v w s1 s2 file' h1 h2 h3 =>
    exact ⟨[(i, ops.getF w.s, ops.getS w.s, v.slope)], by simp [reports_append, reports], by simp, by simp⟩
  | successJson n i v w o s1 file' h1 h2 h3 =>
    exact ⟨[(i, ops.getF w.s, ops.getS w.s, v.slope)], by simp [reports_append, reports], by simp, by simp⟩
  | successPrint n i v w s1 file' o s2 h1 h2 h3 h4 =>
    exact ⟨[(i, ops.getF w.s, ops.getS w.s, v.slope)], by simp [reports_append, reports], by simp, by simp⟩
  | step n i v w v' w1 o w' h1 h2 h3 ih =>
    have e2 : bad (ops.getF w.s) → bad (ops.getF w1.s) := h2.stays_bad hn hk hG hst (w := started i v.slope w)
    obtain ⟨new0, a1, a2⟩ := h2.reports_keeps hk
    obtain ⟨new, b1, b2, b3⟩ := ih
    refine ⟨new0 ++ new, by rw [b1, a1]; simp [started, reports_append, reports], ?_, ?_⟩
    · intro hb x hx
      rcases List.mem_append.1 hx with hx | hx
      · rcases a2 with rfl | ⟨S, rfl⟩
        · simp at hx
        · simp at hx; subst hx; simpa [started] using hb
      · exact b2 (e2 hb) x hx
    · rcases a2 with rfl | ⟨S, rfl⟩
      · simpa using b3
      · simp only [List.singleton_append, List.pairwise_cons]
        exact ⟨fun y hy hb => b2 (e2 hb) y hy, b3⟩
  | caught n i v w e w1 h1 h2 h3 => exact last i v w w1 _ h2
  | uncaught n i v w o w1 h1 h2 h3 h4 => exact last i v w w1 _ h2

end Nlcg
