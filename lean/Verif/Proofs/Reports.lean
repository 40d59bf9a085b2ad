import Verif.Proofs.Solver
import Verif.Proofs.DriverInv

/-! What is reported in an iteration belongs to one point. -/

namespace Nlcg
open Arith Matrix Spec

section rule
variable {α σ ρ δ : Type} [Arith α] {ops : Ops α σ ρ δ} {I0 I E : σ → Prop} {J G : ρ → σ → Prop}
  {D : ρ → δ → α → Prop}

/-- all reports in a list of events are those of a backend at an iterate -/
def ReportsOk (ops : Ops α σ ρ δ) (I : σ → Prop) (J : ρ → σ → Prop) (D : ρ → δ → α → Prop)
    (tr : List (Ev α)) : Prop :=
  ∀ i F S sl, Ev.report i F S sl ∈ tr →
    ∃ pt dir s, I s ∧ J pt s ∧ D pt dir sl ∧ F = ops.getF s ∧ S = ops.getS s

theorem ReportsOk.append {tr tr' : List (Ev α)} (h : ReportsOk ops I J D tr)
    (h' : ReportsOk ops I J D tr') : ReportsOk ops I J D (tr ++ tr') := fun i F S sl hm => by
  rcases List.mem_append.1 hm with hm | hm
  · exact h i F S sl hm
  · exact h' i F S sl hm

theorem ReportsOk.one {pt : ρ} {dir : δ} {sl : α} {s : σ} (hI : I s) (hJ : J pt s) (hD : D pt dir sl)
    (i : Nat) : ReportsOk ops I J D [.report i (ops.getF s) (ops.getS s) sl] := by
  intro i F S sl' hm
  simp only [List.mem_singleton, Ev.report.injEq] at hm
  obtain ⟨-, rfl, rfl, rfl⟩ := hm
  exact ⟨pt, dir, s, hI, hJ, hD, rfl, rfl⟩

theorem reportsOk_of_none {tr : List (Ev α)} (h : ∀ i F S sl, Ev.report i F S sl ∉ tr) :
    ReportsOk ops I J D tr := fun i F S sl hm => absurd hm (h i F S sl)

theorem RunRule.body_reports (hr : RunRule ops I0 I E J G D) {prm : NlcgParams α}
    {fuel rank i : Nat} {v : Vars α ρ δ} {w : NState α σ} {o : Res (Vars α ρ δ)} {w' : NState α σ}
    (h : BodyRun ops prm fuel rank i v w o w') (hI : I w.s) (hJ : J v.pt w.s)
    (hD : D v.pt v.dir v.slope) (hR : ReportsOk ops I J D w.trace) : ReportsOk ops I J D w'.trace := by
  have st : ∀ (s1 s2 : σ) (file' : List (JsonRec α)),
      JsonRun ops rank i v.slope v.pt w (.ok ()) s1 file' →
      ReportsOk ops I J D (searchStart ops i v.slope w s1 s2 file').trace := by
    intro s1 s2 file' hj
    have a := hr.json hj hI hJ
    exact hR.append (.one (a.soft trivial) (a.ok _ rfl) hD i)
  cases h with
  | json => exact hR
  | hostPrint s1 s2 file' o h1 => exact st s1 s2 file' h1
  | search s1 s2 file' o s tr h1 h2 h3 h4 h5 h6 =>
    refine (st s1 s2 file' h1).append (reportsOk_of_none fun j F S sl => ?_)
    cases o with
    | ok => simp [Res.isOk] at h4
    | throw e => rw [h5 e rfl]; simp
    | ub => rw [h6 (Or.inl rfl)]; simp
    | abort => rw [h6 (Or.inr rfl)]; simp
  | searched s1 s2 file' r s _ dirs s' force' h1 h2 h3 h4 =>
    refine (st s1 s2 file' h1).append (reportsOk_of_none fun j F S sl => ?_)
    cases h4 <;> simp

theorem RunRule.loop_reports (hr : RunRule ops I0 I E J G D) {prm : NlcgParams α} {fuel rank : Nat}
    {n i : Nat} {v : Vars α ρ δ} {w : NState α σ} {o : Res (Info α)} {w' : NState α σ}
    (h : LoopRun ops prm fuel rank n i v w o w') : I w.s → J v.pt w.s → D v.pt v.dir v.slope →
    ReportsOk ops I J D w.trace → ReportsOk ops I J D w'.trace := by
  have start : ∀ (i : Nat) (sl : α), ReportsOk ops I J D [.start i sl] := fun i sl =>
    reportsOk_of_none (by simp)
  have two : ∀ (v : Vars α ρ δ) (i : Nat) (w : NState α σ), I w.s → J v.pt w.s →
      D v.pt v.dir v.slope → ReportsOk ops I J D w.trace → ReportsOk ops I J D
        (w.trace ++ [.start i v.slope, .report i (ops.getF w.s) (ops.getS w.s) v.slope]) :=
    fun v i w hI hJ hD hR => hR.append ((start i v.slope).append (.one hI hJ hD i))
  induction h with
  | limit i v w => exact fun _ _ _ hR => hR
  | success n i v w s1 s2 file' h1 h2 h3 => exact two v i w
  | successJson n i v w o s1 file' h1 h2 h3 => exact two v i w
  | successPrint n i v w s1 file' o s2 h1 h2 h3 h4 => exact two v i w
  | step n i v w v' w1 o w' h1 h2 h3 ih =>
    intro hI hJ hD hR
    have a := hr.body h2 hI hJ hD
    obtain ⟨c, d⟩ := a.ok v' rfl
    exact ih (a.soft trivial) c d (hr.body_reports h2 hI hJ hD (hR.append (start i v.slope)))
  | caught n i v w e w1 h1 h2 h3 =>
    exact fun hI hJ hD hR => hr.body_reports h2 hI hJ hD (hR.append (start i v.slope))
  | uncaught n i v w o w1 h1 h2 h3 h4 =>
    exact fun hI hJ hD hR => hr.body_reports h2 hI hJ hD (hR.append (start i v.slope))

theorem RunRule.reports (hr : RunRule ops I0 I E J G D) {prm : NlcgParams α} {fuel rank : Nat}
    {w : NState α σ} {o : Res (Info α)} {w' : NState α σ}
    (h : nlcg ops prm fuel rank w = some (o, w')) (h0 : I0 w.s) : ReportsOk ops I J D w'.trace := by
  cases nlcg_run ops prm fuel rank w o w' h with
  | construct => exact reportsOk_of_none (by simp)
  | setup => exact reportsOk_of_none (by simp)
  | restarted => exact reportsOk_of_none (by simp)
  | loop s1 pt s2 slope dir s3 o w' h1 h2 h3 h4 =>
    have a := ((hr.construct w.s h0).of_eq h1).soft trivial
    have c := (hr.setup s1 a).of_eq h2
    have e := (hr.restarted pt s2 (c.ok pt rfl).1 (c.ok pt rfl).2).of_eq h3
    exact hr.loop_reports h4 (e.soft trivial) (e.ok _ rfl).1 (e.ok _ rfl).2
      (reportsOk_of_none (by simp))

end rule

theorem mem_reports {α : Type} {i : Nat} {F S sl : α} : ∀ {tr : List (Ev α)},
    (i, F, S, sl) ∈ Spec.reports tr ↔ Ev.report i F S sl ∈ tr
  | [] => by simp [Spec.reports]
  | e :: l => by
    have := mem_reports (i := i) (F := F) (S := S) (sl := sl) (tr := l)
    cases e <;> simp [Spec.reports, this]

/-! ## The members of `FreeEnergy` -/

variable {K : ℕ} {n b : Fin K → ℕ} {η : Type}

/-- free energy and entropy term in the backend are those of orbitals `X` and band energies `e` -/
def EnergyAt (host : Host η n b) (c : Cfg n b) (X : Orbitals n b) (e : Bands b) (mu : ℝ)
    (s : SState η n b) : Prop :=
  s.S = entropyTerm c.t c.T c.mo mu (List.ofFn fun k => (c.wk k, List.ofFn (e k))) ∧
  ∃ h E h', host.energy h = (some E, h') ∧ host.C h = X ∧ host.fn h = occs c.t c.T c.mo e mu ∧
    s.F = E + s.S

theorem Keeps.and {σ β : Type} {I E : σ → Prop} {P P' : β → σ → Prop} {q : Res β × σ}
    (h : Keeps I E P q) (h' : ∀ r, q.1 = .ok r → P r q.2 → P' r q.2) :
    Keeps I E (fun r s => P r s ∧ P' r s) q :=
  ⟨h.any, h.soft, fun r hr => ⟨h.ok r hr, h' r hr (h.ok r hr)⟩⟩

theorem evaluate_energyAt {host : Host η n b} {c : Cfg n b} (hs : Setting host c) {X : Orbitals n b}
    {fn en : Bands b} {mu : ℝ} {s s' : SState η n b}
    (h : evaluate host c X fn en mu s = (.ok (), s')) (hf : fn = occs c.t c.T c.mo en mu) :
    EnergyAt host c X en mu s' ∧ host.C s'.h = X := by
  subst hf
  rw [evaluate, hostCall_bind] at h
  rcases h1 : host.setC X s.h with ⟨_ | u1, s1⟩
  · rw [h1] at h; cases h
  simp only [h1] at h
  rw [hostCall_bind] at h
  simp only at h
  rcases h2 : host.setFn (occs c.t c.T c.mo en mu) s1 with ⟨_ | u2, s2⟩
  · rw [h2] at h; cases h
  simp only [h2] at h
  rw [hostCall_bind] at h
  simp only at h
  rcases h3 : host.compute s2 with ⟨_ | u3, s3⟩
  · rw [h3] at h; cases h
  simp only [h3] at h
  rw [hostCall_bind] at h
  simp only at h
  rcases h4 : host.setMu mu s3 with ⟨_ | u4, s4⟩
  · rw [h4] at h; cases h
  simp only [h4] at h
  rw [hostCall_bind] at h
  simp only at h
  rcases h5 : host.energy s4 with ⟨_ | e, s5⟩
  · rw [h5] at h; cases h
  simp only [h5] at h
  obtain ⟨f1, f2⟩ := hs.host.setFn _ s1 s2 h2
  obtain ⟨g1, g2, H, g3⟩ := hs.host.compute s2 s3 h3
  obtain ⟨m1, m2⟩ := hs.host.setMu mu s3 s4 h4
  cases h
  have hC : host.C s4 = X := by rw [m1.C, g1, f2, hs.host.setC X s.h s1 h1]
  exact ⟨⟨rfl, s4, e, s5, h5, hC, by rw [m1.fn, g2, f1], rfl⟩,
    (hs.host.energy s4 e s5 h5).1.C.trans hC⟩

/-- the rule of `solver_rule` with the energies -/
theorem solver_energy_rule {host : Host η n b} {c : Cfg n b} (hs : Setting host c) :
    RunRule (solverOps host c) (SStart host c) (SInv host c) (SEnd c)
      (fun pt s => SAt host c pt s ∧ EnergyAt host c pt.X pt.ek pt.mu s)
      (fun r s => Occ host c r.X r.ek r.mu s ∧ EnergyAt host c r.X r.ek r.mu s) (SDir c) := by
  have hr := solver_rule hs
  refine ⟨hr.weaken, hr.construct, fun s h => ?_, fun pt s hI hJ => ?_, fun fr pt dir s pt0 sl0 hI hJ hD => ?_,
    fun pt dir sl t s hI hD => ?_, fun r s hI hG => ?_, fun pt s hI hJ => ?_, fun pt s hI hJ => ?_⟩
  · have a := hr.setup s h
    refine ⟨a.any, a.soft, fun pt hp => ?_⟩
    obtain ⟨x, y⟩ := a.ok pt hp
    refine ⟨x, y, ?_⟩
    change (solverSetup host c s).1 = _ at hp
    change EnergyAt host c pt.X pt.ek pt.mu (solverSetup host c s).2
    rw [solverSetup, hostCall_bind] at hp ⊢
    rcases hc : host.compute s.h with ⟨_ | u, s1⟩
    · rw [hc] at hp; cases hp
    simp only [hc] at hp ⊢
    rw [SM.get_bind, SM.lift_bind] at hp ⊢
    simp only at hp ⊢
    rcases hocc : c.occ (host.ek s1) with ⟨mu, f⟩ | e | _ | _
    · simp only [hocc] at hp ⊢
      rw [SM.get_bind, SM.bind_apply] at hp ⊢
      simp only at hp ⊢
      rcases he : evaluate host c (host.C s1) f (host.ek s1) mu
        { s with h := s1, calls := s.calls ++ [.compute] } with ⟨_ | e | _ | _, s'⟩
      · rw [he] at hp
        obtain ⟨hE, hC⟩ := evaluate_energyAt hs he (hs.occ _ _ _ hocc)
        cases hp
        simp only [hC]
        exact hE
      all_goals rw [he] at hp; cases hp
    all_goals rw [hocc] at hp; cases hp
  · have a := (hr.restarted pt s hI hJ.1).and (P' := fun _ s' => EnergyAt host c pt.X pt.ek pt.mu s')
      fun q hq _ => hJ.2
    exact ⟨a.any, a.soft, fun r hr' => ⟨⟨(a.ok r hr').1.1, (a.ok r hr').2⟩, (a.ok r hr').1.2⟩⟩
  · have a := (hr.conjugated fr pt dir s pt0 sl0 hI hJ.1 hD).and
      (P' := fun _ s' => EnergyAt host c pt.X pt.ek pt.mu s') fun q hq _ => hJ.2
    exact ⟨a.any, a.soft, fun r hr' => ⟨⟨(a.ok r hr').1.1, (a.ok r hr').2⟩, (a.ok r hr').1.2⟩⟩
  · refine (hr.geo pt dir sl t s hI hD).and fun r hq _ => ?_
    change (solverGeo host c pt dir t s).1 = _ at hq
    change EnergyAt host c r.X r.ek r.mu (solverGeo host c pt dir t s).2
    rw [solverGeo, SM.lift_bind] at hq ⊢
    rcases hg : forAllK (fun k =>
      geodesicUs c.la (pt.X k) (pt.eta k) (dir.zx k) (dir.zeta k) (c.S k) t) with g | e | _ | _
    · simp only [hg] at hq ⊢
      rw [SM.lift_bind] at hq ⊢
      rcases hocc : c.occ (fun k => (g k).ek) with ⟨mu, f⟩ | e | _ | _
      · simp only [hocc] at hq ⊢
        rw [SM.bind_apply] at hq ⊢
        rcases he : evaluate host c (fun k => (g k).X) f (fun k => (g k).ek) mu s with ⟨_ | e | _ | _, s'⟩
        · rw [he] at hq
          have hE := evaluate_energyAt hs he (hs.occ _ _ _ hocc)
          cases hq
          exact hE.1
        all_goals rw [he] at hq; cases hq
      all_goals rw [hocc] at hq; cases hq
    all_goals rw [hg] at hq; cases hq
  · refine (hr.refresh r s hI hG.1).and ?_
    rintro pt ⟨⟩ -
    exact hG.2
  · exact (hr.gather pt s hI hJ.1).and fun _ _ _ => hJ.2
  · refine (hr.print pt s hI hJ.1).and fun _ _ _ => ?_
    show EnergyAt host c pt.X pt.ek pt.mu (hostCall .print host.print s).2
    rw [hostCall]
    rcases host.print s.h with ⟨_ | u, s1⟩ <;> exact hJ.2

end Nlcg
