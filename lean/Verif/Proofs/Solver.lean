import Verif.Proofs.RunRule
import Verif.Spec.Host
import Verif.Props.Descent
import Verif.Props.Geodesic

/-! The run invariant of the composed solver. -/

namespace Nlcg
open Matrix Spec ComplexOrder Arith

variable {K : ℕ} {n b : Fin K → ℕ} {η : Type}

theorem hostCall_bind {β γ : Type} (call : HostCall n b) (f : η → Option β × η)
    (g : β → SM (SState η n b) γ) (s : SState η n b) :
    (hostCall call f >>= g) s = match f s.h with
      | (some r, h') => g r { s with h := h', calls := s.calls ++ [call] }
      | (none, h') => (.throw .runtimeError, { s with h := h', calls := s.calls ++ [call] }) := by
  rw [SM.bind_apply, hostCall]
  rcases f s.h with ⟨_ | r, h'⟩ <;> rfl

theorem forAllK_ok : {K : ℕ} → {β : Fin K → Type} → {f : (k : Fin K) → Res (β k)} →
    {r : (k : Fin K) → β k} → forAllK f = .ok r → ∀ k, f k = .ok (r k)
  | 0, _, _, _, _ => fun k => k.elim0
  | K + 1, β, f, r, h => by
    rw [forAllK, Res.bind_eq_ok] at h
    obtain ⟨a, ha, h⟩ := h
    rw [Res.bind_eq_ok] at h
    obtain ⟨q, hq, h⟩ := h
    cases h
    intro k
    refine Fin.cases ?_ (fun k => ?_) k
    · exact ha
    · exact forAllK_ok hq k

theorem forAllK_of_ok : {K : ℕ} → {β : Fin K → Type} → (f : (k : Fin K) → Res (β k)) →
    (∀ k, ∃ r, f k = .ok r) → ∃ r, forAllK f = .ok r
  | 0, _, _, _ => ⟨_, rfl⟩
  | K + 1, β, f, h => by
    obtain ⟨a, ha⟩ := h 0
    obtain ⟨q, hq⟩ := forAllK_of_ok (fun k => f k.succ) (fun k => h k.succ)
    exact ⟨_, by rw [forAllK, ha, Res.bind_ok, hq]; rfl⟩

/-! ## One evaluation -/

theorem Spec.AllOrtho.append {S : (k : Fin K) → Mat (n k) (n k)} {cs : List (HostCall n b)}
    (h : AllOrtho S cs) (cs' : List (HostCall n b)) (h' : AllOrtho S cs') : AllOrtho S (cs ++ cs') := by
  intro X hX
  rcases List.mem_append.1 hX with hX | hX
  · exact h X hX
  · exact h' X hX

/-- the host is at the evaluated point `p` -/
structure AtHost (host : Host η n b) (h : η) (p : Evaluated n b) : Prop where
  C : host.C h = p.1
  fn : host.fn h = p.2.1
  mu : host.mu h = p.2.2
  computed : ∃ H, Computed host h H

theorem Spec.Computed.same {host : Host η n b} {h h' : η} {H : (k : Fin K) → Mat (n k) (n k)}
    (hc : Computed host h H) (hv : SameView host h h') : Computed host h' H :=
  ⟨hc.herm, fun k => by rw [hv.hphi, hv.C]; exact hc.hphi k,
    fun k i => by rw [hv.ek, hv.C]; exact hc.ek k i⟩

/-- what holds after an exception -/
def SEnd (c : Cfg n b) (s : SState η n b) : Prop := Interrupted s.calls ∧ AllOrtho c.S s.calls

/-- what holds between the operations of the driver -/
def SInv (host : Host η n b) (c : Cfg n b) (s : SState η n b) : Prop :=
  AllOrtho c.S s.calls ∧ ∃ p, Protocol s.calls (some p) ∧ AtHost host s.h p ∧ ∀ k, SOrtho (c.S k) (p.1 k)

theorem SInv.toEnd {host : Host η n b} {c : Cfg n b} {s : SState η n b} (h : SInv host c s) :
    SEnd c s :=
  ⟨⟨s.calls, _, h.2.choose_spec.1, List.prefix_refl _⟩, h.1⟩

/-- An evaluation either completes, and then the host is at the point, or is cut short by an
exception that is not one of the solver's own. -/
theorem evaluate_spec {host : Host η n b} {c : Cfg n b} (hh : HostOk host) (X : Orbitals n b)
    (fn en : Bands b) (mu : ℝ) (s : SState η n b) {l : Option (Evaluated n b)}
    (hp : Protocol s.calls l) (ho : AllOrtho c.S s.calls) (hX : ∀ k, SOrtho (c.S k) (X k)) :
    (∃ s', evaluate host c X fn en mu s = (.throw .runtimeError, s') ∧ SEnd c s') ∨
    (∃ s', evaluate host c X fn en mu s = (.ok (), s') ∧ s'.calls = s.calls ++ evaluation (X, fn, mu) ∧
      SInv host c s' ∧ AtHost host s'.h (X, fn, mu) ∧
      s'.S = entropyTerm c.t c.T c.mo mu (List.ofFn fun k => (c.wk k, List.ofFn (en k))) ∧
      ∃ h e, host.energy h = (some e, s'.h) ∧ s'.F = e + s'.S) := by
  have hfull : Protocol (s.calls ++ evaluation (X, fn, mu)) (some (X, fn, mu)) :=
    .evaluate _ _ _ hp
  have hortho : ∀ cs : List (HostCall n b), (∀ Y, HostCall.setC Y ∈ cs → Y = X) →
      AllOrtho c.S (s.calls ++ cs) := fun cs hcs =>
    ho.append _ fun Y hY => by rw [hcs Y hY]; exact hX
  have cut : ∀ (h' : η) (cs : List (HostCall n b)), (cs <+: evaluation (X, fn, mu)) →
      (∀ Y, HostCall.setC Y ∈ cs → Y = X) → ∀ F S, SEnd c { h := h', F := F, S := S, calls := s.calls ++ cs } :=
    fun h' cs hcs hY F S => ⟨⟨_, _, hfull, (List.prefix_append_right_inj _).2 hcs⟩, hortho cs hY⟩
  rw [evaluate, hostCall_bind]
  rcases h1 : host.setC X s.h with ⟨_ | u1, s1⟩
  · exact Or.inl ⟨_, rfl, cut s1 _ ⟨_, rfl⟩ (by simp) _ _⟩
  simp only
  rw [hostCall_bind]
  rcases h2 : host.setFn fn s1 with ⟨_ | u2, s2⟩
  · refine Or.inl ⟨_, rfl, ?_⟩
    simp only [h2, List.append_assoc, List.cons_append, List.nil_append]
    exact cut s2 _ ⟨[.compute, .setMu mu, .energy], rfl⟩ (by simp) _ _
  simp only
  rw [hostCall_bind]
  simp only [h2]
  rcases h3 : host.compute s2 with ⟨_ | u3, s3⟩
  · refine Or.inl ⟨_, rfl, ?_⟩
    simp only [List.append_assoc, List.cons_append, List.nil_append]
    exact cut s3 _ ⟨[.setMu mu, .energy], rfl⟩ (by simp) _ _
  simp only
  rw [hostCall_bind]
  rcases h4 : host.setMu mu s3 with ⟨_ | u4, s4⟩
  · refine Or.inl ⟨_, rfl, ?_⟩
    simp only [h4, List.append_assoc, List.cons_append, List.nil_append]
    exact cut s4 _ ⟨[.energy], rfl⟩ (by simp) _ _
  simp only
  rw [hostCall_bind]
  simp only [h4]
  rcases h5 : host.energy s4 with ⟨_ | e, s5⟩
  · refine Or.inl ⟨_, rfl, ?_⟩
    simp only [List.append_assoc, List.cons_append, List.nil_append]
    exact cut s5 _ (List.prefix_refl _) (by simp [evaluation]) _ _
  right
  obtain ⟨f1, f2⟩ := hh.setFn fn s1 s2 h2
  obtain ⟨g1, g2, H, g3⟩ := hh.compute s2 s3 h3
  obtain ⟨m1, m2⟩ := hh.setMu mu s3 s4 h4
  obtain ⟨e1, e2⟩ := hh.energy s4 e s5 h5
  have hat : AtHost host s5 (X, fn, mu) :=
    ⟨by rw [e1.C, m1.C, g1, f2, hh.setC X s.h s1 h1], by rw [e1.fn, m1.fn, g2, f1], by rw [e2, m2],
      H, (g3.same m1).same e1⟩
  have hcalls : ((((s.calls ++ [.setC X]) ++ [.setFn fn]) ++ [.compute]) ++ [.setMu mu]) ++ [.energy]
      = s.calls ++ evaluation (X, fn, mu) := by simp [evaluation]
  refine ⟨_, rfl, hcalls, ⟨?_, (X, fn, mu), ?_, hat, hX⟩, hat, rfl, s4, e, h5, rfl⟩
  · simp only; rw [hcalls]; exact hortho _ (by simp [evaluation])
  · simp only; rw [hcalls]; exact hfull

/-! ## The obligations of the rule -/

/-- at the start: no call yet, the host's orbitals are S-orthonormal -/
def SStart (host : Host η n b) (c : Cfg n b) (s : SState η n b) : Prop :=
  s.calls = [] ∧ ∀ k, SOrtho (c.S k) (host.C s.h k)

/-- the host is at the evaluated point `p`, whose pseudo-energies are `e` -/
def Occ (host : Host η n b) (c : Cfg n b) (X : Orbitals n b) (e : Bands b) (mu : ℝ)
    (s : SState η n b) : Prop :=
  AtHost host s.h (X, occs c.t c.T c.mo e mu, mu) ∧ (∀ k, SOrtho (c.S k) (X k)) ∧
    c.occ e = .ok (mu, occs c.t c.T c.mo e mu)

/-- the backend is at the iterate `pt` -/
structure SAt (host : Host η n b) (c : Cfg n b) (pt : Point n b) (s : SState η n b) : Prop where
  at_ : Occ host c pt.X pt.ek pt.mu s
  fn : pt.fn = occs c.t c.T c.mo pt.ek pt.mu
  hx : pt.hx = host.hphi s.h
  eta : ∀ k, pt.eta k = makeDiag (pt.ek k)

/-- the parameters for which a restart goes downhill -/
structure Spec.Descending (c : Cfg n b) : Prop where
  smearing : Monotonic c.t
  T : 0 < c.T
  kappa : 0 ≤ c.kappa
  mo : 0 ≤ c.mo

structure SDir (c : Cfg n b) (pt : Point n b) (dir : Dir n b) (sl : ℝ) : Prop where
  ortho : ∀ k, SOrtho (c.S k) (pt.X k)
  tangent : ∀ k, Tangent (c.S k) (pt.X k) (dir.zx k)
  herm : ∀ k, (dir.zeta k).IsHermitian
  eta : ∀ k, pt.eta k = makeDiag (pt.ek k)
  occ : c.occ pt.ek = .ok (pt.mu, occs c.t c.T c.mo pt.ek pt.mu)
  slope : Descending c → sl ≤ 0

theorem SAt.physical {host : Host η n b} {c : Cfg n b} (hs : Setting host c) {pt : Point n b}
    {s : SState η n b} (h : SAt host c pt s) :
    ∃ H : (k : Fin K) → Mat (n k) (n k), ∀ k, Physical (kIn host c pt s.h k) (H k) := by
  obtain ⟨H, hH⟩ := h.at_.1.computed
  have hC := h.at_.1.C
  simp only at hC
  refine ⟨H, fun k => ⟨hH.herm k, ?_, ?_, h.at_.2.1 k, hs.prec k, hs.weights k⟩⟩
  · simp only [kIn]; rw [h.hx, hH.hphi, hC]
  · intro i; simp only [kIn]; rw [hH.ek, hC]

theorem SAt.occupied {host : Host η n b} {c : Cfg n b} {pt : Point n b}
    {s : SState η n b} (h : SAt host c pt s) : Occupied (dirParams c pt) (kIn host c pt s.h) := by
  intro k i
  simp only [kIn, h.fn]
  rfl

theorem keeps_occ {β : Type} {host : Host η n b} {c : Cfg n b} {s : SState η n b} (h : SInv host c s)
    {P : β → SState η n b → Prop} (r : Res β) (hr : ∀ x, r = .ok x → P x s) :
    Keeps (SInv host c) (SEnd c) P (r, s) := ⟨h.toEnd, fun _ => h, hr⟩

theorem sdir_restarted {host : Host η n b} {c : Cfg n b} (hs : Setting host c) {pt : Point n b}
    {s : SState η n b} (hJ : SAt host c pt s) :
    SDir c pt (restarted c.la (dirParams c pt) (kIn host c pt s.h)).2
      (restarted c.la (dirParams c pt) (kIn host c pt s.h)).1 := by
  obtain ⟨H, hH⟩ := hJ.physical hs
  refine ⟨hJ.at_.2.1, fun k => ?_, fun k => ?_, hJ.eta, hJ.at_.2.2, fun hd => ?_⟩
  · exact C17_restarted_tangent hs.lapack (dirParams c pt) (kIn host c pt s.h) k (hJ.at_.2.1 k) (hs.prec k)
  · exact C21_restarted_hermitian c.la (dirParams c pt) (kIn host c pt s.h) k (H k) (hH k).herm (hH k).hx
  · exact C16_restart_descends hs.lapack (dirParams c pt) hd.smearing hd.T hd.kappa hd.mo
      (kIn host c pt s.h) H hH hJ.occupied

theorem sdir_conjugated {host : Host η n b} {c : Cfg n b} (hs : Setting host c) {pt : Point n b}
    {s : SState η n b} (hJ : SAt host c pt s) (fr : ℝ) (dir : Dir n b)
    (hD : ∀ k, (dir.zeta k).IsHermitian)
    (h0 : (conjugated c.la (dirParams c pt) fr (kIn host c pt s.h) dir pt.ul).2.1 ≤ 0) :
    SDir c pt (conjugated c.la (dirParams c pt) fr (kIn host c pt s.h) dir pt.ul).2.2
      (conjugated c.la (dirParams c pt) fr (kIn host c pt s.h) dir pt.ul).2.1 := by
  obtain ⟨H, hH⟩ := hJ.physical hs
  refine ⟨hJ.at_.2.1, fun k => ?_, fun k => ?_, hJ.eta, hJ.at_.2.2, fun _ => h0⟩
  · exact C17_conjugated_tangent hs.lapack (dirParams c pt) fr (kIn host c pt s.h) dir pt.ul k
      (hJ.at_.2.1 k) (hs.prec k)
  · exact C21_conjugated_hermitian c.la (dirParams c pt) fr (kIn host c pt s.h) dir pt.ul k (H k)
      (hH k).herm (hH k).hx (hD k)

theorem solver_rule {host : Host η n b} {c : Cfg n b} (hs : Setting host c) :
    RunRule (solverOps host c) (SStart host c) (SInv host c) (SEnd c) (SAt host c)
      (fun r s => Occ host c r.X r.ek r.mu s) (SDir c) where
  weaken := fun s h => h.toEnd
  construct := by
    rintro s ⟨h1, h2⟩
    have hE : SEnd c s := by
      refine ⟨⟨_, _, .start, ?_⟩, ?_⟩
      · rw [h1]; exact List.nil_prefix
      · rw [h1]; intro X hX; simp at hX
    exact ⟨hE, fun _ => ⟨h1, h2⟩, fun _ _ => trivial⟩
  setup := by
    rintro s ⟨h1, h2⟩
    show Keeps _ _ _ (solverSetup host c s)
    rw [solverSetup, hostCall_bind]
    have hend : ∀ (h : η) (F S : ℝ), SEnd c { h := h, F := F, S := S, calls := [HostCall.compute] } :=
      fun h F S => ⟨⟨_, _, .start, List.prefix_refl _⟩, by intro X hX; simp at hX⟩
    rw [h1]
    rcases hc : host.compute s.h with ⟨_ | u, s1⟩
    · exact ⟨hend _ _ _, fun _ => trivial, by simp⟩
    simp only [List.nil_append]
    rw [SM.get_bind, SM.lift_bind]
    simp only
    obtain ⟨g1, g2, H, g3⟩ := hs.host.compute s.h s1 hc
    rcases hocc : c.occ (host.ek s1) with ⟨mu, f⟩ | e | _ | _
    · simp only
      rw [SM.get_bind, SM.bind_apply]
      have hf := hs.occ _ _ _ hocc
      rcases evaluate_spec (c := c) hs.host (host.C s1) f (host.ek s1) mu
        { h := s1, F := s.F, S := s.S, calls := [HostCall.compute] } .start
        (by intro X hX; simp at hX) (by rw [g1]; exact h2) with ⟨s', e1, e2⟩ | ⟨s', e1, e2, e3, e4, -⟩
      · rw [e1]; exact ⟨e2, fun _ => trivial, by simp⟩
      · rw [e1]
        simp only
        rw [SM.get_bind, SM.pure_apply]
        refine ⟨e3.toEnd, fun _ => trivial, ?_⟩
        rintro pt ⟨⟩
        refine ⟨e3, ?_⟩
        have hC := e4.C
        simp only at hC
        refine ⟨⟨?_, ?_, ?_⟩, hf, rfl, fun k => rfl⟩
        · simp only [hC]; rw [← hf]; exact e4
        · simp only [hC]; rw [g1]; exact h2
        · simp only; rw [← hf]; exact hocc
    all_goals exact ⟨hend _ _ _, fun _ => trivial, by simp⟩
  restarted := fun pt s hI hJ => keeps_occ hI _ fun q hq => by
    obtain rfl := Res.ok.inj hq
    exact ⟨hJ, sdir_restarted hs hJ⟩
  conjugated := fun fr pt dir s pt0 sl0 hI hJ hD => keeps_occ hI _ fun q hq => by
    obtain rfl := Res.ok.inj hq
    refine ⟨hJ, fun hsl => sdir_conjugated hs hJ fr dir hD.herm ?_⟩
    have := of_decide_eq_false hsl
    push_cast [lit] at this
    exact not_lt.1 this
  geo := by
    intro pt dir sl t s hI hD
    show Keeps _ _ _ (solverGeo host c pt dir t s)
    rw [solverGeo, SM.lift_bind]
    rcases hg : forAllK (fun k =>
      geodesicUs c.la (pt.X k) (pt.eta k) (dir.zx k) (dir.zeta k) (c.S k) t) with g | e | _ | _
    · simp only
      rw [SM.lift_bind]
      rcases hocc : c.occ (fun k => (g k).ek) with ⟨mu, f⟩ | e | _ | _
      · simp only
        rw [SM.bind_apply]
        have hX : ∀ k, SOrtho (c.S k) (g k).X := fun k =>
          C19_step_orthonormal hs.lapack (hs.overlap k) (hD.ortho k) (hD.tangent k) (by rw [hD.eta]; exact makeDiag_hermitian _)
            (hD.herm k) t (forAllK_ok hg k)
        have hf := hs.occ _ _ _ hocc
        obtain ⟨ho, p, hp, -⟩ := hI
        rcases evaluate_spec (c := c) hs.host (fun k => (g k).X) f (fun k => (g k).ek) mu s hp ho hX
          with ⟨s', e1, e2⟩ | ⟨s', e1, e2, e3, e4, -⟩
        · rw [e1]; exact ⟨e2, False.elim, by simp⟩
        · rw [e1]
          refine ⟨e3.toEnd, fun _ => e3, ?_⟩
          rintro r ⟨⟩
          exact ⟨by simp only; rw [← hf]; exact e4, hX, by simp only; rw [← hf]; exact hocc⟩
      all_goals exact keeps_occ hI _ (by simp)
    all_goals exact keeps_occ hI _ (by simp)
  refresh := by
    intro r s hI hG
    refine keeps_occ hI _ ?_
    rintro pt ⟨⟩
    exact ⟨hG, hG.1.fn, rfl, fun k => rfl⟩
  gather := fun pt s hI hJ => keeps_occ hI _ (fun _ _ => hJ)
  print := by
    intro pt s hI hJ
    show Keeps _ _ _ (hostCall .print host.print s)
    obtain ⟨ho, p, hp, hat, hpo⟩ := hI
    have hpr := Protocol.print _ _ hp
    have hor : AllOrtho c.S (s.calls ++ [.print]) := ho.append _ (by intro X hX; simp at hX)
    rw [hostCall]
    rcases hc : host.print s.h with ⟨_ | u, s1⟩
    · exact ⟨⟨⟨_, _, hpr, List.prefix_refl _⟩, hor⟩, False.elim, by simp⟩
    · obtain ⟨v, m⟩ := hs.host.print _ _ hc
      have hmove : ∀ q, AtHost host s.h q → AtHost host s1 q := fun q hq =>
        ⟨by rw [v.C]; exact hq.C, by rw [v.fn]; exact hq.fn, by rw [m]; exact hq.mu,
          hq.computed.choose, hq.computed.choose_spec.same v⟩
      have hI' : SInv host c { s with h := s1, calls := s.calls ++ [.print] } :=
        ⟨hor, p, hpr, hmove p hat, hpo⟩
      exact ⟨hI'.toEnd, fun _ => hI', fun _ _ => ⟨⟨hmove _ hJ.at_.1, hJ.at_.2⟩, hJ.fn,
        by rw [hJ.hx]; exact v.hphi.symm, hJ.eta⟩⟩

end Nlcg
