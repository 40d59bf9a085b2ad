import Verif.Proofs.Solver
import Verif.Proofs.RunCongr
import Verif.Props.Driver

/-! More about whole runs of the composed solver. -/

namespace Nlcg
open Matrix Spec ComplexOrder Arith

variable {K : ℕ} {n b : Fin K → ℕ} {η : Type}

/-! ## The order of the calls, for every host -/

theorem evaluate_calls (host : Host η n b) (c : Cfg n b) (X : Orbitals n b) (fn en : Bands b) (mu : ℝ)
    (s : SState η n b) :
    (∃ s' cs, evaluate host c X fn en mu s = (.throw .runtimeError, s') ∧ s'.calls = s.calls ++ cs ∧
      cs <+: evaluation (X, fn, mu)) ∨
    (∃ s', evaluate host c X fn en mu s = (.ok (), s') ∧ s'.calls = s.calls ++ evaluation (X, fn, mu)) := by
  rw [evaluate, hostCall_bind]
  rcases h1 : host.setC X s.h with ⟨_ | u1, s1⟩
  · exact Or.inl ⟨_, _, rfl, rfl, _, rfl⟩
  simp only
  rw [hostCall_bind]
  rcases h2 : host.setFn fn s1 with ⟨_ | u2, s2⟩
  · refine Or.inl ⟨_, [.setC X, .setFn fn], rfl, ?_, [.compute, .setMu mu, .energy], rfl⟩
    simp [h2]
  simp only
  rw [hostCall_bind]
  simp only [h2]
  rcases h3 : host.compute s2 with ⟨_ | u3, s3⟩
  · exact Or.inl ⟨_, [.setC X, .setFn fn, .compute], rfl, by simp, [.setMu mu, .energy], rfl⟩
  simp only
  rw [hostCall_bind]
  rcases h4 : host.setMu mu s3 with ⟨_ | u4, s4⟩
  · refine Or.inl ⟨_, [.setC X, .setFn fn, .compute, .setMu mu], rfl, ?_, [.energy], rfl⟩
    simp [h4]
  simp only
  rw [hostCall_bind]
  simp only [h4]
  rcases h5 : host.energy s4 with ⟨_ | e, s5⟩
  · exact Or.inl ⟨_, evaluation (X, fn, mu), rfl, by simp [evaluation], [], by simp⟩
  · exact Or.inr ⟨_, rfl, by simp [evaluation]⟩

/-- the calls so far form a legal history with an evaluated point -/
def Called (s : SState η n b) : Prop := ∃ p, Protocol s.calls (some p)

/-- they form a history that may have been cut short -/
def Cut (s : SState η n b) : Prop := Interrupted s.calls

theorem Called.cut {s : SState η n b} (h : Called s) : Cut s :=
  ⟨s.calls, _, h.choose_spec, List.prefix_refl _⟩

theorem keeps_called {β : Type} {s : SState η n b} (h : Called s) (r : Res β) :
    Keeps Called Cut (fun _ _ => True) (r, s) := ⟨h.cut, fun _ => h, fun _ _ => trivial⟩

theorem protocol_rule (host : Host η n b) (c : Cfg n b) :
    RunRule (solverOps host c) (fun s => s.calls = []) Called Cut (fun _ _ => True)
      (fun _ _ => True) (fun _ _ _ => True) where
  weaken := fun s h => h.cut
  construct := fun s h => ⟨⟨_, _, .start, by rw [show (solverOps host c).construct s = _ from rfl]; simp [solverOps, h]⟩,
    fun _ => h, fun _ _ => trivial⟩
  setup := by
    intro s h1
    show Keeps _ _ _ (solverSetup host c s)
    rw [solverSetup, hostCall_bind, h1]
    have hend : ∀ (h : η) (F S : ℝ), Cut { h := h, F := F, S := S, calls := [HostCall.compute (n := n) (b := b)] } :=
      fun h F S => ⟨_, _, .start, List.prefix_refl _⟩
    rcases hc : host.compute s.h with ⟨_ | u, s1⟩
    · exact ⟨hend _ _ _, fun _ => trivial, by simp⟩
    simp only [List.nil_append]
    rw [SM.get_bind, SM.lift_bind]
    simp only
    rcases hocc : c.occ (host.ek s1) with ⟨mu, f⟩ | e | _ | _
    · simp only
      rw [SM.get_bind, SM.bind_apply]
      rcases evaluate_calls host c (host.C s1) f (host.ek s1) mu
        { h := s1, F := s.F, S := s.S, calls := [HostCall.compute] } with ⟨s', cs, e1, e2, e3⟩ | ⟨s', e1, e2⟩
      · rw [e1]
        refine ⟨⟨_, _, Protocol.evaluate _ _ (host.C s1, f, mu) .start, ?_⟩, fun _ => trivial, by simp⟩
        simp only; rw [e2]; exact (List.prefix_append_right_inj _).2 e3
      · rw [e1]
        have hcal : Called s' := ⟨_, by rw [e2]; exact Protocol.evaluate _ _ _ .start⟩
        simp only
        rw [SM.get_bind, SM.pure_apply]
        exact ⟨hcal.cut, fun _ => trivial, fun _ _ => ⟨hcal, trivial⟩⟩
    all_goals exact ⟨hend _ _ _, fun _ => trivial, by simp⟩
  restarted := fun pt s h _ => ⟨h.cut, fun _ => h, fun _ _ => ⟨trivial, trivial⟩⟩
  conjugated := fun fr pt dir s pt0 sl0 h _ _ => ⟨h.cut, fun _ => h, fun _ _ => ⟨trivial, fun _ => trivial⟩⟩
  geo := by
    intro pt dir sl t s hI hD
    show Keeps _ _ _ (solverGeo host c pt dir t s)
    rw [solverGeo, SM.lift_bind]
    rcases hg : forAllK (fun k =>
      geodesicUs c.la (pt.X k) (pt.eta k) (dir.zx k) (dir.zeta k) (c.S k) t) with g | e | _ | _
    · simp only
      rw [SM.lift_bind]
      rcases hocc : c.occ (fun k => (g k).ek) with ⟨mu, f⟩ | e | _ | _
      · simp only
        rw [SM.bind_apply]
        obtain ⟨p, hp⟩ := hI
        rcases evaluate_calls host c (fun k => (g k).X) f (fun k => (g k).ek) mu s
          with ⟨s', cs, e1, e2, e3⟩ | ⟨s', e1, e2⟩
        · rw [e1]
          refine ⟨⟨_, _, Protocol.evaluate _ _ (fun k => (g k).X, f, mu) hp, ?_⟩, False.elim, by simp⟩
          simp only; rw [e2]; exact (List.prefix_append_right_inj _).2 e3
        · rw [e1]
          have hcal : Called s' := ⟨_, by rw [e2]; exact Protocol.evaluate _ _ _ hp⟩
          exact ⟨hcal.cut, fun _ => hcal, fun _ _ => trivial⟩
      all_goals exact keeps_called hI _
    all_goals exact keeps_called hI _
  refresh := fun r s h _ => keeps_called h _
  gather := fun pt s h _ => keeps_called h _
  print := by
    intro pt s hI _
    show Keeps _ _ _ (hostCall .print host.print s)
    obtain ⟨p, hp⟩ := hI
    have hpr := Protocol.print _ _ hp
    rw [hostCall]
    rcases hc : host.print s.h with ⟨_ | u, s1⟩
    · exact ⟨⟨_, _, hpr, List.prefix_refl _⟩, False.elim, by simp⟩
    · have : Called { s with h := s1, calls := s.calls ++ [HostCall.print] } := ⟨p, hpr⟩
      exact ⟨this.cut, fun _ => this, fun _ _ => trivial⟩

/-! ## The uninitialised members -/

/-- the same but for the members `free_energy`, `entropy` -/
def SState.Similar (s s' : SState η n b) : Prop := s'.h = s.h ∧ s'.calls = s.calls

theorem hostCall_similar {β : Type} (call : HostCall n b) (f : η → Option β × η) (s s' : SState η n b)
    (h : s.Similar s') :
    (hostCall call f s').1 = (hostCall call f s).1 ∧
      (hostCall call f s).2.Similar (hostCall call f s').2 := by
  rw [hostCall, hostCall, h.1]
  rcases f s.h with ⟨_ | r, h'⟩ <;> exact ⟨rfl, rfl, by simp [h.2]⟩

/-- same outcome; equal states after success, similar states otherwise -/
def Masks {β : Type} (q q' : Res β × SState η n b) : Prop :=
  q'.1 = q.1 ∧ q.2.Similar q'.2 ∧ (q.1.isOk = true → q'.2 = q.2)

theorem hostCall_masks {β γ : Type} (call : HostCall n b) (f : η → Option β × η)
    (g : β → SM (SState η n b) γ) (hg : ∀ r s s', s.Similar s' → Masks (g r s) (g r s'))
    (s s' : SState η n b) (h : s.Similar s') :
    Masks ((hostCall call f >>= g) s) ((hostCall call f >>= g) s') := by
  rw [hostCall_bind, hostCall_bind, h.1]
  rcases f s.h with ⟨_ | r, h'⟩
  · exact ⟨rfl, ⟨rfl, by simp [h.2]⟩, by simp [Res.isOk]⟩
  · exact hg r _ _ ⟨rfl, by simp [h.2]⟩

theorem lift_masks {β γ : Type} (r : Res β) (g : β → SM (SState η n b) γ)
    (hg : ∀ r s s', s.Similar s' → Masks (g r s) (g r s'))
    (s s' : SState η n b) (h : s.Similar s') :
    Masks ((SM.lift r >>= g) s) ((SM.lift r >>= g) s') := by
  rw [SM.lift_bind, SM.lift_bind]
  cases r with
  | ok x => exact hg x _ _ h
  | _ => exact ⟨rfl, h, by simp [Res.isOk]⟩

theorem evaluate_masks (host : Host η n b) (c : Cfg n b) (X : Orbitals n b) (fn en : Bands b) (mu : ℝ)
    (s s' : SState η n b) (h : s.Similar s') :
    Masks (evaluate host c X fn en mu s) (evaluate host c X fn en mu s') := by
  rw [evaluate]
  refine hostCall_masks _ _ _ (fun _ s s' h => ?_) _ _ h
  refine hostCall_masks _ _ _ (fun _ s s' h => ?_) _ _ h
  refine hostCall_masks _ _ _ (fun _ s s' h => ?_) _ _ h
  refine hostCall_masks _ _ _ (fun _ s s' h => ?_) _ _ h
  refine hostCall_masks _ _ _ (fun e s s' h => ?_) _ _ h
  obtain ⟨h1, h2⟩ := h
  cases s; cases s'
  simp only at h1 h2
  subst h1 h2
  exact ⟨rfl, ⟨rfl, rfl⟩, fun _ => rfl⟩

theorem setup_masks (host : Host η n b) (c : Cfg n b) (s s' : SState η n b) (h : s.Similar s') :
    Masks (solverSetup host c s) (solverSetup host c s') := by
  rw [solverSetup]
  refine hostCall_masks _ _ _ (fun _ s1 s1' h1 => ?_) _ _ h
  rw [SM.get_bind, SM.get_bind, h1.1]
  refine lift_masks _ _ (fun q s2 s2' h2 => ?_) _ _ h1
  obtain ⟨mu, fn⟩ := q
  simp only
  rw [SM.get_bind, SM.get_bind, h2.1, SM.bind_apply, SM.bind_apply]
  have a := evaluate_masks host c (host.C s2.h) fn (host.ek s1.h) mu s2 s2' h2
  rcases e : evaluate host c (host.C s2.h) fn (host.ek s1.h) mu s2 with ⟨r, s3⟩
  rcases e' : evaluate host c (host.C s2.h) fn (host.ek s1.h) mu s2' with ⟨r', s3'⟩
  rw [e, e'] at a
  obtain ⟨a1, a2, a3⟩ := a
  simp only at a1 a2 a3
  subst a1
  cases r' with
  | ok u =>
    obtain rfl := a3 rfl
    exact ⟨rfl, ⟨rfl, rfl⟩, fun _ => rfl⟩
  | _ => exact ⟨rfl, a2, by simp [Res.isOk]⟩

/-! ## Energies -/

theorem evaluate_ok {host : Host η n b} {c : Cfg n b} {X : Orbitals n b} {fn en : Bands b} {mu : ℝ}
    {s s' : SState η n b} (h : evaluate host c X fn en mu s = (.ok (), s')) :
    ∃ h1 h2 h3 h4 e, host.setC X s.h = (some (), h1) ∧ host.setFn fn h1 = (some (), h2) ∧
      host.compute h2 = (some (), h3) ∧ host.setMu mu h3 = (some (), h4) ∧
      host.energy h4 = (some e, s'.h) ∧
      s'.F = e + entropyTerm c.t c.T c.mo mu (List.ofFn fun k => (c.wk k, List.ofFn (en k))) := by
  rw [evaluate, hostCall_bind] at h
  rcases h1 : host.setC X s.h with ⟨_ | u1, s1⟩ <;> rw [h1] at h
  · simp at h
  simp only at h
  rw [hostCall_bind] at h
  rcases h2 : host.setFn fn s1 with ⟨_ | u2, s2⟩ <;> simp only [h2] at h
  · simp at h
  rw [hostCall_bind] at h
  rcases h3 : host.compute s2 with ⟨_ | u3, s3⟩ <;> simp only [h3] at h
  · simp at h
  rw [hostCall_bind] at h
  rcases h4 : host.setMu mu s3 with ⟨_ | u4, s4⟩ <;> simp only [h4] at h
  · simp at h
  rw [hostCall_bind] at h
  rcases h5 : host.energy s4 with ⟨_ | e, s5⟩ <;> simp only [h5] at h
  · simp at h
  simp only [SM.modify_apply, Prod.mk.injEq, true_and] at h
  subst h
  exact ⟨s1, s2, s3, s4, e, rfl, h2, h3, h4, h5, rfl⟩

theorem evaluate_total {host : Host η n b} {c : Cfg n b} (hn : NeverThrows host) (X : Orbitals n b)
    (f e : Bands b) (mu : ℝ) (s : SState η n b) : ∃ s', evaluate host c X f e mu s = (.ok (), s') := by
  obtain ⟨h1, e1⟩ := hn.setC X s.h
  obtain ⟨h2, e2⟩ := hn.setFn f h1
  obtain ⟨h3, e3⟩ := hn.compute h2
  obtain ⟨h4, e4⟩ := hn.setMu mu h3
  obtain ⟨v, h5, e5⟩ := hn.energy h4
  refine ⟨(evaluate host c X f e mu s).2, Prod.ext ?_ rfl⟩
  rw [evaluate, hostCall_bind, e1]
  simp only
  rw [hostCall_bind]
  simp only [e2]
  rw [hostCall_bind]
  simp only [e3]
  rw [hostCall_bind]
  simp only [e4]
  rw [hostCall_bind]
  simp only [e5]
  rfl

/-- free energy of a point -/
noncomputable def pointEnergy (c : Cfg n b) (E : Orbitals n b → Bands b → ℝ) (pt : Point n b) : ℝ :=
  E pt.X (occs c.t c.T c.mo pt.ek pt.mu)
    + entropyTerm c.t c.T c.mo pt.mu (List.ofFn fun k => (c.wk k, List.ofFn (pt.ek k)))

theorem evaluate_energy {host : Host η n b} {c : Cfg n b} {E : Orbitals n b → Bands b → ℝ}
    (hh : HostOk host) (hE : EnergyOf host c E) {X : Orbitals n b} {fn en : Bands b} {mu : ℝ}
    {s s' : SState η n b} (ha : Admissible c X fn) (h : evaluate host c X fn en mu s = (.ok (), s')) :
    host.C s'.h = X ∧
    s'.F = E X fn + entropyTerm c.t c.T c.mo mu (List.ofFn fun k => (c.wk k, List.ofFn (en k))) := by
  obtain ⟨s1, s2, s3, s4, e, h1, h2, h3, h4, h5, h6⟩ := evaluate_ok h
  obtain ⟨f1, f2⟩ := hh.setFn fn s1 s2 h2
  obtain ⟨g1, g2, H, g3⟩ := hh.compute s2 s3 h3
  obtain ⟨m1, m2⟩ := hh.setMu mu s3 s4 h4
  obtain ⟨e1, e2⟩ := hh.energy s4 e _ h5
  have hC : host.C s4 = X := by rw [m1.C, g1, f2, hh.setC X s.h s1 h1]
  refine ⟨by rw [e1.C, hC], ?_⟩
  have hfn : host.fn s4 = fn := by rw [m1.fn, g2, f1]
  rw [h6, hE.energy _ _ _ (by rw [hC, hfn]; exact ha) h5, hC, hfn]

section rotation
variable {B : ℕ} {ek ek' : Fin B → ℝ} {u : Mat B B}

/-- functions of a diagonal matrix rotate like the matrix -/
theorem rotate_apply (h : makeDiag ek * u = u * diagonal fun i => (ek' i : ℂ)) (f : ℝ → ℝ) :
    diagonal (fun i => (f (ek i) : ℂ)) * u = u * diagonal fun i => (f (ek' i) : ℂ) := by
  ext i j
  have hij := congrFun (congrFun h i) j
  rw [makeDiag_eq, diagonal_mul, mul_diagonal] at hij
  rw [diagonal_mul, mul_diagonal]
  by_cases hu : u i j = 0
  · simp [hu]
  · have : (ek i : ℂ) = ek' j := mul_right_cancel₀ hu (by rw [hij]; ring)
    rw [Complex.ofReal_inj.1 this]; ring

theorem rotate_sum (h : makeDiag ek * u = u * diagonal fun i => (ek' i : ℂ)) (hu : uᴴ * u = 1)
    (f : ℝ → ℝ) : ∑ i, f (ek' i) = ∑ i, f (ek i) := by
  have hu' : u * uᴴ = 1 := mul_eq_one_comm.1 hu
  have h1 : (diagonal fun i => (f (ek' i) : ℂ)) = uᴴ * (diagonal (fun i => (f (ek i) : ℂ)) * u) := by
    rw [rotate_apply h f, ← Matrix.mul_assoc, hu, Matrix.one_mul]
  have h2 := congrArg trace h1
  rw [trace_mul_comm, Matrix.mul_assoc, hu', Matrix.mul_one, trace_diagonal, trace_diagonal] at h2
  exact_mod_cast h2

theorem rotate_perm (h : makeDiag ek * u = u * diagonal fun i => (ek' i : ℂ)) (hu : uᴴ * u = 1) :
    (List.ofFn ek').Perm (List.ofFn ek) := by
  classical
  rw [List.perm_iff_count]
  intro a
  have key : ∀ g : Fin B → ℝ, ((List.ofFn g).count a : ℝ) = ∑ i, if g i = a then (1 : ℝ) else 0 := by
    intro g
    have hl : ∀ l : List (Fin B), ((l.map g).count a : ℝ)
        = (l.map fun i => if g i = a then (1 : ℝ) else 0).sum := by
      intro l
      induction l with
      | nil => simp
      | cons x l ih =>
        rw [List.map_cons, List.count_cons, List.map_cons, List.sum_cons, ← ih]
        by_cases hx : g x = a
        · simp [hx]; ring
        · simp [hx]
    rw [List.ofFn_eq_map, hl, ← List.ofFn_eq_map, List.sum_ofFn]
  have := rotate_sum h hu (fun x => if x = a then (1 : ℝ) else 0)
  rw [← key, ← key] at this
  exact_mod_cast this

end rotation

/-- A step of length 0 reproduces the free energy. -/
theorem zero_step_energy {host : Host η n b} {c : Cfg n b} {E : Orbitals n b → Bands b → ℝ}
    (hs : Setting host c) (hE : EnergyOf host c E) {pt : Point n b} {dir : Dir n b} {sl : ℝ}
    (hD : SDir c pt dir sl) {g : (k : Fin K) → GeoOut (n k) (b k)} {mu : ℝ} {f : Bands b}
    (hg : ∀ k, geodesicUs c.la (pt.X k) (pt.eta k) (dir.zx k) (dir.zeta k) (c.S k) 0 = .ok (g k))
    (ho : c.occ (fun k => (g k).ek) = .ok (mu, f)) :
    E (fun k => (g k).X) (occs c.t c.T c.mo (fun k => (g k).ek) mu)
      + entropyTerm c.t c.T c.mo mu (List.ofFn fun k => (c.wk k, List.ofFn (g k).ek))
      = pointEnergy c E pt := by
  have hz : ∀ k, (g k).X = pt.X k * (g k).ul ∧ (g k).ulᴴ * (g k).ul = 1 ∧
      makeDiag (pt.ek k) * (g k).ul = (g k).ul * diagonal fun i => ((g k).ek i : ℂ) := fun k => by
    have := C20_zero_step hs.lapack (hD.ortho k) (by rw [hD.eta]; exact makeDiag_hermitian _) (hg k)
    rw [hD.eta] at this
    exact this
  have hmu : mu = pt.mu := hE.occ pt.ek (fun k => (g k).ek) pt.mu mu _ _
    (fun k => rotate_perm (hz k).2.2 (hz k).2.1) hD.occ ho
  subst hmu
  rw [pointEnergy]
  congr 1
  · refine hE.density _ _ _ _ ⟨hD.ortho, _, _, rfl⟩ ⟨fun k => ?_, _, _, rfl⟩ ?_
    · have h1 := hD.ortho k
      rw [SOrtho] at h1 ⊢
      simp only
      rw [(hz k).1, conjTranspose_mul, Matrix.mul_assoc, ← Matrix.mul_assoc (c.S k),
        ← Matrix.mul_assoc (pt.X k)ᴴ, h1, Matrix.one_mul, (hz k).2.1]
    intro k
    obtain ⟨h1, h2, h3⟩ := hz k
    have h4 := rotate_apply h3 (fun e => (smearFns c.t).fn ((pt.mu - e) / (kB * c.T)) c.mo)
    have h5 : (g k).ul * (g k).ulᴴ = 1 := mul_eq_one_comm.1 h2
    simp only [occs]
    rw [h1, conjTranspose_mul, Matrix.mul_assoc (pt.X k), ← h4, Matrix.mul_assoc,
      Matrix.mul_assoc, ← Matrix.mul_assoc (g k).ul, h5, Matrix.one_mul, ← Matrix.mul_assoc]
  · simp only [entropyTerm, smearingEntropy, sumFunc_real, List.map_ofFn, List.sum_ofFn,
      Function.comp_def]
    refine congrArg _ (congrArg _ (Finset.sum_congr rfl fun k _ => congrArg _ ?_))
    exact rotate_sum (hz k).2.2 (hz k).2.1 fun e => (smearFns c.t).entropy ((pt.mu - e) / ((kB : ℚ) * c.T)) c.mo

/-- steps taken from points a run can reach only; undefined elsewhere -/
noncomputable def guardedGeo (host : Host η n b) (c : Cfg n b) (pt : Point n b) (dir : Dir n b) (t : ℝ)
    (s : SState η n b) : Res (Point n b) × SState η n b :=
  open Classical in
  if ∃ sl, SDir c pt dir sl then solverGeo host c pt dir t s else (.ub, s)

/-- the first evaluation, from states a run can begin in only -/
noncomputable def guardedSetup (host : Host η n b) (c : Cfg n b) (s : SState η n b) :
    Res (Point n b) × SState η n b :=
  open Classical in if SStart host c s then solverSetup host c s else (.ub, s)

/-- the operations of the driver, undefined where no run can be -/
noncomputable def guardedOps (host : Host η n b) (c : Cfg n b) :
    Ops ℝ (SState η n b) (Point n b) (Dir n b) :=
  { solverOps host c with geo := guardedGeo host c, setup := guardedSetup host c }

theorem solve_guarded {host : Host η n b} {c : Cfg n b} (hs : Setting host c) (prm : NlcgParams ℝ)
    (fuel rank : ℕ) (w : NState ℝ (SState η n b)) (h0 : SStart host c w.s) :
    solve host c prm fuel rank w = nlcg (guardedOps host c) prm fuel rank w :=
  (solver_rule hs).congr (fun pt dir sl t s _ hD => by
    show solverGeo host c pt dir t s = _
    rw [guardedGeo, if_pos ⟨sl, hD⟩]) (fun s h => by
    show solverSetup host c s = _
    rw [guardedSetup, if_pos h]) prm fuel rank w h0

/-- another eigensolver that agrees on Hermitian matrices gives the same step -/
theorem solverGeo_congr {host : Host η n b} {c : Cfg n b} (la' : Lapack) (hs : Setting host c)
    {pt : Point n b} {dir : Dir n b} {sl : ℝ} (hD : SDir c pt dir sl)
    (hh : ∀ {n : ℕ} (A : Mat n n), A.IsHermitian → la'.eigh A = c.la.eigh A) {t : ℝ}
    {s : SState η n b} :
    solverGeo host { c with la := la' } pt dir t s = solverGeo host c pt dir t s := by
  have key : ∀ k, geodesicUs la' (pt.X k) (pt.eta k) (dir.zx k) (dir.zeta k) (c.S k) t
      = geodesicUs c.la (pt.X k) (pt.eta k) (dir.zx k) (dir.zeta k) (c.S k) t := by
    intro k
    have h1 : (advanceEta t (pt.eta k) (dir.zeta k)).IsHermitian := by
      rw [advanceEta]
      exact addM_hermitian (by rw [hD.eta]; exact makeDiag_hermitian _) (hD.herm k) t 1
    have h2 : (innerM (addM (pt.X k) (dir.zx k) (t : ℂ))
        (c.S k * addM (pt.X k) (dir.zx k) (t : ℂ))).IsHermitian := by
      rw [innerM_one, addM_one]
      exact (moved_posDef (hs.overlap k) (hD.ortho k) (hD.tangent k) t).isHermitian
    simp only [geodesicUs, advanceX, loewdin, hh _ h1, hh _ h2]
  simp only [solverGeo, key]
  rfl

theorem solverGeo_ok {host : Host η n b} {c : Cfg n b} {pt r : Point n b} {dir : Dir n b} {t : ℝ}
    {s s' : SState η n b} (h : solverGeo host c pt dir t s = (.ok r, s')) :
    ∃ (g : (k : Fin K) → GeoOut (n k) (b k)) (mu : ℝ) (f : Bands b),
      (∀ k, geodesicUs c.la (pt.X k) (pt.eta k) (dir.zx k) (dir.zeta k) (c.S k) t = .ok (g k)) ∧
      c.occ (fun k => (g k).ek) = .ok (mu, f) ∧
      evaluate host c (fun k => (g k).X) f (fun k => (g k).ek) mu s = (.ok (), s') ∧
      r = { pt with X := fun k => (g k).X, ek := fun k => (g k).ek, ul := fun k => (g k).ul, mu := mu } := by
  rw [solverGeo, SM.lift_bind] at h
  rcases hg : forAllK (fun k =>
    geodesicUs c.la (pt.X k) (pt.eta k) (dir.zx k) (dir.zeta k) (c.S k) t) with g | e | _ | _ <;>
    simp only [hg, Prod.mk.injEq, reduceCtorEq, false_and] at h
  rw [SM.lift_bind] at h
  rcases hocc : c.occ (fun k => (g k).ek) with ⟨mu, f⟩ | e | _ | _ <;>
    simp only [hocc, Prod.mk.injEq, reduceCtorEq, false_and] at h
  rw [SM.bind_apply] at h
  rcases he : evaluate host c (fun k => (g k).X) f (fun k => (g k).ek) mu s with ⟨_ | _ | _ | _, s1⟩ <;>
    simp only [he, SM.pure_apply, Prod.mk.injEq, reduceCtorEq, false_and, Res.ok.injEq] at h
  obtain ⟨rfl, rfl⟩ := h
  exact ⟨g, mu, f, forAllK_ok hg, hocc, he, rfl⟩

theorem solverSetup_ok {host : Host η n b} {c : Cfg n b} {r : Point n b}
    {s s' : SState η n b} (h : solverSetup host c s = (.ok r, s')) :
    ∃ (h1 : η) (ek : Bands b) (mu : ℝ) (f : Bands b) (s1 : SState η n b),
      host.compute s.h = (some (), h1) ∧
      c.occ ek = .ok (mu, f) ∧ evaluate host c (host.C h1) f ek mu s1 = (.ok (), s') ∧
      r.X = host.C s'.h ∧ r.ek = ek ∧ r.mu = mu := by
  rw [solverSetup, hostCall_bind] at h
  rcases hc : host.compute s.h with ⟨_ | u, h1⟩ <;> simp only [hc] at h
  · simp at h
  rw [SM.get_bind, SM.lift_bind] at h
  rcases hocc : c.occ (host.ek h1) with ⟨mu, f⟩ | e | _ | _ <;>
    simp only [hocc, Prod.mk.injEq, reduceCtorEq, false_and] at h
  rw [SM.get_bind, SM.bind_apply] at h
  rcases he : evaluate host c (host.C h1) f (host.ek h1) mu
      { h := h1, F := s.F, S := s.S, calls := s.calls ++ [HostCall.compute] } with ⟨_ | _ | _ | _, s1⟩ <;>
    simp only [he, Prod.mk.injEq, reduceCtorEq, false_and] at h
  rw [SM.get_bind, SM.pure_apply] at h
  simp only [Prod.mk.injEq, Res.ok.injEq] at h
  obtain ⟨rfl, rfl⟩ := h
  exact ⟨h1, _, mu, f, _, rfl, hocc, he, rfl, rfl, rfl⟩

theorem hostCall_F {β : Type} (call : HostCall n b) (f : η → Option β × η) (s : SState η n b) :
    (hostCall call f s).2.F = s.F := by
  rw [hostCall]
  rcases f s.h with ⟨_ | r, h'⟩ <;> rfl

/-- the free energy of the solver is a function of the point -/
theorem solver_reproducible {host : Host η n b} {c : Cfg n b} {E : Orbitals n b → Bands b → ℝ}
    (hs : Setting host c) (hE : EnergyOf host c E) :
    (guardedOps host c).Reproducible (pointEnergy c E) where
  setup := fun s r s' h => by
    have h' : guardedSetup host c s = (.ok r, s') := h
    rw [guardedSetup] at h'
    split at h'
    · next h0 =>
      obtain ⟨h1, ek, mu, f, s1, hc, ho, h2, h3, h4, h5⟩ := solverSetup_ok h'
      obtain ⟨g1, -⟩ := hs.host.compute _ _ hc
      obtain ⟨e1, e2⟩ := evaluate_energy hs.host hE
        ⟨by rw [g1]; exact h0.2, ek, mu, hs.occ _ _ _ ho⟩ h2
      show s'.F = _
      rw [e2, pointEnergy, h3, h4, h5, e1, hs.occ _ _ _ ho]
    · simp at h'
  geo := fun pt dir t s r s' h => by
    have h' : guardedGeo host c pt dir t s = (.ok r, s') := h
    rw [guardedGeo] at h'
    split at h'
    · next hd =>
      obtain ⟨sl, hD⟩ := hd
      obtain ⟨g, mu, f, h1, h2, h3, rfl⟩ := solverGeo_ok h'
      obtain ⟨e1, e2⟩ := evaluate_energy hs.host hE ⟨fun k =>
        C19_step_orthonormal hs.lapack (hs.overlap k) (hD.ortho k) (hD.tangent k)
          (by rw [hD.eta]; exact makeDiag_hermitian _) (hD.herm k) t (h1 k), _, _, hs.occ _ _ _ h2⟩ h3
      show s'.F = _
      rw [e2, pointEnergy, hs.occ _ _ _ h2]
    · simp at h'
  zero := fun pt dir s r s' h => by
    have h' : guardedGeo host c pt dir (lit 0) s = (.ok r, s') := h
    rw [guardedGeo] at h'
    split at h'
    · next hd =>
      obtain ⟨sl, hD⟩ := hd
      obtain ⟨g, mu, f, h1, h2, h3, rfl⟩ := solverGeo_ok h'
      have h0 : (lit 0 : ℝ) = 0 := by simp
      rw [h0] at h1
      exact zero_step_energy hs hE hD h1 h2
    · simp at h'
  refresh := fun r s pt s' h => by
    have h' : solverRefresh host r s = (.ok pt, s') := h
    rw [solverRefresh, SM.get_bind, SM.pure_apply, Prod.mk.injEq, Res.ok.injEq] at h'
    obtain ⟨rfl, rfl⟩ := h'
    exact ⟨rfl, rfl⟩
  restarted := fun pt s => rfl
  conjugated := fun fr pt dir s => rfl
  gather := fun pt s => rfl
  hostPrint := fun s => hostCall_F _ _ _

end Nlcg
