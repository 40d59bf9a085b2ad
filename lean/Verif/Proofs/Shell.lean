import Verif.Spec.Shell
import Verif.Proofs.Shift

/-! Moving a factor from the weights to the occupations. -/

namespace Nlcg
open Matrix Spec ComplexOrder

/-! ## Smearing functions are linear in the occupancy -/

theorem fn_div (t : SmearType) (x mo r : ℝ) : (smearFns t).fn x (mo / r) = (smearFns t).fn x mo / r := by
  cases t <;> simp only [smearFns, fdFn, gsFn, gaussFn, mpFn, coldFn] <;> (try split_ifs) <;> ring

theorem delta_div (t : SmearType) (x mo r : ℝ) : (smearFns t).delta x (mo / r) = (smearFns t).delta x mo / r := by
  cases t <;> simp only [smearFns, fdDelta, gsDelta, gaussDelta, mpDelta, coldDelta] <;> (try split_ifs) <;> ring

theorem dxdelta_div (t : SmearType) (x mo r : ℝ) :
    (smearFns t).dxdelta x (mo / r) = (smearFns t).dxdelta x mo / r := by
  cases t <;> simp only [smearFns, fdDxdelta, gsDxdelta, gaussDxdelta, mpDxdelta, coldDxdelta] <;> (try split_ifs) <;> ring

theorem entropy_div {t : SmearType} (ht : t ≠ .gaussianSpline) (x mo r : ℝ) :
    (smearFns t).entropy x (mo / r) = (smearFns t).entropy x mo / r := by
  cases t <;> simp only [smearFns, fdEntropy, gaussEntropy, mpEntropy, coldEntropy, ne_eq, not_true, reduceCtorEq] at * <;>
    (try split_ifs) <;> ring

section
variable {N B : ℕ}

theorem gEta_divide (t : SmearType) (T : ℝ) {r : ℝ} (hr : r ≠ 0) (A : Mat B B) (mu wk : ℝ) (ek fn : Fin B → ℝ)
    (dmu dF mo : ℝ) :
    gEta (smearFns t) T (((r * wk : ℝ) : ℂ) • A) mu (r * wk) ek (fun i => fn i / r) dmu dF (mo / r)
      = gEta (smearFns t) T ((wk : ℂ) • A) mu wk ek fn dmu dF mo := by
  have hr' : (r : ℂ) ≠ 0 := by exact_mod_cast hr
  ext i j
  simp only [gEta, Matrix.smul_apply, smul_eq_mul, delta_div]
  split_ifs <;> push_cast <;> field_simp

/-- inputs of the direction code with a factor moved from the occupations to the weight -/
noncomputable def divideIn (r : ℝ) (i : KIn N B) : KIn N B := { i with f := fun j => i.f j / r, wk := r * i.wk }

theorem execSpc_divide {la : Lapack} (hla : LapackOk la) (p : DirParams) (dF sumfn : ℝ) {r : ℝ} (hr : r ≠ 0)
    (i : KIn N B) (ho : SOrtho i.S i.X) (hP : i.P.PosDef) (hw : i.wk ≠ 0) :
    ∃ D : Mat B B, execSpc la { p with mo := p.mo / r } dF sumfn (divideIn r i)
      = { execSpc la p dF sumfn i with gx := (execSpc la p dF sumfn i).gx + i.S * i.X * D } := by
  have hs := sx_injective ho
  set sx := i.S * i.X with hsx
  have hr' : (r : ℂ) ≠ 0 := by exact_mod_cast hr
  obtain ⟨l, hl⟩ : ∃ l, lmult la sx i.hx i.P = sx * l := ⟨_, rfl⟩
  refine ⟨((1 - r : ℝ) : ℂ) • (i.wk : ℂ) • l, ?_⟩
  have hg : gradx i.hx (fun j => i.f j / r) (lmult la sx i.hx i.P) (r * i.wk)
      = gradx i.hx i.f (lmult la sx i.hx i.P) i.wk + sx * (((1 - r : ℝ) : ℂ) • (i.wk : ℂ) • l) := by
    rw [gradx_eq, gradx_eq, hl, Matrix.mul_smul, Matrix.mul_smul]
    ext x y
    simp [Matrix.mul_diagonal]
    field_simp
    ring
  have ht : sxᴴ * precondgxUs i.hx i.P (lmult la sx i.hx i.P) = 0 := tangent_precond hla hP hs
  have h1 := gEta_divide p.t p.T hr (i.Xᴴ * i.hx) p.mu i.wk i.e i.f sumfn dF p.mo
  have h2 := deltaEta_scale p.kappa hw (mul_ne_zero hr hw) (i.Xᴴ * i.hx) i.e
  simp only [execSpc, divideIn, ← hsx, hg, innerM] at *
  rw [h1, h2]
  simp only [innerhTr_add_left, (innerhTr_tangent ht _).1, add_zero]

end

variable {K : ℕ} {n b : Fin K → ℕ} {η : Type} {m : ℕ}

/-- a host that keeps `m` times the occupations -/
noncomputable def joinHost (m : ℕ) (host : Host η n b) : Host η n b :=
  { host with fn := fun h k i => m * host.fn h k i, setFn := fun f => host.setFn (perChannel m f) }

/-- the parameters that go with it -/
noncomputable def joinCfg (m : ℕ) (c : Cfg n b) : Cfg n b :=
  { c with
    wk := fun k => c.wk k / m
    mo := c.mo * m
    occ := fun x => do let r ← c.occ x; pure (r.1, fun k i => m * r.2 k i) }

theorem perChannel_mul (hm : m ≠ 0) (f : Bands b) : perChannel m (fun k i => m * f k i) = f := by
  have : (m : ℝ) ≠ 0 := by exact_mod_cast hm
  funext k i
  simp only [perChannel]
  field_simp

theorem mul_perChannel (hm : m ≠ 0) (f : Bands b) : (fun k i => (m : ℝ) * perChannel m f k i) = f := by
  have : (m : ℝ) ≠ 0 := by exact_mod_cast hm
  funext k i
  simp only [perChannel]
  field_simp

theorem joinSetting (hm : m ≠ 0) {host : Host η n b} {c : Cfg n b} (hs : Setting host c) :
    Setting (joinHost m host) (joinCfg m c) where
  host :=
    { setC := hs.host.setC
      setFn := fun f h h' hf => by
        obtain ⟨h1, h2⟩ := hs.host.setFn _ h h' hf
        refine ⟨?_, h2⟩
        show (fun k i => (m : ℝ) * host.fn h' k i) = f
        rw [h1, mul_perChannel hm]
      compute := fun h h' hc => by
        obtain ⟨h1, h2, H, h3⟩ := hs.host.compute h h' hc
        refine ⟨h1, ?_, H, ⟨h3.herm, h3.hphi, h3.ek⟩⟩
        show (fun k i => (m : ℝ) * host.fn h' k i) = fun k i => (m : ℝ) * host.fn h k i
        rw [h2]
      setMu := fun mu h h' hc => by
        obtain ⟨h1, h2⟩ := hs.host.setMu mu h h' hc
        refine ⟨⟨h1.C, h1.hphi, ?_, h1.ek⟩, h2⟩
        show (fun k i => (m : ℝ) * host.fn h' k i) = fun k i => (m : ℝ) * host.fn h k i
        rw [h1.fn]
      energy := fun h x h' hc => by
        obtain ⟨h1, h2⟩ := hs.host.energy h x h' hc
        refine ⟨⟨h1.C, h1.hphi, ?_, h1.ek⟩, h2⟩
        show (fun k i => (m : ℝ) * host.fn h' k i) = fun k i => (m : ℝ) * host.fn h k i
        rw [h1.fn]
      print := fun h h' hc => by
        obtain ⟨h1, h2⟩ := hs.host.print h h' hc
        refine ⟨⟨h1.C, h1.hphi, ?_, h1.ek⟩, h2⟩
        show (fun k i => (m : ℝ) * host.fn h' k i) = fun k i => (m : ℝ) * host.fn h k i
        rw [h1.fn] }
  lapack := hs.lapack
  overlap := hs.overlap
  prec := hs.prec
  weights k := div_pos (hs.weights k) (by positivity)
  occ x mu f h := by
    simp only [joinCfg] at h
    rw [Res.bind_eq_ok] at h
    obtain ⟨⟨mu', f'⟩, h1, h2⟩ := h
    cases h2
    have := hs.occ _ _ _ h1
    subst this
    have hm' : (m : ℝ) ≠ 0 := by exact_mod_cast hm
    funext k i
    simp only [joinCfg, occs]
    have := fn_div c.t ((mu' - x k i) / (kB * c.T)) (c.mo * m) m
    rw [mul_div_cancel_right₀ _ hm'] at this
    rw [this]
    field_simp

/-! ## Corresponding runs -/

/-- The two runs use the same host states. -/
def joinWorld : World (SState η n b) (SState η n b) where
  R s s' := s.h = s'.h ∧ s.F = s'.F ∧ s.S = s'.S
  le _ _ := True
  refl _ := trivial
  trans _ _ := trivial

/-- the same point with the occupations of one channel -/
structure JoinPt (m : ℕ) (p q : Point n b) : Prop where
  X : p.X = q.X
  ek : p.ek = q.ek
  eta : p.eta = q.eta
  fn : p.fn = perChannel m q.fn
  mu : p.mu = q.mu
  ul : p.ul = q.ul

variable {host : Host η n b} {c : Cfg n b}

theorem joinCall_out {β : Type} {s s' : SState η n b} (hR : joinWorld.R s s') (f : η → Option β × η)
    (cl' cl : HostCall n b) : Out joinWorld (fun _ a b => a = b) s (hostCall cl' f s) (hostCall cl f s') := by
  unfold hostCall
  rw [hR.1]
  generalize f s'.h = r
  obtain ⟨o, t⟩ := r
  cases o with
  | none => exact ⟨⟨rfl, hR.2⟩, trivial, .throw _⟩
  | some x => exact ⟨⟨rfl, hR.2⟩, trivial, .ok rfl⟩

theorem joinEvaluate_out (hm : m ≠ 0) (ht : c.t ≠ .gaussianSpline) {s s' : SState η n b} (hR : joinWorld.R s s')
    (X : Orbitals n b) (f x : Bands b) (mu : ℝ) :
    Out joinWorld (fun _ _ _ => True) s (evaluate host c X (perChannel m f) x mu s)
      (evaluate (joinHost m host) (joinCfg m c) X f x mu s') := by
  have hm' : (m : ℝ) ≠ 0 := by exact_mod_cast hm
  unfold evaluate
  refine Out.bind (joinCall_out hR _ _ _) fun t1 t1' _ _ hR1 _ _ => ?_
  refine Out.bind (joinCall_out hR1 _ _ _) fun t2 t2' _ _ hR2 _ _ => ?_
  refine Out.bind (joinCall_out hR2 _ _ _) fun t3 t3' _ _ hR3 _ _ => ?_
  refine Out.bind (joinCall_out hR3 _ _ _) fun t4 t4' _ _ hR4 _ _ => ?_
  refine Out.bind (joinCall_out hR4 _ _ _) fun t5 t5' e _ hR5 _ heq => ?_
  subst heq
  have h : entropyTerm (joinCfg m c).t (joinCfg m c).T (joinCfg m c).mo mu
        (List.ofFn fun k => ((joinCfg m c).wk k, List.ofFn (x k)))
      = entropyTerm c.t c.T c.mo mu (List.ofFn fun k => (c.wk k, List.ofFn (x k))) := by
    rw [entropyTerm_ofFn, entropyTerm_ofFn]
    simp only [joinCfg]
    congr 1
    refine Finset.sum_congr rfl fun k _ => ?_
    have : ∀ y, (smearFns c.t).entropy y (c.mo * m) = (smearFns c.t).entropy y c.mo * m := by
      intro y
      have := entropy_div ht y (c.mo * m) m
      rw [mul_div_cancel_right₀ _ hm'] at this
      rw [this, div_mul_cancel₀ _ hm']
    simp only [this, ← Finset.sum_mul]
    field_simp
  simp only [h]
  rw [SM.modify_apply, SM.modify_apply]
  exact ⟨⟨hR5.1, rfl, rfl⟩, trivial, .ok trivial⟩

theorem joinOcc (hm : m ≠ 0) (x : Bands b) :
    c.occ x = (do let r ← (joinCfg m c).occ x; pure (r.1, perChannel m r.2)) := by
  simp only [joinCfg]
  cases c.occ x with
  | ok r => simp only [res_pure, Res.bind_ok, perChannel_mul hm]
  | throw e => rfl
  | ub => rfl
  | abort => rfl

theorem joinSetup_out (hm : m ≠ 0) (ht : c.t ≠ .gaussianSpline) {s s' : SState η n b} (hR : joinWorld.R s s') :
    Out joinWorld (fun _ => JoinPt m) s (solverSetup host c s) (solverSetup (joinHost m host) (joinCfg m c) s') := by
  unfold solverSetup
  refine Out.bind (joinCall_out hR _ _ _) fun s1 s1' _ _ hR1 _ _ => ?_
  rw [SM.get_bind, SM.get_bind, SM.lift_bind, SM.lift_bind, joinOcc hm, hR1.1]
  have hek : (joinHost m host).ek s1'.h = host.ek s1'.h := rfl
  rw [hek]
  cases (joinCfg m c).occ (host.ek s1'.h) with
  | ok q =>
    obtain ⟨mu, f⟩ := q
    simp only [res_pure, Res.bind_ok]
    rw [SM.get_bind, SM.get_bind, hR1.1]
    have hC : (joinHost m host).C s1'.h = host.C s1'.h := rfl
    simp only [hC]
    refine Out.bind (joinEvaluate_out hm ht hR1 (host.C s1'.h) f (host.ek s1'.h) mu) fun s2 s2' _ _ hR2 _ _ => ?_
    rw [SM.get_bind, SM.get_bind, hR2.1]
    exact ⟨hR2, trivial, .ok ⟨rfl, rfl, rfl, rfl, rfl, rfl⟩⟩
  | throw x => exact ⟨hR1, trivial, .throw x⟩
  | ub => exact ⟨hR1, trivial, .ub⟩
  | abort => exact ⟨hR1, trivial, .abort⟩

theorem join_kIn (hm : m ≠ 0) {p q : Point n b} (hp : JoinPt m p q) (h : η) (k : Fin K) :
    kIn host c (hostPoint host h p) h k
      = divideIn m (kIn (joinHost m host) (joinCfg m c) (hostPoint (joinHost m host) h q) h k) := by
  have hm' : (m : ℝ) ≠ 0 := by exact_mod_cast hm
  simp only [kIn, hostPoint, divideIn, hp.ek, hp.fn, joinHost, joinCfg, mul_div_cancel₀ _ hm']
  rfl

theorem joinParams (hm : m ≠ 0) {p q : Point n b} (hp : JoinPt m p q) (h : η) :
    dirParams c (hostPoint host h p) = { dirParams (joinCfg m c) (hostPoint (joinHost m host) h q) with
      mo := (dirParams (joinCfg m c) (hostPoint (joinHost m host) h q)).mo / m } := by
  have hm' : (m : ℝ) ≠ 0 := by exact_mod_cast hm
  simp only [dirParams, hostPoint, hp.mu, joinCfg, mul_div_cancel_right₀ _ hm']

theorem join_globals (hm : m ≠ 0) {p q : Point n b} (hp : JoinPt m p q) (h : η) :
    globals (dirParams c (hostPoint host h p)) (kIn host c (hostPoint host h p) h)
      = globals (dirParams (joinCfg m c) (hostPoint (joinHost m host) h q))
        (kIn (joinHost m host) (joinCfg m c) (hostPoint (joinHost m host) h q) h) := by
  have hm' : (m : ℝ) ≠ 0 := by exact_mod_cast hm
  simp only [globals, join_kIn hm hp, joinParams hm hp]
  simp only [divideIn, dFdmu, dmuDeta, delta_div]
  congr 1
  · refine Finset.sum_congr rfl fun k _ => ?_
    simp only [← mul_div_assoc, ← Finset.sum_div]
    field_simp
  · refine Finset.sum_congr rfl fun k _ => Finset.sum_congr rfl fun i _ => ?_
    field_simp

theorem join_execAll (hs : Setting host c) (hm : m ≠ 0) {p q : Point n b} (hp : JoinPt m p q) {h : η}
    (ho : ∀ k, SOrtho (c.S k) (host.C h k)) (k : Fin K) :
    ∃ D, execAll c.la (dirParams c (hostPoint host h p)) (kIn host c (hostPoint host h p) h) k
      = { execAll c.la (dirParams (joinCfg m c) (hostPoint (joinHost m host) h q))
            (kIn (joinHost m host) (joinCfg m c) (hostPoint (joinHost m host) h q) h) k with
          gx := (execAll c.la (dirParams (joinCfg m c) (hostPoint (joinHost m host) h q))
            (kIn (joinHost m host) (joinCfg m c) (hostPoint (joinHost m host) h q) h) k).gx
            + c.S k * host.C h k * D } := by
  have hm' : (m : ℝ) ≠ 0 := by exact_mod_cast hm
  rw [execAll, join_globals hm hp, join_kIn hm hp, joinParams hm hp]
  exact execSpc_divide hs.lapack _ _ _ hm' _ (ho k) (hs.prec k) (div_ne_zero (hs.weights k).ne' hm')

/-- directions from what the host has -/
noncomputable def shellOps (host : Host η n b) (c : Cfg n b) : Ops ℝ (SState η n b) (Point n b) (Dir n b) :=
  { solverOps host c with restarted := hostRestarted host c, conjugated := hostConjugated host c }

theorem solve_shellOps (hs : Setting host c) (prm : NlcgParams ℝ) (fuel rank : ℕ) (w : NState ℝ (SState η n b))
    (h0 : SStart host c w.s) : solve host c prm fuel rank w = nlcg (shellOps host c) prm fuel rank w :=
  (solver_rule hs).congr_all (fun _ _ _ _ _ _ _ => rfl)
    (fun pt s _ hJ => by
      show solverRestarted host c pt s = _
      rw [hostRestarted, if_pos hJ.hostPoint.2, hJ.hostPoint.1])
    (fun fr pt d s _ hJ => by
      show solverConjugated host c fr pt d s = _
      rw [hostConjugated, if_pos hJ.hostPoint.2, hJ.hostPoint.1])
    (fun _ _ => rfl) prm fuel rank w h0

theorem joinRestarted_out (hs : Setting host c) (hm : m ≠ 0) {s s' : SState η n b} (hR : joinWorld.R s s')
    {p q : Point n b} (hp : JoinPt m p q) :
    Out joinWorld (fun _ x y => x.1 = y.1 ∧ x.2 = y.2) s (hostRestarted host c p s)
      (hostRestarted (joinHost m host) (joinCfg m c) q s') := by
  unfold hostRestarted
  rw [hR.1]
  by_cases ho : ∀ k, SOrtho (c.S k) (host.C s'.h k)
  · rw [if_pos ho, if_pos (show ∀ k, SOrtho ((joinCfg m c).S k) ((joinHost m host).C s'.h k) from ho)]
    have h := fun k => join_execAll hs hm hp ho k
    choose D hD using h
    unfold solverRestarted
    rw [SM.get_bind, SM.get_bind, hR.1]
    refine ⟨hR, trivial, .ok ⟨?_, ?_⟩⟩ <;> simp only [restarted, hD] <;> rfl
  · rw [if_neg ho, if_neg (show ¬ ∀ k, SOrtho ((joinCfg m c).S k) ((joinHost m host).C s'.h k) from ho)]
    exact ⟨hR, trivial, .ub⟩

theorem joinConjugated_out (hs : Setting host c) (hm : m ≠ 0) {s s' : SState η n b} (hR : joinWorld.R s s')
    {p q : Point n b} (hp : JoinPt m p q) (d : Dir n b) (fr : ℝ) :
    Out joinWorld (fun _ x y => x.1 = y.1 ∧ x.2.1 = y.2.1 ∧ x.2.2 = y.2.2) s (hostConjugated host c fr p d s)
      (hostConjugated (joinHost m host) (joinCfg m c) fr q d s') := by
  unfold hostConjugated
  rw [hR.1]
  by_cases ho : ∀ k, SOrtho (c.S k) (host.C s'.h k)
  · rw [if_pos ho, if_pos (show ∀ k, SOrtho ((joinCfg m c).S k) ((joinHost m host).C s'.h k) from ho)]
    have h := fun k => join_execAll hs hm hp ho k
    choose D hD using h
    have hc : ∀ k, conjAll c.la (dirParams c (hostPoint host s'.h p)) (kIn host c (hostPoint host s'.h p) s'.h) d
        (hostPoint host s'.h p).ul k
        = conjAll c.la (dirParams (joinCfg m c) (hostPoint (joinHost m host) s'.h q))
          (kIn (joinHost m host) (joinCfg m c) (hostPoint (joinHost m host) s'.h q) s'.h) d
          (hostPoint (joinHost m host) s'.h q).ul k := by
      intro k
      rw [conjAll, hD, join_kIn hm hp]
      simp only [hostPoint, hp.ul]
      exact execConjugate_raise hs.lapack (sx_injective (ho k)) _ _ _ _ _ _
    unfold solverConjugated
    rw [SM.get_bind, SM.get_bind, hR.1]
    refine ⟨hR, trivial, .ok ⟨?_, ?_, ?_⟩⟩ <;> simp only [conjugated, hD, hc] <;> rfl
  · rw [if_neg ho, if_neg (show ¬ ∀ k, SOrtho ((joinCfg m c).S k) ((joinHost m host).C s'.h k) from ho)]
    exact ⟨hR, trivial, .ub⟩

theorem joinGeo_out (hm : m ≠ 0) (ht : c.t ≠ .gaussianSpline) {s s' : SState η n b} (hR : joinWorld.R s s')
    {p q : Point n b} (hp : JoinPt m p q) (d : Dir n b) (t : ℝ) :
    Out joinWorld (fun _ => JoinPt m) s (solverGeo host c p d t s)
      (solverGeo (joinHost m host) (joinCfg m c) q d t s') := by
  unfold solverGeo
  rw [SM.lift_bind, SM.lift_bind, hp.X, hp.eta]
  have hg : (forAllK fun k => geodesicUs (joinCfg m c).la (q.X k) (q.eta k) (d.zx k) (d.zeta k) ((joinCfg m c).S k) t)
      = forAllK fun k => geodesicUs c.la (q.X k) (q.eta k) (d.zx k) (d.zeta k) (c.S k) t := rfl
  rw [hg]
  cases forAllK fun k => geodesicUs c.la (q.X k) (q.eta k) (d.zx k) (d.zeta k) (c.S k) t with
  | ok g =>
    simp only
    rw [SM.lift_bind, SM.lift_bind, joinOcc hm]
    cases (joinCfg m c).occ fun k => (g k).ek with
    | ok r =>
      obtain ⟨mu, f⟩ := r
      refine Out.bind (joinEvaluate_out hm ht hR (fun k => (g k).X) f (fun k => (g k).ek) mu)
        fun s2 s2' _ _ hR2 _ _ => ?_
      exact ⟨hR2, trivial, .ok ⟨rfl, rfl, rfl, hp.fn, rfl, rfl⟩⟩
    | throw x => exact ⟨hR, trivial, .throw x⟩
    | ub => exact ⟨hR, trivial, .ub⟩
    | abort => exact ⟨hR, trivial, .abort⟩
  | throw x => exact ⟨hR, trivial, .throw x⟩
  | ub => exact ⟨hR, trivial, .ub⟩
  | abort => exact ⟨hR, trivial, .abort⟩

/-- Runs with a factor moved from the weights to the occupations correspond. -/
def joinSim (hs : Setting host c) (hm : m ≠ 0) (ht : c.t ≠ .gaussianSpline) :
    Spec.Sim (shellOps host c) (shellOps (joinHost m host) (joinCfg m c)) where
  W := joinWorld
  P0 _ := JoinPt m
  P _ := JoinPt m
  D _ d d' := d = d'
  weaken h := h
  P0_mono _ h := h
  P_mono _ h := h
  D_mono _ h := h
  construct hR := by
    simp only [shellOps, solverOps, SM.lift_apply, joinCfg]
    refine ⟨hR, trivial, ?_⟩
    simp only
    by_cases h : c.T = 0
    · simp only [h, if_true]; exact .throw _
    · simp only [h, if_false]; exact .ok trivial
  setup hR := joinSetup_out hm ht hR
  restarted hR hp := joinRestarted_out hs hm hR hp
  conjugated fr hR hp hd := by subst hd; exact joinConjugated_out hs hm hR hp _ fr
  geo t hR hp hd := by subst hd; exact joinGeo_out hm ht hR hp _ t
  refresh hR hp := by
    simp only [shellOps, solverOps, solverRefresh]
    rw [SM.get_bind, SM.get_bind, hR.1]
    refine ⟨hR, trivial, .ok ⟨hp.X, hp.ek, ?_, ?_, hp.mu, hp.ul⟩⟩
    · simp only [hp.ek]
    · exact (perChannel_mul hm _).symm
  gather hR _ := ⟨hR, trivial, .ok trivial⟩
  hostPrint hR := by
    have h := joinCall_out hR host.print .print .print
    refine ⟨h.1, h.2.1, ?_⟩
    obtain ⟨-, -, h⟩ := h
    simp only [shellOps, solverOps]
    revert h
    show RelRes _ _ _ → RelRes _ (hostCall _ host.print _).1 (hostCall _ host.print _).1
    generalize (hostCall _ host.print _).1 = r
    generalize (hostCall _ host.print _).1 = r'
    intro h
    cases h <;> constructor
    trivial
  getF hR := hR.2.1
  getS hR := hR.2.2

theorem evaluate_of {ξ : Type} {host : Host ξ n b} {c : Cfg n b} {X : Orbitals n b} {fn en : Bands b} {mu : ℝ}
    {s : SState ξ n b} {h1 h2 h3 h4 h5 : ξ} {E : ℝ} (e1 : host.setC X s.h = (some (), h1))
    (e2 : host.setFn fn h1 = (some (), h2)) (e3 : host.compute h2 = (some (), h3))
    (e4 : host.setMu mu h3 = (some (), h4)) (e5 : host.energy h4 = (some E, h5)) :
    ∃ t, evaluate host c X fn en mu s = (.ok (), t) ∧ t.h = h5 ∧
      t.S = entropyTerm c.t c.T c.mo mu (List.ofFn fun k => (c.wk k, List.ofFn (en k))) ∧ t.F = E + t.S := by
  simp only [evaluate, hostCall_bind, e1, e2, e3, e4, e5, SM.modify_apply]
  exact ⟨_, rfl, rfl, rfl, rfl⟩

end Nlcg
