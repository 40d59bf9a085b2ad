import Verif.Spec.Shift
import Verif.Proofs.Represent
import Verif.Proofs.SolverRun

/-! Moving the zero of energy. -/

namespace Nlcg
open Matrix Spec ComplexOrder

section
variable {N B : ℕ}

theorem lmult_raise {la : Lapack} (hla : LapackOk la) {sx hx : Mat N B} {P : Mat N N} (hP : P.PosDef)
    (hs : Function.Injective sx.mulVec) (a : ℝ) :
    lmult la sx (hx + (a : ℂ) • sx) P = lmult la sx hx P + (a : ℂ) • sx := by
  have hpd : (sxᴴ * (P * sx)).PosDef := by
    rw [← Matrix.mul_assoc]; exact hP.conjTranspose_mul_mul_same hs
  have h1 := hla.solveSym _ (sxᴴ * (P * hx)) hpd
  have h2 := hla.solveSym _ (sxᴴ * (P * (hx + (a : ℂ) • sx))) hpd
  have h3 : la.solve (sxᴴ * (P * sx)) (sxᴴ * (P * (hx + (a : ℂ) • sx)))
      = la.solve (sxᴴ * (P * sx)) (sxᴴ * (P * hx)) + (a : ℂ) • 1 := by
    have hu := hpd.isUnit
    refine hu.mul_left_cancel ?_
    rw [h2, Matrix.mul_add (sxᴴ * (P * sx)), h1]
    simp only [Matrix.mul_add, Matrix.mul_smul, Matrix.mul_one]
  simp only [lmult, innerM_one, transformM]
  rw [h3, Matrix.mul_add, Matrix.mul_smul, Matrix.mul_one]

theorem precondgxUs_raise (hx xll sx : Mat N B) (P : Mat N N) (a : ℂ) :
    precondgxUs (hx + a • sx) P (xll + a • sx) = precondgxUs hx P xll := by
  rw [precondgxUs_eq, precondgxUs_eq, add_sub_add_right_eq_sub]

theorem gradx_raise (hx xll sx : Mat N B) (f : Fin B → ℝ) (wk : ℝ) (a : ℝ) :
    ∃ D : Mat B B, gradx (hx + (a : ℂ) • sx) f (xll + (a : ℂ) • sx) wk = gradx hx f xll wk + sx * D := by
  refine ⟨(wk : ℂ) • (a : ℂ) • ((diagonal fun j => (f j : ℂ)) - 1), ?_⟩
  rw [gradx_eq, gradx_eq, Matrix.add_mul, Matrix.smul_mul, Matrix.mul_smul, Matrix.mul_smul, Matrix.mul_sub, Matrix.mul_one]
  ext i j
  simp
  ring

theorem innerhTr_add_left (A A' C : Mat N B) : innerhTr (A + A') C = innerhTr A C + innerhTr A' C := by
  simp only [innerhTr, Matrix.add_apply, add_mul, Finset.sum_add_distrib]

theorem innerhTr_tangent {sx z : Mat N B} (h : sxᴴ * z = 0) (D : Mat B B) :
    innerhTr (sx * D) z = 0 ∧ innerhTr z (sx * D) = 0 := by
  have h' : zᴴ * sx = 0 := by
    have := congrArg conjTranspose h
    rwa [conjTranspose_mul, conjTranspose_conjTranspose, conjTranspose_zero] at this
  constructor
  · rw [innerhTr_eq, ← Matrix.mul_assoc, h', Matrix.zero_mul, Matrix.trace_zero]
  · rw [innerhTr_eq, conjTranspose_mul, Matrix.mul_assoc, h, Matrix.mul_zero, Matrix.trace_zero]

theorem innerhTr_add_right (A C C' : Mat N B) : innerhTr A (C + C') = innerhTr A C + innerhTr A C' := by
  simp only [innerhTr, Matrix.add_apply, star_add, mul_add, Finset.sum_add_distrib]

theorem gEta_raise (sf : SmearFns ℝ) (T : ℝ) (hij : Mat B B) (mu wk : ℝ) (ek fn : Fin B → ℝ) (dmu dF mo a : ℝ) :
    gEta sf T (hij + ((wk * a : ℝ) : ℂ) • 1) (mu + a) wk (fun i => ek i + a) fn dmu dF mo
      = gEta sf T hij mu wk ek fn dmu dF mo := by
  ext i j
  by_cases hij' : i = j
  · subst hij'
    simp only [gEta, if_true, add_sub_add_right_eq_sub]
    have : (hij + ((wk * a : ℝ) : ℂ) • (1 : Mat B B)) i i - ((wk * (ek i + a) : ℝ) : ℂ)
        = hij i i - ((wk * ek i : ℝ) : ℂ) := by
      simp; ring
    rw [this]
  · simp [gEta, hij', add_sub_add_right_eq_sub]

theorem deltaEta_raise (kappa : ℝ) {wk : ℝ} (hw : wk ≠ 0) (hij : Mat B B) (ek : Fin B → ℝ) (a : ℝ) :
    deltaEta kappa (hij + ((wk * a : ℝ) : ℂ) • 1) (fun i => ek i + a) wk = deltaEta kappa hij ek wk := by
  have hw' : (wk : ℂ) ≠ 0 := by exact_mod_cast hw
  ext i j
  by_cases hij' : i = j
  · subst hij'
    simp [deltaEta]
    field_simp
    ring
  · simp [deltaEta, hij']

/-- inputs of the direction code with another zero of energy -/
def raiseIn (a : ℝ) (i : KIn N B) : KIn N B :=
  { i with hx := i.hx + (a : ℂ) • (i.S * i.X), e := fun j => i.e j + a, hii := fun j => i.hii j + a }

theorem execSpc_raise {la : Lapack} (hla : LapackOk la) (p : DirParams) (dF sumfn a : ℝ) (i : KIn N B)
    (ho : SOrtho i.S i.X) (hP : i.P.PosDef) (hw : i.wk ≠ 0) :
    ∃ D : Mat B B, execSpc la { p with mu := p.mu + a } dF sumfn (raiseIn a i)
      = { execSpc la p dF sumfn i with gx := (execSpc la p dF sumfn i).gx + i.S * i.X * D } := by
  have hs := sx_injective ho
  obtain ⟨D, hD⟩ := gradx_raise i.hx (lmult la (i.S * i.X) i.hx i.P) (i.S * i.X) i.f i.wk a
  refine ⟨D, ?_⟩
  have hij : innerM i.X (i.hx + (a : ℂ) • (i.S * i.X)) (i.wk : ℂ)
      = innerM i.X i.hx (i.wk : ℂ) + ((i.wk * a : ℝ) : ℂ) • 1 := by
    rw [innerM, innerM, Matrix.mul_add, Matrix.mul_smul, ho, smul_add, smul_smul, Complex.ofReal_mul]
  have ht : (i.S * i.X)ᴴ * precondgxUs i.hx i.P (lmult la (i.S * i.X) i.hx i.P) = 0 := tangent_precond hla hP hs
  simp only [execSpc, raiseIn, lmult_raise hla hP hs, precondgxUs_raise, hD, hij, gEta_raise, deltaEta_raise _ hw,
    innerhTr_add_left, (innerhTr_tangent ht D).1, add_zero]

theorem execConjugate_raise {la : Lapack} (hla : LapackOk la) {sx : Mat N B} (hs : Function.Injective sx.mulVec)
    (z : Mat N B) (zeta ul : Mat B B) (gx : Mat N B) (geta D : Mat B B) :
    execConjugate la sx z zeta ul (gx + sx * D) geta = execConjugate la sx z zeta ul gx geta := by
  have ht := tangent_conjugatex hla (rotatex z ul) hs
  simp only [execConjugate, innerhTr_add_right, (innerhTr_tangent ht D).2, add_zero]

/-- a step with another zero of energy -/
theorem geodesicUs_raise {la : Lapack} {a : ℝ} (he : EighMovesAlong a la) (X : Mat N B) {eta : Mat B B} (zx : Mat N B)
    {zeta : Mat B B} (S : Mat N N) (t : ℝ) (h1 : eta.IsHermitian) (h2 : zeta.IsHermitian) :
    geodesicUs la X (eta + (a : ℂ) • 1) zx zeta S t
      = (do let g ← geodesicUs la X eta zx zeta S t; pure { g with ek := fun i => g.ek i + a }) := by
  have h : advanceEta t (eta + (a : ℂ) • 1) zeta = advanceEta t eta zeta + (a : ℂ) • 1 := by
    simp only [advanceEta, addM, one_smul]
    abel
  have hh : (advanceEta t eta zeta).IsHermitian := addM_hermitian h1 h2 t 1
  simp only [geodesicUs, h, Lapack.eigh, he _ hh]
  split
  · rfl
  · show (do let x ← advanceX la t X zx (la.heevd (advanceEta t eta zeta)).1.2 S; pure _) = _
    cases hx : advanceX la t X zx (la.heevd (advanceEta t eta zeta)).1.2 S with
    | ok x => show _ = (do let g ← (do let xn ← advanceX la t X zx _ S; pure _); pure _); rw [hx]; rfl
    | throw e => show _ = (do let g ← (do let xn ← advanceX la t X zx _ S; pure _); pure _); rw [hx]; rfl
    | ub => show _ = (do let g ← (do let xn ← advanceX la t X zx _ S; pure _); pure _); rw [hx]; rfl
    | abort => show _ = (do let g ← (do let xn ← advanceX la t X zx _ S; pure _); pure _); rw [hx]; rfl

end

theorem forAllK_map : ∀ {K : ℕ} {β γ : Fin K → Type} (f : (k : Fin K) → Res (β k)) (m : (k : Fin K) → β k → γ k),
    (forAllK fun k => (do let g ← f k; pure (m k g))) = (do let g ← forAllK f; pure fun k => m k (g k))
  | 0, _, _, f, m => by
    simp only [forAllK, Res.bind_ok, res_pure, Res.ok.injEq]
    exact funext fun k => k.elim0
  | K + 1, _, _, f, m => by
    rw [forAllK, forAllK, forAllK_map (fun k => f k.succ) fun k => m k.succ]
    cases f 0 with
    | ok a =>
      simp only [res_pure, Res.bind_ok]
      cases forAllK fun k => f k.succ with
      | ok r =>
        simp only [Res.bind_ok, Res.ok.injEq]
        funext k
        cases k using Fin.cases <;> rfl
      | throw e => rfl
      | ub => rfl
      | abort => rfl
    | throw e => rfl
    | ub => rfl
    | abort => rfl

variable {K : ℕ} {n b : Fin K → ℕ} {η ξ : Type} {a : ℝ} {host' : Host η n b} {host : Host ξ n b} {c : Cfg n b}

/-- States correspond when the hosts do and the free energies agree. -/
def raiseWorld (H : Raised a c.S host' host) : World (SState η n b) (SState ξ n b) where
  R s s' := H.R s.h s'.h ∧ s.F = s'.F ∧ s.S = s'.S
  le _ _ := True
  refl _ := trivial
  trans _ _ := trivial

/-- the same point above another zero of energy (`hx` is left out: it is what the host has) -/
structure RaisedPt (a : ℝ) (p q : Point n b) : Prop where
  X : p.X = q.X
  ek : p.ek = raise a q.ek
  eta : p.eta = fun k => q.eta k + (a : ℂ) • 1
  fn : p.fn = q.fn
  mu : p.mu = q.mu + a
  ul : p.ul = q.ul

/-! ## Operations that take orbitals and `H X` from the host -/

/-- the point with the orbitals and `H X` of the host -/
def hostPoint (host : Host η n b) (h : η) (pt : Point n b) : Point n b :=
  { pt with X := host.C h, hx := host.hphi h }

open Classical in
/-- directions from what the host has; undefined unless its orbitals are orthonormal -/
noncomputable def hostRestarted (host : Host η n b) (c : Cfg n b) (pt : Point n b) (s : SState η n b) :
    Res (ℝ × Dir n b) × SState η n b :=
  if ∀ k, SOrtho (c.S k) (host.C s.h k) then solverRestarted host c (hostPoint host s.h pt) s else (.ub, s)

open Classical in
noncomputable def hostConjugated (host : Host η n b) (c : Cfg n b) (fr : ℝ) (pt : Point n b) (d : Dir n b)
    (s : SState η n b) : Res (ℝ × ℝ × Dir n b) × SState η n b :=
  if ∀ k, SOrtho (c.S k) (host.C s.h k) then solverConjugated host c fr (hostPoint host s.h pt) d s else (.ub, s)

open Classical in
/-- the first evaluation; undefined unless the orbitals of the host are orthonormal -/
noncomputable def hostSetup (host : Host η n b) (c : Cfg n b) (s : SState η n b) : Res (Point n b) × SState η n b :=
  if ∀ k, SOrtho (c.S k) (host.C s.h k) then solverSetup host c s else (.ub, s)

noncomputable def hostOps (host : Host η n b) (c : Cfg n b) : Ops ℝ (SState η n b) (Point n b) (Dir n b) :=
  { solverOps host c with
    geo := guardedGeo host c, setup := hostSetup host c, restarted := hostRestarted host c,
    conjugated := hostConjugated host c }

theorem SAt.hostPoint {pt : Point n b} {s : SState ξ n b} (h : SAt host c pt s) :
    hostPoint host s.h pt = pt ∧ ∀ k, SOrtho (c.S k) (host.C s.h k) := by
  have hC := h.at_.1.C
  simp only at hC
  refine ⟨?_, fun k => by rw [hC]; exact h.at_.2.1 k⟩
  obtain ⟨X, ek, ul, eta, fn, hx, mu⟩ := pt
  have h2 := h.hx
  simp only at hC h2
  simp only [Nlcg.hostPoint, hC, ← h2]

theorem solve_hostOps (hs : Setting host c) (prm : NlcgParams ℝ) (fuel rank : ℕ) (w : NState ℝ (SState ξ n b))
    (h0 : SStart host c w.s) : solve host c prm fuel rank w = nlcg (hostOps host c) prm fuel rank w :=
  (solver_rule hs).congr_all (fun pt dir sl t s _ hD => by
      show solverGeo host c pt dir t s = _
      rw [guardedGeo, if_pos ⟨sl, hD⟩])
    (fun pt s _ hJ => by
      show solverRestarted host c pt s = _
      rw [hostRestarted, if_pos hJ.hostPoint.2, hJ.hostPoint.1])
    (fun fr pt d s _ hJ => by
      show solverConjugated host c fr pt d s = _
      rw [hostConjugated, if_pos hJ.hostPoint.2, hJ.hostPoint.1])
    (fun s h => by
      show solverSetup host c s = _
      rw [hostSetup, if_pos h.2]) prm fuel rank w h0

/-! ## Corresponding runs -/

variable {H : Raised a c.S host' host}

theorem raiseCall_out {β : Type} {s : SState η n b} {s' : SState ξ n b} (hR : (raiseWorld H).R s s')
    {f : η → Option β × η} {g : ξ → Option β × ξ} (cl' cl : HostCall n b)
    (h : (f s.h).1 = (g s'.h).1 ∧ H.R (f s.h).2 (g s'.h).2) :
    Out (raiseWorld H) (fun _ a b => a = b) s (hostCall cl' f s) (hostCall cl g s') := by
  unfold hostCall
  generalize f s.h = r at *
  generalize g s'.h = r' at *
  obtain ⟨o, t⟩ := r
  obtain ⟨o', t'⟩ := r'
  obtain ⟨h1, h2⟩ := h
  simp only at h1 h2
  subst h1
  cases o with
  | none => exact ⟨⟨h2, hR.2⟩, trivial, .throw _⟩
  | some x => exact ⟨⟨h2, hR.2⟩, trivial, .ok rfl⟩

theorem raiseEvaluate_out {s : SState η n b} {s' : SState ξ n b} (hR : (raiseWorld H).R s s') (X : Orbitals n b)
    (f x : Bands b) (mu : ℝ) :
    Out (raiseWorld H) (fun _ _ _ => True) s (evaluate host' c X f (raise a x) (mu + a) s)
      (evaluate host c X f x mu s') := by
  unfold evaluate
  refine Out.bind (raiseCall_out hR _ _ (H.setC X hR.1)) fun t1 t1' _ _ hR1 _ _ => ?_
  refine Out.bind (raiseCall_out hR1 _ _ (H.setFn f hR1.1)) fun t2 t2' _ _ hR2 _ _ => ?_
  refine Out.bind (raiseCall_out hR2 _ _ (H.compute hR2.1)) fun t3 t3' _ _ hR3 _ _ => ?_
  refine Out.bind (raiseCall_out hR3 _ _ (H.setMu mu hR3.1)) fun t4 t4' _ _ hR4 _ _ => ?_
  refine Out.bind (raiseCall_out hR4 _ _ (H.energy hR4.1)) fun t5 t5' e _ hR5 _ heq => ?_
  subst heq
  have h : entropyTerm c.t c.T c.mo (mu + a) (List.ofFn fun k => (c.wk k, List.ofFn (raise a x k)))
      = entropyTerm c.t c.T c.mo mu (List.ofFn fun k => (c.wk k, List.ofFn (x k))) := by
    rw [entropyTerm_ofFn, entropyTerm_ofFn]
    simp only [raise, add_sub_add_right_eq_sub]
  simp only [h]
  rw [SM.modify_apply, SM.modify_apply]
  exact ⟨⟨hR5.1, rfl, rfl⟩, trivial, .ok trivial⟩

theorem makeDiag_raise {m : ℕ} (x : Fin m → ℝ) : makeDiag (fun i => x i + a) = makeDiag x + (a : ℂ) • 1 := by
  ext i j
  by_cases h : i = j
  · subst h; simp [makeDiag]
  · simp [makeDiag, h]

theorem raiseSetup_out (hs : Setting host c) (ho : MovesAlong a c.occ) {s : SState η n b} {s' : SState ξ n b}
    (hR : (raiseWorld H).R s s') :
    Out (raiseWorld H) (fun _ => RaisedPt a) s (hostSetup host' c s) (hostSetup host c s') := by
  unfold hostSetup
  rw [H.C hR.1]
  split
  · next hX =>
    have hcmp := H.compute hR.1
    unfold solverSetup
    rw [hostCall_bind, hostCall_bind]
    rcases h1 : host'.compute s.h with ⟨o', t⟩
    rcases h2 : host.compute s'.h with ⟨o, t'⟩
    rw [h1, h2] at hcmp
    obtain ⟨rfl, hR1⟩ := hcmp
    cases o' with
    | none => exact ⟨⟨hR1, hR.2⟩, trivial, .throw _⟩
    | some u =>
      have hX1 : ∀ k, SOrtho (c.S k) (host.C t' k) := by
        rw [(hs.host.compute _ _ h2).1]; exact hX
      simp only
      have hR1' : (raiseWorld H).R { s with h := t, calls := s.calls ++ [.compute] }
        { s' with h := t', calls := s'.calls ++ [.compute] } := ⟨hR1, hR.2⟩
      rw [SM.get_bind, SM.get_bind, SM.lift_bind, SM.lift_bind]
      simp only
      rw [H.ek hR1 hX1, ho]
      cases c.occ (host.ek t') with
      | ok q =>
        obtain ⟨mu, f⟩ := q
        simp only [res_pure, Res.bind_ok]
        rw [SM.get_bind, SM.get_bind]
        simp only
        rw [H.C hR1]
        have key := raiseEvaluate_out hR1' (host.C t') f (host.ek t') mu
        have : (raiseWorld H).le s { s with h := t, calls := s.calls ++ [.compute] } := trivial
        refine (Out.bind key (Q' := fun _ => RaisedPt a) fun s2 s2' _ _ hR2 _ _ => ?_)
        rw [SM.get_bind, SM.get_bind]
        exact ⟨hR2, trivial, .ok ⟨H.C hR2.1, rfl, funext fun k => makeDiag_raise _, rfl, rfl, rfl⟩⟩
      | throw x => exact ⟨hR1', trivial, .throw x⟩
      | ub => exact ⟨hR1', trivial, .ub⟩
      | abort => exact ⟨hR1', trivial, .abort⟩
  · exact ⟨hR, trivial, .ub⟩

theorem raise_kIn {p q : Point n b} (hp : RaisedPt a p q) {h : η} {x : ξ} (hR : H.R h x)
    (ho : ∀ k, SOrtho (c.S k) (host.C x k)) (k : Fin K) :
    kIn host' c (hostPoint host' h p) h k = raiseIn a (kIn host c (hostPoint host x q) x k) := by
  simp only [kIn, hostPoint, raiseIn, hp.ek, hp.fn, H.C hR, H.hphi hR, H.ek hR ho]
  rfl

theorem raise_globals {p q : Point n b} (hp : RaisedPt a p q) {h : η} {x : ξ} (hR : H.R h x)
    (ho : ∀ k, SOrtho (c.S k) (host.C x k)) :
    globals (dirParams c (hostPoint host' h p)) (kIn host' c (hostPoint host' h p) h)
      = globals (dirParams c (hostPoint host x q)) (kIn host c (hostPoint host x q) x) := by
  simp only [globals, raise_kIn hp hR ho]
  simp only [raiseIn, dirParams, hostPoint, hp.mu, dFdmu, dmuDeta, add_sub_add_right_eq_sub]

theorem raise_execAll (hs : Setting host c) {p q : Point n b} (hp : RaisedPt a p q) {h : η} {x : ξ} (hR : H.R h x)
    (ho : ∀ k, SOrtho (c.S k) (host.C x k)) (k : Fin K) :
    ∃ D, execAll c.la (dirParams c (hostPoint host' h p)) (kIn host' c (hostPoint host' h p) h) k
      = { execAll c.la (dirParams c (hostPoint host x q)) (kIn host c (hostPoint host x q) x) k with
          gx := (execAll c.la (dirParams c (hostPoint host x q)) (kIn host c (hostPoint host x q) x) k).gx
            + c.S k * host.C x k * D } := by
  rw [execAll, raise_globals hp hR ho, raise_kIn hp hR ho]
  have : dirParams c (hostPoint host' h p) = { dirParams c (hostPoint host x q) with
      mu := (dirParams c (hostPoint host x q)).mu + a } := by
    simp only [dirParams, hostPoint, hp.mu]
  rw [this]
  exact execSpc_raise hs.lapack _ _ _ _ _ (ho k) (hs.prec k) (hs.weights k).ne'

theorem raiseRestarted_out (hs : Setting host c) {s : SState η n b} {s' : SState ξ n b} (hR : (raiseWorld H).R s s')
    {p q : Point n b} (hp : RaisedPt a p q) :
    Out (raiseWorld H) (fun _ x y => x.1 = y.1 ∧ x.2 = y.2) s (hostRestarted host' c p s)
      (hostRestarted host c q s') := by
  unfold hostRestarted
  rw [H.C hR.1]
  split
  · next ho =>
    have h := fun k => raise_execAll hs hp hR.1 ho k
    choose D hD using h
    unfold solverRestarted
    rw [SM.get_bind, SM.get_bind]
    refine ⟨hR, trivial, .ok ⟨?_, ?_⟩⟩ <;> simp only [restarted, hD]
  · exact ⟨hR, trivial, .ub⟩

theorem raiseConjugated_out (hs : Setting host c) {s : SState η n b} {s' : SState ξ n b} (hR : (raiseWorld H).R s s')
    {p q : Point n b} (hp : RaisedPt a p q) (d : Dir n b) (fr : ℝ) :
    Out (raiseWorld H) (fun _ x y => x.1 = y.1 ∧ x.2.1 = y.2.1 ∧ x.2.2 = y.2.2) s (hostConjugated host' c fr p d s)
      (hostConjugated host c fr q d s') := by
  unfold hostConjugated
  rw [H.C hR.1]
  split
  · next ho =>
    have h := fun k => raise_execAll hs hp hR.1 ho k
    choose D hD using h
    have hc : ∀ k, conjAll c.la (dirParams c (hostPoint host' s.h p)) (kIn host' c (hostPoint host' s.h p) s.h) d
        (hostPoint host' s.h p).ul k = conjAll c.la (dirParams c (hostPoint host s'.h q))
          (kIn host c (hostPoint host s'.h q) s'.h) d (hostPoint host s'.h q).ul k := by
      intro k
      rw [conjAll, hD, raise_kIn hp hR.1 ho]
      simp only [hostPoint, hp.ul]
      exact execConjugate_raise hs.lapack (sx_injective (ho k)) _ _ _ _ _ _
    unfold solverConjugated
    rw [SM.get_bind, SM.get_bind]
    refine ⟨hR, trivial, .ok ⟨?_, ?_, ?_⟩⟩ <;> simp only [conjugated, hD, hc]
  · exact ⟨hR, trivial, .ub⟩

theorem RaisedPt.sdir (ho : MovesAlong a c.occ) {p q : Point n b} (hp : RaisedPt a p q) (d : Dir n b) (sl : ℝ) :
    SDir c p d sl ↔ SDir c q d sl := by
  have h1 : (∀ k, p.eta k = makeDiag (p.ek k)) ↔ ∀ k, q.eta k = makeDiag (q.ek k) := by
    refine forall_congr' fun k => ?_
    rw [hp.eta, hp.ek]
    show _ = makeDiag (fun i => q.ek k i + a) ↔ _
    rw [makeDiag_raise, add_left_inj]
  have h3 : occs c.t c.T c.mo (raise a q.ek) (q.mu + a) = occs c.t c.T c.mo q.ek q.mu := by
    funext k i
    simp only [occs, raise, add_sub_add_right_eq_sub]
  have h2 : c.occ p.ek = .ok (p.mu, occs c.t c.T c.mo p.ek p.mu) ↔
      c.occ q.ek = .ok (q.mu, occs c.t c.T c.mo q.ek q.mu) := by
    rw [hp.ek, hp.mu, ho, h3]
    cases hq : c.occ q.ek with
    | ok r => simp [res_pure, Prod.ext_iff]
    | throw e => simp
    | ub => simp
    | abort => simp
  constructor
  · rintro ⟨g1, g2, g3, g4, g5, g6⟩
    exact ⟨hp.X ▸ g1, hp.X ▸ g2, g3, h1.1 g4, h2.1 g5, g6⟩
  · rintro ⟨g1, g2, g3, g4, g5, g6⟩
    exact ⟨hp.X ▸ g1, hp.X ▸ g2, g3, h1.2 g4, h2.2 g5, g6⟩

theorem raiseGeo_out (ho : MovesAlong a c.occ) (he : EighMovesAlong a c.la) {s : SState η n b} {s' : SState ξ n b}
    (hR : (raiseWorld H).R s s') {p q : Point n b} (hp : RaisedPt a p q) (d : Dir n b) (t : ℝ) :
    Out (raiseWorld H) (fun _ => RaisedPt a) s (guardedGeo host' c p d t s) (guardedGeo host c q d t s') := by
  have e : (∃ sl, SDir c p d sl) ↔ ∃ sl, SDir c q d sl := exists_congr (hp.sdir ho d)
  by_cases hd : ∃ sl, SDir c q d sl
  · rw [guardedGeo, guardedGeo, if_pos (e.2 hd), if_pos hd]
    obtain ⟨sl, hD⟩ := hd
    have h := fun k => geodesicUs_raise he (q.X k) (eta := q.eta k) (d.zx k) (zeta := d.zeta k) (c.S k) t
      (by rw [hD.eta]; exact makeDiag_hermitian _) (hD.herm k)
    have hall : (forAllK fun k => geodesicUs c.la (p.X k) (p.eta k) (d.zx k) (d.zeta k) (c.S k) t)
        = (do let g ← forAllK fun k => geodesicUs c.la (q.X k) (q.eta k) (d.zx k) (d.zeta k) (c.S k) t
              pure fun k => { g k with ek := fun i => (g k).ek i + a }) := by
      rw [hp.X, hp.eta]
      simp only [h]
      exact forAllK_map _ _
    unfold solverGeo
    rw [SM.lift_bind, SM.lift_bind, hall]
    cases forAllK fun k => geodesicUs c.la (q.X k) (q.eta k) (d.zx k) (d.zeta k) (c.S k) t with
    | ok g =>
      simp only [res_pure, Res.bind_ok]
      rw [SM.lift_bind, SM.lift_bind]
      have := ho fun k => (g k).ek
      rw [show (fun k i => (g k).ek i + a) = raise a fun k => (g k).ek from rfl, this]
      cases c.occ fun k => (g k).ek with
      | ok r =>
        obtain ⟨mu, f⟩ := r
        refine Out.bind (raiseEvaluate_out hR (fun k => (g k).X) f (fun k => (g k).ek) mu) fun s2 s2' _ _ hR2 _ _ => ?_
        exact ⟨hR2, trivial, .ok ⟨rfl, rfl, hp.eta, hp.fn, rfl, rfl⟩⟩
      | throw x => exact ⟨hR, trivial, .throw x⟩
      | ub => exact ⟨hR, trivial, .ub⟩
      | abort => exact ⟨hR, trivial, .abort⟩
    | throw x => exact ⟨hR, trivial, .throw x⟩
    | ub => exact ⟨hR, trivial, .ub⟩
    | abort => exact ⟨hR, trivial, .abort⟩
  · rw [guardedGeo, guardedGeo, if_neg fun h => hd (e.1 h), if_neg hd]
    exact ⟨hR, trivial, .ub⟩

/-- Runs above different zeros of energy correspond. -/
def raiseSim (H : Raised a c.S host' host) (hs : Setting host c) (ho : MovesAlong a c.occ) (he : EighMovesAlong a c.la) :
    Spec.Sim (hostOps host' c) (hostOps host c) where
  W := raiseWorld H
  P0 _ := RaisedPt a
  P _ := RaisedPt a
  D _ d d' := d = d'
  weaken h := h
  P0_mono _ h := h
  P_mono _ h := h
  D_mono _ h := h
  construct hR := by
    simp only [hostOps, solverOps, SM.lift_apply]
    refine ⟨hR, trivial, ?_⟩
    simp only
    split
    · exact .throw _
    · exact .ok trivial
  setup hR := raiseSetup_out hs ho hR
  restarted hR hp := raiseRestarted_out hs hR hp
  conjugated fr hR hp hd := by subst hd; exact raiseConjugated_out hs hR hp _ fr
  geo t hR hp hd := by subst hd; exact raiseGeo_out ho he hR hp _ t
  refresh hR hp := by
    simp only [hostOps, solverOps, solverRefresh]
    rw [SM.get_bind, SM.get_bind]
    refine ⟨hR, trivial, .ok ⟨hp.X, hp.ek, ?_, H.fn hR.1, hp.mu, hp.ul⟩⟩
    simp only [hp.ek]
    exact funext fun k => makeDiag_raise _
  gather hR _ := ⟨hR, trivial, .ok trivial⟩
  hostPrint hR := by
    have h := raiseCall_out hR .print .print (H.print hR.1)
    refine ⟨h.1, h.2.1, ?_⟩
    obtain ⟨-, -, h⟩ := h
    simp only [hostOps, solverOps]
    revert h
    generalize (hostCall _ host'.print _).1 = r
    generalize (hostCall _ host.print _).1 = r'
    intro h
    cases h <;> constructor
    trivial
  getF hR := hR.2.1
  getS hR := hR.2.2

end Nlcg
