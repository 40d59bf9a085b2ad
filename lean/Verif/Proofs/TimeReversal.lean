import Verif.Spec.TimeReversal
import Verif.Proofs.Represent

/-! Complex conjugation of some k-points. -/

namespace Nlcg
open Spec Matrix Arith

section one
variable {f : Bool} {N B m p : ℕ}

theorem cj_true (A : Mat m p) : cj true A = A.map (starRingEnd ℂ) := rfl
theorem cj_false (A : Mat m p) : cj false A = A := rfl

theorem cj_cj (A : Mat m p) : cj f (cj f A) = A := by
  cases f
  · rfl
  · ext i j; simp [cj]

theorem cj_mul {q : ℕ} (A : Mat m p) (C : Mat p q) : cj f (A * C) = cj f A * cj f C := by
  cases f
  · rfl
  · exact Matrix.map_mul

theorem cj_conjTranspose (A : Mat m p) : (cj f A)ᴴ = cj f Aᴴ := by
  cases f
  · rfl
  · ext i j; simp [cj, conjTranspose_apply]

theorem cj_add (A C : Mat m p) : cj f (A + C) = cj f A + cj f C := by
  cases f
  · rfl
  · ext i j; simp [cj]

theorem cj_smul (r : ℝ) (A : Mat m p) : cj f ((r : ℂ) • A) = (r : ℂ) • cj f A := by
  cases f
  · rfl
  · ext i j; simp [cj]

theorem cj_zero : cj f (0 : Mat m p) = 0 := by
  cases f
  · rfl
  · ext i j; simp [cj]

theorem cj_innerM {q : ℕ} (A : Mat m p) (C : Mat m q) (a : ℝ) :
    innerM (cj f A) (cj f C) (a : ℂ) = cj f (innerM A C (a : ℂ)) := by
  rw [innerM, innerM, cj_conjTranspose, ← cj_mul, cj_smul]

theorem cj_innerM_one {q : ℕ} (A : Mat m p) (C : Mat m q) : innerM (cj f A) (cj f C) = cj f (innerM A C) := by
  have := cj_innerM (f := f) A C 1
  rwa [Complex.ofReal_one] at this

theorem cj_transformM {q : ℕ} (A : Mat m p) (U : Mat p q) : transformM (cj f A) (cj f U) = cj f (transformM A U) :=
  (cj_mul A U).symm

theorem cj_addM (A C : Mat m p) (x y : ℝ) : addM (cj f A) (cj f C) (x : ℂ) (y : ℂ) = cj f (addM A C (x : ℂ) (y : ℂ)) := by
  rw [addM, addM, cj_add, cj_smul, cj_smul]

theorem cj_addM_one (A C : Mat m p) (x : ℝ) : addM (cj f A) (cj f C) (x : ℂ) = cj f (addM A C (x : ℂ)) := by
  have := cj_addM (f := f) A C x 1
  rwa [Complex.ofReal_one] at this

theorem cj_scaleCols (A : Mat m p) (x : Fin p → ℝ) (a : ℝ) : scaleCols (cj f A) x a = cj f (scaleCols A x a) := by
  cases f
  · rfl
  · ext i j; simp [cj, scaleCols]

theorem cj_innerhTr_re (A C : Mat m p) : (innerhTr (cj f A) (cj f C)).re = (innerhTr A C).re := by
  cases f
  · rfl
  · simp only [innerhTr, cj, if_true, map_apply, Complex.re_sum]
    refine Finset.sum_congr rfl fun i _ => Finset.sum_congr rfl fun j _ => ?_
    simp [Complex.mul_re]

theorem cj_outerM (A C : Mat m m) : outerM (cj f A) (cj f C) = cj f (outerM A C) := by
  rw [outerM, outerM, cj_conjTranspose, cj_mul]

variable {la : Lapack} (hla : LapackReal la)
include hla

theorem cj_solve {q : ℕ} (A : Mat m m) (C : Mat m q) : la.solve (cj f A) (cj f C) = cj f (la.solve A C) := by
  cases f
  · rfl
  · simp only [Lapack.solve, hla.potrf, hla.potrs]

theorem cj_eigh (A : Mat m m) : la.eigh (cj f A) = (do let r ← la.eigh A; pure (r.1, cj f r.2)) := by
  cases f
  · simp only [cj_false]
    cases la.eigh A <;> rfl
  · simp only [Lapack.eigh, hla.heevd]
    split_ifs <;> rfl

theorem cj_lmult (sx hx : Mat N B) (P : Mat N N) : lmult la (cj f sx) (cj f hx) (cj f P) = cj f (lmult la sx hx P) := by
  simp only [lmult, ← cj_mul, cj_innerM_one, cj_solve hla, cj_transformM]

omit hla in
theorem cj_gradx (hx xll : Mat N B) (o : Fin B → ℝ) (wk : ℝ) :
    gradx (cj f hx) o (cj f xll) wk = cj f (gradx hx o xll wk) := by
  have := cj_addM_one (f := f) (scaleCols hx o wk) xll (-wk)
  rw [Complex.ofReal_neg] at this
  simp only [gradx, cj_scaleCols, this]

omit hla in
theorem cj_precondgxUs (hx xll : Mat N B) (P : Mat N N) :
    precondgxUs (cj f hx) (cj f P) (cj f xll) = cj f (precondgxUs hx P xll) := by
  have h1 := cj_addM (f := f) (0 : Mat N B) hx (-1) 0
  have h2 := cj_addM_one (f := f) (addM 0 hx (-1) 0) xll 1
  simp only [Complex.ofReal_neg, Complex.ofReal_one, Complex.ofReal_zero, cj_zero] at h1 h2
  simp only [precondgxUs, h1, h2, cj_mul]

theorem cj_conjugatex (z sx : Mat N B) : conjugatex la (cj f z) (cj f sx) = cj f (conjugatex la z sx) := by
  have h2 := fun C => cj_addM (f := f) z C (-1) 1
  simp only [Complex.ofReal_neg, Complex.ofReal_one] at h2
  simp only [conjugatex, cj_innerM_one, cj_solve hla, cj_transformM, h2]

theorem cj_loewdin (X SX : Mat N B) :
    loewdin la (cj f X) (cj f SX) = (do let y ← loewdin la X SX; pure (cj f y)) := by
  simp only [loewdin, cj_innerM_one, cj_eigh hla]
  cases la.eigh (innerM X SX) with
  | ok q =>
    simp only [res_pure, Res.bind_ok, cj_scaleCols, cj_outerM, cj_transformM]
  | _ => rfl

theorem cj_geodesicUs (S : Mat N N) (X : Mat N B) (eta : Mat B B) (zx : Mat N B) (zeta : Mat B B) (t : ℝ) :
    geodesicUs la (cj f X) (cj f eta) (cj f zx) (cj f zeta) (cj f S) t
      = (do let g ← geodesicUs la X eta zx zeta S t; pure ⟨g.ek, cj f g.ul, cj f g.X⟩) := by
  simp only [geodesicUs, advanceEta, cj_addM_one, cj_eigh hla]
  cases la.eigh (addM eta zeta t) with
  | ok q =>
    simp only [Res.bind_ok, res_pure, advanceX, cj_addM_one, ← cj_mul, cj_loewdin hla]
    cases loewdin la (addM X zx t) (S * addM X zx t) with
    | ok y =>
      simp only [Res.bind_ok, res_pure, cj_transformM]
    | _ => rfl
  | _ => rfl

omit hla in
theorem cj_gEta (sf : SmearFns ℝ) (T : ℝ) (hij : Mat B B) (mu wk : ℝ) (ek fn : Fin B → ℝ) (dmu dF mo : ℝ) :
    gEta sf T (cj f hij) mu wk ek fn dmu dF mo = cj f (gEta sf T hij mu wk ek fn dmu dF mo) := by
  cases f
  · rfl
  · ext i j
    simp only [gEta, cj, if_true, map_apply]
    split_ifs <;> simp

omit hla in
theorem cj_deltaEta (kappa : ℝ) (hij : Mat B B) (ek : Fin B → ℝ) (wk : ℝ) :
    deltaEta kappa (cj f hij) ek wk = cj f (deltaEta kappa hij ek wk) := by
  cases f
  · rfl
  · ext i j
    simp only [deltaEta, cj, if_true, map_apply]
    split_ifs <;> simp

theorem cj_execSpc (q : DirParams) (dF sumfn : ℝ) (i : KIn N B) :
    execSpc la q dF sumfn (⟨cj f i.X, cj f i.hx, i.e, i.f, i.hii, cj f i.S, cj f i.P, i.wk⟩ : KIn N B)
      = ⟨(execSpc la q dF sumfn i).fr, cj f (execSpc la q dF sumfn i).gx, cj f (execSpc la q dF sumfn i).geta,
          cj f (execSpc la q dF sumfn i).dx, cj f (execSpc la q dF sumfn i).deta⟩ := by
  simp only [execSpc, ← cj_mul, cj_lmult hla, cj_gradx, cj_precondgxUs, cj_innerM, cj_gEta, cj_deltaEta, cj_innerhTr_re]

theorem cj_execConjugate (sx z : Mat N B) (zeta ul : Mat B B) (gx : Mat N B) (geta : Mat B B) :
    execConjugate la (cj f sx) (cj f z) (cj f zeta) (cj f ul) (cj f gx) (cj f geta)
      = ((execConjugate la sx z zeta ul gx geta).1, cj f (execConjugate la sx z zeta ul gx geta).2.1,
          cj f (execConjugate la sx z zeta ul gx geta).2.2) := by
  simp only [execConjugate, rotatex, rotateeta, cj_transformM, cj_innerM_one, cj_conjugatex hla, cj_innerhTr_re]

end one

theorem cj_makeDiag {f : Bool} {B : ℕ} (x : Fin B → ℝ) : cj f (makeDiag x) = makeDiag x := by
  cases f
  · rfl
  · ext i j
    simp only [makeDiag, cj, if_true, map_apply, diagonal_apply]
    split_ifs <;> simp

theorem forAllK_reversed {K : ℕ} {β β' : Fin K → Type} {f : (k : Fin K) → Res (β k)} {f' : (k : Fin K) → Res (β' k)}
    (g : (k : Fin K) → β k → β' k) (hf : ∀ k, f' k = (do let r ← f k; pure (g k r))) :
    forAllK f' = (do let r ← forAllK f; pure fun k => g k (r k)) := by
  induction K with
  | zero => exact congrArg Res.ok (funext fun k => k.elim0)
  | succ K ih =>
    have h := ih (f := fun k => f k.succ) (f' := fun k => f' k.succ) (fun k => g k.succ) fun k => hf k.succ
    simp only [forAllK, h, hf 0]
    cases f 0 with
    | ok a =>
      simp only [res_pure, Res.bind_ok]
      cases forAllK fun k => f k.succ with
      | ok r =>
        refine congrArg Res.ok (funext fun k => ?_)
        refine Fin.cases ?_ (fun i => ?_) k <;> rfl
      | _ => rfl
    | _ => rfl

variable {K : ℕ} {n b : Fin K → ℕ} {η : Type} {σ : Fin K → Bool} {host : Host η n b} {c : Cfg n b}

theorem reversed_reversed (X : Orbitals n b) : reversed σ (reversed σ X) = X := funext fun _ => cj_cj _

/-- States correspond when the hosts are in the same state and the free energies agree. -/
def revWorld (n b : Fin K → ℕ) (η : Type) : World (SState η n b) (SState η n b) where
  R s s' := s.h = s'.h ∧ s.F = s'.F ∧ s.S = s'.S
  le _ _ := True
  refl _ := trivial
  trans _ _ := trivial

/-- the reversed point, up to `ul` -/
structure RevPt0 (σ : Fin K → Bool) (p q : Point n b) : Prop where
  X : p.X = reversed σ q.X
  ek : p.ek = q.ek
  eta : p.eta = fun k => cj (σ k) (q.eta k)
  fn : p.fn = q.fn
  hx : p.hx = reversed σ q.hx
  mu : p.mu = q.mu

/-- the reversed point -/
structure RevPt (σ : Fin K → Bool) (p q : Point n b) : Prop extends RevPt0 σ p q where
  ul : p.ul = fun k => cj (σ k) (q.ul k)

/-- the reversed direction -/
def RevDir (σ : Fin K → Bool) (d d' : Dir n b) : Prop := d = ⟨reversed σ d'.zx, fun k => cj (σ k) (d'.zeta k)⟩

theorem revCall_out {β : Type} {s s' : SState η n b} (hR : (revWorld n b η).R s s')
    {f g : η → Option β × η} (cl' cl : HostCall n b) (h : f s'.h = g s'.h) :
    Out (revWorld n b η) (fun _ a b => a = b) s (hostCall cl' f s) (hostCall cl g s') := by
  unfold hostCall
  rw [hR.1, h]
  generalize g s'.h = r
  obtain ⟨o, t⟩ := r
  cases o with
  | none => exact ⟨⟨rfl, hR.2⟩, trivial, .throw _⟩
  | some x => exact ⟨⟨rfl, hR.2⟩, trivial, .ok rfl⟩

theorem revEvaluate_out {s s' : SState η n b} (hR : (revWorld n b η).R s s') (X : Orbitals n b) (f x : Bands b) (mu : ℝ) :
    Out (revWorld n b η) (fun _ _ _ => True) s (evaluate (reversedHost σ host) (reversedCfg σ c) (reversed σ X) f x mu s)
      (evaluate host c X f x mu s') := by
  unfold evaluate
  refine Out.bind (revCall_out hR _ _ (by simp only [reversedHost, reversed_reversed])) fun t1 t1' _ _ hR1 _ _ => ?_
  refine Out.bind (revCall_out hR1 _ _ rfl) fun t2 t2' _ _ hR2 _ _ => ?_
  refine Out.bind (revCall_out hR2 _ _ rfl) fun t3 t3' _ _ hR3 _ _ => ?_
  refine Out.bind (revCall_out hR3 _ _ rfl) fun t4 t4' _ _ hR4 _ _ => ?_
  refine Out.bind (revCall_out hR4 _ _ rfl) fun t5 t5' a _ hR5 _ heq => ?_
  subst heq
  rw [SM.modify_apply, SM.modify_apply]
  exact ⟨⟨hR5.1, rfl, rfl⟩, trivial, .ok trivial⟩

theorem revSetup_out {s s' : SState η n b} (hR : (revWorld n b η).R s s') :
    Out (revWorld n b η) (fun _ => RevPt0 σ) s (solverSetup (reversedHost σ host) (reversedCfg σ c) s)
      (solverSetup host c s') := by
  unfold solverSetup
  refine Out.bind (revCall_out hR _ _ rfl) fun s1 s1' _ _ hR1 _ _ => ?_
  rw [SM.get_bind, SM.get_bind, SM.lift_bind, SM.lift_bind, hR1.1]
  have ho : (reversedCfg σ c).occ ((reversedHost σ host).ek s1'.h) = c.occ (host.ek s1'.h) := rfl
  simp only [ho]
  cases c.occ (host.ek s1'.h) with
  | ok q =>
    obtain ⟨mu, f⟩ := q
    simp only
    rw [SM.get_bind, SM.get_bind, hR1.1]
    refine Out.bind (revEvaluate_out (σ := σ) hR1 (host.C s1'.h) _ _ _) fun s2 s2' _ _ hR2 _ _ => ?_
    rw [SM.get_bind, SM.get_bind, hR2.1]
    exact ⟨hR2, trivial, .ok ⟨rfl, rfl, funext fun k => (cj_makeDiag _).symm, rfl, rfl, rfl⟩⟩
  | throw x => exact ⟨hR1, trivial, .throw x⟩
  | ub => exact ⟨hR1, trivial, .ub⟩
  | abort => exact ⟨hR1, trivial, .abort⟩

theorem revKIn {p q : Point n b} (hp : RevPt0 σ p q) (h : η) (k : Fin K) :
    kIn (reversedHost σ host) (reversedCfg σ c) p h k
      = ⟨cj (σ k) (kIn host c q h k).X, cj (σ k) (kIn host c q h k).hx, (kIn host c q h k).e, (kIn host c q h k).f,
          (kIn host c q h k).hii, cj (σ k) (kIn host c q h k).S, cj (σ k) (kIn host c q h k).P,
          (kIn host c q h k).wk⟩ := by
  simp only [kIn, hp.X, hp.hx, hp.ek, hp.fn]
  rfl

theorem revParams {p q : Point n b} (hp : RevPt0 σ p q) : dirParams (reversedCfg σ c) p = dirParams c q := by
  simp only [dirParams, hp.mu]
  rfl

variable (hla : LapackReal c.la)
include hla

theorem revExec {p q : Point n b} (hp : RevPt0 σ p q) (h : η) (k : Fin K) :
    execAll (reversedCfg σ c).la (dirParams (reversedCfg σ c) p) (kIn (reversedHost σ host) (reversedCfg σ c) p h) k
      = ⟨(execAll c.la (dirParams c q) (kIn host c q h) k).fr, cj (σ k) (execAll c.la (dirParams c q) (kIn host c q h) k).gx,
          cj (σ k) (execAll c.la (dirParams c q) (kIn host c q h) k).geta,
          cj (σ k) (execAll c.la (dirParams c q) (kIn host c q h) k).dx,
          cj (σ k) (execAll c.la (dirParams c q) (kIn host c q h) k).deta⟩ := by
  have hg : ∀ d, globals d (kIn (reversedHost σ host) (reversedCfg σ c) p h) = globals d (kIn host c q h) := by
    intro d
    simp only [globals, revKIn hp]
  simp only [execAll, hg, revParams hp, revKIn hp]
  exact cj_execSpc hla _ _ _ _

theorem revRestarted_out {s s' : SState η n b} (hR : (revWorld n b η).R s s') {p q : Point n b} (hp : RevPt0 σ p q) :
    Out (revWorld n b η) (fun _ x y => x.1 = y.1 ∧ RevDir σ x.2 y.2) s
      (solverRestarted (reversedHost σ host) (reversedCfg σ c) p s) (solverRestarted host c q s') := by
  unfold solverRestarted
  rw [SM.get_bind, SM.get_bind, hR.1]
  refine ⟨hR, trivial, .ok ⟨?_, ?_⟩⟩
  · simp only [restarted, revExec hla hp]
  · simp only [restarted, revExec hla hp]
    rfl

theorem revConj {p q : Point n b} (hp : RevPt σ p q) (h : η) {d d' : Dir n b} (hd : RevDir σ d d') (k : Fin K) :
    conjAll (reversedCfg σ c).la (dirParams (reversedCfg σ c) p) (kIn (reversedHost σ host) (reversedCfg σ c) p h) d p.ul k
      = ((conjAll c.la (dirParams c q) (kIn host c q h) d' q.ul k).1,
          cj (σ k) (conjAll c.la (dirParams c q) (kIn host c q h) d' q.ul k).2.1,
          cj (σ k) (conjAll c.la (dirParams c q) (kIn host c q h) d' q.ul k).2.2) := by
  rw [conjAll, revExec hla hp.toRevPt0, hd, hp.ul, revKIn hp.toRevPt0]
  simp only [← cj_mul, reversed]
  exact cj_execConjugate hla _ _ _ _ _ _

theorem revConjugated_out {s s' : SState η n b} (hR : (revWorld n b η).R s s') {p q : Point n b} (hp : RevPt σ p q)
    {d d' : Dir n b} (hd : RevDir σ d d') (fr : ℝ) :
    Out (revWorld n b η) (fun _ x y => x.1 = y.1 ∧ x.2.1 = y.2.1 ∧ RevDir σ x.2.2 y.2.2) s
      (solverConjugated (reversedHost σ host) (reversedCfg σ c) fr p d s) (solverConjugated host c fr q d' s') := by
  unfold solverConjugated
  rw [SM.get_bind, SM.get_bind, hR.1]
  refine ⟨hR, trivial, .ok ⟨?_, ?_, ?_⟩⟩
  · simp only [conjugated, revExec hla hp.toRevPt0]
  · simp only [conjugated, revConj hla hp _ hd, revExec hla hp.toRevPt0]
  · have h2 := fun {m p : ℕ} (f : Bool) (A C : Mat m p) (y : ℝ) => cj_addM (f := f) A C 1 y
    simp only [Complex.ofReal_one] at h2
    simp only [conjugated, revConj hla hp _ hd, revExec hla hp.toRevPt0, h2]
    rfl

theorem revGeo_out {s s' : SState η n b} (hR : (revWorld n b η).R s s') {p q : Point n b} (hp : RevPt0 σ p q)
    {d d' : Dir n b} (hd : RevDir σ d d') (t : ℝ) :
    Out (revWorld n b η) (fun _ => RevPt σ) s (solverGeo (reversedHost σ host) (reversedCfg σ c) p d t s)
      (solverGeo host c q d' t s') := by
  have h := forAllK_reversed (f := fun k => geodesicUs c.la (q.X k) (q.eta k) (d'.zx k) (d'.zeta k) (c.S k) t)
    (f' := fun k => geodesicUs (reversedCfg σ c).la (p.X k) (p.eta k) (d.zx k) (d.zeta k) ((reversedCfg σ c).S k) t)
    (fun k g => (⟨g.ek, cj (σ k) g.ul, cj (σ k) g.X⟩ : GeoOut (n k) (b k)))
    (fun k => by
      rw [hd, hp.X, hp.eta]
      exact cj_geodesicUs hla _ _ _ _ _ _)
  unfold solverGeo
  rw [SM.lift_bind, SM.lift_bind, h]
  cases forAllK fun k => geodesicUs c.la (q.X k) (q.eta k) (d'.zx k) (d'.zeta k) (c.S k) t with
  | ok g =>
    simp only [res_pure, Res.bind_ok]
    rw [SM.lift_bind, SM.lift_bind]
    have ho : (reversedCfg σ c).occ = c.occ := rfl
    rw [ho]
    cases c.occ fun k => (g k).ek with
    | ok r =>
      obtain ⟨mu, f⟩ := r
      refine Out.bind (revEvaluate_out hR (fun k => (g k).X) f (fun k => (g k).ek) mu) fun s2 s2' _ _ hR2 _ _ => ?_
      exact ⟨hR2, trivial, .ok ⟨⟨rfl, rfl, hp.eta, hp.fn, hp.hx, rfl⟩, rfl⟩⟩
    | throw x => exact ⟨hR, trivial, .throw x⟩
    | ub => exact ⟨hR, trivial, .ub⟩
    | abort => exact ⟨hR, trivial, .abort⟩
  | throw x => exact ⟨hR, trivial, .throw x⟩
  | ub => exact ⟨hR, trivial, .ub⟩
  | abort => exact ⟨hR, trivial, .abort⟩

/-- The runs with and without reversed k-points correspond. -/
def revSim (σ : Fin K → Bool) (host : Host η n b) :
    Spec.Sim (solverOps (reversedHost σ host) (reversedCfg σ c)) (solverOps host c) where
  W := revWorld n b η
  P0 _ := RevPt0 σ
  P _ := RevPt σ
  D _ := RevDir σ
  weaken h := h.toRevPt0
  P0_mono _ h := h
  P_mono _ h := h
  D_mono _ h := h
  construct hR := by
    simp only [solverOps, SM.lift_apply, reversedCfg]
    refine ⟨hR, trivial, ?_⟩
    by_cases h : c.T = 0
    · simp only [h, if_true]
      exact .throw _
    · simp only [h, if_false]
      exact .ok trivial
  setup hR := revSetup_out hR
  restarted hR hp := revRestarted_out hla hR hp
  conjugated fr hR hp hd := revConjugated_out hla hR hp hd fr
  geo t hR hp hd := revGeo_out hla hR hp hd t
  refresh hR hp := by
    simp only [solverOps, solverRefresh]
    rw [SM.get_bind, SM.get_bind, hR.1]
    refine ⟨hR, trivial, .ok ⟨⟨hp.X, hp.ek, ?_, rfl, rfl, hp.mu⟩, hp.ul⟩⟩
    simp only [hp.ek]
    exact funext fun k => (cj_makeDiag _).symm
  gather hR _ := ⟨hR, trivial, .ok trivial⟩
  hostPrint hR := by
    have h := revCall_out hR .print .print (f := (reversedHost σ host).print) (g := host.print) rfl
    refine ⟨h.1, h.2.1, ?_⟩
    obtain ⟨-, -, h⟩ := h
    simp only [solverOps]
    revert h
    generalize (hostCall _ (reversedHost σ host).print _).1 = r
    generalize (hostCall _ host.print _).1 = r'
    intro h
    cases h <;> constructor
    trivial
  getF hR := hR.2.1
  getS hR := hR.2.2

end Nlcg
