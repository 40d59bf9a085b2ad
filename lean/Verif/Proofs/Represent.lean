import Verif.Spec.Represent
import Verif.Proofs.MemSolver
import Verif.Proofs.SearchOcc
import Verif.Proofs.Spmd

/-! Two descriptions of the same system give the same run. -/

namespace Nlcg
open Spec Matrix Arith

theorem res_pure {β : Type} (x : β) : (pure x : Res β) = .ok x := rfl

/-! ## One k-point in another basis, with another weight -/

section one
variable {N N' B : ℕ} {W : Mat N' N}

theorem innerM_iso (hW : Wᴴ * W = 1) {m p : ℕ} (A : Mat N m) (C : Mat N p) (a : ℂ) :
    innerM (W * A) (W * C) a = innerM A C a := by
  rw [innerM, innerM, conjTranspose_mul, Matrix.mul_assoc, ← Matrix.mul_assoc Wᴴ, hW, Matrix.one_mul]

theorem innerhTr_iso (hW : Wᴴ * W = 1) (A C : Mat N B) : innerhTr (W * A) (W * C) = innerhTr A C := by
  rw [innerhTr_eq, innerhTr_eq, conjTranspose_mul, Matrix.mul_assoc, ← Matrix.mul_assoc Wᴴ, hW, Matrix.one_mul]

theorem innerhTr_smul_left (r : ℂ) (A C : Mat N B) : innerhTr (r • A) C = r * innerhTr A C := by
  rw [innerhTr_eq, innerhTr_eq, Matrix.mul_smul, trace_smul, smul_eq_mul]

theorem innerhTr_smul_right (r : ℝ) (A C : Mat N B) : innerhTr A ((r : ℂ) • C) = r * innerhTr A C := by
  rw [innerhTr_eq, innerhTr_eq, conjTranspose_smul, Matrix.smul_mul, trace_smul, smul_eq_mul]
  simp

theorem transformM_iso (A : Mat N B) (U : Mat B B) : transformM (W * A) U = W * transformM A U := by
  rw [transformM, transformM, Matrix.mul_assoc]

theorem addM_iso (A C : Mat N B) (x y : ℂ) : addM (W * A) (W * C) x y = W * addM A C x y := by
  rw [addM, addM, Matrix.mul_add, Matrix.mul_smul, Matrix.mul_smul]

theorem scaleCols_iso (A : Mat N B) (x : Fin B → ℝ) (a : ℝ) : scaleCols (W * A) x a = W * scaleCols A x a := by
  rw [scaleCols_eq, scaleCols_eq, Matrix.mul_smul, Matrix.mul_assoc]

theorem scaleCols_mul (A : Mat N B) (x : Fin B → ℝ) (r a : ℝ) :
    scaleCols A x (r * a) = (r : ℂ) • scaleCols A x a := by
  ext i j
  simp only [scaleCols, Matrix.smul_apply, smul_eq_mul, Complex.ofReal_mul]
  ring

theorem lmult_iso (la : Lapack) (hW : Wᴴ * W = 1) {P' : Mat N' N'} {P : Mat N N} (hP : P' * W = W * P)
    (sx hx : Mat N B) : lmult la (W * sx) (W * hx) P' = W * lmult la sx hx P := by
  simp only [lmult, ← Matrix.mul_assoc, hP]
  simp only [Matrix.mul_assoc, innerM_iso hW]
  rw [transformM_iso]

theorem gradx_iso (r : ℝ) (hx xll : Mat N B) (f : Fin B → ℝ) (wk : ℝ) :
    gradx (W * hx) f (W * xll) (r * wk) = (r : ℂ) • (W * gradx hx f xll wk) := by
  simp only [gradx, scaleCols_iso]
  rw [← scaleCols_iso, scaleCols_mul, scaleCols_iso]
  simp only [addM, Matrix.mul_add, Matrix.mul_smul, smul_add, smul_smul, one_smul, Complex.ofReal_mul, mul_neg, mul_one,
    one_mul]

theorem precondgxUs_iso {P' : Mat N' N'} {P : Mat N N} (hP : P' * W = W * P) (hx xll : Mat N B) :
    precondgxUs (W * hx) P' (W * xll) = W * precondgxUs hx P xll := by
  have h0 : addM (0 : Mat N' B) (W * hx) (-1) 0 = W * addM (0 : Mat N B) hx (-1) 0 := by
    rw [← addM_iso, Matrix.mul_zero]
  simp only [precondgxUs, h0, addM_iso]
  rw [← Matrix.mul_assoc, hP, Matrix.mul_assoc]

theorem conjugatex_iso (la : Lapack) (hW : Wᴴ * W = 1) (z sx : Mat N B) :
    conjugatex la (W * z) (W * sx) = W * conjugatex la z sx := by
  simp only [conjugatex, innerM_iso hW, transformM_iso, addM_iso]

theorem loewdin_iso (la : Lapack) (hW : Wᴴ * W = 1) (X SX : Mat N B) :
    loewdin la (W * X) (W * SX) = (do let y ← loewdin la X SX; pure (W * y)) := by
  simp only [loewdin, innerM_iso hW, transformM_iso]
  cases la.eigh (innerM X SX) <;> rfl

theorem geodesicUs_iso (la : Lapack) (hW : Wᴴ * W = 1) {S' : Mat N' N'} {S : Mat N N} (hS : S' * W = W * S)
    (X : Mat N B) (eta : Mat B B) (zx : Mat N B) (zeta : Mat B B) (t : ℝ) :
    geodesicUs la (W * X) eta (W * zx) zeta S' t
      = (do let g ← geodesicUs la X eta zx zeta S t; pure ⟨g.ek, g.ul, W * g.X⟩) := by
  simp only [geodesicUs]
  cases la.eigh (advanceEta t eta zeta) with
  | ok q =>
    simp only [Res.bind_ok, advanceX, addM_iso]
    rw [← Matrix.mul_assoc S', hS, Matrix.mul_assoc, loewdin_iso la hW]
    cases loewdin la (addM X zx t) (S * addM X zx t) with
    | ok y =>
      simp only [Res.bind_ok]
      show _ = _
      simp only [res_pure, Res.bind_ok, transformM_iso]
    | _ => rfl
  | _ => rfl

theorem gEta_scale (sf : SmearFns ℝ) (T : ℝ) (r : ℝ) (hij : Mat B B) (mu wk : ℝ) (ek fn : Fin B → ℝ)
    (dmu dF mo : ℝ) : gEta sf T ((r : ℂ) • hij) mu (r * wk) ek fn dmu dF mo
      = (r : ℂ) • gEta sf T hij mu wk ek fn dmu dF mo := by
  ext i j
  simp only [gEta, Matrix.smul_apply, smul_eq_mul]
  split_ifs <;> push_cast <;> ring

theorem deltaEta_scale (kappa : ℝ) {wk wk' : ℝ} (h : wk ≠ 0) (h' : wk' ≠ 0) (A : Mat B B) (ek : Fin B → ℝ) :
    deltaEta kappa ((wk' : ℂ) • A) ek wk' = deltaEta kappa ((wk : ℂ) • A) ek wk := by
  ext i j
  have e1 : (wk : ℂ) ≠ 0 := by exact_mod_cast h
  have e2 : (wk' : ℂ) ≠ 0 := by exact_mod_cast h'
  have : ((kappa / wk' : ℝ) : ℂ) * (((wk' : ℂ) • A) i j) = ((kappa / wk : ℝ) : ℂ) * (((wk : ℂ) • A) i j) := by
    simp only [Matrix.smul_apply, smul_eq_mul]
    push_cast
    field_simp
  simp only [deltaEta, this]

/-- the result of the direction code for a copy -/
theorem execSpc_copy (la : Lapack) (p : DirParams) (dF sumfn : ℝ) (hW : Wᴴ * W = 1) (i : KIn N B)
    {S' P' : Mat N' N'} (hS : S' * W = W * i.S) (hP : P' * W = W * i.P) (hii' : Fin B → ℝ) {r : ℝ} (hr : r ≠ 0)
    (hw : i.wk ≠ 0) :
    execSpc la p dF sumfn (⟨W * i.X, W * i.hx, i.e, i.f, hii', S', P', r * i.wk⟩ : KIn N' B)
      = ⟨r * (execSpc la p dF sumfn i).fr, (r : ℂ) • (W * (execSpc la p dF sumfn i).gx),
          (r : ℂ) • (execSpc la p dF sumfn i).geta, W * (execSpc la p dF sumfn i).dx,
          (execSpc la p dF sumfn i).deta⟩ := by
  have e1 : S' * (W * i.X) = W * (i.S * i.X) := by rw [← Matrix.mul_assoc, hS, Matrix.mul_assoc]
  have e2 : innerM (W * i.X) (W * i.hx) ((r * i.wk : ℝ) : ℂ) = (r : ℂ) • innerM i.X i.hx (i.wk : ℂ) := by
    rw [innerM_iso hW, innerM, innerM, smul_smul, Complex.ofReal_mul]
  have e3 : deltaEta p.kappa (innerM (W * i.X) (W * i.hx) ((r * i.wk : ℝ) : ℂ)) i.e (r * i.wk)
      = deltaEta p.kappa (innerM i.X i.hx (i.wk : ℂ)) i.e i.wk := by
    rw [innerM_iso hW, innerM, innerM]
    exact deltaEta_scale _ hw (mul_ne_zero hr hw) _ _
  simp only [execSpc, e1, e3, lmult_iso la hW hP, gradx_iso, precondgxUs_iso hP]
  rw [e2, gEta_scale]
  simp only [innerhTr_smul_left, innerhTr_iso hW, KOut.mk.injEq, and_true, true_and, Complex.re_ofReal_mul]
  ring

theorem execConjugate_copy (la : Lapack) (hW : Wᴴ * W = 1) (sx z : Mat N B) (zeta ul : Mat B B) (gx : Mat N B)
    (geta : Mat B B) (r : ℝ) :
    execConjugate la (W * sx) (W * z) zeta ul ((r : ℂ) • (W * gx)) ((r : ℂ) • geta)
      = (r * (execConjugate la sx z zeta ul gx geta).1, W * (execConjugate la sx z zeta ul gx geta).2.1,
          (execConjugate la sx z zeta ul gx geta).2.2) := by
  simp only [execConjugate, rotatex, transformM_iso, conjugatex_iso la hW, innerhTr_smul_right, innerhTr_iso hW,
    Prod.mk.injEq, and_true, true_and, Complex.re_ofReal_mul]
  ring

end one

/-! ## All k-points -/

variable {K L : ℕ} {n b : Fin K → ℕ} {n' : Fin L → ℕ} {η ξ : Type} {e : Fin L → Fin K}
  {W : (k : Fin L) → Mat (n' k) (n (e k))} {host' : Host η n' (copies b e)} {host : Host ξ n b}
  {c' : Cfg n' (copies b e)} {c : Cfg n b}

theorem sum_copies (hc : SameSystem e W c' c) (f : Fin K → ℝ) : ∑ l, f (e l) * c'.wk l = ∑ k, f k * c.wk k := by
  rw [← Finset.sum_fiberwise Finset.univ e]
  refine Finset.sum_congr rfl fun k _ => ?_
  rw [← hc.weights k, Finset.mul_sum]
  exact Finset.sum_congr rfl fun l hl => by rw [(Finset.mem_filter.1 hl).2]

theorem sum_ratio (hc : SameSystem e W c' c) (f : Fin K → ℝ) :
    ∑ l, c'.wk l / c.wk (e l) * f (e l) = ∑ k, f k := by
  rw [show ∑ k, f k = ∑ k, f k / c.wk k * c.wk k from
    Finset.sum_congr rfl fun k _ => (div_mul_cancel₀ _ (hc.nonzero.1 k)).symm, ← sum_copies hc fun k => f k / c.wk k]
  exact Finset.sum_congr rfl fun l _ => by ring

theorem SameSystem_surj (hc : SameSystem e W c' c) : Function.Surjective e := by
  intro k
  by_contra h
  have : ∑ l with e l = k, c'.wk l = 0 := by
    rw [Finset.filter_eq_empty_iff.2 fun l _ hl => h ⟨l, hl⟩, Finset.sum_empty]
  exact hc.nonzero.1 k ((hc.weights k).symm.trans this)

theorem forAllK_copies {β : Fin K → Type} {β' : Fin L → Type} {f : (k : Fin K) → Res (β k)}
    {f' : (l : Fin L) → Res (β' l)} (he : Function.Surjective e) (g : (l : Fin L) → β (e l) → β' l) {x : Exc}
    (hf : ∀ l, f' l = (do let r ← f (e l); pure (g l r))) (hx : ∀ k, (∃ r, f k = .ok r) ∨ f k = .throw x) :
    forAllK f' = (do let r ← forAllK f; pure fun l => g l (r (e l))) := by
  rcases forAllK_cases f hx with ⟨r, hr⟩ | ⟨⟨k, hk⟩, hr⟩
  · rw [hr]
    exact forAllK_eq_ok fun l => by rw [hf, forAllK_ok hr (e l)]; rfl
  · rw [hr]
    obtain ⟨l, rfl⟩ := he k
    have hx' : ∀ l, (∃ r, f' l = .ok r) ∨ f' l = .throw x := by
      intro l
      rw [hf]
      rcases hx (e l) with ⟨r, h⟩ | h <;> rw [h]
      · exact .inl ⟨_, rfl⟩
      · exact .inr rfl
    rcases forAllK_cases f' hx' with ⟨r, h⟩ | ⟨-, h⟩
    · have := forAllK_ok h l
      rw [hf, hk] at this
      cases this
    · exact h

/-- the sums of the search are the same for both descriptions -/
theorem kSum_copies {g : ℝ → ℝ} (hg : ∃ a, ∀ x, g x = a * x) (func : ℝ → ℝ → ℝ) {key : Fin K → Key} {key' : Fin L → Key}
    (hk : Function.Injective key) (hk' : Function.Injective key') {wk : Fin K → ℝ} {wk' : Fin L → ℝ}
    (hw : ∀ k, ∑ l with e l = k, wk' l = wk k) (x : Bands b) (T occ mu : ℝ) :
    kSum g func (KMap.ofRange (oneRank key' wk' (spread e x)).energies.flatten)
      (KMap.ofRange (oneRank key' wk' (spread e x)).weights.flatten) T occ mu
    = kSum g func (KMap.ofRange (oneRank key wk x).energies.flatten)
      (KMap.ofRange (oneRank key wk x).weights.flatten) T occ mu := by
  obtain ⟨a, hg⟩ := hg
  rw [kSum_oneRank g func hk', kSum_oneRank g func hk, ← Finset.sum_fiberwise Finset.univ e]
  refine Finset.sum_congr rfl fun k _ => ?_
  rw [← hw k, hg, Finset.mul_sum, Finset.sum_mul]
  refine Finset.sum_congr rfl fun l hl => ?_
  rw [hg, ← (Finset.mem_filter.1 hl).2]
  rfl

theorem searchOcc_copies {useNewton : Bool} (t : SmearType) (p : OccParams ℝ) {key : Fin K → Key}
    {key' : Fin L → Key} (hk : Function.Injective key) (hk' : Function.Injective key') {wk : Fin K → ℝ}
    {wk' : Fin L → ℝ} (hw : ∀ k, ∑ l with e l = k, wk' l = wk k) (x : Bands b) :
    searchOcc useNewton t p key' wk' (spread e x)
      = (do let r ← searchOcc useNewton t p key wk x; pure (r.1, spread e r.2)) := by
  have h1 := fun func => kSum_copies (g := id) ⟨1, fun x => by simp⟩ func hk hk' hw x p.T p.occ
  have h2 : ∀ a : ℝ, ∀ func mu, _ := fun a func =>
    kSum_copies (g := fun x => x /ᶠ a) ⟨1 / a, fun x => by show x / a = _; ring⟩ func hk hk' hw x p.T p.occ
  have h : globalSearch useNewton (smearFns .gauss) (smearFns t) p (oneRank key' wk' (spread e x))
      = globalSearch useNewton (smearFns .gauss) (smearFns t) p (oneRank key wk x) := by
    cases useNewton <;>
      simp only [globalSearch, chemPotGathered, chemPotGatheredNewton, h1, h2, if_true, if_false, Bool.false_eq_true]
  rw [searchOcc_global, searchOcc_global, h]
  cases globalSearch useNewton (smearFns .gauss) (smearFns t) p (oneRank key wk x) <;> rfl

/-! ## Corresponding runs -/

/-- States correspond when the hosts do, the free energies agree and the calls since `p`, `p'` are the same. -/
def copyWorld (H : SameHost e W host' host) (p : List (HostCall n' (copies b e))) (p' : List (HostCall n b)) :
    World (SState η n' (copies b e)) (SState ξ n b) where
  R s s' := H.R s.h s'.h ∧ (s.F = s'.F ∧ s.S = s'.S) ∧
    ∃ l, s.calls = p ++ l.map (expandCall e W) ∧ s'.calls = p' ++ l
  le _ _ := True
  refl _ := trivial
  trans _ _ := trivial

/-- the same point, up to `ul` -/
structure CopyPt0 (e : Fin L → Fin K) (W : (k : Fin L) → Mat (n' k) (n (e k))) (p : Point n' (copies b e))
    (q : Point n b) : Prop where
  X : p.X = expand e W q.X
  ek : p.ek = spread e q.ek
  eta : p.eta = fun l => q.eta (e l)
  fn : p.fn = spread e q.fn
  hx : p.hx = expand e W q.hx
  mu : p.mu = q.mu

/-- the same point -/
structure CopyPt (e : Fin L → Fin K) (W : (k : Fin L) → Mat (n' k) (n (e k))) (p : Point n' (copies b e))
    (q : Point n b) : Prop extends CopyPt0 e W p q where
  ul : p.ul = fun l => q.ul (e l)

/-- the same direction -/
def CopyDir (e : Fin L → Fin K) (W : (k : Fin L) → Mat (n' k) (n (e k))) (d : Dir n' (copies b e)) (d' : Dir n b) :
    Prop := d = ⟨expand e W d'.zx, fun l => d'.zeta (e l)⟩

variable {H : SameHost e W host' host} {cp : List (HostCall n' (copies b e))} {cp' : List (HostCall n b)}

theorem copyCall_out {β : Type} {s : SState η n' (copies b e)} {s' : SState ξ n b} (hR : (copyWorld H cp cp').R s s')
    {f : η → Option β × η} {g : ξ → Option β × ξ} (cl : HostCall n b)
    (h : (f s.h).1 = (g s'.h).1 ∧ H.R (f s.h).2 (g s'.h).2) :
    Out (copyWorld H cp cp') (fun _ a b => a = b) s (hostCall (expandCall e W cl) f s) (hostCall cl g s') := by
  unfold hostCall
  generalize f s.h = r at *
  generalize g s'.h = r' at *
  obtain ⟨o, t⟩ := r
  obtain ⟨o', t'⟩ := r'
  obtain ⟨h1, h2⟩ := h
  simp only at h1 h2
  subst h1
  have hl : ∃ l, s.calls ++ [expandCall e W cl] = cp ++ l.map (expandCall e W) ∧ s'.calls ++ [cl] = cp' ++ l := by
    obtain ⟨l, e1, e2⟩ := hR.2.2
    exact ⟨l ++ [cl], by simp [e1], by simp [e2]⟩
  cases o with
  | none => exact ⟨⟨h2, hR.2.1, hl⟩, trivial, .throw _⟩
  | some x => exact ⟨⟨h2, hR.2.1, hl⟩, trivial, .ok rfl⟩

theorem copyEvaluate_out (hc : SameSystem e W c' c) {s : SState η n' (copies b e)} {s' : SState ξ n b}
    (hR : (copyWorld H cp cp').R s s') (X : Orbitals n b) (f x : Bands b) (mu : ℝ) :
    Out (copyWorld H cp cp') (fun _ _ _ => True) s (evaluate host' c' (expand e W X) (spread e f) (spread e x) mu s)
      (evaluate host c X f x mu s') := by
  unfold evaluate
  refine Out.bind (copyCall_out hR (.setC X) (H.setC X hR.1)) fun t1 t1' _ _ hR1 _ _ => ?_
  refine Out.bind (copyCall_out hR1 (.setFn f) (H.setFn f hR1.1)) fun t2 t2' _ _ hR2 _ _ => ?_
  refine Out.bind (copyCall_out hR2 .compute (H.compute hR2.1)) fun t3 t3' _ _ hR3 _ _ => ?_
  refine Out.bind (copyCall_out hR3 (.setMu mu) (H.setMu mu hR3.1)) fun t4 t4' _ _ hR4 _ _ => ?_
  refine Out.bind (copyCall_out hR4 .energy (H.energy hR4.1)) fun t5 t5' a _ hR5 _ heq => ?_
  subst heq
  have h : entropyTerm c'.t c'.T c'.mo mu (List.ofFn fun k => (c'.wk k, List.ofFn (spread e x k)))
      = entropyTerm c.t c.T c.mo mu (List.ofFn fun k => (c.wk k, List.ofFn (x k))) := by
    rw [entropyTerm_ofFn, entropyTerm_ofFn, hc.t, hc.T, hc.mo]
    congr 1
    have := sum_copies hc fun k => ∑ i, (smearFns c.t).entropy ((mu - x k i) / (kB * c.T)) c.mo
    simp only [mul_comm (c.wk _)]
    simp only [mul_comm (c'.wk _)]
    exact this
  simp only [h]
  rw [SM.modify_apply, SM.modify_apply]
  exact ⟨⟨hR5.1, ⟨rfl, rfl⟩, hR5.2.2⟩, trivial, .ok trivial⟩

theorem copySetup_out (hc : SameSystem e W c' c) {s : SState η n' (copies b e)} {s' : SState ξ n b}
    (hR : (copyWorld H cp cp').R s s') :
    Out (copyWorld H cp cp') (fun _ => CopyPt0 e W) s (solverSetup host' c' s) (solverSetup host c s') := by
  unfold solverSetup
  refine Out.bind (copyCall_out hR .compute (H.compute hR.1)) fun s1 s1' _ _ hR1 _ _ => ?_
  rw [SM.get_bind, SM.get_bind, SM.lift_bind, SM.lift_bind, H.ek hR1.1, hc.occ]
  cases c.occ (host.ek s1'.h) with
  | ok q =>
    obtain ⟨mu, f⟩ := q
    simp only [res_pure, Res.bind_ok]
    rw [SM.get_bind, SM.get_bind, H.C hR1.1]
    refine Out.bind (copyEvaluate_out hc hR1 _ _ _ _) fun s2 s2' _ _ hR2 _ _ => ?_
    rw [SM.get_bind, SM.get_bind]
    exact ⟨hR2, trivial, .ok ⟨H.C hR2.1, rfl, rfl, rfl, H.hphi hR2.1, rfl⟩⟩
  | throw x => exact ⟨hR1, trivial, .throw x⟩
  | ub => exact ⟨hR1, trivial, .ub⟩
  | abort => exact ⟨hR1, trivial, .abort⟩

theorem copyParams (hc : SameSystem e W c' c) {p : Point n' (copies b e)} {q : Point n b} (hp : CopyPt0 e W p q) :
    dirParams c' p = dirParams c q := by
  simp only [dirParams, hc.t, hc.T, hc.kappa, hc.mo, hp.mu]

theorem copyGlobals (hc : SameSystem e W c' c) {p : Point n' (copies b e)} {q : Point n b} (hp : CopyPt0 e W p q)
    {h : η} {x : ξ} (hR : H.R h x) (d : DirParams) : globals d (kIn host' c' p h) = globals d (kIn host c q x) := by
  have hk : (fun l => (kIn host' c' p h l).hii) = spread e (host.ek x) := by simp only [kIn]; exact H.ek hR
  simp only [globals, hk]
  simp only [kIn, hp.ek, dFdmu, dmuDeta, ← Finset.sum_mul]
  refine Prod.ext ?_ ?_
  · exact sum_copies hc fun k => ∑ i, (host.ek x k i - q.ek k i) * (smearFns d.t).delta ((q.ek k i - d.mu) / (kB * d.T)) d.mo
  · exact sum_copies hc fun k => ∑ i, (smearFns d.t).delta ((q.ek k i - d.mu) / (kB * d.T)) d.mo

theorem copyExec (hc : SameSystem e W c' c) {p : Point n' (copies b e)} {q : Point n b} (hp : CopyPt0 e W p q)
    {h : η} {x : ξ} (hR : H.R h x) (l : Fin L) :
    execAll c'.la (dirParams c' p) (kIn host' c' p h) l
      = (⟨c'.wk l / c.wk (e l) * (execAll c.la (dirParams c q) (kIn host c q x) (e l)).fr,
          ((c'.wk l / c.wk (e l) : ℝ) : ℂ) • (W l * (execAll c.la (dirParams c q) (kIn host c q x) (e l)).gx),
          ((c'.wk l / c.wk (e l) : ℝ) : ℂ) • (execAll c.la (dirParams c q) (kIn host c q x) (e l)).geta,
          W l * (execAll c.la (dirParams c q) (kIn host c q x) (e l)).dx,
          (execAll c.la (dirParams c q) (kIn host c q x) (e l)).deta⟩ : KOut (n' l) (b (e l))) := by
  have h1 := execSpc_copy c.la (dirParams c q) (globals (dirParams c q) (kIn host c q x)).1
    (globals (dirParams c q) (kIn host c q x)).2 (hc.isometry l) (kIn host c q x (e l)) (hc.S l) (hc.P l)
    (host'.ek h l) (r := c'.wk l / c.wk (e l)) (div_ne_zero (hc.nonzero.2 l) (hc.nonzero.1 (e l)))
    (hc.nonzero.1 (e l))
  rw [execAll, copyGlobals hc hp hR, copyParams hc hp, hc.la]
  refine Eq.trans (congrArg _ ?_) h1
  simp only [kIn, hp.X, hp.hx, hp.ek, hp.fn, div_mul_cancel₀ _ (hc.nonzero.1 (e l))]
  rfl

theorem copyRestarted_out (hc : SameSystem e W c' c) {s : SState η n' (copies b e)} {s' : SState ξ n b}
    (hR : (copyWorld H cp cp').R s s') {p : Point n' (copies b e)} {q : Point n b} (hp : CopyPt0 e W p q) :
    Out (copyWorld H cp cp') (fun _ x y => x.1 = y.1 ∧ CopyDir e W x.2 y.2) s (solverRestarted host' c' p s)
      (solverRestarted host c q s') := by
  unfold solverRestarted
  rw [SM.get_bind, SM.get_bind]
  refine ⟨hR, trivial, .ok ⟨?_, ?_⟩⟩
  · simp only [restarted, copyExec hc hp hR.1]
    exact sum_ratio hc fun k => (execAll c.la (dirParams c q) (kIn host c q s'.h) k).fr
  · simp only [restarted, copyExec hc hp hR.1]
    rfl

theorem copyConj (hc : SameSystem e W c' c) {p : Point n' (copies b e)} {q : Point n b} (hp : CopyPt e W p q)
    {h : η} {x : ξ} (hR : H.R h x) {d : Dir n' (copies b e)} {d' : Dir n b} (hd : CopyDir e W d d') (l : Fin L) :
    conjAll c'.la (dirParams c' p) (kIn host' c' p h) d p.ul l
      = (c'.wk l / c.wk (e l) * (conjAll c.la (dirParams c q) (kIn host c q x) d' q.ul (e l)).1,
          W l * (conjAll c.la (dirParams c q) (kIn host c q x) d' q.ul (e l)).2.1,
          (conjAll c.la (dirParams c q) (kIn host c q x) d' q.ul (e l)).2.2) := by
  rw [conjAll, copyExec hc hp.toCopyPt0 hR, hd, hp.ul, hc.la]
  have : (kIn host' c' p h l).S * (kIn host' c' p h l).X = W l * (c.S (e l) * q.X (e l)) := by
    simp only [kIn, hp.X, expand]
    rw [← Matrix.mul_assoc, hc.S, Matrix.mul_assoc]
  rw [this]
  exact execConjugate_copy _ (hc.isometry l) _ _ _ _ _ _ _

theorem copyConjugated_out (hc : SameSystem e W c' c) {s : SState η n' (copies b e)} {s' : SState ξ n b}
    (hR : (copyWorld H cp cp').R s s') {p : Point n' (copies b e)} {q : Point n b} (hp : CopyPt e W p q)
    {d : Dir n' (copies b e)} {d' : Dir n b} (hd : CopyDir e W d d') (fr : ℝ) :
    Out (copyWorld H cp cp') (fun _ x y => x.1 = y.1 ∧ x.2.1 = y.2.1 ∧ CopyDir e W x.2.2 y.2.2) s
      (solverConjugated host' c' fr p d s) (solverConjugated host c fr q d' s') := by
  unfold solverConjugated
  rw [SM.get_bind, SM.get_bind]
  have h1 : ∑ l, (execAll c'.la (dirParams c' p) (kIn host' c' p s.h) l).fr
      = ∑ k, (execAll c.la (dirParams c q) (kIn host c q s'.h) k).fr := by
    simp only [copyExec hc hp.toCopyPt0 hR.1]
    exact sum_ratio hc fun k => (execAll c.la (dirParams c q) (kIn host c q s'.h) k).fr
  have h2 : ∑ l, (conjAll c'.la (dirParams c' p) (kIn host' c' p s.h) d p.ul l).1
      = ∑ k, (conjAll c.la (dirParams c q) (kIn host c q s'.h) d' q.ul k).1 := by
    simp only [copyConj hc hp hR.1 hd]
    exact sum_ratio hc fun k => (conjAll c.la (dirParams c q) (kIn host c q s'.h) d' q.ul k).1
  refine ⟨hR, trivial, .ok ⟨h1, ?_, ?_⟩⟩
  · simp only [conjugated, h1, h2]
  · simp only [conjugated, h1]
    simp only [copyConj hc hp hR.1 hd, copyExec hc hp.toCopyPt0 hR.1, addM_iso]
    rfl

theorem copyGeo_out (hc : SameSystem e W c' c) {s : SState η n' (copies b e)} {s' : SState ξ n b}
    (hR : (copyWorld H cp cp').R s s') {p : Point n' (copies b e)} {q : Point n b} (hp : CopyPt0 e W p q)
    {d : Dir n' (copies b e)} {d' : Dir n b} (hd : CopyDir e W d d') (t : ℝ) :
    Out (copyWorld H cp cp') (fun _ => CopyPt e W) s (solverGeo host' c' p d t s) (solverGeo host c q d' t s') := by
  have h := forAllK_copies (SameSystem_surj hc)
    (f := fun k => geodesicUs c.la (q.X k) (q.eta k) (d'.zx k) (d'.zeta k) (c.S k) t)
    (f' := fun l => geodesicUs c'.la (p.X l) (p.eta l) (d.zx l) (d.zeta l) (c'.S l) t)
    (fun l g => (⟨g.ek, g.ul, W l * g.X⟩ : GeoOut (n' l) (b (e l)))) (x := .runtimeError)
    (fun l => by
      rw [hd, hp.X, hp.eta, hc.la]
      exact geodesicUs_iso _ (hc.isometry l) (hc.S l) _ _ _ _ _)
    (fun k => geodesicUs_cases _ _ _ _ _ _ _)
  unfold solverGeo
  rw [SM.lift_bind, SM.lift_bind, h]
  cases forAllK fun k => geodesicUs c.la (q.X k) (q.eta k) (d'.zx k) (d'.zeta k) (c.S k) t with
  | ok g =>
    simp only [res_pure, Res.bind_ok]
    rw [SM.lift_bind, SM.lift_bind]
    have ho : (c'.occ fun l => (g (e l)).ek) = (do let r ← c.occ fun k => (g k).ek; pure (r.1, spread e r.2)) :=
      hc.occ fun k => (g k).ek
    rw [ho]
    cases c.occ fun k => (g k).ek with
    | ok r =>
      obtain ⟨mu, f⟩ := r
      refine Out.bind (copyEvaluate_out hc hR (fun k => (g k).X) f (fun k => (g k).ek) mu) fun s2 s2' _ _ hR2 _ _ => ?_
      exact ⟨hR2, trivial, .ok ⟨⟨rfl, rfl, hp.eta, hp.fn, hp.hx, rfl⟩, rfl⟩⟩
    | throw x => exact ⟨hR, trivial, .throw x⟩
    | ub => exact ⟨hR, trivial, .ub⟩
    | abort => exact ⟨hR, trivial, .abort⟩
  | throw x => exact ⟨hR, trivial, .throw x⟩
  | ub => exact ⟨hR, trivial, .ub⟩
  | abort => exact ⟨hR, trivial, .abort⟩

/-- Runs for two descriptions of a system correspond. -/
def copySim (H : SameHost e W host' host) (cp : List (HostCall n' (copies b e))) (cp' : List (HostCall n b))
    (hc : SameSystem e W c' c) :
    Spec.Sim (solverOps host' c') (solverOps host c) where
  W := copyWorld H cp cp'
  P0 _ := CopyPt0 e W
  P _ := CopyPt e W
  D _ := CopyDir e W
  weaken h := h.toCopyPt0
  P0_mono _ h := h
  P_mono _ h := h
  D_mono _ h := h
  construct hR := by
    simp only [solverOps, SM.lift_apply, hc.T]
    refine ⟨hR, trivial, ?_⟩
    simp only
    split
    · exact .throw _
    · exact .ok trivial
  setup hR := copySetup_out hc hR
  restarted hR hp := copyRestarted_out hc hR hp
  conjugated fr hR hp hd := copyConjugated_out hc hR hp hd fr
  geo t hR hp hd := copyGeo_out hc hR hp hd t
  refresh hR hp := by
    simp only [solverOps, solverRefresh]
    rw [SM.get_bind, SM.get_bind]
    refine ⟨hR, trivial, .ok ⟨⟨hp.X, hp.ek, ?_, H.fn hR.1, H.hphi hR.1, hp.mu⟩, hp.ul⟩⟩
    simp only [hp.ek]
    rfl
  gather hR _ := ⟨hR, trivial, .ok trivial⟩
  hostPrint hR := by
    have h := copyCall_out hR .print (H.print hR.1)
    rw [expandCall] at h
    refine ⟨h.1, h.2.1, ?_⟩
    obtain ⟨-, -, h⟩ := h
    simp only [solverOps]
    revert h
    generalize (hostCall _ host'.print _).1 = r
    generalize (hostCall _ host.print _).1 = r'
    intro h
    cases h <;> constructor
    trivial
  getF hR := hR.2.1.1
  getS hR := hR.2.1.2

end Nlcg
