import Verif.Proofs.Residual
import Mathlib.Analysis.Calculus.Deriv.Mul

/-!
# C85: what a reported convergence says about the gradient
-/

namespace Nlcg
open Matrix Arith Spec ComplexOrder

section point
variable {K : ℕ} {n b : Fin K → ℕ}

/-- **C85, at a point (partial: restarted directions only).** If the slope of a restarted direction
passes the convergence test, all three residuals are small. -/
theorem C85_restarted_slope_partial {la : Lapack} (hla : LapackOk la) (p : DirParams)
    (ht : Monotonic p.t) (hT : 0 < p.T) (hkappa : 0 ≤ p.kappa) (hmo : 0 ≤ p.mo) (p0 tol : ℝ)
    (ks : (k : Fin K) → KIn (n k) (b k)) (H : (k : Fin K) → Mat (n k) (n k))
    (hk : ∀ k, Physical (ks k) (H k)) (hf : Occupied p ks)
    (hP : ∀ k, BoundedBelow p0 (ks k).P) (hs : |(restarted la p ks).1| < tol) :
    ∃ (L : (k : Fin K) → Mat (b k) (b k)) (c : ℝ),
      2 * p0 * ∑ k, (ks k).wk * eigenResidual (H k) (ks k).S (ks k).X (ks k).f (L k) < tol ∧
      p.kappa / (kB * p.T) * ∑ k, (ks k).wk * mismatch (ks k).hii (ks k).e
        (fun i => (smearFns p.t).delta ((p.mu - (ks k).e i) / (kB * p.T)) p.mo) c < tol ∧
      p.kappa * ∑ k, (ks k).wk * coupling (H k) (ks k).X (ks k).f (ks k).e < tol := by
  obtain ⟨L, c, x, y, z, h, hx, hy, hz, h1, h2, h3⟩ :=
    restarted_parts hla p ht hT hkappa hmo p0 ks H hk hf hP
  rw [h, abs_neg, abs_of_nonneg (by positivity)] at hs
  exact ⟨L, c, by linarith, by linarith, by linarith⟩

theorem boundedBelow_one (N : ℕ) : BoundedBelow 1 (1 : Mat N N) := by
  intro v
  simp [dotProduct, Complex.normSq_apply]

example : LapackOk refLapack ∧ Monotonic exP.t ∧ 0 < exP.T ∧ 0 ≤ exP.kappa ∧ 0 ≤ exP.mo ∧
    (∀ _ : Fin 1, Physical exK exH) ∧ Occupied exP (fun _ : Fin 1 => exK) ∧ BoundedBelow 1 exK.P :=
  ⟨refLapack_ok, trivial, by norm_num [exP], by norm_num [exP], by norm_num [exP],
    fun _ => exK_physical, exK_occupied, boundedBelow_one 2⟩

end point

/-! ## Whole runs -/

section run
variable {K : ℕ} {n b : Fin K → ℕ} {η : Type} {host : Host η n b} {c : Cfg n b}
  {prm : NlcgParams ℝ} {fuel rank : ℕ} {w w' : NState ℝ (SState η n b)} {info : Info ℝ}

/-- **C85 (partial).** A run that reports convergence has left the host at a nearly stationary point, or
the last direction it computed was a conjugated one, whose slope passed the test. -/
theorem C85_converged_partial (hs : Setting host c) (hd : Descending c) (p0 : ℝ)
    (hP : ∀ k, BoundedBelow p0 (c.P k)) (h0 : SStart host c w.s)
    (h : solve host c prm fuel rank w = some (.ok info, w')) (hc : info.converged = true) :
    NearlyStationary host c p0 prm.tol w'.s.h ∨
      ∃ pre i j F S sl, w'.trace = pre ++ [.conjugate j sl, .start i sl, .report i F S sl] := by
  obtain ⟨pt, dir, sl, pre, i, F, S, hJ, hD, htol, htr, hP' | ⟨q, j, hq⟩⟩ :=
    (solver_rule hs).run_last (P := fun pt dir sl => ∃ s, SAt host c pt s ∧
      sl = (restarted c.la (dirParams c pt) (kIn host c pt s.h)).1)
      (by
        rintro pt s sl dir s' hI hJ hq
        refine ⟨s, hJ, ?_⟩
        have := congrArg Prod.fst hq
        exact (congrArg Prod.fst (Res.ok.inj this)).symm) h h0 hc
  · left
    obtain ⟨s, hs', rfl⟩ := hP'
    have hk : kIn host c pt s.h = kIn host c pt w'.s.h := by
      obtain ⟨H, hH⟩ := hs'.at_.1.computed
      obtain ⟨H', hH'⟩ := hJ.at_.1.computed
      have hC : host.C s.h = host.C w'.s.h := hs'.at_.1.C.trans hJ.at_.1.C.symm
      have hφ : host.hphi s.h = host.hphi w'.s.h := hs'.hx.symm.trans hJ.hx
      funext k
      simp only [kIn, KIn.mk.injEq, true_and, and_true]
      funext i
      have h1 := hH.ek k i
      rw [← hH.hphi, hC, hφ, hH'.hphi, ← hH'.ek] at h1
      exact_mod_cast h1
    rw [hk] at htol
    obtain ⟨H, hH⟩ := hJ.at_.1.computed
    have hC : host.C w'.s.h = pt.X := hJ.at_.1.C
    have hfn : host.fn w'.s.h = pt.fn := hJ.at_.1.fn.trans hJ.fn.symm
    have hmu : host.mu w'.s.h = pt.mu := hJ.at_.1.mu
    have hphys : ∀ k, Physical (kIn host c pt w'.s.h k) (H k) := fun k =>
      ⟨hH.herm k, by simp only [kIn]; rw [hJ.hx, hH.hphi, hC],
        fun i => by simp only [kIn]; rw [hH.ek, hC], hJ.at_.2.1 k, hs.prec k, hs.weights k⟩
    obtain ⟨L, sh, h1, h2, h3⟩ := C85_restarted_slope_partial hs.lapack (dirParams c pt) hd.smearing
      hd.T hd.kappa hd.mo p0 prm.tol _ H hphys hJ.occupied hP (of_decide_eq_true htol)
    refine ⟨H, pt.ek, L, sh, hH, fun k => hC ▸ hJ.at_.2.1 k, ?_, ?_, ?_, ?_⟩
    · rw [hmu, hfn]; exact hJ.fn
    · rw [hC, hfn]; exact h1
    · rw [hmu]; exact h2
    · rw [hC, hfn]; exact h3
  · right
    exact ⟨q, i, j, F, S, sl, by rw [htr, hq, List.append_assoc]; rfl⟩

/-- **C85 (partial).** With `restart = 1` the property holds: every reported convergence means a small
gradient. -/
theorem C85_restart_one_partial (hs : Setting host c) (hd : Descending c) (p0 : ℝ)
    (hP : ∀ k, BoundedBelow p0 (c.P k)) (hcl : ∀ ek, (c.occ ek).Clean) (h0 : SStart host c w.s)
    (hr : prm.restart = 1) (h : solve host c prm fuel rank w = some (.ok info, w'))
    (hc : info.converged = true) : NearlyStationary host c p0 prm.tol w'.s.h := by
  rcases C85_converged_partial hs hd p0 hP h0 h hc with h1 | ⟨pre, i, j, F, S, sl, htr⟩
  · exact h1
  · obtain ⟨slope, e, ht, -⟩ := C31_history_is_legal _ (solver_clean host c hcl) prm fuel rank w w' info h
    have hm : Ev.conjugate j sl ∈ w'.trace := by rw [htr]; simp
    exact absurd (hr ▸ one_dvd _) (ht.conjugate_not_dvd j sl hm)

end run

/-- a run of the example that reports convergence, with a restart in every iteration -/
theorem demo_converges : ∃ (prm : NlcgParams ℝ) (fuel : ℕ) (info : Info ℝ) (w' : _), prm.restart = 1 ∧
    solve demoHost (demoCfg demoOcc) prm fuel 0 (demoStart 5) = some (.ok info, w') ∧
    info.converged = true ∧ Descending (demoCfg demoOcc) ∧
    (∀ k, BoundedBelow 1 ((demoCfg demoOcc).P k)) := by
  let prm : ℝ → NlcgParams ℝ := fun tol => { maxiter := 1, tol := tol, tau := 1 / 10, restart := 1 }
  obtain ⟨fuel, info, w', h⟩ := demo_returns (prm 1) one_pos (by norm_num [prm]) (by norm_num [prm])
  have hr := nlcg_run _ (prm 1) fuel 0 _ _ _ h
  generalize ho : (Res.ok info : Res (Info ℝ)) = o at hr
  cases hr with
  | construct => exact absurd ho.symm (Res.fail_ne_ok _ _)
  | setup => exact absurd ho.symm (Res.fail_ne_ok _ _)
  | restarted => exact absurd ho.symm (Res.fail_ne_ok _ _)
  | loop s1 pt s2 slope dir s3 o w' h1 h2 h3 h4 =>
    obtain ⟨fuel2, info2, w2, g⟩ := demo_returns (prm (|slope| + 1)) (by show 0 < |slope| + 1; positivity)
      (by norm_num [prm]) (by norm_num [prm])
    refine ⟨prm (|slope| + 1), fuel2, info2, w2, rfl, g, ?_,
      ⟨trivial, by norm_num [demoCfg], by norm_num [demoCfg], by norm_num [demoCfg]⟩,
      fun k => boundedBelow_one _⟩
    have gr := nlcg_run _ (prm (|slope| + 1)) fuel2 0 _ _ _ g
    generalize ho2 : (Res.ok info2 : Res (Info ℝ)) = o2 at gr
    cases gr with
    | construct => exact absurd ho2.symm (Res.fail_ne_ok _ _)
    | setup => exact absurd ho2.symm (Res.fail_ne_ok _ _)
    | restarted => exact absurd ho2.symm (Res.fail_ne_ok _ _)
    | loop t1 pt' t2 slope' dir' t3 o2 w2 g1 g2 g3 g4 =>
      rw [h1] at g1; cases g1
      rw [h2] at g2; cases g2
      rw [h3] at g3; cases g3
      have hlt : (Arith.abs slope <ᶠ |slope| + 1) = true := decide_eq_true (lt_add_one _)
      generalize hv : ({ pt := pt, dir := dir, slope := slope, fr := slope } :
        Vars ℝ (Point demoN demoB) (Dir demoN demoB)) = v at g4
      have hvs : v.slope = slope := by rw [← hv]
      generalize hm : (prm (|slope| + 1)).maxiter.toNat = m at g4
      cases g4 with
      | limit => exact absurd hm (by norm_num [prm])
      | success => cases ho2; rfl
      | successJson => exact absurd ho2.symm (Res.fail_ne_ok _ _)
      | successPrint => exact absurd ho2.symm (Res.fail_ne_ok _ _)
      | step n i v w v' w1 o w' q1 => rw [hvs] at q1; exact absurd (hlt.symm.trans q1) (by simp)
      | caught n i v w e w1 q1 => rw [hvs] at q1; exact absurd (hlt.symm.trans q1) (by simp)
      | uncaught => exact absurd ho2.symm (Res.fail_ne_ok _ _)

/-! ## Why not more: a conjugated direction -/

/-- one occupied band in a two-dimensional space -/
noncomputable def flat (X hx : Mat 2 1) : KIn 2 1 where
  X := X
  hx := hx
  e := fun _ => 0
  f := fun _ => (smearFns .fermiDirac).fn ((0 - 0) / (kB * 300)) 2
  hii := fun _ => 0
  S := 1
  P := 1
  wk := 1

noncomputable def flatP : DirParams := { t := .fermiDirac, T := 300, kappa := 0, mo := 2, mu := 0 }

/-- the first point -/
noncomputable def flat1 : KIn 2 1 := flat !![1; 0] !![0; 1]

/-- the second point, after a step of length 3/4 -/
noncomputable def flat2 : KIn 2 1 := flat !![4 / 5; -3 / 5] !![-3 / 4; -1]

theorem flat1_physical : Physical flat1 !![0, 1; 1, 0] where
  herm := by ext i j; fin_cases i <;> fin_cases j <;> simp
  hx := by ext i j; fin_cases i <;> fin_cases j <;> simp [flat1, flat, mul_apply]
  bands := fun i => by fin_cases i; simp [flat1, flat, mul_apply]
  ortho := by ext i j; fin_cases i; fin_cases j; simp [flat1, flat, mul_apply]
  prec := PosDef.one
  weight := one_pos

theorem flat2_physical : Physical flat2 !![-6 / 5, -7 / 20; -7 / 20, 6 / 5] where
  herm := by ext i j; fin_cases i <;> fin_cases j <;> simp
  hx := by ext i j; fin_cases i <;> fin_cases j <;> simp [flat2, flat, mul_apply] <;> norm_num
  bands := fun i => by fin_cases i; simp [flat2, flat, mul_apply]; norm_num [map_ofNat]
  ortho := by
    ext i j; fin_cases i; fin_cases j; simp [flat2, flat, mul_apply]; norm_num [map_ofNat]
  prec := PosDef.one
  weight := one_pos

theorem solve_one {la : Lapack} (hla : LapackOk la) {N B : ℕ} (A : Mat N N) (h : A = 1) (C : Mat N B) :
    la.solve A C = C := by
  have := hla.solveSym A C (h ▸ PosDef.one)
  rwa [h, Matrix.one_mul, ← h] at this

/-- the occupation of the band -/
noncomputable def flatF : ℝ := (smearFns .fermiDirac).fn ((0 - 0) / (kB * 300)) 2

theorem flatF_pos : 0 < flatF := by
  rw [flatF, sub_zero, zero_div]
  simp only [smearFns, fdFn]
  norm_num

section
variable {la : Lapack} (hla : LapackOk la) {X hx : Mat 2 1} (h1 : Xᴴ * X = 1) (h0 : Xᴴ * hx = 0)
include hla h1 h0

theorem flat_exec : (execAll la flatP (fun _ : Fin 1 => flat X hx) 0).dx = -hx ∧
    (execAll la flatP (fun _ : Fin 1 => flat X hx) 0).gx = (flatF : ℂ) • hx ∧
    (execAll la flatP (fun _ : Fin 1 => flat X hx) 0).deta = 0 := by
  have hl : lmult la ((1 : Mat 2 2) * X) hx 1 = 0 := by
    simp only [lmult, innerM_one, transformM, Matrix.one_mul, h1, h0]
    rw [solve_one hla _ rfl, Matrix.mul_zero]
  refine ⟨?_, ?_, ?_⟩
  · show precondgxUs hx 1 (lmult la ((1 : Mat 2 2) * X) hx 1) = _
    rw [hl]; simp [precondgxUs, addM]
  · show gradx hx _ (lmult la ((1 : Mat 2 2) * X) hx 1) _ = _
    rw [hl]
    ext i j
    simp [gradx, addM, scaleCols, flat, flatF]
  · ext i j
    simp [execAll, execSpc, flatP, flat, deltaEta]

theorem flat_fr : (execAll la flatP (fun _ : Fin 1 => flat X hx) 0).fr
    = -2 * flatF * (Complex.normSq (hx 0 0) + Complex.normSq (hx 1 0)) := by
  obtain ⟨e1, e2, e3⟩ := flat_exec hla h1 h0
  have : (execAll la flatP (fun _ : Fin 1 => flat X hx) 0).fr
    = 2 * (innerhTr (execAll la flatP (fun _ : Fin 1 => flat X hx) 0).gx
        (execAll la flatP (fun _ : Fin 1 => flat X hx) 0).dx).re
      + (innerhTr (execAll la flatP (fun _ : Fin 1 => flat X hx) 0).geta
        (execAll la flatP (fun _ : Fin 1 => flat X hx) 0).deta).re := rfl
  rw [this, e1, e2, e3]
  simp [innerhTr, Complex.normSq_apply]
  ring

end

/-- **C85 is false for conjugated directions.** From `flat1` the solver goes along the restarted
direction; at the normalised end of that step the orbital is not stationary, but the slope of the
conjugated direction is zero. -/
theorem C85_not_conjugated {la : Lapack} (hla : LapackOk la) :
    let old := restarted la flatP (fun _ : Fin 1 => flat1)
    flat2.X = (4 / 5 : ℂ) • (flat1.X + (3 / 4 : ℂ) • old.2.zx 0) ∧
    (conjugated la flatP old.1 (fun _ : Fin 1 => flat2) old.2 (fun _ => 1)).2.1 = 0 ∧
    ∀ L : Mat 1 1, (!![-6 / 5, -7 / 20; -7 / 20, 6 / 5] : Mat 2 2) * flat2.X ≠ flat2.S * flat2.X * L := by
  have o1 : (!![(1 : ℂ); 0])ᴴ * !![(1 : ℂ); 0] = 1 := by
    ext i j; fin_cases i; fin_cases j; simp [mul_apply]
  have z1 : (!![(1 : ℂ); 0])ᴴ * !![(0 : ℂ); 1] = 0 := by
    ext i j; fin_cases i; fin_cases j; simp [mul_apply]
  have o2 : (!![(4 / 5 : ℂ); -3 / 5])ᴴ * !![(4 / 5 : ℂ); -3 / 5] = 1 := by
    ext i j; fin_cases i; fin_cases j; simp [mul_apply]; norm_num [map_ofNat]
  have z2 : (!![(4 / 5 : ℂ); -3 / 5])ᴴ * !![(-3 / 4 : ℂ); -1] = 0 := by
    ext i j; fin_cases i; fin_cases j; simp [mul_apply]; norm_num [map_ofNat]
  obtain ⟨a1, a2, a3⟩ := flat_exec hla o1 z1
  obtain ⟨b1, b2, b3⟩ := flat_exec hla o2 z2
  have fa := flat_fr hla o1 z1
  have fb := flat_fr hla o2 z2
  refine ⟨?_, ?_, ?_⟩
  · show !![(4 / 5 : ℂ); -3 / 5] = (4 / 5 : ℂ) • (!![(1 : ℂ); 0] + (3 / 4 : ℂ) •
      (execAll la flatP (fun _ : Fin 1 => flat !![1; 0] !![0; 1]) 0).dx)
    rw [a1]
    ext i j; fin_cases i <;> fin_cases j <;> simp <;> norm_num
  · have hold : (restarted la flatP (fun _ : Fin 1 => flat1)).1 = -2 * flatF := by
      show ∑ k : Fin 1, (execAll la flatP (fun _ : Fin 1 => flat !![1; 0] !![0; 1]) k).fr = _
      rw [Fin.sum_univ_one]
      refine fa.trans ?_
      simp
    have hcj : (conjAll la flatP (fun _ : Fin 1 => flat2) (restarted la flatP (fun _ : Fin 1 => flat1)).2
        (fun _ => 1) 0).1 = 2 * flatF := by
      show 2 * (innerhTr (conjugatex la (rotatex
          (execAll la flatP (fun _ : Fin 1 => flat !![1; 0] !![0; 1]) 0).dx 1)
            ((1 : Mat 2 2) * !![(4 / 5 : ℂ); -3 / 5]))
          (execAll la flatP (fun _ : Fin 1 => flat !![4 / 5; -3 / 5] !![-3 / 4; -1]) 0).gx).re
        + (innerhTr (rotateeta (execAll la flatP (fun _ : Fin 1 => flat !![1; 0] !![0; 1]) 0).deta 1)
          (execAll la flatP (fun _ : Fin 1 => flat !![4 / 5; -3 / 5] !![-3 / 4; -1]) 0).geta).re = _
      have hz : (!![(4 / 5 : ℂ); -3 / 5])ᴴ * (-!![(0 : ℂ); 1]) = !![3 / 5] := by
        ext i j; fin_cases i; fin_cases j; simp [mul_apply]; norm_num [map_ofNat]
      rw [a1, a3, b2, conjugatex_eq, Matrix.one_mul, o2, solve_one hla _ rfl, rotatex, transformM,
        Matrix.mul_one, hz]
      simp [rotateeta, transformM, innerM, innerhTr, Matrix.sub_apply, Fin.sum_univ_two]
      norm_num [map_ofNat]
      ring
    show ∑ k : Fin 1, (execAll la flatP (fun _ : Fin 1 => flat !![4 / 5; -3 / 5] !![-3 / 4; -1]) k).fr
      + (∑ k : Fin 1, (execAll la flatP (fun _ : Fin 1 => flat !![4 / 5; -3 / 5] !![-3 / 4; -1]) k).fr)
        / (restarted la flatP (fun _ : Fin 1 => flat1)).1 * ∑ k : Fin 1, (conjAll la flatP
          (fun _ : Fin 1 => flat2) (restarted la flatP (fun _ : Fin 1 => flat1)).2 (fun _ => 1) k).1 = 0
    rw [Fin.sum_univ_one, Fin.sum_univ_one, hold, hcj]
    have := flatF_pos.ne'
    field_simp
    ring
  · intro L h
    have e0 := congrFun (congrFun h 0) 0
    have e1 := congrFun (congrFun h 1) 0
    simp [flat2, flat, mul_apply] at e0 e1
    have e2 : (3 : ℂ) * (3 / 4) + 4 = 0 := by linear_combination -3 * e0 - 4 * e1
    norm_num at e2

example : (∀ _ : Fin 1, Physical flat1 !![0, 1; 1, 0]) ∧ Occupied flatP (fun _ : Fin 1 => flat1) ∧
    (∀ _ : Fin 1, Physical flat2 !![-6 / 5, -7 / 20; -7 / 20, 6 / 5]) ∧
    Occupied flatP (fun _ : Fin 1 => flat2) ∧ LapackOk refLapack :=
  ⟨fun _ => flat1_physical, fun _ _ => rfl, fun _ => flat2_physical, fun _ _ => rfl, refLapack_ok⟩

/-! ## A whole run that stops there -/

/-- value at `x` of the polynomial with coefficients `cs`, lowest first -/
def polyVal {R : Type} [Field R] : List R → R → R
  | [], _ => 0
  | c :: cs, x => c + x * polyVal cs x

/-- its derivative -/
def polyDer {R : Type} [Field R] : List R → R → R
  | [], _ => 0
  | _ :: cs, x => polyVal cs x + x * polyDer cs x

theorem polyDer_spec (cs : List ℝ) (x : ℝ) : HasDerivAt (polyVal cs) (polyDer cs x) x := by
  induction cs with
  | nil => exact hasDerivAt_const x (0 : ℝ)
  | cons c cs ih =>
    have := ((hasDerivAt_id x).mul ih).const_add c
    simpa [polyVal, polyDer] using this

/-- Minimisation of a polynomial of one variable with the exact derivative: steepest descent and
Fletcher-Reeves directions by the formulas of `descent_direction`; the state is the energy of the
last evaluation. -/
def polyOps (cs : List ℚ) (x0 : ℚ) : Ops ℚ ℚ ℚ ℚ where
  construct s := (.ok (), s)
  setup _ := (.ok x0, polyVal cs x0)
  restarted x s := (.ok (-(polyDer cs x * polyDer cs x), -polyDer cs x), s)
  conjugated fr x d s :=
    let fr' := -(polyDer cs x * polyDer cs x)
    (.ok (fr', fr' + fr' / fr * (polyDer cs x * d), -polyDer cs x + fr' / fr * d), s)
  geo x d t _ := (.ok (x + t * d), polyVal cs (x + t * d))
  refresh x s := (.ok x, s)
  gather _ s := (.ok (), s)
  hostPrint s := (.ok (), s)
  getF s := s
  getS _ := 0

/-- a polynomial of degree eight, bounded below -/
def octic : List ℚ :=
  [0, -1, -721 / 8100, 9749 / 3240, 1373 / 2025, -1931 / 405, -12871 / 8100, 7319 / 3240, 1]

/-- **C85 is false for whole runs.** The energy decreases in every step, the run reports convergence
with slope zero for the tolerance 1/100, and the derivative of the energy at the point it stops at,
`x = 1`, is one. -/
theorem C85_not_in_run : ∃ w', nlcg (polyOps octic (-1))
      { maxiter := 20, tol := 1 / 100, tau := 1 / 10, restart := 10 } 9 0 (blank 7)
      = some (.ok { vals := some { tolerance := -1, F := -1 / 2, S := 0, iter := 2 }, converged := true }, w') ∧
    w'.trace = [.start 0 (-1), .report 0 (1 / 2) 0 (-1), .search 0 false, .found 0 false, .steepest 0 (-1),
      .start 1 (-1), .report 1 0 0 (-1), .search 1 false, .found 1 false, .conjugate 1 0,
      .start 2 0, .report 2 (-1 / 2) 0 0] ∧
    w'.s = polyVal octic 1 ∧ polyDer octic 1 = 1 :=
  ⟨{ s := -1 / 2
     file := [{ step := 0, F := 1 / 2, entropy := 0, slope := -1, bands := true },
       { step := 1, F := 0, entropy := 0, slope := -1, bands := false },
       { step := 2, F := -1 / 2, entropy := 0, slope := 0, bands := false }]
     info := { vals := some { tolerance := -1, F := -1 / 2, S := 0, iter := 2 }, converged := true }
     force := false
     trace := [.start 0 (-1), .report 0 (1 / 2) 0 (-1), .search 0 false, .found 0 false,
      .steepest 0 (-1), .start 1 (-1), .report 1 0 0 (-1), .search 1 false, .found 1 false,
      .conjugate 1 0, .start 2 0, .report 2 (-1 / 2) 0 0] },
    by decide +kernel, rfl, by decide +kernel, by decide +kernel⟩

end Nlcg
