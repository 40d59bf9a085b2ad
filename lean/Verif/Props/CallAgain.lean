import Verif.Proofs.CallAgain
import Verif.Proofs.Reports
import Verif.Proofs.Slosh
import Verif.Props.SelfConsistent

/-!
# C96: calling the solver again on the state it has left
-/

namespace Nlcg
open Matrix Arith Spec ComplexOrder

variable {K : ℕ} {n b : Fin K → ℕ} {η : Type} {host : Host η n b} {c : Cfg n b}
  {H : (k : Fin K) → Mat (n k) (n k)} {prm prm' : NlcgParams ℝ} {fuel fuel' rank rank' : ℕ}
  {w w' v v' : NState ℝ (SState η n b)} {info : Info ℝ} {o : Res (Info ℝ)}

/-- **C96, at a point.** For a fixed Hamiltonian no occupations have a lower free energy than those of
the expectation values of the Hamiltonian, whatever pseudo-energies they come from, as long as no
level is cut off. -/
theorem C96_own_occupations {t : SmearType} (ht : Monotonic t) {T mo : ℝ} (hT : 0 < T) (hmo : 0 ≤ mo)
    (hgs : t = .gaussianSpline → mo = 1) {wk : Fin K → ℝ} (hw : ∀ k, 0 ≤ wk k) (X : Orbitals n b)
    (e : Bands b) (mu mu' : ℝ) (h1 : ∀ k i, (mu - e k i) / (kB * T) ∈ inside t)
    (h2 : ∀ k i, (mu' - levels H X k i) / (kB * T) ∈ inside t) :
    bandEnergy H wk X (occs t T mo (levels H X) mu')
        + entropyTerm t T mo mu' (List.ofFn fun k => (wk k, List.ofFn (levels H X k)))
      ≤ bandEnergy H wk X (occs t T mo e mu)
        + entropyTerm t T mo mu (List.ofFn fun k => (wk k, List.ofFn (e k)))
        + mu' * (electrons wk (occs t T mo (levels H X) mu') - electrons wk (occs t T mo e mu)) := by
  have e1 := freeEnergy_levels t T mo mu' mu' wk H X (levels H X)
  have e2 := freeEnergy_levels t T mo mu mu' wk H X e
  have hle : ∑ k, wk k * ∑ i, ((levels H X k i - mu') * (smearFns t).fn ((mu' - levels H X k i) / (kB * T)) mo
          - kB * T * (smearFns t).entropy ((mu' - levels H X k i) / (kB * T)) mo)
      ≤ ∑ k, wk k * ∑ i, ((levels H X k i - mu') * (smearFns t).fn ((mu - e k i) / (kB * T)) mo
          - kB * T * (smearFns t).entropy ((mu - e k i) / (kB * T)) mo) :=
    Finset.sum_le_sum fun k _ => mul_le_mul_of_nonneg_left
      (Finset.sum_le_sum fun i _ => level_min t ht (mul_pos kB_pos hT) hmo (h1 k i) (h2 k i) hgs) (hw k)
  rw [← e1, ← e2] at hle
  linarith

/-- **C96 (partial: fixed Hamiltonian, Gauss smearing).** If the Hamiltonian does not depend on the
orbitals and occupations, a second call on the state a converged call has left never reports a
free energy above the one that was returned, up to the energy `mu * (N' - N)` of the electrons by which
the two charges differ. -/
theorem C96_noninteracting_partial (hs : Setting host c) (hg : c.t = .gauss) (hT : 0 < c.T)
    (hmo : 0 ≤ c.mo) (hH : NonInteracting host c H) (hcl : ∀ ek, (c.occ ek).Clean)
    (h0 : SStart host c w.s) (hm : 1 ≤ prm.maxiter)
    (h1 : solve host c prm fuel rank w = some (.ok info, w')) (hc : info.converged = true)
    (ha : CallAgain w' v) (h2 : solve host c prm' fuel' rank' v = some (o, v')) :
    ∃ vals, info.vals = some vals ∧ ∀ i F S sl, Ev.report i F S sl ∈ v'.trace → ∃ mu f,
      c.occ (levels H (host.C w'.s.h)) = .ok (mu, f) ∧
      F ≤ vals.F + mu * (electrons c.wk f - electrons c.wk (host.fn w'.s.h)) := by
  obtain ⟨vals, slope, e1, -, -, -, -, e6, -⟩ :=
    nlcg_record _ (solver_clean host c hcl) (solver_quiet host c) prm fuel rank w w' info hm h1
  refine ⟨vals, e1, fun i F S sl hr => ?_⟩
  obtain ⟨pt, dir, sl0, ⟨hJ, hS, k1, E, k2, he, hC, hf, hF⟩, -⟩ := (((solver_energy_rule hs).run h1 h0).2.2 info rfl).2 hc
  obtain ⟨hat, hort, hocc⟩ := hJ.at_
  have hv : SStart host c v.s := ⟨ha.calls, fun k => by rw [ha.host, hat.C]; exact hort k⟩
  have hE : E = bandEnergy H c.wk pt.X (occs c.t c.T c.mo pt.ek pt.mu) := by
    rw [hH.energy.energy k1 E k2 (by rw [hC, hf]; exact ⟨hort, _, _, rfl⟩) he, hC, hf]
  rw [solve_guarded hs prm' fuel' rank' v hv] at h2
  obtain ⟨s, s', q, g1, g2, g3⟩ := (C29_energies_do_not_increase _ _ (solver_reproducible hs hH.energy) prm' fuel'
    rank' v v' o h2).2 (i, F, S, sl) (mem_reports.2 hr)
  have g1' : SM.lift (if c.T = 0 then Res.throw Exc.runtimeError else .ok ()) v.s = (.ok (), s) := g1
  rw [if_neg hT.ne'] at g1'
  obtain rfl : v.s = s := congrArg Prod.snd g1'
  have g2' : guardedSetup host c v.s = (.ok q, s') := g2
  rw [guardedSetup, if_pos hv] at g2'
  obtain ⟨x, c1, c2, c3⟩ := setup_ek g2'
  obtain ⟨x', ek', mu', f', s1, d1, d2, d3, d4, d5, d6⟩ := solverSetup_ok g2'
  have hxx : x' = x := by rw [c1] at d1; exact (congrArg Prod.snd d1).symm
  subst hxx
  obtain ⟨u1, u2, -⟩ := hs.host.compute _ _ c1
  have hcx : host.C x' = pt.X := by rw [u1, ha.host, hat.C]
  have hlev : host.ek x' = levels H pt.X := by
    funext k i
    have := (hH.compute _ _ c1).ek k i
    rw [hcx] at this
    rw [levels, ← this, Complex.ofReal_re]
  have hqX : q.X = pt.X := by
    rw [d4, (evaluate_energy hs.host hH.energy (by rw [hcx]; exact ⟨hort, _, _, hs.occ _ _ _ d2⟩) d3).1, hcx]
  have hqf := hs.occ _ _ _ c3
  refine ⟨q.mu, q.fn, ?_, ?_⟩
  · rw [hat.C, ← hlev]; exact c3
  · have hin : ∀ y, y ∈ inside c.t := fun y => by rw [hg]; trivial
    have := C96_own_occupations (H := H) (t := c.t) (by rw [hg]; trivial) hT hmo
      (by rw [hg]; intro h; cases h) (fun k => (hs.weights k).le) pt.X pt.ek pt.mu q.mu (fun _ _ => hin _) (fun _ _ => hin _)
    rw [hqf, hlev, hat.fn]
    have hg3 : F ≤ pointEnergy c (bandEnergy H c.wk) q := g3
    rw [pointEnergy, hqX, c2, hlev] at hg3
    have hvF : vals.F = w'.s.F := (e6 hc).2.1
    rw [hvF, hF, hS, hE]
    exact hg3.trans this

/-- **C96 (partial: fixed Hamiltonian, Gauss smearing).** With the search of the code for the chemical
potential the difference of the charges is below twice its tolerance. -/
theorem C96_search_partial {p : OccParams ℝ} {key : Fin K → Key} (hk : Function.Injective key)
    (hs : Setting host c) (hg : c.t = .gauss) (hT : 0 < c.T) (hmo : 0 ≤ c.mo) (hH : NonInteracting host c H)
    (hocc : c.occ = searchOcc false .gauss p key c.wk) (h0 : SStart host c w.s) (hm : 1 ≤ prm.maxiter)
    (h1 : solve host c prm fuel rank w = some (.ok info, w')) (hc : info.converged = true)
    (ha : CallAgain w' v) (h2 : solve host c prm' fuel' rank' v = some (o, v')) :
    ∃ vals, info.vals = some vals ∧ ∀ i F S sl, Ev.report i F S sl ∈ v'.trace → ∃ mu f,
      c.occ (levels H (host.C w'.s.h)) = .ok (mu, f) ∧ F ≤ vals.F + 2 * p.tol * |mu| := by
  have hcl : ∀ ek, (c.occ ek).Clean := fun ek => by rw [hocc]; exact searchOcc_clean _ _ _ _ _ _
  obtain ⟨vals, e1, e2⟩ := C96_noninteracting_partial hs hg hT hmo hH hcl h0 hm h1 hc ha h2
  refine ⟨vals, e1, fun i F S sl hr => ?_⟩
  obtain ⟨mu, f, e3, e4⟩ := e2 i F S sl hr
  refine ⟨mu, f, e3, e4.trans ?_⟩
  obtain ⟨pt, dir, sl0, hJ, -⟩ := (((solver_rule hs).run h1 h0).2.2 info rfl).2 hc
  obtain ⟨hat, -, ho⟩ := hJ.at_
  rw [hocc] at e3 ho
  have c1 := (searchOcc_charge hk e3).1
  have c2 := (searchOcc_charge hk ho).1
  have hfn : host.fn w'.s.h = occs c.t c.T c.mo pt.ek pt.mu := hat.fn
  rw [hfn]
  change |p.ne - electrons c.wk f| < p.tol at c1
  change |p.ne - electrons c.wk (occs c.t c.T c.mo pt.ek pt.mu)| < p.tol at c2
  have c3 : |electrons c.wk f - electrons c.wk (occs c.t c.T c.mo pt.ek pt.mu)| ≤ 2 * p.tol := by
    rw [abs_lt] at c1 c2
    rw [abs_le]
    constructor <;> linarith
  have c4 := le_abs_self (mu * (electrons c.wk f - electrons c.wk (occs c.t c.T c.mo pt.ek pt.mu)))
  rw [abs_mul] at c4
  have c5 := mul_le_mul_of_nonneg_left c3 (abs_nonneg mu)
  linarith

/-! ## Interacting electrons -/

/-- one call on the sloshing host -/
theorem slosh_call (a : ℝ) {prm : NlcgParams ℝ} (hm : 1 ≤ prm.maxiter) (htol : 49 * a ^ 2 < prm.tol) (fuel rank : ℕ)
    (w : NState ℝ (SState (LState sloshN sloshN) sloshN sloshN)) (hC : w.s.h.C = fun _ => 1)
    (hd : polar w.s.h.fn = a / 4) :
    ∃ info w' vals, solve sloshHost sloshCfg prm fuel rank w = some (.ok info, w') ∧ info.converged = true ∧
      info.vals = some vals ∧ vals.F = sloshF a ∧ w'.s.h.C = (fun _ => 1) ∧ polar w'.s.h.fn = -erf a := by
  obtain ⟨pt, s2, h2, p1, p2, p3, p4, p5, p6, p7, p8, p9⟩ := slosh_setup a w.s hC hd
  obtain ⟨info, w', vals, h3, q1, q2, q3, q4, q5, q6⟩ := solve_first slosh_never_throws
    (by have := kB_pos.ne'; simp [sloshCfg, sloshP, this]) hm fuel rank h2
    ((slosh_slope a pt s2.h p1 p2 p4 p5 p8).trans_lt htol)
  have : s2.h = h3 := congrArg Prod.snd q5
  subst this
  exact ⟨info, w', vals, q1, q2, q3, q4.trans p9, by rw [q6, p6], by rw [q6, p7, polar_occs]⟩

/-- **C96 is false for interacting electrons.** However small the tolerance is: there is a start from
which a call reports convergence, and a second call on the state it has left reports convergence too,
with a higher free energy. The host is the harmless `sloshHost`; the reason is that a call does not
start from the occupations in the host but from those that belong to the host's band energies. -/
theorem C96_not_interacting (prm : NlcgParams ℝ) (hm : 1 ≤ prm.maxiter) (htol : 0 < prm.tol) (fuel rank : ℕ) :
    Setting sloshHost sloshCfg ∧ NeverThrows sloshHost ∧
    ∃ w : NState ℝ (SState (LState sloshN sloshN) sloshN sloshN), SStart sloshHost sloshCfg w.s ∧
      ∃ info w' vals, solve sloshHost sloshCfg prm fuel rank w = some (.ok info, w') ∧ info.converged = true ∧
        info.vals = some vals ∧
        ∀ v, CallAgain w' v → ∃ info' v' vals', solve sloshHost sloshCfg prm fuel rank v = some (.ok info', v') ∧
          info'.converged = true ∧ info'.vals = some vals' ∧ vals.F < vals'.F := by
  refine ⟨slosh_setting, slosh_never_throws, ?_⟩
  obtain ⟨a, ha0, ha1, ha2⟩ : ∃ a : ℝ, 0 < a ∧ a ≤ 1 / 2 ∧ 49 * (8 * a) ^ 2 < prm.tol := by
    refine ⟨min (1 / 2) (prm.tol / 3200), by positivity, min_le_left _ _, ?_⟩
    have h1 := min_le_left (1 / 2 : ℝ) (prm.tol / 3200)
    have h2 := min_le_right (1 / 2 : ℝ) (prm.tol / 3200)
    have h3 : 0 < min (1 / 2 : ℝ) (prm.tol / 3200) := by positivity
    nlinarith
  set w : NState ℝ (SState (LState sloshN sloshN) sloshN sloshN) :=
    { s := { h := { C := fun _ => 1, hphi := fun _ => 0, fn := fun k _ => ![1 + a / 4, 1 - a / 4] k, ek := fun _ _ => 0, mu := 0 },
             F := 0, S := 0, calls := [] },
      file := [], info := { vals := none, converged := false }, force := false, trace := [] } with hw
  have hpol : polar w.s.h.fn = a / 4 := by
    show ((1 + a / 4) - (1 - a / 4)) / 2 = a / 4
    ring
  refine ⟨w, ⟨rfl, fun k => ?_⟩, ?_⟩
  · show (1 : Mat 1 1)ᴴ * ((1 : Mat 1 1) * 1) = 1
    simp
  obtain ⟨info, w', vals, q1, q2, q3, q4, q5, q6⟩ := slosh_call a hm (by nlinarith) fuel rank w rfl hpol
  refine ⟨info, w', vals, q1, q2, q3, fun v hv => ?_⟩
  have hb1 := erf_ge a ha0.le ha1
  have hb2 := abs_erf_le a
  rw [abs_of_pos ha0, abs_of_nonneg (by linarith)] at hb2
  obtain ⟨info', v', vals', r1, r2, r3, r4, -⟩ := slosh_call (-(4 * erf a)) (prm := prm) hm (by nlinarith) fuel rank v
    (by rw [hv.host]; exact q5) (by rw [hv.host, q6]; ring)
  refine ⟨info', v', vals', r1, r2, r3, ?_⟩
  rw [q4, r4, sloshF, sloshF, erf_neg]
  have g1 : erf a < erf (4 * erf a) := erf_strictMono (by linarith)
  have g2 : Real.exp (-(-(4 * erf a)) * -(4 * erf a)) ≤ Real.exp (-a * a) := Real.exp_le_exp.2 (by nlinarith)
  have g3 : Real.exp (-(-(4 * erf a)) * -(4 * erf a)) / √Real.pi ≤ Real.exp (-a * a) / √Real.pi :=
    div_le_div_of_nonneg_right g2 (Real.sqrt_nonneg _)
  nlinarith

/-! ## The hypotheses can be met -/

theorem linearEnergy_eq (H : (k : Fin K) → Mat (n k) (n k)) (wk : Fin K → ℝ) :
    linearEnergy (b := b) H wk = bandEnergy H wk := by
  funext X f
  refine Finset.sum_congr rfl fun k _ => ?_
  congr 1
  rw [← Matrix.mul_assoc, trace_mul_comm, ← Matrix.mul_assoc, trace, Complex.re_sum]
  refine Finset.sum_congr rfl fun i _ => ?_
  rw [diag_apply, ← Matrix.mul_assoc, mul_diagonal, Complex.mul_re, Complex.ofReal_re, Complex.ofReal_im, mul_zero,
    sub_zero, levels, Matrix.mul_assoc, mul_comm]

theorem linearHost_noninteracting (H : (k : Fin K) → Mat (n k) (n k)) (hH : ∀ k, (H k).IsHermitian) (c : Cfg n b)
    (ho : ∀ ek ek' mu mu' f f', (∀ k, (List.ofFn (ek' k)).Perm (List.ofFn (ek k))) →
      c.occ ek = .ok (mu, f) → c.occ ek' = .ok (mu', f') → mu' = mu) :
    NonInteracting (linearHost H c.wk) c H where
  compute := by
    rintro h h' ⟨⟩
    refine ⟨hH, fun k => rfl, fun k i => ?_⟩
    have hm : ((h.C k)ᴴ * (H k * h.C k)).IsHermitian := by
      rw [← Matrix.mul_assoc]; exact isHermitian_conjTranspose_mul_mul _ (hH k)
    exact hm.coe_re_apply_self i
  energy := by rw [← linearEnergy_eq]; exact linearHost_energy H c ho

/-- a call that stops at its first point, where the orbital is no eigenvector, and a second one -/
example : ∃ (prm : NlcgParams ℝ) (info : Info ℝ) (w' v v' : _) (o : Res (Info ℝ)),
    NonInteracting demoHost (demoCfg demoOcc) demoH ∧ 1 ≤ prm.maxiter ∧
    solve demoHost (demoCfg demoOcc) prm 0 0 (demoStart 5) = some (.ok info, w') ∧ info.converged = true ∧
    CallAgain w' v ∧ solve demoHost (demoCfg demoOcc) prm 0 0 v = some (o, v') := by
  have hT : (demoCfg demoOcc).T ≠ 0 := by norm_num [demoCfg]
  have hset : ∀ w : NState ℝ (SState (LState demoN demoB) demoN demoB), ∃ pt s2,
      solverSetup demoHost (demoCfg demoOcc) w.s = (.ok pt, s2) := fun w => ⟨_, _, rfl⟩
  obtain ⟨pt, s2, h2⟩ := hset (demoStart 5)
  have key : ∀ tol : ℝ, |(restarted (demoCfg demoOcc).la (dirParams (demoCfg demoOcc) pt) (kIn demoHost (demoCfg demoOcc) pt s2.h)).1| < tol →
      ∃ w', w'.s.h = s2.h ∧ ∃ info : Info ℝ, info.converged = true ∧
        solve demoHost (demoCfg demoOcc) { maxiter := 1, tol := tol, tau := 1 / 10, restart := 1 } 0 0 (demoStart 5) = some (.ok info, w') := by
    intro tol ht
    obtain ⟨info, w', vals, h3, q1, q2, q3, q4, q5, q6⟩ := solve_first
      (prm := { maxiter := 1, tol := tol, tau := 1 / 10, restart := 1 }) demo_never_throws hT (by norm_num) 0 0 h2 ht
    exact ⟨w', q6.trans (congrArg Prod.snd q5).symm, info, q2, q1⟩
  set v : NState ℝ (SState (LState demoN demoB) demoN demoB) :=
    { demoStart 5 with s := { h := s2.h, F := 0, S := 0, calls := [] } } with hv
  obtain ⟨pt', s2', h2'⟩ := hset v
  set tol : ℝ := |(restarted (demoCfg demoOcc).la (dirParams (demoCfg demoOcc) pt) (kIn demoHost (demoCfg demoOcc) pt s2.h)).1|
    + |(restarted (demoCfg demoOcc).la (dirParams (demoCfg demoOcc) pt') (kIn demoHost (demoCfg demoOcc) pt' s2'.h)).1| + 1
    with htol
  obtain ⟨w', e1, info, e2, e3⟩ := key tol (by
    rw [htol]
    linarith [abs_nonneg (restarted (demoCfg demoOcc).la (dirParams (demoCfg demoOcc) pt') (kIn demoHost (demoCfg demoOcc) pt' s2'.h)).1])
  obtain ⟨info', v', vals', h3', q1, -⟩ := solve_first (prm := { maxiter := 1, tol := tol, tau := 1 / 10, restart := 1 })
    demo_never_throws hT (by norm_num) 0 0 h2' (by
    rw [htol]
    linarith [abs_nonneg (restarted (demoCfg demoOcc).la (dirParams (demoCfg demoOcc) pt) (kIn demoHost (demoCfg demoOcc) pt s2.h)).1])
  exact ⟨{ maxiter := 1, tol := tol, tau := 1 / 10, restart := 1 }, info, w', v, v', .ok info',
    linearHost_noninteracting demoH (fun k => (demoH_psd k).isHermitian) (demoCfg demoOcc)
      (by rintro ek ek' mu mu' f f' - ⟨⟩ ⟨⟩; rfl), le_rfl, e3, e2, ⟨e1.symm, rfl⟩, q1⟩

/-- two levels of a fixed Hamiltonian, with the search of the code -/
example : Function.Injective sloshKey ∧ (sloshCfg).t = .gauss ∧ 0 < sloshCfg.T ∧ 0 ≤ sloshCfg.mo ∧
    sloshCfg.occ = searchOcc false .gauss sloshP sloshKey sloshCfg.wk ∧
    ∃ H, NonInteracting (linearHost H sloshCfg.wk) sloshCfg H := by
  refine ⟨sloshKey_inj, rfl, ?_, by norm_num [sloshCfg], rfl, fun k => (((![1, -1] k : ℝ)) : ℂ) • 1,
    linearHost_noninteracting _ (fun k => ?_) _ fun ek ek' mu mu' f f' hp h h' => ?_⟩
  · have := kB_pos
    simp only [sloshCfg, sloshP]
    positivity
  · rw [Matrix.IsHermitian, conjTranspose_smul, conjTranspose_one]; simp
  · have h1 := (searchOcc_ok h).1
    have h2 := (searchOcc_ok h').1
    rw [globalSearch_perm false _ _ _ sloshKey_inj _ ek ek' hp, h1] at h2
    exact (Res.ok.inj h2).symm

/-- levels and occupations of a point of the Fermi-Dirac case that are not cut off -/
example : Monotonic .fermiDirac ∧ (∀ k i, (0 - sloshBands 1 k i) / (kB * sloshP.T) ∈ inside .fermiDirac) ∧
    ∀ k i, (0 - levels (b := sloshN) (fun k => (((![2, -2] k : ℝ)) : ℂ) • (1 : Mat 1 1)) (fun _ => 1) k i) / (kB * sloshP.T)
      ∈ inside .fermiDirac := by
  refine ⟨trivial, fun k i => ?_, fun k i => ?_⟩
  · rw [slosh_kT]; fin_cases k <;> norm_num [sloshBands, inside]
  · rw [slosh_kT]; fin_cases k <;> norm_num [levels, inside]

end Nlcg
