import Verif.Proofs.Continue
import Verif.Props.Basis

/-!
# C139, C96: runs that continue with the result of an earlier run
-/

namespace Nlcg
open Matrix Arith Spec Real ComplexOrder

section
variable {K : ℕ} {n n' b : Fin K → ℕ} {η η' : Type} {host : Host η n b} {host' : Host η' n' b} {c : Cfg n b} {c' : Cfg n' b}
  {H : (k : Fin K) → Mat (n k) (n k)} {H' : (k : Fin K) → Mat (n' k) (n' k)} {J : (k : Fin K) → Mat (n' k) (n k)}
  {prm prm' : NlcgParams ℝ} {fuel fuel' rank rank' : ℕ} {info info' : Info ℝ} {o : Res (Info ℝ)} {p : OccParams ℝ}
  {key : Fin K → Key}

/-- a run that starts with the orbitals of a state -/
theorem continue_state (hk : Function.Injective key) (hs : Setting host c) (ht : Monotonic c.t) (hT : 0 < c.T)
    (hmo : 0 ≤ c.mo) (hgs : c.t = .gaussianSpline → c.mo = 1) (hH : NonInteracting host c H)
    (hocc : c.occ = searchOcc false c.t p key c.wk) {v v' : NState ℝ (SState η n b)} (hcalls : v.s.calls = [])
    {ek : Bands b} {nu : ℝ} (hX : IsState c (host.C v.s.h) ek nu) (h2 : solve host c prm fuel rank v = some (o, v'))
    {i : ℕ} {F S sl : ℝ} (hr : Ev.report i F S sl ∈ v'.trace) :
    ∃ mu f, c.occ (levels H (host.C v.s.h)) = .ok (mu, f) ∧
      F ≤ stateFree (bandEnergy H c.wk) c.t c.T c.mo c.wk (host.C v.s.h) ek nu + 2 * p.tol * |mu|
        + kB * c.T * c.mo * slack c.t * ∑ k, c.wk k * b k := by
  obtain ⟨mu, f, e3, e4⟩ := reports_below hs ht hT hmo hgs hH ⟨hcalls, hX.ortho⟩ h2 ek nu hr
  refine ⟨mu, f, e3, e4.trans ?_⟩
  have ho := hX.occ
  rw [hocc] at e3 ho
  have c1 := (searchOcc_charge hk e3).1
  have c2 := (searchOcc_charge hk ho).1
  change |p.ne - electrons c.wk f| < p.tol at c1
  change |p.ne - electrons c.wk (occs c.t c.T c.mo ek nu)| < p.tol at c2
  have c3 : |electrons c.wk f - electrons c.wk (occs c.t c.T c.mo ek nu)| ≤ 2 * p.tol := by
    rw [abs_lt] at c1 c2
    rw [abs_le]
    constructor <;> linarith
  have c4 := le_abs_self (mu * (electrons c.wk f - electrons c.wk (occs c.t c.T c.mo ek nu)))
  rw [abs_mul] at c4
  have c5 := mul_le_mul_of_nonneg_left c3 (abs_nonneg mu)
  rw [entropyTerm_ofFn, stateFree, entropySum]
  linarith

/-- **C139 (continued runs).** Electrons that do not interact: a run in the large basis that starts with the bands of a run
in the small basis never reports a free energy above the one that run has returned, up to the tolerance of the search for
the chemical potential and the cutoff of the smearing. -/
theorem C139_continue (hk : Function.Injective key) (hs' : Setting host' c')
    (hp : PartOf c (bandEnergy H c.wk) c' (bandEnergy H' c'.wk) J) (ht : Monotonic c.t) (hT : 0 < c.T) (hmo : 0 ≤ c.mo)
    (hgs : c.t = .gaussianSpline → c.mo = 1) (hH' : NonInteracting host' c' H')
    (hocc : c.occ = searchOcc false c.t p key c.wk) {h : η} {F : ℝ} {X : Orbitals n b} {f : Bands b}
    (r : ReturnedState host c (bandEnergy H c.wk) info h F X f) {v v' : NState ℝ (SState η' n' b)}
    (hcalls : v.s.calls = []) (hv : host'.C v.s.h = embed J X) (h2 : solve host' c' prm' fuel' rank' v = some (o, v'))
    {i : ℕ} {F' S sl : ℝ} (hr : Ev.report i F' S sl ∈ v'.trace) :
    ∃ mu f', c.occ (levels H' (embed J X)) = .ok (mu, f') ∧
      F' ≤ F + 2 * p.tol * |mu| + kB * c.T * c.mo * slack c.t * ∑ k, c.wk k * b k := by
  obtain ⟨ek, nu, hX, -, rfl⟩ := r.state
  obtain ⟨k1, k2⟩ := C139_state hp hX
  obtain ⟨mu, f', e1, e2⟩ := continue_state (p := p) hk hs' (by rw [hp.t]; exact ht) (by rw [hp.T]; exact hT)
    (by rw [hp.mo]; exact hmo) (by rw [hp.t, hp.mo]; exact hgs) hH' (by rw [hp.occ, hp.t, hp.wk]; exact hocc) hcalls
    (ek := ek) (nu := nu) (by rw [hv]; exact k1) h2 hr
  rw [hv] at e1 e2
  rw [k2, hp.t, hp.T, hp.mo, hp.wk] at e2
  rw [hp.occ] at e1
  exact ⟨mu, f', e1, e2⟩

/-- **C139 (continued runs, result).** The same for the free energy that the run in the large basis returns. -/
theorem C139_continue_returned (hk : Function.Injective key) (hs' : Setting host' c')
    (hp : PartOf c (bandEnergy H c.wk) c' (bandEnergy H' c'.wk) J) (ht : Monotonic c.t) (hT : 0 < c.T) (hmo : 0 ≤ c.mo)
    (hgs : c.t = .gaussianSpline → c.mo = 1) (hH' : NonInteracting host' c' H')
    (hocc : c.occ = searchOcc false c.t p key c.wk) {h : η} {F : ℝ} {X : Orbitals n b} {f : Bands b}
    (r : ReturnedState host c (bandEnergy H c.wk) info h F X f) {v v' : NState ℝ (SState η' n' b)}
    (hcalls : v.s.calls = []) (hv : host'.C v.s.h = embed J X) (hm : 1 ≤ prm'.maxiter)
    (h2 : solve host' c' prm' fuel' rank' v = some (.ok info', v')) :
    ∃ mu f' vals, c.occ (levels H' (embed J X)) = .ok (mu, f') ∧ info'.vals = some vals ∧
      vals.F ≤ F + 2 * p.tol * |mu| + kB * c.T * c.mo * slack c.t * ∑ k, c.wk k * b k := by
  obtain ⟨vals, slope, e1, -, -, -, e5, -⟩ := nlcg_record _ (solver_clean host' c' fun ek => by
    rw [hp.occ, hocc]; exact searchOcc_clean _ _ _ _ _ _) (solver_quiet host' c') prm' fuel' rank' v v' info' hm h2
  obtain ⟨mu, f', q1, q2⟩ := C139_continue hk hs' hp ht hT hmo hgs hH' hocc r hcalls hv h2 (mem_reports.1 e5)
  exact ⟨mu, f', vals, q1, e1, q2⟩

/-- **C96 (partial: fixed Hamiltonian).** A second call on the state that a converged call has left, with Fermi-Dirac, Gauss
or spline smearing: it reports no free energy above the one that was returned, up to the tolerance of the search for the
chemical potential and the cutoff of the smearing. -/
theorem C96_monotonic_partial (hk : Function.Injective key) (hs : Setting host c) (ht : Monotonic c.t) (hT : 0 < c.T)
    (hmo : 0 ≤ c.mo) (hgs : c.t = .gaussianSpline → c.mo = 1) (hH : NonInteracting host c H)
    (hocc : c.occ = searchOcc false c.t p key c.wk) {w w' v v' : NState ℝ (SState η n b)} (h0 : SStart host c w.s)
    (hm : 1 ≤ prm.maxiter) (h1 : solve host c prm fuel rank w = some (.ok info, w')) (hc : info.converged = true)
    (ha : CallAgain w' v) (h2 : solve host c prm' fuel' rank' v = some (o, v')) :
    ∃ vals, info.vals = some vals ∧ ∀ i F S sl, Ev.report i F S sl ∈ v'.trace → ∃ mu f,
      c.occ (levels H (host.C w'.s.h)) = .ok (mu, f) ∧
      F ≤ vals.F + 2 * p.tol * |mu| + kB * c.T * c.mo * slack c.t * ∑ k, c.wk k * b k := by
  obtain ⟨F, X, f, r⟩ := C136_state hs hH.energy (fun ek => by rw [hocc]; exact searchOcc_clean _ _ _ _ _ _) h0 hm h1
  obtain ⟨vals, e1, rfl⟩ := r.returned
  obtain ⟨ek, nu, hX, -, hF⟩ := r.state
  obtain ⟨hC, -⟩ := r.final hc
  refine ⟨vals, e1, fun i F S sl hr => ?_⟩
  have := continue_state hk hs ht hT hmo hgs hH hocc ha.calls (ek := ek) (nu := nu) (by rw [ha.host, hC]; exact hX) h2 hr
  rw [ha.host, hC] at this
  rw [hF, hC]
  exact this

end

/-! ## The run of C99, continued with one more function -/

/-- the run of C99 with a large tolerance ends with its starting orbitals -/
theorem flip_run_first : ∃ (prm : NlcgParams ℝ) (info : Info ℝ) (w' : _), 1 ≤ prm.maxiter ∧
    solve flipHost (demoCfg demoSearch) prm 0 0 (demoStart 5) = some (.ok info, w') ∧ info.converged = true ∧
    flipHost.C w'.s.h = fun _ => !![1; 0] := by
  obtain ⟨pt, s2, h2⟩ := flip_setup
  obtain ⟨tol, htol⟩ : ∃ tol : ℝ, |(restarted (demoCfg demoSearch).la (dirParams (demoCfg demoSearch) pt)
    (kIn flipHost (demoCfg demoSearch) pt s2.h)).1| < tol := exists_gt _
  obtain ⟨info, w', vals, h3, q1, q2, -, -, q5, q6⟩ := solve_first
    (prm := { maxiter := 1, tol := tol, tau := 1 / 10, restart := 1 }) flip_never_throws (by norm_num [demoCfg]) le_rfl 0 0 h2 htol
  obtain ⟨x, ek, mu, f, s1, d1, d2, d3, -⟩ := solverSetup_ok h2
  refine ⟨_, info, w', le_rfl, q1, q2, ?_⟩
  rw [q6, (flip_setting.host.print _ _ q5).1.C, (evaluate_energyAt flip_setting d3 (flip_setting.occ _ _ _ d2)).2,
    (flip_setting.host.compute _ _ d1).1]
  rfl

noncomputable def wideStart : NState ℝ (SState (LState wideN demoB) wideN demoB) :=
  { s := { h := { C := embed wideJ (fun _ => !![1; 0] : Orbitals demoN demoB), hphi := fun _ => 0, fn := fun _ _ => 0,
                  ek := fun _ _ => 0, mu := 0 },
           F := 5, S := 0, calls := [] },
    file := [], info := { vals := none, converged := false }, force := false, trace := [] }

theorem wide_never_throws : NeverThrows wideHost :=
  ⟨fun _ => ⟨_, rfl⟩, fun _ _ => ⟨_, rfl⟩, fun _ _ => ⟨_, rfl⟩, fun _ _ => ⟨_, rfl⟩, fun _ => ⟨_, _, rfl⟩,
    fun _ => ⟨_, rfl⟩⟩

theorem wide_noninteracting : NonInteracting wideHost wideCfg wideH :=
  linearHost_noninteracting wideH wide_herm wideCfg fun ek ek' mu mu' f f' hp h h' => by
    have h1 := (searchOcc_ok h).1
    have h2 := (searchOcc_ok h').1
    rw [globalSearch_perm false _ _ _ (fun a b _ => Subsingleton.elim a b) _ ek ek' hp, h1] at h2
    exact (Res.ok.inj h2).symm

theorem wide_setup : ∃ pt s2, solverSetup wideHost wideCfg wideStart.s = (.ok pt, s2) := by
  have e0 : wideHost.ek (wideHost.compute wideStart.s.h).2 = fun _ _ => 0 := by
    funext k i
    show ((((!![1, 0; 0, 1; 0, 0] : Mat 3 2) * !![(1 : ℂ); 0])ᴴ * ((!![0, 1, 0; 1, 0, 1; 0, 1, 0] : Mat 3 3)
      * ((!![1, 0; 0, 1; 0, 0] : Mat 3 2) * !![(1 : ℂ); 0]))) i i).re = 0
    fin_cases i
    simp [mul_apply, Fin.sum_univ_two, Fin.sum_univ_three]
  have hsearch : wideCfg.occ (fun _ _ => 0) = .ok (0, occs .gauss 300 2 (fun _ _ => 0) 0) := flip_search
  rw [solverSetup, hostCall_bind]
  have hcomp : wideHost.compute wideStart.s.h = (some (), (wideHost.compute wideStart.s.h).2) := rfl
  rw [hcomp]
  simp only []
  rw [SM.get_bind, SM.lift_bind]
  simp only [e0, hsearch]
  rw [SM.get_bind, SM.bind_apply]
  obtain ⟨s', he⟩ := evaluate_total (c := wideCfg) wide_never_throws
    (wideHost.C (wideHost.compute wideStart.s.h).2) (occs .gauss 300 2 (fun _ _ => 0) 0) (fun _ _ => 0) 0
    { h := (wideHost.compute wideStart.s.h).2, F := 5, S := 0, calls := [] ++ [.compute] }
  have he' := he
  simp only [wideStart] at he' ⊢
  simp only [he']
  rw [SM.get_bind, SM.pure_apply]
  exact ⟨_, _, rfl⟩

theorem wide_run : ∃ (prm : NlcgParams ℝ) (info : Info ℝ) (v' : _), 1 ≤ prm.maxiter ∧
    solve wideHost wideCfg prm 0 0 wideStart = some (.ok info, v') := by
  obtain ⟨pt, s2, h2⟩ := wide_setup
  obtain ⟨tol, htol⟩ : ∃ tol : ℝ, |(restarted wideCfg.la (dirParams wideCfg pt) (kIn wideHost wideCfg pt s2.h)).1| < tol :=
    exists_gt _
  obtain ⟨info, w', vals, h3, q1, -⟩ := solve_first (prm := { maxiter := 1, tol := tol, tau := 1 / 10, restart := 1 })
    wide_never_throws (by norm_num [wideCfg]) le_rfl 0 0 h2 htol
  exact ⟨_, info, w', le_rfl, q1⟩

example : ∃ (prm prm' : NlcgParams ℝ) (info info' : Info ℝ) (w' v' : _) (vals vals' : _) (mu : ℝ),
    solve flipHost (demoCfg demoSearch) prm 0 0 (demoStart 5) = some (.ok info, w') ∧ info.vals = some vals ∧
    wideHost.C wideStart.s.h = embed wideJ (flipHost.C w'.s.h) ∧
    solve wideHost wideCfg prm' 0 0 wideStart = some (.ok info', v') ∧ info'.vals = some vals' ∧
    vals'.F ≤ vals.F + 2 * (1 / 10 ^ 11) * |mu| + kB * 300 * 2 * slack .gauss * ∑ k : Fin 1, 1 * (demoB k : ℝ) := by
  obtain ⟨prm, info, w', hm, q1, q2, q3⟩ := flip_run_first
  obtain ⟨prm', info', v', hm', k1⟩ := wide_run
  obtain ⟨F, X, f, r⟩ := C136_state flip_setting flip_noninteracting.energy (fun _ => searchOcc_clean _ _ _ _ _ _)
    flip_start hm q1
  obtain ⟨vals, e1, e2⟩ := r.returned
  have hX : X = fun _ => !![1; 0] := by rw [← (r.final q2).1, q3]
  obtain ⟨mu, f', vals', -, e3, e4⟩ := C139_continue_returned (p := { T := 300, occ := 2, ne := 1, tol := 1 / 10 ^ 11 })
    (key := fun _ => toLex (0, 0)) (fun a b _ => Subsingleton.elim a b) wide_setting flip_part_wide trivial
    (by norm_num [demoCfg]) (by norm_num [demoCfg]) (fun h => nomatch h) wide_noninteracting rfl r rfl
    (by rw [hX]; rfl) hm' k1
  exact ⟨prm, prm', info, info', w', v', vals, vals', mu, q1, e1, by rw [q3]; rfl, k1, e3, by rw [e2]; exact e4⟩

/-- every call that finds these orbitals can be set up -/
theorem flip_setup_again (h : LState demoN demoB) (hC : h.C = fun _ => !![1; 0]) (F S : ℝ) :
    ∃ pt s2, solverSetup flipHost (demoCfg demoSearch) { h := h, F := F, S := S, calls := [] } = (.ok pt, s2) := by
  have e0 : flipHost.ek (flipHost.compute h).2 = fun _ _ => 0 := by
    funext k i
    show (((h.C k)ᴴ * ((!![0, 1; 1, 0] : Mat 2 2) * h.C k)) i i).re = 0
    rw [hC]
    fin_cases i
    simp [mul_apply, Fin.sum_univ_two]
  rw [solverSetup, hostCall_bind]
  have hcomp : flipHost.compute h = (some (), (flipHost.compute h).2) := rfl
  simp only []
  rw [hcomp]
  simp only []
  rw [SM.get_bind, SM.lift_bind]
  simp only [e0, flip_search]
  rw [SM.get_bind, SM.bind_apply]
  obtain ⟨s', he⟩ := evaluate_total (c := demoCfg demoSearch) flip_never_throws
    (flipHost.C (flipHost.compute h).2) (occs .gauss 300 2 (fun _ _ => 0) 0) (fun _ _ => 0) 0
    { h := (flipHost.compute h).2, F := F, S := S, calls := [] ++ [.compute] }
  simp only [he]
  rw [SM.get_bind, SM.pure_apply]
  exact ⟨_, _, rfl⟩

example : ∃ (prm prm' : NlcgParams ℝ) (info info' : Info ℝ) (w' v v' : _) (vals : _),
    solve flipHost (demoCfg demoSearch) prm 0 0 (demoStart 5) = some (.ok info, w') ∧ info.converged = true ∧
    info.vals = some vals ∧ CallAgain w' v ∧ solve flipHost (demoCfg demoSearch) prm' 0 0 v = some (.ok info', v') ∧
    ∀ i F S sl, Ev.report i F S sl ∈ v'.trace → ∃ mu : ℝ,
      F ≤ vals.F + 2 * (1 / 10 ^ 11) * |mu| + kB * 300 * 2 * slack .gauss * ∑ k : Fin 1, 1 * (demoB k : ℝ) := by
  obtain ⟨prm, info, w', hm, q1, q2, q3⟩ := flip_run_first
  obtain ⟨pt, s2, h2⟩ := flip_setup_again w'.s.h q3 w'.s.F w'.s.S
  obtain ⟨tol, htol⟩ : ∃ tol : ℝ, |(restarted (demoCfg demoSearch).la (dirParams (demoCfg demoSearch) pt)
    (kIn flipHost (demoCfg demoSearch) pt s2.h)).1| < tol := exists_gt _
  obtain ⟨info', v', -, h3, k1, -⟩ := solve_first (w := { w' with s := { w'.s with calls := [] } })
    (prm := { maxiter := 1, tol := tol, tau := 1 / 10, restart := 1 }) flip_never_throws (by norm_num [demoCfg]) le_rfl 0 0 h2 htol
  have ha : CallAgain w' { w' with s := { w'.s with calls := [] } } := ⟨rfl, rfl⟩
  obtain ⟨vals, e1, e2⟩ := C96_monotonic_partial (p := { T := 300, occ := 2, ne := 1, tol := 1 / 10 ^ 11 })
    (key := fun _ => toLex (0, 0)) (fun a b _ => Subsingleton.elim a b) flip_setting trivial
    (by norm_num [demoCfg]) (by norm_num [demoCfg]) (fun h => nomatch h) flip_noninteracting rfl flip_start hm q1 q2 ha k1
  refine ⟨prm, _, info, info', w', _, v', vals, q1, q2, e1, ha, k1, fun i F S sl hr => ?_⟩
  obtain ⟨mu, f, -, h⟩ := e2 i F S sl hr
  exact ⟨mu, h⟩

end Nlcg
