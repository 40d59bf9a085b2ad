import Verif.Proofs.GaugeTie
import Verif.Props.Represent

/-!
**C90**: the run does not depend on which eigenvectors LAPACK returns, nor on the phases of the starting orbitals,
as long as no pseudo-energy is repeated.
-/

namespace Nlcg
open Spec Matrix ComplexOrder

noncomputable section

variable {K : ℕ} {n b : Fin K → ℕ} {η ξ : Type} {host' : Host η n b} {host : Host ξ n b} {c : Cfg n b}
  {la' : Lapack} {jk : (k : Fin K) → Mat (b k) (b k)} {prm : NlcgParams ℝ} {fuel rank : ℕ}

/-- **C90 (part).** In exact arithmetic, two runs from orbitals that differ by phases, with two LAPACKs that return
ascending eigenvalues, have the same outcome, step log, record, free energies and history, provided that no
pseudo-Hamiltonian on the way has a repeated eigenvalue. In the end the orbitals differ by phases, and the occupations
are the same. Missing: repeated eigenvalues, see below. -/
theorem C90_same_run_partial (H : GaugeHost host' host) (hs' : Setting host' { c with la := la', junk := jk })
    (hs : Setting host c) (ht' : EighTotal la') (ht : EighTotal c.la) (ho' : EighSorted la') (ho : EighSorted c.la)
    {w : NState ℝ (SState η n b)} {w' : NState ℝ (SState ξ n b)} {v : Phases b} (hv : IsPhase v)
    (hR : H.R v w.s.h w'.s.h) (hcalls : w.s.calls = []) (h0 : SStart host c w'.s)
    (hw : w.file = w'.file ∧ w.info = w'.info ∧ w.force = w'.force ∧ w.trace = w'.trace)
    (hm : MeetsSimple host c prm fuel rank w') :
    (solve host' { c with la := la', junk := jk } prm fuel rank w).map observed
      = (solve host c prm fuel rank w').map observed ∧
    ∀ r x r' x', solve host' { c with la := la', junk := jk } prm fuel rank w = some (r, x) →
      solve host c prm fuel rank w' = some (r', x') →
      ∃ u : Phases b, IsPhase u ∧ host'.C x.s.h = rephase u (host.C x'.s.h) ∧ host'.fn x.s.h = host.fn x'.s.h := by
  set w1 : NState ℝ (SState η n b) := { w with s := { w.s with F := w'.s.F, S := w'.s.S } } with hw1
  have h01 : SStart host' { c with la := la', junk := jk } w1.s := by
    refine ⟨hcalls, fun k => ?_⟩
    show SOrtho (c.S k) (host'.C w.s.h k)
    rw [H.C hR]
    exact (sOrtho_uni (uni_diagonal (hv k))).2 (h0.2 k)
  have h1 := nlcg_rel_pair (gaugeSim H hs' hs ht' ht ho' ho) prm fuel rank (w := w1) (w' := w')
    ⟨⟨v, hv, hR, rfl, rfl, by rw [h0.1, show w1.s.calls = [] from hcalls]; exact .nil⟩, hw⟩
  rw [snap_simple hs' prm fuel rank w1 h01, snap_simple hs prm fuel rank w' h0] at h1
  have b' := simple_below host' { c with la := la', junk := jk } prm fuel rank w1
  have b := simple_below host c prm fuel rank w'
  have h2 := C55_no_uninitialised_read (prm := prm) (fuel := fuel) (rank := rank) host' { c with la := la', junk := jk }
    w1 w ⟨rfl, rfl, rfl, rfl, rfl, rfl⟩
  unfold MeetsSimple at hm
  generalize nlcg (simpleOps host' { c with la := la', junk := jk }) prm fuel rank w1 = q' at *
  generalize nlcg (simpleOps host c) prm fuel rank w' = q at *
  generalize solve host' { c with la := la', junk := jk } prm fuel rank w1 = p1 at *
  generalize solve host' { c with la := la', junk := jk } prm fuel rank w = p' at *
  generalize solve host c prm fuel rank w' = p at *
  obtain rfl : q = p := by
    rcases b with ⟨z, hz⟩ | h
    · exact absurd hz (hm z)
    · exact h
  cases h1 with
  | none =>
    obtain rfl : none = p1 := by
      rcases b' with ⟨z, hz⟩ | h
      · simp at hz
      · exact h
    rcases h2 with ⟨-, rfl⟩ | ⟨o, v1, v2, e1, -⟩
    · simp
    · simp at e1
  | @some x y h1 =>
    obtain ⟨⟨⟨u, hu, hR, -⟩, f1, f2, f3, f4⟩, -, hv⟩ := h1
    obtain ⟨r, x⟩ := x
    obtain ⟨r', y⟩ := y
    simp only at f1 f2 f3 f4 hR hv
    have hrr : r = r' := by cases hv <;> simp_all
    obtain rfl : some (r, x) = p1 := by
      rcases b' with ⟨z, hz⟩ | h
      · simp only [Option.some.injEq, Prod.mk.injEq] at hz
        exact absurd (by rw [← hrr, hz.1]) (hm y)
      · exact h
    rcases h2 with ⟨h, -⟩ | ⟨o, v1, v2, e1, rfl, hs, -⟩
    · simp at h
    obtain ⟨s1, s2, s3, s4, s5, s6⟩ := hs
    simp only [Option.some.injEq, Prod.mk.injEq] at e1
    obtain ⟨rfl, rfl⟩ := e1
    refine ⟨?_, ?_⟩
    · simp [observed, hrr, s3, s4, s5, s6, f1, f2, f3, f4]
    · rintro _ _ _ _ ⟨⟩ ⟨⟩
      rw [s1]
      exact ⟨u, hu, H.C hR, H.fn hR⟩

/-- **C90 (not true of the code).** With a repeated pseudo-energy the run does depend on the eigenvectors that LAPACK
returns: for one system and one start, two LAPACKs that both return ascending eigenvalues and orthonormal eigenvectors
lead after a step of any length to the same free energy, but the slope at the new point, which goes into the step log
and the conjugate direction, is not the same. The gradient with respect to the pseudo-Hamiltonian drops the
off-diagonal entries of equal levels, and what is off the diagonal depends on the eigenvectors. -/
theorem C90_not_degenerate : ∃ (host : Host (LState tieN tieB) tieN tieB) (c : Cfg tieN tieB) (la' : Lapack)
    (s : SState (LState tieN tieB) tieN tieB),
    Setting host c ∧ Setting host { c with la := la' } ∧ EighTotal c.la ∧ EighTotal la' ∧ EighSorted c.la ∧
    EighSorted la' ∧ SStart host c s ∧
    ∀ t ≠ 0, ∃ a a' u u', slopeAfter host c t s = (.ok a, u) ∧ slopeAfter host { c with la := la' } t s = (.ok a', u') ∧
      u.F = u'.F ∧ a < a' := by
  have h1 : ∀ n, Uni ((fun n => 1 : (n : ℕ) → Mat n n) n) := fun n => by simp [Uni]
  have ok := ofZero_ok (sorted_ok refLapack_ok) h1
  have ok' := ofZero_ok (sorted_ok refLapack_ok) turn_uni
  have tot : EighTotal (ofZero (sorted refLapack) fun n => 1) := ofZero_total (sorted_total refLapack_total) _
  have tot' : EighTotal (ofZero (sorted refLapack) turn) := ofZero_total (sorted_total refLapack_total) _
  refine ⟨tieHost, tieCfg (ofZero (sorted refLapack) fun n => 1), ofZero (sorted refLapack) turn, tieStart,
    tie_setting ok, tie_setting ok', tot, tot', ofZero_sorted (sorted_sorted _) _, ofZero_sorted (sorted_sorted _) _,
    tie_start _, fun t ht => ?_⟩
  obtain ⟨u, e1, e2⟩ := tie_slope ok tot (ofZero_zero _ _ 2) t
  obtain ⟨u', e1', e2'⟩ := tie_slope ok' tot' (ofZero_zero _ _ 2) t
  refine ⟨_, _, u, u', e1, e1', by rw [e2, e2', tieEnergy_uni (h1 2), tieEnergy_uni (turn_uni 2)], ?_⟩
  rw [tie_value ok (h1 2), tie_value ok' (turn_uni 2), (tieEk_one t).1, (tieEk_one t).2, tieEk_turn]
  have hd : (0 : ℝ) < gaussDelta 0 2 := by rw [gaussDelta]; positivity
  have hm : tieM t ≠ 0 := by
    rw [tieM]
    exact div_ne_zero (mul_ne_zero (by norm_num) ht) (by positivity)
  have hk : (0 : ℝ) < 3 / 10 / (kB * 300) := by norm_num [kB]
  have : 0 < 3 / 10 / (kB * 300) * (gaussDelta 0 2 * ((tieM t - 0) ^ 2 / 2)) := by
    have : (tieM t - 0) ^ 2 > 0 := by rw [sub_zero]; positivity
    positivity
  rw [sub_self]
  simp only [ne_eq, OfNat.ofNat_ne_zero, not_false_eq_true, zero_pow, zero_div, mul_zero, add_zero]
  linarith

end

/-! ## The assumptions can be met -/

/-- the same eigenvalues with the opposite eigenvectors -/
noncomputable def negated (la : Lapack) : Lapack :=
  { la with heevd := fun A => (((la.heevd A).1.1, -(la.heevd A).1.2), (la.heevd A).2) }

theorem negated_ok {la : Lapack} (h : LapackOk la) : LapackOk (negated la) where
  chol := h.chol
  solve := h.solve
  eigen A hA h0 := by
    obtain ⟨h1, h2⟩ := h.eigen A hA h0
    show (-(la.heevd A).1.2)ᴴ * -(la.heevd A).1.2 = 1 ∧ A * -(la.heevd A).1.2
      = -(la.heevd A).1.2 * diagonal fun i => ((la.heevd A).1.1 i : ℂ)
    simp [h1, h2]

/-- three plane waves, two bands, no step of the pseudo-Hamiltonian -/
noncomputable def pairH : (k : Fin 1) → Mat (tieN k) (tieN k) := fun _ => (!![1, 0, 1; 0, 2, 1; 1, 1, 5] : Mat 3 3)

theorem pairH_herm (k : Fin 1) : (pairH k).IsHermitian := by
  ext i j
  fin_cases i <;> fin_cases j <;> simp [pairH]

noncomputable def pairHost : Host (LState tieN tieB) tieN tieB := linearHost pairH fun _ => 1

noncomputable def pairCfg (la : Lapack) : Cfg tieN tieB := { tieCfg la with kappa := 0 }

theorem pair_setting {la : Lapack} (h : LapackOk la) : Setting pairHost (pairCfg la) where
  host := linearHost_ok _ pairH_herm _
  lapack := h
  overlap := fun _ => PosSemidef.one
  prec := fun _ => PosDef.one
  weights := fun _ => one_pos
  occ := by rintro ek mu f ⟨⟩; rfl

noncomputable def pairStart (C : Orbitals tieN tieB) : NState ℝ (SState (LState tieN tieB) tieN tieB) :=
  ⟨⟨⟨C, fun _ => 0, fun _ _ => 0, fun _ _ => 0, 0⟩, 0, 0, []⟩, [], ⟨none, false⟩, false, []⟩

theorem pair_start (la : Lapack) : SStart pairHost (pairCfg la) (pairStart fun _ => tieX).s :=
  ⟨rfl, (tie_start la).2⟩

theorem pair_distinct (h : LState tieN tieB)
    (hh : pairHost.compute (pairStart fun _ => tieX).s.h = (some (), h)) : Distinct (pairHost.ek h) := by
  cases hh
  intro k i j hij
  replace hij : ((tieXᴴ * ((!![1, 0, 1; 0, 2, 1; 1, 1, 5] : Mat 3 3) * tieX) : Mat 2 2) i i).re
    = ((tieXᴴ * ((!![1, 0, 1; 0, 2, 1; 1, 1, 5] : Mat 3 3) * tieX) : Mat 2 2) j j).re := hij
  fin_cases i <;> fin_cases j <;> simp [tieX, mul_apply, Fin.sum_univ_three] at hij ⊢

/-- two bands: any phases of the starting orbitals, eigenvectors of either sign -/
example (v : Phases tieB) (hv : IsPhase v) (prm : NlcgParams ℝ) (hm : 1 ≤ prm.maxiter) (hr : prm.restart ≠ 0)
    (fuel rank : ℕ) :
    (solve pairHost (pairCfg (negated (sorted refLapack))) prm fuel rank (pairStart (rephase v fun _ => tieX))).map observed
      = (solve pairHost (pairCfg (sorted refLapack)) prm fuel rank (pairStart fun _ => tieX)).map observed :=
  (C90_same_run_partial (c := pairCfg (sorted refLapack)) (la' := negated (sorted refLapack))
    (jk := (pairCfg (sorted refLapack)).junk) (linearGauge pairH fun _ => 1)
    (pair_setting (negated_ok (sorted_ok refLapack_ok))) (pair_setting (sorted_ok refLapack_ok))
    (sorted_total refLapack_total) (sorted_total refLapack_total) (sorted_sorted refLapack) (sorted_sorted refLapack) hv
    (w := pairStart (rephase v fun _ => tieX)) (w' := pairStart fun _ => tieX) ⟨hv, rfl, rfl, rfl⟩ rfl (pair_start _)
    ⟨rfl, rfl, rfl, rfl⟩
    (meetsSimple_frozen (pair_setting (sorted_ok refLapack_ok)) (sorted_total refLapack_total) rfl
      (fun _ => ⟨by simp [pairCfg, tieCfg], by simp [pairCfg, tieCfg, Res.Clean]⟩) hm hr _ (pair_start _)
      pair_distinct)).1

/-- one band: also for the pseudo-Hamiltonian that moves -/
example (v : Phases demoB) (hv : IsPhase v) (prm : NlcgParams ℝ) (hm : 1 ≤ prm.maxiter) (hr : prm.restart ≠ 0)
    (fuel rank : ℕ) (F : ℝ) :
    (solve demoHost { demoCfg demoOcc with la := negated (sorted refLapack), junk := fun _ => 7 } prm fuel rank
        { demoStart F with s := { (demoStart F).s with h := { (demoStart F).s.h with
            C := rephase v (demoStart F).s.h.C } } }).map observed
      = (solve demoHost { demoCfg demoOcc with la := sorted refLapack } prm fuel rank (demoStart F)).map observed := by
  have h1 := demo_settings.1
  have hs : Setting demoHost { demoCfg demoOcc with la := sorted refLapack } :=
    ⟨h1.host, sorted_ok refLapack_ok, h1.overlap, h1.prec, h1.weights, h1.occ⟩
  have hs' : Setting demoHost { demoCfg demoOcc with la := negated (sorted refLapack), junk := fun _ => 7 } :=
    ⟨h1.host, negated_ok (sorted_ok refLapack_ok), h1.overlap, h1.prec, h1.weights, h1.occ⟩
  exact (C90_same_run_partial (c := { demoCfg demoOcc with la := sorted refLapack })
    (la' := negated (sorted refLapack)) (jk := fun _ => 7) (w := { demoStart F with s := { (demoStart F).s with h :=
      { (demoStart F).s.h with C := rephase v (demoStart F).s.h.C } } }) (w' := demoStart F)
    (linearGauge demoH fun _ => 1) hs' hs (sorted_total refLapack_total)
    (sorted_total refLapack_total) (sorted_sorted refLapack) (sorted_sorted refLapack) hv ⟨hv, rfl, rfl, rfl⟩ rfl
    ⟨rfl, (demo_start demoOcc 300 F).2⟩ ⟨rfl, rfl, rfl, rfl⟩
    (meetsSimple_one (fun _ => le_rfl)
      (fun _ => ⟨by simp [demoCfg, demoOcc], by simp [demoCfg, demoOcc, Res.Clean]⟩) hm hr _)).1

end Nlcg
