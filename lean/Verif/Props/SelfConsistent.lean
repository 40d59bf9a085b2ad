import Verif.Proofs.SelfConsistent

/-!
# C86: a run started at a self-consistent solution
-/

namespace Nlcg
open Matrix Arith Spec ComplexOrder

variable {K : ℕ} {n b : Fin K → ℕ} {η : Type} {host : Host η n b} {c : Cfg n b} {X : Orbitals n b}
  {f e : Bands b} {mu : ℝ}

/-- **C86.** A run that is started at a self-consistent solution returns at once and reports
convergence in iteration 0 with slope zero, for every smearing. The host is asked to compute its
Hamiltonian, to evaluate the point it is at, and to print, nothing else; it is left at the same
orbitals, occupations and chemical potential. The free energy is that of the solution. -/
theorem C86_stationary_start (hs : Setting host c) (hn : NeverThrows host) (hT : c.T ≠ 0)
    (hsc : SelfConsistent host c X f e mu) (prm : NlcgParams ℝ) (htol : 0 < prm.tol)
    (hm : 1 ≤ prm.maxiter) (fuel rank : ℕ) (w : NState ℝ (SState η n b)) (hcalls : w.s.calls = [])
    (hC : host.C w.s.h = X) (hf : host.fn w.s.h = f) :
    ∃ info w' F S, solve host c prm fuel rank w = some (.ok info, w') ∧
      info = { vals := some { tolerance := -1, F := F, S := S, iter := 0 }, converged := true } ∧
      w'.trace = [.start 0 0, .report 0 F S 0] ∧
      w'.s.calls = .compute :: (evaluation (X, f, mu) ++ [.print]) ∧
      host.C w'.s.h = X ∧ host.fn w'.s.h = f ∧ host.mu w'.s.h = mu ∧
      ∃ h E h', host.C h = X ∧ host.fn h = f ∧ host.energy h = (some E, h') ∧
        F = E + -(kB * c.T) * ∑ k, c.wk k * ∑ i, (smearFns c.t).entropy ((mu - e k i) / (kB * c.T)) c.mo := by
  obtain ⟨pt, s2, h2, p1, p2, p3, p4, p5, p6, p7, p8, p9⟩ :=
    setup_selfConsistent hs hn hsc w.s hcalls hC hf
  have hsl : ∀ k, (execAll c.la (dirParams c pt) (kIn host c pt s2.h) k).fr = 0 := fun k =>
    (execSpc_eigen hs.lapack _ _ _ (kIn host c pt s2.h k) (by simp only [kIn]; rw [p1]; exact hsc.ortho k)
      (hs.prec k) (hs.weights k).ne' (by simp only [kIn]; rw [p5 k, p1, p2])).2.2
  have hr : (restarted c.la (dirParams c pt) (kIn host c pt s2.h)).1 = 0 := by
    show ∑ k, (execAll c.la (dirParams c pt) (kIn host c pt s2.h) k).fr = 0
    exact Finset.sum_eq_zero fun k _ => hsl k
  obtain ⟨w', e1, v, m, hcl, tr⟩ := converged_at_once hs hn hT h2 hr prm htol hm fuel rank
  exact ⟨_, w', s2.F, s2.S, e1, rfl, tr, by rw [hcl, p8]; rfl, v.C.trans p7.C, v.fn.trans p7.fn, m.trans p7.mu, p9⟩

/-! ## A concrete case -/

/-- eigenvalues 1 and 2, eigenvectors `(3/5, 4/5)` and `(4/5, -3/5)` -/
noncomputable def eigH : (k : Fin 1) → Mat (demoN k) (demoN k) :=
  fun _ => !![41 / 25, -12 / 25; -12 / 25, 34 / 25]

noncomputable def eigX : Orbitals demoN demoB := fun _ => !![(3 / 5 : ℂ); 4 / 5]

/-- also for cold smearing -/
noncomputable def eigCfg (t : SmearType) : Cfg demoN demoB :=
  { la := refLapack, t := t, T := 300, kappa := 3 / 10, mo := 2, wk := fun _ => 1, S := fun _ => 1,
    P := fun _ => 1, occ := fun ek => .ok (0, occs t 300 2 ek 0), junk := fun _ => 0 }

theorem eig_selfConsistent (t : SmearType) :
    Setting (linearHost (b := demoB) eigH fun _ => 1) (eigCfg t) ∧
    SelfConsistent (linearHost (b := demoB) eigH fun _ => 1) (eigCfg t) eigX
      (occs t 300 2 (fun _ _ => 1) 0) (fun _ _ => 1) 0 := by
  have hX : (!![(3 / 5 : ℂ); 4 / 5])ᴴ * !![(3 / 5 : ℂ); 4 / 5] = 1 := by
    ext i j; fin_cases i; fin_cases j; simp [mul_apply]; norm_num [map_ofNat]
  have hH : (!![41 / 25, -12 / 25; -12 / 25, 34 / 25] : Mat 2 2) * !![(3 / 5 : ℂ); 4 / 5] = !![(3 / 5 : ℂ); 4 / 5] := by
    ext i j; fin_cases i <;> fin_cases j <;> simp [mul_apply] <;> norm_num
  refine ⟨⟨linearHost_ok _ (fun k => ?_) _, refLapack_ok, fun _ => PosSemidef.one, fun _ => PosDef.one,
    fun _ => one_pos, by rintro ek mu f ⟨⟩; rfl⟩, ⟨fun k => ?_, rfl, ?_⟩⟩
  · ext i j; fin_cases i <;> fin_cases j <;> simp [eigH]
  · show (!![(3 / 5 : ℂ); 4 / 5])ᴴ * ((1 : Mat 2 2) * !![(3 / 5 : ℂ); 4 / 5]) = 1
    rw [Matrix.one_mul, hX]
  · rintro ⟨C, hphi, fn, ek, mu⟩ h' hC hf ⟨⟩
    have hC' : C = eigX := hC
    subst hC'
    constructor
    · funext k i
      show (((!![(3 / 5 : ℂ); 4 / 5])ᴴ * ((!![41 / 25, -12 / 25; -12 / 25, 34 / 25] : Mat 2 2)
        * !![(3 / 5 : ℂ); 4 / 5])) i i).re = 1
      rw [hH, hX]; simp
    · intro k
      show (!![41 / 25, -12 / 25; -12 / 25, 34 / 25] : Mat 2 2) * !![(3 / 5 : ℂ); 4 / 5]
        = (1 : Mat 2 2) * !![(3 / 5 : ℂ); 4 / 5] * diagonal fun _ => ((1 : ℝ) : ℂ)
      rw [hH, Matrix.one_mul]
      simp

example : NeverThrows (linearHost (b := demoB) eigH fun _ => 1) ∧ (eigCfg .cold).T ≠ 0 :=
  ⟨⟨fun _ => ⟨_, rfl⟩, fun _ _ => ⟨_, rfl⟩, fun _ _ => ⟨_, rfl⟩, fun _ _ => ⟨_, rfl⟩, fun _ => ⟨_, _, rfl⟩,
    fun _ => ⟨_, rfl⟩⟩, by norm_num [eigCfg]⟩

end Nlcg
