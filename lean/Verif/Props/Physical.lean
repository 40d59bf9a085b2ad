import Verif.Proofs.Physical
import Verif.Props.Smearing
import Verif.Props.Solver
import Verif.Props.CallAgain

/-! # Properties of the states handed to the host: C97 -/

namespace Nlcg
open Matrix Spec ComplexOrder

variable {K : ℕ} {n b : Fin K → ℕ} {η : Type} {host : Host η n b} {c : Cfg n b} {prm : NlcgParams ℝ}
  {fuel rank : ℕ} {w w' : NState ℝ (SState η n b)} {o : Res (Info ℝ)}

/-- **C97.** Whatever happens in a run, normal return or exception: each state handed to the host holds
the requested number of electrons up to the tolerance of the search. -/
theorem C97_electrons (hs : Setting host c) (h0 : SStart host c w.s) {p : OccParams ℝ} {key : Fin K → Key}
    (hk : Function.Injective key) (hc : c.occ = searchOcc false c.t p key c.wk)
    (h : solve host c prm fuel rank w = some (o, w')) {X : Orbitals n b} {f : Bands b}
    (hX : Handed w'.s.calls X f) : |p.ne - electronsIn c.wk c.S (densityMatrix X f)| < p.tol := by
  have h1 := C19_run_orthonormal hs h0 h X (hX.subset (by simp))
  obtain ⟨ek, mu, h2⟩ := ((allFn_rule host c).run h h0.1).1 f (hX.subset (by simp))
  rw [hc] at h2
  have h3 := (searchOcc_charge hk h2).1
  simp only [electronsIn, densityMatrix, fun k => trace_density (h1 k) (f k)]
  exact h3

/-- **C97.** With Newton's method, which is used for the non-monotone smearings, the deviation is at
most 0.01 (or the tolerance). -/
theorem C97_electrons_newton (hs : Setting host c) (h0 : SStart host c w.s) {p : OccParams ℝ} {key : Fin K → Key}
    (hk : Function.Injective key) (hc : c.occ = searchOcc true c.t p key c.wk)
    (h : solve host c prm fuel rank w = some (o, w')) {X : Orbitals n b} {f : Bands b}
    (hX : Handed w'.s.calls X f) :
    |p.ne - electronsIn c.wk c.S (densityMatrix X f)| ≤ max (1 / 100) p.tol := by
  have h1 := C19_run_orthonormal hs h0 h X (hX.subset (by simp))
  obtain ⟨ek, mu, h2⟩ := ((allFn_rule host c).run h h0.1).1 f (hX.subset (by simp))
  rw [hc] at h2
  have h3 := searchOcc_charge_newton hk h2
  simp only [electronsIn, densityMatrix, fun k => trace_density (h1 k) (f k)]
  exact h3

/-- **C97.** With a monotone smearing no one-particle state ever holds less than no electron or more
than the maximal occupancy. -/
theorem C97_pauli (hs : Setting host c) (h0 : SStart host c w.s) (ht : Monotonic c.t) (hm : 0 ≤ c.mo)
    (h : solve host c prm fuel rank w = some (o, w')) {X : Orbitals n b} {f : Bands b}
    (hX : Handed w'.s.calls X f) : Pauli c.mo c.S (densityMatrix X f) := by
  have h1 := C19_run_orthonormal hs h0 h X (hX.subset (by simp))
  obtain ⟨ek, mu, h2⟩ := ((allFn_rule host c).run h h0.1).1 f (hX.subset (by simp))
  obtain rfl := hs.occ _ _ _ h2
  intro k v
  have hb := fun i => C06_occupation_bounds c.t ht ((mu - ek k i) / (kB * c.T)) c.mo hm
  rw [densityMatrix, expectation_density (hs.overlap k).isHermitian]
  refine ⟨Finset.sum_nonneg fun i _ => mul_nonneg (hb i).1 (Complex.normSq_nonneg _), ?_⟩
  refine le_trans (Finset.sum_le_sum fun i _ => mul_le_mul_of_nonneg_right (hb i).2 (Complex.normSq_nonneg _)) ?_
  rw [← Finset.mul_sum]
  exact mul_le_mul_of_nonneg_left (bessel (hs.overlap k) (h1 k) v) hm

/-- **C97.** The host computes nothing else: apart from the very first one, on the state the caller
left, every computation is preceded by orbitals and occupations handed over. -/
theorem C97_every_computation (host : Host η n b) (c : Cfg n b) (h0 : w.s.calls = [])
    (h : solve host c prm fuel rank w = some (o, w')) {before after : List (HostCall n b)}
    (he : w'.s.calls = before ++ .compute :: after) :
    before = [] ∨ ∃ X f before', before = before' ++ [.setC X, .setFn f] := by
  obtain ⟨cs, l, hp, hpre⟩ := C55_protocol host c h0 h
  obtain ⟨rest, hrest⟩ := hpre
  rw [he, List.append_assoc, List.cons_append] at hrest
  exact computed_handed hp before (after ++ rest) hrest.symm

/-- **C97.** The state left in the host at a normal return has been handed over, so all of the above
holds for it. -/
theorem C97_final (hs : Setting host c) (h0 : SStart host c w.s) (info : Info ℝ)
    (h : solve host c prm fuel rank w = some (.ok info, w')) :
    Handed w'.s.calls (host.C w'.s.h) (host.fn w'.s.h) := by
  obtain ⟨X, f, mu, hp, rfl, rfl, -⟩ := C55_final_state hs h0 info h
  exact last_handed hp

/-- two levels, half filled: such a run exists for every tolerance, and it hands over states -/
example (prm : NlcgParams ℝ) (hm : 1 ≤ prm.maxiter) (htol : 0 < prm.tol) (fuel rank : ℕ) :
    ∃ (w w' : NState ℝ (SState (LState sloshN sloshN) sloshN sloshN)) (info : Info ℝ),
    solve sloshHost sloshCfg prm fuel rank w = some (.ok info, w') ∧
    Handed w'.s.calls (sloshHost.C w'.s.h) (sloshHost.fn w'.s.h) ∧
    |1 - electronsIn sloshCfg.wk sloshCfg.S (densityMatrix (sloshHost.C w'.s.h) (sloshHost.fn w'.s.h))| < 1 / 10 ^ 11 ∧
    Pauli 2 sloshCfg.S (densityMatrix (sloshHost.C w'.s.h) (sloshHost.fn w'.s.h)) := by
  obtain ⟨hs, -, w, h0, info, w', vals, h1, -⟩ := C96_not_interacting prm hm htol fuel rank
  have hf := C97_final hs h0 info h1
  exact ⟨w, w', info, h1, hf, C97_electrons hs h0 (p := sloshP) sloshKey_inj rfl h1 hf,
    C97_pauli hs h0 trivial (by simp [sloshCfg]) h1 hf⟩

/-- and runs with Newton's method -/
example : ∃ (c : Cfg demoN demoB), Setting demoHost c ∧ SStart demoHost c (demoStart 5).s ∧
    c.occ = searchOcc true c.t { T := 300, occ := 2, ne := 1, tol := 1 / 10 ^ 11 } (fun _ => toLex (0, 0)) c.wk :=
  ⟨demoCfg (searchOcc true .gauss { T := 300, occ := 2, ne := 1, tol := 1 / 10 ^ 11 } (fun _ => toLex (0, 0)) fun _ => 1),
    demo_setting _ _ fun _ _ _ h => (searchOcc_ok h).2, demo_start _ _ _, rfl⟩

end Nlcg
