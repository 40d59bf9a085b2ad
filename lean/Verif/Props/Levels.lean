import Verif.Proofs.Levels
import Verif.Proofs.SelfConsistent
import Mathlib.Tactic.Positivity

/-!
# C116: the band energies of a converged run are energy levels
-/

namespace Nlcg
open Matrix Arith Spec ComplexOrder

section
variable {K : ℕ} {n b : Fin K → ℕ} {η : Type} {host : Host η n b} {c : Cfg n b}
  {prm : NlcgParams ℝ} {fuel rank : ℕ} {w w' : NState ℝ (SState η n b)} {info : Info ℝ}

/-- The host is at a nearly stationary point. Then the energy of a band that stands apart from the others
is close to an eigenvalue of the Hamiltonian. -/
theorem C116_nearly_stationary (hs : Setting host c) (hd : Descending c) (hkappa : 0 < c.kappa) {p s tol : ℝ}
    (hp : 0 < p) (hs0 : 0 < s) (hS : ∀ k, BoundedBelow s (c.S k)) {h : η} (hst : NearlyStationary host c p tol h)
    {H : (k : Fin K) → Mat (n k) (n k)} (hH : Computed host h H) :
    ∃ e : Bands b, host.fn h = occs c.t c.T c.mo e (host.mu h) ∧ ∀ k i q, StandsApart (host.fn h) e q k i →
      ∃ x, IsLevel (H k) (c.S k) x ∧
        (x - host.ek h k i) ^ 2 ≤ tol / c.wk k * (1 / (2 * p * s * host.fn h k i) + 1 / (c.kappa * q)) := by
  obtain ⟨H', e, L, sh, hH', hX, hf, h1, -, h3⟩ := hst
  refine ⟨e, hf, fun k i q ha => ?_⟩
  have hHX : ∀ k, H' k * host.C h k = H k * host.C h k := fun k => by rw [← hH.hphi, hH'.hphi]
  have fnn : ∀ k j, 0 ≤ host.fn h k j := fun k j => by
    rw [hf]; exact (C06_occupation_bounds c.t hd.smearing _ _ hd.mo).1
  have hw := hs.weights k
  have hfi := ha.occupied
  have hq := ha.positive
  have hpd : (c.S k).PosDef := by
    refine PosDef.of_dotProduct_mulVec_pos (hs.overlap k).isHermitian fun v hv => ?_
    have h0 := (hs.overlap k).dotProduct_mulVec_nonneg v
    refine lt_of_le_of_ne h0 fun hz => ?_
    have h4 := hS k v
    rw [← hz, Complex.zero_re] at h4
    have h5 : 0 < ∑ i, Complex.normSq (v i) := by
      obtain ⟨a, hva⟩ := Function.ne_iff.1 hv
      exact Finset.sum_pos' (fun _ _ => Complex.normSq_nonneg _) ⟨a, Finset.mem_univ a, Complex.normSq_pos.2 hva⟩
    nlinarith
  obtain ⟨x, hx, hle⟩ := band_level (hH.herm k) hpd hs0 (hS k) (hX k) (L k) i (host.ek h k i) (hH.ek k i)
  refine ⟨x, hx, hle.trans ?_⟩
  set r : ℝ := ∑ a, Complex.normSq ((H k * host.C h k - c.S k * host.C h k * L k) a i) with hr
  set m : ℝ := ∑ j, if j = i then 0 else Complex.normSq (((host.C h k)ᴴ * (H k * host.C h k)) j i) with hm
  -- the residual of the band
  have a1 : host.fn h k i * r ≤ eigenResidual (H' k) (c.S k) (host.C h k) (host.fn h k) (L k) := by
    rw [eigenResidual, hHX, hr]
    exact Finset.single_le_sum (f := fun j => host.fn h k j * ∑ a, Complex.normSq
      ((H k * host.C h k - c.S k * host.C h k * L k) a j)) (fun j _ => mul_nonneg (fnn k j)
      (Finset.sum_nonneg fun a _ => Complex.normSq_nonneg _)) (Finset.mem_univ i)
  have a2 : c.wk k * eigenResidual (H' k) (c.S k) (host.C h k) (host.fn h k) (L k) ≤
      ∑ k, c.wk k * eigenResidual (H' k) (c.S k) (host.C h k) (host.fn h k) (L k) :=
    Finset.single_le_sum (f := fun k => c.wk k * eigenResidual (H' k) (c.S k) (host.C h k) (host.fn h k) (L k))
      (fun k _ => mul_nonneg (hs.weights k).le (Finset.sum_nonneg fun j _ => mul_nonneg (fnn k j)
      (Finset.sum_nonneg fun a _ => Complex.normSq_nonneg _))) (Finset.mem_univ k)
  -- its couplings
  have cnn : ∀ k j i, 0 ≤ if |e k j - e k i| < 1 / 10 ^ 10 then 0 else
      (host.fn h k i - host.fn h k j) / (e k j - e k i) *
        Complex.normSq (((host.C h k)ᴴ * (H' k * host.C h k)) i j) := by
    intro k j i
    split_ifs
    · exact le_rfl
    · refine mul_nonneg ?_ (Complex.normSq_nonneg _)
      have h4 := quot_nonpos c.t hd.smearing c.T (host.mu h) c.mo hd.T hd.mo (e k) (host.fn h k)
        (fun i => by rw [hf]; rfl) i j
      rw [quot, if_neg ‹_›] at h4
      rw [← neg_sub (host.fn h k j), neg_div]
      linarith
  have b1 : q * m ≤ coupling (H' k) (host.C h k) (host.fn h k) (e k) := by
    rw [coupling]
    refine le_trans ?_ (Finset.single_le_sum (f := fun j => ∑ i, if |e k j - e k i| < 1 / 10 ^ 10 then 0 else
      (host.fn h k i - host.fn h k j) / (e k j - e k i) *
        Complex.normSq (((host.C h k)ᴴ * (H' k * host.C h k)) i j))
      (fun j _ => Finset.sum_nonneg fun i _ => cnn k j i) (Finset.mem_univ i))
    rw [hm, Finset.mul_sum]
    refine Finset.sum_le_sum fun j _ => ?_
    by_cases hj : j = i
    · subst hj
      simpa using cnn k j j
    · rw [if_neg hj, if_neg (not_lt.2 (ha.apart j hj)), hHX]
      exact mul_le_mul_of_nonneg_right (ha.slope j hj) (Complex.normSq_nonneg _)
  have b2 : c.wk k * coupling (H' k) (host.C h k) (host.fn h k) (e k) ≤
      ∑ k, c.wk k * coupling (H' k) (host.C h k) (host.fn h k) (e k) :=
    Finset.single_le_sum (f := fun k => c.wk k * coupling (H' k) (host.C h k) (host.fn h k) (e k))
      (fun k _ => mul_nonneg (hs.weights k).le (Finset.sum_nonneg fun j _ => Finset.sum_nonneg fun i _ => cnn k j i))
      (Finset.mem_univ k)
  have c1 : r ≤ tol / c.wk k * (1 / (2 * p * host.fn h k i)) := by
    rw [div_mul_div_comm, mul_one, le_div_iff₀ (by positivity)]
    nlinarith [mul_le_mul_of_nonneg_left a1 hw.le, mul_le_mul_of_nonneg_left a2 (by positivity : 0 ≤ 2 * p),
      mul_le_mul_of_nonneg_left (mul_le_mul_of_nonneg_left a1 hw.le) (by positivity : 0 ≤ 2 * p)]
  have c2 : m ≤ tol / c.wk k * (1 / (c.kappa * q)) := by
    rw [div_mul_div_comm, mul_one, le_div_iff₀ (by positivity)]
    nlinarith [mul_le_mul_of_nonneg_left (mul_le_mul_of_nonneg_left b1 hw.le) hkappa.le,
      mul_le_mul_of_nonneg_left b2 hkappa.le]
  calc r / s + m ≤ tol / c.wk k * (1 / (2 * p * host.fn h k i)) / s + tol / c.wk k * (1 / (c.kappa * q)) :=
        add_le_add (div_le_div_of_nonneg_right c1 hs0.le) c2
    _ = _ := by field_simp

/-- **C116 (part).** With `restart = 1`: after a run that reports convergence, the energy of each band that stands
apart is an eigenvalue of the Hamiltonian up to a bound that vanishes with the tolerance. -/
theorem C116_levels_partial (hs : Setting host c) (hd : Descending c) (hkappa : 0 < c.kappa) {p s : ℝ}
    (hp : 0 < p) (hs0 : 0 < s) (hP : ∀ k, BoundedBelow p (c.P k)) (hS : ∀ k, BoundedBelow s (c.S k))
    (hcl : ∀ ek, (c.occ ek).Clean) (h0 : SStart host c w.s) (hr : prm.restart = 1)
    (h : solve host c prm fuel rank w = some (.ok info, w')) (hc : info.converged = true)
    {H : (k : Fin K) → Mat (n k) (n k)} (hH : Computed host w'.s.h H) :
    ∃ e : Bands b, host.fn w'.s.h = occs c.t c.T c.mo e (host.mu w'.s.h) ∧
      ∀ k i q, StandsApart (host.fn w'.s.h) e q k i → ∃ x, IsLevel (H k) (c.S k) x ∧
        (x - host.ek w'.s.h k i) ^ 2 ≤
          prm.tol / c.wk k * (1 / (2 * p * s * host.fn w'.s.h k i) + 1 / (c.kappa * q)) :=
  C116_nearly_stationary hs hd hkappa hp hs0 hS (C85_restart_one_partial hs hd p hP hcl h0 hr h hc) hH

/-- What goes wrong when bands do not stand apart: the start spans a space that the Hamiltonian maps to itself, and
the energies the host reports for the bands of a k-point are equal. Then the run reports success at once, for every
tolerance, whatever the matrix elements of the Hamiltonian between the bands are. -/
theorem C116_tied (hs : Setting host c) (hn : NeverThrows host) (hT : c.T ≠ 0) {X : Orbitals n b} {f e : Bands b}
    {mu : ℝ} {L : (k : Fin K) → Mat (b k) (b k)} (hsc : ClosedSpace host c X f e mu L)
    (hL : ∀ k i, L k i i = (e k i : ℂ)) (htie : ∀ k i j, |e k j - e k i| < 1 / 10 ^ 10) (prm : NlcgParams ℝ)
    (htol : 0 < prm.tol) (hm : 1 ≤ prm.maxiter) (fuel rank : ℕ) (w : NState ℝ (SState η n b)) (hcalls : w.s.calls = [])
    (hC : host.C w.s.h = X) (hf : host.fn w.s.h = f) :
    ∃ info w', solve host c prm fuel rank w = some (.ok info, w') ∧ info.converged = true ∧ host.C w'.s.h = X ∧
      host.ek w'.s.h = e ∧ ∀ k, host.hphi w'.s.h k = c.S k * X k * L k := by
  obtain ⟨pt, s2, h2, p1, p2, p3, p4, p5, p6, p7, p8, -⟩ := setup_closed hs hn hsc w.s hcalls hC hf
  have hsl : ∀ k, (execAll c.la (dirParams c pt) (kIn host c pt s2.h) k).fr = 0 := fun k =>
    execSpc_tied hs.lapack _ _ _ (kIn host c pt s2.h k) (by simp only [kIn]; rw [p1]; exact hsc.ortho k)
      (hs.prec k) (hs.weights k).ne' (L k) (by simp only [kIn]; rw [(p5 k).1, p1])
      (fun i => by simp only [kIn]; rw [p2]; exact hL k i) (fun i j => by simp only [kIn]; rw [p2]; exact htie k i j)
  have hr : (restarted c.la (dirParams c pt) (kIn host c pt s2.h)).1 = 0 := by
    show ∑ k, (execAll c.la (dirParams c pt) (kIn host c pt s2.h) k).fr = 0
    exact Finset.sum_eq_zero fun k _ => hsl k
  obtain ⟨w', e1, v, m, -, -⟩ := converged_at_once hs hn hT h2 hr prm htol hm fuel rank
  exact ⟨_, w', e1, rfl, v.C.trans p7.C, v.ek.trans p6, fun k => by rw [v.hphi]; exact (p5 k).2⟩

end

/-! ## Two bands with equal energies that the Hamiltonian couples -/

abbrev swapN : Fin 1 → ℕ := fun _ => 2

theorem swap_herm : (!![0, 1; 1, 0] : Mat 2 2).IsHermitian := by
  ext i j; fin_cases i <;> fin_cases j <;> simp

/-- levels -1 and 1 -/
noncomputable def swapH : (k : Fin 1) → Mat (swapN k) (swapN k) := fun _ => (!![0, 1; 1, 0] : Mat 2 2)

noncomputable def swapHost : Host (LState swapN swapN) swapN swapN := linearHost swapH fun _ => 1

noncomputable def swapCfg : Cfg swapN swapN :=
  { la := refLapack, t := .gauss, T := 300, kappa := 3 / 10, mo := 2, wk := fun _ => 1,
    S := fun _ => 1, P := fun _ => 1, occ := fun ek => .ok (0, occs .gauss 300 2 ek 0), junk := fun _ => 0 }

noncomputable def swapStart : NState ℝ (SState (LState swapN swapN) swapN swapN) :=
  { s := { h := { C := fun _ => 1, hphi := fun _ => 0, fn := occs .gauss 300 2 (fun _ _ => 0) 0, ek := fun _ _ => 0, mu := 0 },
           F := 0, S := 0, calls := [] },
    file := [], info := { vals := none, converged := false }, force := false, trace := [] }

theorem swap_setting : Setting swapHost swapCfg where
  host := linearHost_ok _ (fun _ => swap_herm) _
  lapack := refLapack_ok
  overlap := fun _ => PosSemidef.one
  prec := fun _ => PosDef.one
  weights := fun _ => one_pos
  occ := by rintro ek mu f ⟨⟩; rfl

theorem swap_levels (x : ℝ) (h : IsLevel (swapH 0) 1 x) : x ^ 2 = 1 := by
  obtain ⟨v, hv, he⟩ := h
  have h0 := congrFun he 0
  have h1 := congrFun he 1
  simp [swapH, mulVec, dotProduct, Fin.sum_univ_two] at h0 h1
  have h2 : ((x : ℂ) ^ 2 - 1) * v 0 = 0 := by rw [h0] at h1 ; linear_combination -h1
  have h3 : ((x : ℂ) ^ 2 - 1) * v 1 = 0 := by rw [h0]; linear_combination (x : ℂ) * h2
  by_contra hx
  have hx' : (x : ℂ) ^ 2 - 1 ≠ 0 := by
    intro h4
    apply hx
    have : ((x ^ 2 : ℝ) : ℂ) = (1 : ℝ) := by push_cast; linear_combination h4
    exact_mod_cast this
  apply hv
  funext i
  fin_cases i
  · simpa [hx'] using h2
  · simpa [hx'] using h3

/-- Not true in general: for every positive tolerance and every interval of restarts a run of this system reports
success with band energies that differ by 1 from all levels. -/
theorem C116_not_levels (prm : NlcgParams ℝ) (htol : 0 < prm.tol) (hm : 1 ≤ prm.maxiter) (fuel rank : ℕ) :
    ∃ info w', solve swapHost swapCfg prm fuel rank swapStart = some (.ok info, w') ∧ info.converged = true ∧
      Computed swapHost w'.s.h swapH ∧
      ∀ i x, IsLevel (swapH 0) (swapCfg.S 0) x → |x - swapHost.ek w'.s.h 0 i| = 1 := by
  have hn : NeverThrows swapHost := ⟨fun _ => ⟨_, rfl⟩, fun _ _ => ⟨_, rfl⟩, fun _ _ => ⟨_, rfl⟩, fun _ _ => ⟨_, rfl⟩,
    fun _ => ⟨_, _, rfl⟩, fun _ => ⟨_, rfl⟩⟩
  have hone : (1 : Mat 2 2)ᴴ * ((!![0, 1; 1, 0] : Mat 2 2) * 1) = !![0, 1; 1, 0] := by
    rw [conjTranspose_one, Matrix.mul_one, Matrix.one_mul]
  have hsc : ClosedSpace swapHost swapCfg (fun _ => 1) (occs .gauss 300 2 (fun _ _ => 0) 0) (fun _ _ => 0) 0 swapH := by
    refine ⟨fun k => ?_, rfl, ?_⟩
    · show (1 : Mat 2 2)ᴴ * ((1 : Mat 2 2) * 1) = 1
      simp
    · rintro ⟨C, hphi, fn, ek, mu⟩ h' hC hf ⟨⟩
      have hC' : C = fun _ => (1 : Mat 2 2) := hC
      subst hC'
      constructor
      · funext k i
        show (((1 : Mat 2 2)ᴴ * ((!![0, 1; 1, 0] : Mat 2 2) * 1) : Mat 2 2) i i).re = 0
        rw [hone]
        fin_cases i <;> simp
      · intro k
        show (!![0, 1; 1, 0] : Mat 2 2) * 1 = (1 : Mat 2 2) * 1 * !![0, 1; 1, 0]
        simp
  obtain ⟨info, w', h1, h2, h3, h4, h5⟩ := C116_tied swap_setting hn (by norm_num [swapCfg]) hsc
    (fun k i => by show (!![0, 1; 1, 0] : Mat 2 2) i i = _; fin_cases i <;> simp) (fun k i j => by norm_num) prm htol hm
    fuel rank swapStart rfl rfl rfl
  refine ⟨info, w', h1, h2, ?_, fun i x hx => ?_⟩
  · refine ⟨fun _ => swap_herm, fun k => ?_, fun k i => ?_⟩
    · rw [h5, h3]
      show (1 : Mat 2 2) * 1 * !![0, 1; 1, 0] = !![0, 1; 1, 0] * (1 : Mat 2 2)
      simp
    · rw [h4, h3]
      show ((0 : ℝ) : ℂ) = ((1 : Mat 2 2)ᴴ * ((!![0, 1; 1, 0] : Mat 2 2) * 1) : Mat 2 2) i i
      rw [hone]
      fin_cases i <;> simp
  · have := swap_levels x hx
    rw [h4, sub_zero]
    nlinarith [abs_nonneg x, sq_abs x]

/-- a converged run with a band that stands apart: the only one of its k-point -/
example : ∃ (prm : NlcgParams ℝ) (fuel : ℕ) (info : Info ℝ) (w' : _) (H : (k : Fin 1) → Mat (demoN k) (demoN k)),
    solve demoHost (demoCfg demoOcc) prm fuel 0 (demoStart 5) = some (.ok info, w') ∧ info.converged = true ∧
    Computed demoHost w'.s.h H ∧ ∃ x, IsLevel (H 0) 1 x ∧
      (x - demoHost.ek w'.s.h 0 0) ^ 2 ≤ prm.tol / 1 * (1 / (2 * 1 * 1 * demoHost.fn w'.s.h 0 0) + 1 / (3 / 10 * 1)) := by
  obtain ⟨prm, fuel, info, w', h1, h2, h3, h4, h5⟩ := demo_converges
  have hs := demo_settings.1
  have h0 := demo_start demoOcc 300 5
  obtain ⟨H, e', L, sh, hH, -⟩ := C85_restart_one_partial hs h4 1 h5 (fun _ => by simp [demoCfg, demoOcc, Res.Clean])
    h0 h1 h2 h3
  obtain ⟨e, he, hl⟩ := C116_levels_partial hs h4 (by norm_num [demoCfg]) one_pos one_pos h5
    (fun k => boundedBelow_one _) (fun _ => by simp [demoCfg, demoOcc, Res.Clean]) h0 h1 h2 h3 hH
  refine ⟨prm, fuel, info, w', H, h2, h3, hH, hl 0 0 1 ⟨?_, one_pos, fun j hj => absurd (Subsingleton.elim _ _) hj,
    fun j hj => absurd (Subsingleton.elim _ _) hj⟩⟩
  rw [he]
  show 0 < gaussFn _ 2
  rw [gaussFn]
  exact mul_pos (by norm_num) (neg_lt_iff_pos_add'.1 (neg_one_lt_erf _))

end Nlcg
