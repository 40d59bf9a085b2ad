import Verif.Proofs.BandCount
import Verif.Proofs.BandCountRef
import Verif.Props.Density

/-!
# C140: more bands do not raise the exact free energy
-/

namespace Nlcg
open Matrix Spec Real

section
variable {K : ℕ} {n b d : Fin K → ℕ} {t : SmearType} {T mo ne mu mu' : ℝ} {wk : Fin K → ℝ} {e : Bands b} {more : Bands d}

/-- **C140 (never higher).** For the same number of electrons the exact free energy with more bands is not above that with
fewer bands. -/
theorem C140_lower (ht : Monotonic t) (hT : 0 < T) (hm : 0 ≤ mo) (hw : ∀ k, 0 ≤ wk k)
    (hN : exactElectrons t T mo wk e mu = ne) (hN' : exactElectrons t T mo wk (withBands e more) mu' = ne) :
    exactFreeEnergy t T mo wk (withBands e more) mu' ≤ exactFreeEnergy t T mo wk e mu := by
  have h1 := exactFree_tangent ht hT hm hw e mu mu'
  have h2 := leftOut_nonneg ht hT hm hw more mu'
  rw [exactFree_dual hT, leftOut_more, hN']
  rw [hN] at h1
  linarith

/-- **C140 (enough bands).** What is gained by more bands is at most what they contribute at the chemical potential of the
calculation with fewer bands. -/
theorem C140_upper (ht : Monotonic t) (hT : 0 < T) (hm : 0 ≤ mo) (hw : ∀ k, 0 ≤ wk k)
    (hN : exactElectrons t T mo wk e mu = ne) (hN' : exactElectrons t T mo wk (withBands e more) mu' = ne) :
    exactFreeEnergy t T mo wk e mu ≤ exactFreeEnergy t T mo wk (withBands e more) mu' + leftOut t T mo wk more mu := by
  have h1 := exactFree_tangent ht hT hm hw (withBands e more) mu' mu
  rw [hN', leftOut_more] at h1
  rw [exactFree_dual hT, hN]
  linarith

/-- **C140 (bands above).** Bands above the chemical potential contribute at most `kT` times their entropy. -/
theorem C140_above (ht : Monotonic t) (hT : 0 < T) (hm : 0 ≤ mo) (hw : ∀ k, 0 ≤ wk k) (ha : ∀ k i, mu ≤ more k i) :
    leftOut t T mo wk more mu ≤ kB * T * exactEntropy t T mo wk more mu := by
  have hkT : (0 : ℝ) < kB * T := mul_pos kB_pos hT
  rw [leftOut, exactEntropy, Finset.mul_sum]
  refine Finset.sum_le_sum fun k _ => ?_
  rw [mul_left_comm]
  refine mul_le_mul_of_nonneg_left ?_ (hw k)
  rw [Finset.mul_sum]
  refine Finset.sum_le_sum fun i _ => mul_le_mul_of_nonneg_left (mul_le_mul_of_nonneg_left ?_ hm) hkT.le
  have h1 : (mu - more k i) / (kB * T) ≤ 0 := div_nonpos_of_nonpos_of_nonneg (by linarith [ha k i]) hkT.le
  linarith [mul_nonpos_of_nonpos_of_nonneg h1 (idealFn_nonneg ht ((mu - more k i) / (kB * T)))]

/-- **C140 (Fermi-Dirac).** The contribution of a band falls exponentially with its distance from the chemical potential. -/
theorem C140_fermi (hT : 0 < T) (hm : 0 ≤ mo) (hw : ∀ k, 0 ≤ wk k) :
    leftOut .fermiDirac T mo wk more mu ≤ kB * T * mo * ∑ k, wk k * ∑ i, exp (-((more k i - mu) / (kB * T))) := by
  have hkT : (0 : ℝ) < kB * T := mul_pos kB_pos hT
  rw [leftOut, Finset.mul_sum]
  refine Finset.sum_le_sum fun k _ => ?_
  rw [mul_left_comm]
  refine mul_le_mul_of_nonneg_left ?_ (hw k)
  rw [Finset.mul_sum]
  refine Finset.sum_le_sum fun i _ => ?_
  rw [mul_assoc (kB * T) mo]
  refine mul_le_mul_of_nonneg_left (mul_le_mul_of_nonneg_left ?_ hm) hkT.le
  have h1 : -((more k i - mu) / (kB * T)) = (mu - more k i) / (kB * T) := by rw [← neg_div, neg_sub]
  rw [h1]
  exact (mixing_dual _).le.trans (log_one_add_exp_le _)

variable {η : Type} {host : Host η n b} {c : Cfg n b} {prm : NlcgParams ℝ} {fuel rank : ℕ}
  {w w' : NState ℝ (SState η n b)}

/-- **C140 (runs).** A run with electrons that do not interact gives an upper bound for the exact free energy with any larger
number of bands, up to the tolerance of the search for the chemical potential. The further levels `more` may be any. -/
theorem C140_returned (hs : Setting host c) (h0 : SStart host c w.s) {H : (k : Fin K) → Mat (n k) (n k)}
    (hn : NonInteracting host c H) (hH : ∀ k, (H k).IsHermitian) (ht : Monotonic c.t) (hT : 0 < c.T) (hm : 0 ≤ c.mo)
    (hg : c.t = .gaussianSpline → 1 ≤ c.mo) {p : OccParams ℝ} {key : Fin K → Key} (hk : Function.Injective key)
    (hc : c.occ = searchOcc false c.t p key c.wk) {V : Orbitals n b} (hV : ∀ k, Lowest (H k) (c.S k) (V k) (e k))
    (hN : exactElectrons c.t c.T c.mo c.wk e mu = p.ne)
    (hN' : exactElectrons c.t c.T c.mo c.wk (withBands e more) mu' = p.ne)
    (hmax : 1 ≤ prm.maxiter) (info : Info ℝ) (h : solve host c prm fuel rank w = some (.ok info, w')) :
    ∃ vals, info.vals = some vals ∧ exactFreeEnergy c.t c.T c.mo c.wk (withBands e more) mu' - |mu| * p.tol
      - kB * c.T * c.mo * cutoffError c.t * ∑ k, c.wk k * b k ≤ vals.F := by
  obtain ⟨vals, h1, h2⟩ := C99_returned hs h0 hn hH ht hT hm hg hk hc hV hN hmax info h
  have h3 := C140_lower ht hT hm (fun k => (hs.weights k).le) hN hN'
  exact ⟨vals, h1, by linarith⟩

end

/-- **C140** does not extend to Methfessel-Paxton smearing: there are a level and a further level above it for which the
numbers of electrons and the chemical potentials agree, and the free energy with the further band is higher. -/
theorem C140_not_methfessel_paxton {T mo : ℝ} (hT : 0 < T) (hmo : 0 < mo) : ∃ x : ℝ, 0 < x ∧
    exactElectrons .methfesselPaxton T mo (fun _ => 1) (withBands (fun (_ : Fin 1) (_ : Fin 1) => 0) fun _ (_ : Fin 1) => x) 0
      = exactElectrons .methfesselPaxton T mo (fun _ => 1) (fun (_ : Fin 1) (_ : Fin 1) => 0) 0 ∧
    exactFreeEnergy .methfesselPaxton T mo (fun _ => 1) (fun (_ : Fin 1) (_ : Fin 1) => 0) 0
      < exactFreeEnergy .methfesselPaxton T mo (fun _ => 1)
        (withBands (fun (_ : Fin 1) (_ : Fin 1) => 0) fun _ (_ : Fin 1) => x) 0 := by
  have hkT : (0 : ℝ) < kB * T := mul_pos kB_pos hT
  obtain ⟨x, hx, hf, hs⟩ := mp_empty
  have hz : (0 - kB * T * x) / (kB * T) = -x := by
    rw [zero_sub, neg_div, mul_div_cancel_left₀ _ hkT.ne']
  refine ⟨kB * T * x, mul_pos hkT hx, ?_, ?_⟩
  · simp only [exactElectrons, Fin.sum_univ_add, withBands, Fin.append_left, Fin.append_right, Fin.sum_univ_one, hz, hf,
      mul_zero, add_zero]
  · simp only [exactFreeEnergy, Fin.sum_univ_add, withBands, Fin.append_left, Fin.append_right, Fin.sum_univ_one, hz, hf,
      mul_zero, one_mul]
    have := mul_neg_of_pos_of_neg (mul_pos hmo hkT) hs
    linarith

/-! ## The run of C99, and the second level of its Hamiltonian -/

example : ∃ (prm : NlcgParams ℝ) (info : Info ℝ) (w' : _) (mu mu' : ℝ) (vals : _),
    solve flipHost (demoCfg demoSearch) prm 0 0 (demoStart 5) = some (.ok info, w') ∧ info.vals = some vals ∧
    exactElectrons .gauss 300 2 (fun _ => 1) (fun (_ : Fin 1) (_ : Fin 1) => (-1 : ℝ)) mu = 1 ∧
    exactElectrons .gauss 300 2 (fun _ => 1) (withBands (fun (_ : Fin 1) (_ : Fin 1) => (-1 : ℝ)) (fun _ (_ : Fin 1) => 1)) mu'
      = 1 ∧
    exactFreeEnergy .gauss 300 2 (fun _ => 1) (withBands (fun (_ : Fin 1) (_ : Fin 1) => (-1 : ℝ)) (fun _ (_ : Fin 1) => 1)) mu'
      - |mu| * (1 / 10 ^ 11) - kB * 300 * 2 * cutoffError .gauss * ∑ k : Fin 1, 1 * (demoB k : ℝ) ≤ vals.F := by
  obtain ⟨V, hV⟩ := flip_gap
  obtain ⟨mu, hmu⟩ := exists_mu (t := .gauss) trivial (T := 300) (mo := 2) (by norm_num) (fun _ => 1)
    (fun (_ : Fin 1) (_ : Fin 1) => (-1 : ℝ)) (ne := 1) (by norm_num) (by norm_num)
  obtain ⟨mu', hmu'⟩ := exists_mu (t := .gauss) trivial (T := 300) (mo := 2) (by norm_num) (fun _ => 1)
    (withBands (fun (_ : Fin 1) (_ : Fin 1) => (-1 : ℝ)) (fun _ (_ : Fin 1) => 1)) (ne := 1) (by norm_num) (by norm_num)
  obtain ⟨prm, info, w', hm, q1⟩ := flip_run
  obtain ⟨vals, h1, h2⟩ := C140_returned flip_setting flip_start flip_noninteracting flip_herm trivial
    (by norm_num [demoCfg]) (by norm_num [demoCfg]) (fun h => nomatch h)
    (p := { T := 300, occ := 2, ne := 1, tol := 1 / 10 ^ 11 }) (key := fun _ => toLex (0, 0))
    (fun a b _ => Subsingleton.elim a b) rfl (fun k => (hV k).1) hmu hmu' hm info q1
  exact ⟨prm, info, w', mu, mu', vals, q1, h1, hmu, hmu', h2⟩

end Nlcg
