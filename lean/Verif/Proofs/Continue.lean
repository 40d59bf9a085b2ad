import Verif.Props.CallAgain
import Verif.Proofs.Thermo
import Verif.Spec.Thermo

namespace Nlcg
open Matrix Arith Spec ComplexOrder

variable {K : ℕ} {n b : Fin K → ℕ} {η : Type} {host : Host η n b} {c : Cfg n b}
  {H : (k : Fin K) → Mat (n k) (n k)} {prm : NlcgParams ℝ} {fuel rank : ℕ}
  {v v' : NState ℝ (SState η n b)} {o : Res (Info ℝ)}

/-- occupations of the expectation values of the Hamiltonian, compared with others, cut-offs included -/
theorem own_occupations {t : SmearType} (ht : Monotonic t) {T mo : ℝ} (hT : 0 < T) (hmo : 0 ≤ mo)
    (hgs : t = .gaussianSpline → mo = 1) {wk : Fin K → ℝ} (hw : ∀ k, 0 ≤ wk k) (X : Orbitals n b)
    (e : Bands b) (mu mu' : ℝ) :
    bandEnergy H wk X (occs t T mo (levels H X) mu')
        + entropyTerm t T mo mu' (List.ofFn fun k => (wk k, List.ofFn (levels H X k)))
      ≤ bandEnergy H wk X (occs t T mo e mu)
        + entropyTerm t T mo mu (List.ofFn fun k => (wk k, List.ofFn (e k)))
        + mu' * (electrons wk (occs t T mo (levels H X) mu') - electrons wk (occs t T mo e mu))
        + kB * T * mo * slack t * ∑ k, wk k * b k := by
  have hkT : (0 : ℝ) < kB * T := mul_pos kB_pos hT
  have e1 := freeEnergy_levels t T mo mu' mu' wk H X (levels H X)
  have e2 := freeEnergy_levels t T mo mu mu' wk H X e
  have hle : ∑ k, wk k * ∑ i, ((levels H X k i - mu') * (smearFns t).fn ((mu' - levels H X k i) / (kB * T)) mo
          - kB * T * (smearFns t).entropy ((mu' - levels H X k i) / (kB * T)) mo)
      ≤ ∑ k, (wk k * ∑ i, ((levels H X k i - mu') * (smearFns t).fn ((mu - e k i) / (kB * T)) mo
          - kB * T * (smearFns t).entropy ((mu - e k i) / (kB * T)) mo) + kB * T * mo * slack t * (wk k * b k)) := by
    refine Finset.sum_le_sum fun k _ => ?_
    have hb : kB * T * mo * slack t * (wk k * b k) = wk k * ∑ _i : Fin (b k), kB * T * mo * slack t := by
      rw [Finset.sum_const, Finset.card_univ, Fintype.card_fin, nsmul_eq_mul]
      ring
    rw [hb, ← mul_add, ← Finset.sum_add_distrib]
    refine mul_le_mul_of_nonneg_left (Finset.sum_le_sum fun i _ => ?_) (hw k)
    have h1 := mul_le_mul_of_nonneg_left
      (level_exchange ht hmo hgs ((mu - e k i) / (kB * T)) ((mu' - levels H X k i) / (kB * T))) hkT.le
    have hy : kB * T * ((mu' - levels H X k i) / (kB * T)) = mu' - levels H X k i := mul_div_cancel₀ _ hkT.ne'
    refine le_of_sub_nonneg ((sub_nonneg.2 h1).trans (le_of_eq ?_))
    linear_combination ((smearFns t).fn ((mu' - levels H X k i) / (kB * T)) mo
      - (smearFns t).fn ((mu - e k i) / (kB * T)) mo) * hy
  rw [Finset.sum_add_distrib, ← Finset.mul_sum] at hle
  linarith

/-- a run never reports more than the free energy which its starting orbitals have with any occupations -/
theorem reports_below (hs : Setting host c) (ht : Monotonic c.t) (hT : 0 < c.T) (hmo : 0 ≤ c.mo)
    (hgs : c.t = .gaussianSpline → c.mo = 1) (hH : NonInteracting host c H) (hv : SStart host c v.s)
    (h2 : solve host c prm fuel rank v = some (o, v')) (ek : Bands b) (nu : ℝ)
    {i : ℕ} {F S sl : ℝ} (hr : Ev.report i F S sl ∈ v'.trace) :
    ∃ mu f, c.occ (levels H (host.C v.s.h)) = .ok (mu, f) ∧
      F ≤ bandEnergy H c.wk (host.C v.s.h) (occs c.t c.T c.mo ek nu)
        + entropyTerm c.t c.T c.mo nu (List.ofFn fun k => (c.wk k, List.ofFn (ek k)))
        + mu * (electrons c.wk f - electrons c.wk (occs c.t c.T c.mo ek nu))
        + kB * c.T * c.mo * slack c.t * ∑ k, c.wk k * b k := by
  rw [solve_guarded hs prm fuel rank v hv] at h2
  obtain ⟨s, s', q, g1, g2, g3⟩ := (C29_energies_do_not_increase _ _ (solver_reproducible hs hH.energy) prm fuel
    rank v v' o h2).2 (i, F, S, sl) (mem_reports.2 hr)
  have g1' : SM.lift (if c.T = 0 then Res.throw Exc.runtimeError else .ok ()) v.s = (.ok (), s) := g1
  rw [if_neg hT.ne'] at g1'
  obtain rfl : v.s = s := congrArg Prod.snd g1'
  have g2' : guardedSetup host c v.s = (.ok q, s') := g2
  rw [guardedSetup, if_pos hv] at g2'
  obtain ⟨x, c1, c2, c3⟩ := setup_ek g2'
  obtain ⟨x', ek', mu', f', s1, d1, d2, d3, d4, d5, d6⟩ := solverSetup_ok g2'
  have hxx : x' = x := by rw [c1] at d1; exact (congrArg Prod.snd d1).symm
  subst hxx
  obtain ⟨u1, u2, -⟩ := hs.host.compute _ _ c1
  have hlev : host.ek x' = levels H (host.C v.s.h) := by
    funext k i
    have := (hH.compute _ _ c1).ek k i
    rw [u1] at this
    rw [levels, ← this, Complex.ofReal_re]
  have hqX : q.X = host.C v.s.h := by
    rw [d4, (evaluate_energy hs.host hH.energy (by rw [u1]; exact ⟨hv.2, _, _, hs.occ _ _ _ d2⟩) d3).1, u1]
  have hqf := hs.occ _ _ _ c3
  refine ⟨q.mu, q.fn, by rw [← hlev]; exact c3, ?_⟩
  have := own_occupations (H := H) ht hT hmo hgs (fun k => (hs.weights k).le) (host.C v.s.h) ek nu q.mu
  rw [hqf, hlev]
  have hg3 : F ≤ pointEnergy c (bandEnergy H c.wk) q := g3
  rw [pointEnergy, hqX, c2, hlev] at hg3
  exact hg3.trans this

end Nlcg
