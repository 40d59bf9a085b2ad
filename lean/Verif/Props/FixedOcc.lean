import Verif.Proofs.FixedOcc
import Verif.Props.Solver

/-!
# C118: `kappa` weighs the change of the occupations
-/

namespace Nlcg
open Matrix Spec ComplexOrder Arith

variable {K : ℕ} {n b : Fin K → ℕ} {η : Type} {host : Host η n b} {c : Cfg n b}

/-- **C118.** With `kappa = 0` all occupations handed to the host belong to the band energies the host reported
after its first `compute`, in some order, and so do all Fermi levels. -/
theorem C118_levels (hla : LapackOk c.la) (hk : c.kappa = 0) {prm : NlcgParams ℝ} {fuel rank : ℕ}
    {w w' : NState ℝ (SState η n b)} {o : Res (Info ℝ)} (h : solve host c prm fuel rank w = some (o, w'))
    (h0 : w.s.calls = []) :
    (∀ f, HostCall.setFn f ∈ w'.s.calls →
      ∃ ek mu, Reordered ek (host.ek (host.compute w.s.h).2) ∧ c.occ ek = .ok (mu, f)) ∧
    ∀ mu, HostCall.setMu mu ∈ w'.s.calls →
      ∃ ek f, Reordered ek (host.ek (host.compute w.s.h).2) ∧ c.occ ek = .ok (mu, f) :=
  let e := ((still_rule hla hk).run h ⟨h0, rfl⟩).1
  ⟨e.fn, e.mu⟩

/-- **C118.** With the search of the code, the Fermi level is the same from the start to the end, the occupations
are at most reordered, and the entropy term of a run that returns is that of the start. -/
theorem C118_occupations (hla : LapackOk c.la) (hk : c.kappa = 0) {useNewton : Bool} {p : OccParams ℝ}
    {key : Fin K → Key} (hkey : Function.Injective key) (ho : c.occ = searchOcc useNewton c.t p key c.wk)
    {prm : NlcgParams ℝ} {fuel rank : ℕ} {w w' : NState ℝ (SState η n b)} {o : Res (Info ℝ)}
    (h : solve host c prm fuel rank w = some (o, w')) (h0 : w.s.calls = []) :
    let ek := host.ek (host.compute w.s.h).2
    (∀ f, HostCall.setFn f ∈ w'.s.calls → ∃ mu, c.occ ek = .ok (mu, occs c.t p.T p.occ ek mu) ∧
      Reordered f (occs c.t p.T p.occ ek mu)) ∧
    (∀ mu, HostCall.setMu mu ∈ w'.s.calls → c.occ ek = .ok (mu, occs c.t p.T p.occ ek mu)) ∧
    ∀ info, o = .ok info → ∃ mu, c.occ ek = .ok (mu, occs c.t p.T p.occ ek mu) ∧
      w'.s.S = entropyTerm c.t c.T c.mo mu (List.ofFn fun k => (c.wk k, List.ofFn (ek k))) := by
  intro ek
  have key' : ∀ {x : Bands b} {mu : ℝ} {f : Bands b}, Reordered x ek → c.occ x = .ok (mu, f) →
      c.occ ek = .ok (mu, occs c.t p.T p.occ ek mu) ∧ f = occs c.t p.T p.occ x mu := by
    intro x mu f hx hf
    rw [ho] at hf ⊢
    obtain ⟨h1, h2⟩ := searchOcc_ok hf
    rw [globalSearch_perm useNewton _ _ _ hkey _ ek x hx] at h1
    refine ⟨?_, h2⟩
    rw [searchOcc_global, h1]
    rfl
  obtain ⟨e, -, i⟩ := (still_rule hla hk).run h ⟨h0, rfl⟩
  refine ⟨fun f hf => ?_, fun mu hm => ?_, fun info hi => ?_⟩
  · obtain ⟨x, mu, hx, hf⟩ := e.fn f hf
    obtain ⟨h1, rfl⟩ := key' hx hf
    exact ⟨mu, h1, reordered_occs hx _ _ _ _⟩
  · obtain ⟨x, f, hx, hf⟩ := e.mu mu hm
    exact (key' hx hf).1
  · obtain ⟨x, mu, f, hx, hf, hS⟩ := (i info hi).1.entropy
    exact ⟨mu, (key' hx hf).1, hS.trans (reordered_entropy hx _ _ _ _ _)⟩

/-- **C118.** The orbital part of a restarted direction does not depend on `kappa`, the other part is `kappa` times
a fixed matrix, and the slope is `a + kappa * q`; neither number is positive for monotone smearing. -/
theorem C118_scales {la : Lapack} (hla : LapackOk la) (p : DirParams) (ht : Monotonic p.t) (hT : 0 < p.T)
    (hmo : 0 ≤ p.mo) (ks : (k : Fin K) → KIn (n k) (b k)) (H : (k : Fin K) → Mat (n k) (n k))
    (hk : ∀ k, Physical (ks k) (H k)) (hf : Occupied p ks) :
    ∃ (zx : (k : Fin K) → Mat (n k) (b k)) (z : (k : Fin K) → Mat (b k) (b k)) (a q : ℝ), a ≤ 0 ∧ q ≤ 0 ∧
      ∀ kappa : ℝ, (restarted la { p with kappa := kappa } ks).2.zx = zx ∧
        (∀ k, (restarted la { p with kappa := kappa } ks).2.zeta k = (kappa : ℂ) • z k) ∧
        (restarted la { p with kappa := kappa } ks).1 = a + kappa * q := by
  have hslope : ∃ a q : ℝ, ∀ kappa : ℝ, (restarted la { p with kappa := kappa } ks).1 = a + kappa * q := by
    refine ⟨∑ k, 2 * (innerhTr (execAll la p ks k).gx (execAll la p ks k).dx).re,
      ∑ k, (innerhTr (execAll la p ks k).geta (execAll la { p with kappa := 1 } ks k).deta).re, fun kappa => ?_⟩
    show ∑ k, (execAll la { p with kappa := kappa } ks k).fr = _
    rw [Finset.mul_sum, ← Finset.sum_add_distrib]
    refine Finset.sum_congr rfl fun k _ => ?_
    rw [← innerhTr_smul _ _ kappa]
    show _ + (innerhTr _ (deltaEta kappa _ _ _)).re = _
    rw [deltaEta_kappa]
    rfl
  obtain ⟨a, q, hs⟩ := hslope
  have h1 : ∀ kappa : ℝ, 0 ≤ kappa → a + kappa * q ≤ 0 := fun kappa h => by
    rw [← hs kappa]
    exact C16_restart_descends hla { p with kappa := kappa } ht hT h hmo ks H hk hf
  have ha : a ≤ 0 := by simpa using h1 0 le_rfl
  refine ⟨fun k => (execAll la p ks k).dx, fun k => (execAll la { p with kappa := 1 } ks k).deta, a, q, ha, ?_, fun kappa => ⟨rfl, fun k => ?_, hs kappa⟩⟩
  · by_contra hq
    push Not at hq
    have := h1 ((1 - a) / q) (div_nonneg (by linarith) hq.le)
    rw [div_mul_cancel₀ _ hq.ne'] at this
    linarith
  · show deltaEta kappa _ _ _ = _
    rw [deltaEta_kappa]
    rfl

/-! ## Examples -/

/-- the search of the code, with `kappa = 0` -/
noncomputable def fixedCfg : Cfg demoN demoB := { demoCfg demoSearch with kappa := 0 }

example (prm : NlcgParams ℝ) (htol : 0 < prm.tol) :
    LapackOk fixedCfg.la ∧ fixedCfg.kappa = 0 ∧
    ∃ fuel o w', solve demoHost fixedCfg prm fuel 0 (demoStart 5) = some (o, w') ∧
      ∀ mu mu', HostCall.setMu mu ∈ w'.s.calls → HostCall.setMu mu' ∈ w'.s.calls → mu = mu' := by
  have hs : Setting demoHost fixedCfg := { demo_settings.2 with }
  have he : EnergyOf demoHost fixedCfg (linearEnergy demoH fun _ => 1) := { demo_energies.2 with }
  refine ⟨refLapack_ok, rfl, ?_⟩
  obtain ⟨N, hN⟩ := C30_run_ends_solver (w := demoStart 5) (prm := prm) hs he
    (demo_start demoSearch 300 5) (by norm_num [fixedCfg, demoCfg]) 0 (demo_bounded demoSearch) htol
  rcases hq : solve demoHost fixedCfg prm N 0 (demoStart 5) with _ | ⟨o, w'⟩
  · exact absurd hq (hN N (le_refl _) 0)
  · refine ⟨N, o, w', hq, fun mu mu' h h' => ?_⟩
    have := (C118_occupations refLapack_ok rfl (fun a b _ => Subsingleton.elim a b) rfl hq rfl).2.1
    have e := (this mu h).symm.trans (this mu' h')
    simp only [Res.ok.injEq, Prod.mk.injEq] at e
    exact e.1

/-- two bands in another order -/
example : Reordered (b := fun _ : Fin 1 => 2) (fun _ => ![1, 2]) (fun _ => ![2, 1]) := by
  intro k
  show List.Perm [(1 : ℝ), 2] [2, 1]
  exact List.Perm.swap _ _ _

end Nlcg
