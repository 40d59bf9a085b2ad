import Verif.Proofs.Shell
import Verif.Props.Represent

/-!
# C89: closed and open shells

The same system with one channel that holds `mo` electrons per band, or with `m` equivalent channels that hold
`mo / m` each (`Spec/Shell.lean`).
-/

namespace Nlcg
open Matrix Spec ComplexOrder Arith

section
variable {K L : ℕ} {n b : Fin K → ℕ} {n' : Fin L → ℕ} {η ξ : Type} {m : ℕ} {e : Fin L → Fin K}
  {W : (k : Fin L) → Mat (n' k) (n (e k))} {host' : Host η n' (copies b e)} {host : Host ξ n b}
  {c' : Cfg n' (copies b e)} {c : Cfg n b} {prm : NlcgParams ℝ} {fuel rank : ℕ}

theorem Spec.OpenShell.joined (H : OpenShell m e W c' c) (hm : m ≠ 0) : SameSystem e W (joinCfg m c') c := by
  have hm' : (m : ℝ) ≠ 0 := by exact_mod_cast hm
  refine ⟨H.isometry, fun k => ?_, ⟨H.nonzero, fun l => ?_⟩, H.S, H.P, fun x => ?_, H.la, H.t, H.T, H.kappa, ?_⟩
  · have : ∀ l ∈ Finset.univ.filter (fun l => e l = k), (joinCfg m c').wk l = c.wk k / m := by
      intro l hl
      simp only [joinCfg, H.weights, (Finset.mem_filter.1 hl).2]
    rw [Finset.sum_congr rfl this, Finset.sum_const, H.channels, nsmul_eq_mul]
    field_simp
  · simp only [joinCfg, H.weights]
    exact div_ne_zero (H.nonzero _) hm'
  · simp only [joinCfg, H.occ]
    cases c.occ x with
    | ok r => simp only [res_pure, Res.bind_ok, mul_perChannel hm]
    | throw e => rfl
    | ub => rfl
    | abort => rfl
  · simp only [joinCfg, H.mo]
    field_simp

/-- the joined host describes the closed shell -/
def Spec.OpenHost.joined (H : OpenHost m e W host' host) (hm : m ≠ 0) : SameHost e W (joinHost m host') host where
  R := H.R
  C := H.C
  hphi := H.hphi
  fn h := by
    show (fun k i => (m : ℝ) * host'.fn _ k i) = _
    rw [H.fn h, mul_perChannel hm]
  ek := H.ek
  setC := H.setC
  setFn f h := H.setFn f h
  compute := H.compute
  setMu := H.setMu
  energy := H.energy
  print := H.print

/-- **C89 (part).** In exact arithmetic, with a smearing other than the Gaussian spline, the closed shell and the
open shell of the same system give the same run: the same outcome, step log, record, free energies and history. In
the end the orbitals of the channels are those of the closed shell, with the `m`-th part of its occupations.
Missing: the Gaussian spline, see below. -/
theorem C89_same_run_partial (H : OpenHost m e W host' host) (hc : OpenShell m e W c' c) (hm : m ≠ 0)
    (ht : c.t ≠ .gaussianSpline) (hs : Setting host' c')
    {w : NState ℝ (SState η n' (copies b e))} {w' : NState ℝ (SState ξ n b)} (hR : H.R w.s.h w'.s.h)
    (h0 : SStart host' c' w.s)
    (hw : w.file = w'.file ∧ w.info = w'.info ∧ w.force = w'.force ∧ w.trace = w'.trace) :
    (solve host' c' prm fuel rank w).map observed = (solve host c prm fuel rank w').map observed ∧
    ∀ r v r' v', solve host' c' prm fuel rank w = some (r, v) → solve host c prm fuel rank w' = some (r', v') →
      (∀ l, host'.C v.s.h l = W l * host.C v'.s.h (e l)) ∧
      host'.fn v.s.h = perChannel m (spread e (host.fn v'.s.h)) := by
  have ht' : c'.t ≠ .gaussianSpline := by rw [hc.t]; exact ht
  have h1 := nlcg_rel (joinSim hs hm ht') prm fuel rank (w := w) (w' := w) ⟨⟨rfl, rfl, rfl⟩, rfl, rfl, rfl, rfl⟩
  rw [← solve_shellOps hs prm fuel rank w h0,
    ← solve_shellOps (joinSetting hm hs) prm fuel rank w ⟨h0.1, h0.2⟩] at h1
  have h2 := C76_same_run (H.joined hm) (hc.joined hm) (prm := prm) (fuel := fuel) (rank := rank) hR hw
  cases hq : solve host' c' prm fuel rank w with
  | none =>
    rw [hq] at h1
    cases hq2 : solve (joinHost m host') (joinCfg m c') prm fuel rank w with
    | some x => rw [hq2] at h1; cases h1
    | none =>
      rw [hq2] at h2
      exact ⟨h2.1, by rintro _ _ _ _ ⟨⟩⟩
  | some x =>
    rw [hq] at h1
    cases hq2 : solve (joinHost m host') (joinCfg m c') prm fuel rank w with
    | none => rw [hq2] at h1; cases h1
    | some y =>
      rw [hq2] at h1 h2
      cases h1 with
      | some h1 =>
      obtain ⟨⟨hR1, f1, f2, f3, f4⟩, -, hv⟩ := h1
      obtain ⟨r, v⟩ := x
      obtain ⟨r2, v2⟩ := y
      simp only at f1 f2 f3 f4 hR1 hv
      have hro : r = r2 := by cases hv <;> simp_all
      refine ⟨?_, ?_⟩
      · rw [← h2.1]
        simp [observed, hro, f1, f2, f3, f4]
      · rintro _ _ r' v' ⟨⟩ h3
        obtain ⟨g1, -⟩ := h2.2 _ _ _ _ rfl h3
        have g2 : H.R v.s.h v'.s.h := by rw [hR1.1]; exact g1
        exact ⟨fun l => congrFun (H.C g2) l, H.fn g2⟩

/-- **C89.** The code's own search finds the same chemical potential for the open and for the closed shell, for all
smearings and both ways of searching. -/
theorem C89_same_search (useNewton : Bool) (t : SmearType) (p : OccParams ℝ) (hm : m ≠ 0) {key : Fin K → Key}
    {key' : Fin L → Key} (hk : Function.Injective key) (hk' : Function.Injective key')
    (he : ∀ k, (Finset.univ.filter fun l => e l = k).card = m) {wk : Fin K → ℝ} (x : Bands b) :
    searchOcc useNewton t { p with occ := p.occ / m } key' (fun l => wk (e l)) (spread e x)
      = (do let r ← searchOcc useNewton t p key wk x; pure (r.1, perChannel m (spread e r.2))) := by
  have hm' : (m : ℝ) ≠ 0 := by exact_mod_cast hm
  have hw : ∀ k, ∑ l with e l = k, wk (e l) / m = wk k := by
    intro k
    have : ∀ l ∈ Finset.univ.filter (fun l => e l = k), wk (e l) / m = wk k / m := fun l hl => by
      rw [(Finset.mem_filter.1 hl).2]
    rw [Finset.sum_congr rfl this, Finset.sum_const, he, nsmul_eq_mul]
    field_simp
  have hk1 : ∀ {g : ℝ → ℝ} {func : ℝ → ℝ → ℝ}, (∃ a, ∀ y, g y = a * y) → (∀ y mo r, func y (mo / r) = func y mo / r) →
      ∀ T occ mu, kSum g func (KMap.ofRange (oneRank key' (fun l => wk (e l)) (spread e x)).energies.flatten)
        (KMap.ofRange (oneRank key' (fun l => wk (e l)) (spread e x)).weights.flatten) T (occ / m) mu
      = kSum g func (KMap.ofRange (oneRank key' (fun l => wk (e l) / m) (spread e x)).energies.flatten)
        (KMap.ofRange (oneRank key' (fun l => wk (e l) / m) (spread e x)).weights.flatten) T occ mu := by
    rintro g func ⟨a, hg⟩ hf T occ mu
    rw [kSum_oneRank g func hk', kSum_oneRank g func hk']
    refine Finset.sum_congr rfl fun l _ => ?_
    simp only [hg, hf, List.map_ofFn, List.sum_ofFn, Function.comp_def, ← Finset.sum_div]
    ring
  have h1 := fun t => hk1 (g := id) ⟨1, fun x => by simp⟩ (fn_div t)
  have h2 := fun t (a : ℝ) => hk1 (g := fun x => x /ᶠ a) ⟨1 / a, fun x => by show x / a = _; ring⟩ (delta_div t)
  have h3 := fun t (a : ℝ) => hk1 (g := fun x => x /ᶠ a) ⟨1 / a, fun x => by show x / a = _; ring⟩ (dxdelta_div t)
  have h : globalSearch useNewton (smearFns .gauss) (smearFns t) { p with occ := p.occ / m }
        (oneRank key' (fun l => wk (e l)) (spread e x))
      = globalSearch useNewton (smearFns .gauss) (smearFns t) p (oneRank key' (fun l => wk (e l) / m) (spread e x)) := by
    cases useNewton <;>
      simp only [globalSearch, chemPotGathered, chemPotGatheredNewton, h1, h2, h3, if_true, if_false, Bool.false_eq_true]
  have h4 : searchOcc useNewton t { p with occ := p.occ / m } key' (fun l => wk (e l)) (spread e x)
      = (do let r ← searchOcc useNewton t p key' (fun l => wk (e l) / m) (spread e x)
            pure (r.1, perChannel m r.2)) := by
    rw [searchOcc_global, searchOcc_global, h]
    cases globalSearch useNewton (smearFns .gauss) (smearFns t) p
        (oneRank key' (fun l => wk (e l) / m) (spread e x)) with
    | ok mu =>
      simp only [res_pure, Res.bind_ok, Res.ok.injEq, Prod.mk.injEq, true_and]
      funext l i
      simp only [occs, perChannel, fn_div]
    | throw e => rfl
    | ub => rfl
    | abort => rfl
  rw [h4, searchOcc_copies (useNewton := useNewton) t p hk hk' hw x]
  cases searchOcc useNewton t p key wk x <;> rfl

/-! ## The Gaussian spline -/

theorem gsEntropy_pos {x mo : ℝ} (h : |x| ≤ 7) : 0 < gsEntropy x mo := by
  have h1 := erfc_pos (1 / √2 + x)
  have h2 := erfc_pos (1 / √2 - x)
  have h3 : 0 < √Real.pi := Real.sqrt_pos.2 Real.pi_pos
  have h4 := Real.exp_pos 0.5
  rw [gsEntropy, if_neg (not_lt.2 h)]
  split_ifs with hx
  · have := Real.exp_pos (-x * (√2 + x))
    positivity
  · have := Real.exp_pos (x * (√2 - x))
    have h5 : 0 ≤ -2 * Real.exp (x * (√2 - x)) * x := by nlinarith [not_lt.1 hx]
    have h6 : 0 < Real.exp 0.5 * √Real.pi * erfc (1 / √2 - x) := by positivity
    linarith

/-- **C89 (not true of the code).** With the Gaussian spline the entropy of a band does not depend on how many
electrons it holds. So the entropy term of the open shell is `m` times the one of the closed shell, and the free
energies of the same evaluated point differ by `m - 1` times that term, which is negative as soon as one band is
within `7 kT` of the chemical potential. -/
theorem C89_not_gaussian_spline (H : OpenHost m e W host' host) (hc : OpenShell m e W c' c)
    (ht : c.t = .gaussianSpline) {s : SState η n' (copies b e)} {s' : SState ξ n b} (hR : H.R s.h s'.h)
    (X : Orbitals n b) (f x : Bands b) (mu : ℝ) :
    (∀ t, evaluate host' c' (expand e W X) (perChannel m (spread e f)) (spread e x) mu s = (.ok (), t) →
      ∃ t', evaluate host c X f x mu s' = (.ok (), t') ∧ t.S = m * t'.S ∧ t.F - t'.F = (m - 1) * t'.S ∧
        (0 < c.T → (∀ k, 0 < c.wk k) → (∃ k i, |(mu - x k i) / (kB * c.T)| ≤ 7) → t'.S < 0)) := by
  have hS : entropyTerm c'.t c'.T c'.mo mu (List.ofFn fun l => (c'.wk l, List.ofFn (spread e x l)))
      = m * entropyTerm c.t c.T c.mo mu (List.ofFn fun k => (c.wk k, List.ofFn (x k))) := by
    rw [entropyTerm_ofFn, entropyTerm_ofFn, ← Finset.sum_fiberwise Finset.univ e]
    rw [← mul_assoc, mul_comm (m : ℝ), mul_assoc, hc.T, Finset.mul_sum (s := Finset.univ) (a := (m : ℝ))]
    congr 1
    refine Finset.sum_congr rfl fun k _ => ?_
    have : ∀ l ∈ Finset.univ.filter (fun l => e l = k),
        c'.wk l * ∑ i, (smearFns c'.t).entropy ((mu - spread e x l i) / (kB * c.T)) c'.mo
        = c.wk k * ∑ i, (smearFns c.t).entropy ((mu - x k i) / (kB * c.T)) c.mo := by
      intro l hl
      obtain rfl := (Finset.mem_filter.1 hl).2
      rw [hc.t, ht, hc.weights]
      rfl
    rw [Finset.sum_congr rfl this, Finset.sum_const, hc.channels, nsmul_eq_mul]
  intro t h
  obtain ⟨h1, h2, h3, h4, E, e1, e2, e3, e4, e5, -⟩ := evaluate_ok h
  obtain ⟨t2, g1, -, g3, g4⟩ := evaluate_of (c := c') (en := spread e x) e1 e2 e3 e4 e5
  obtain rfl : t2 = t := by rw [g1] at h; exact (Prod.mk.inj h).2
  have pick : ∀ {α : Type} {p : Option α × η} {q : Option α × ξ} {a : α} {y : η}, p = (some a, y) →
      p.1 = q.1 ∧ H.R p.2 q.2 → ∃ z, q = (some a, z) ∧ H.R y z := by
    rintro α _ ⟨q1, q2⟩ a y rfl ⟨f1, f2⟩
    simp only at f1 f2
    exact ⟨q2, by rw [f1], f2⟩
  obtain ⟨y1, d1, R1⟩ := pick e1 (H.setC X hR)
  obtain ⟨y2, d2, R2⟩ := pick e2 (H.setFn f R1)
  obtain ⟨y3, d3, R3⟩ := pick e3 (H.compute R2)
  obtain ⟨y4, d4, R4⟩ := pick e4 (H.setMu mu R3)
  obtain ⟨y5, d5, -⟩ := pick e5 (H.energy R4)
  obtain ⟨t', f1, -, f3, f4⟩ := evaluate_of (c := c) (en := x) d1 d2 d3 d4 d5
  have hS' : t2.S = m * t'.S := by rw [g3, f3, hS]
  refine ⟨t', f1, hS', by rw [f4, g4, hS']; ring, fun hT hwk ⟨k, i, hki⟩ => ?_⟩
  rw [f3, entropyTerm_ofFn, ht]
  have hkT : (0 : ℝ) < kB * c.T := mul_pos (by norm_num [kB]) hT
  rw [neg_mul]
  refine neg_neg_of_pos (mul_pos hkT ?_)
  have hn : ∀ y, 0 ≤ (smearFns .gaussianSpline).entropy y c.mo := fun y => by
    by_cases h : |y| ≤ 7
    · exact (gsEntropy_pos (mo := c.mo) h).le
    · simp only [smearFns, gsEntropy, if_pos (not_le.1 h), le_refl]
  refine Finset.sum_pos' (fun k _ => mul_nonneg (hwk k).le (Finset.sum_nonneg fun i _ => hn _))
    ⟨k, Finset.mem_univ _, mul_pos (hwk k) ?_⟩
  exact Finset.sum_pos' (fun i _ => hn _) ⟨i, Finset.mem_univ _, gsEntropy_pos (mo := c.mo) hki⟩

end

/-! ## The assumptions can be met -/

/-- two spin channels -/
abbrev spinE : Fin 2 → Fin 1 := fun _ => 0

abbrev spinN : Fin 2 → ℕ := fun _ => 2

/-- the Hamiltonian of `Props/Solver` for both -/
noncomputable def spinH : (k : Fin 2) → Mat (spinN k) (spinN k) := fun _ => demoH 0

noncomputable def spinHost : Host (LState spinN (copies demoB spinE)) spinN (copies demoB spinE) :=
  linearHost spinH fun _ => 1

abbrev spinW : (k : Fin 2) → Mat (spinN k) (demoN (spinE k)) := fun _ => (1 : Mat 2 2)

noncomputable def spinCfg (t : SmearType) : Cfg spinN (copies demoB spinE) :=
  { la := refLapack, t := t, T := 300, kappa := 3 / 10, mo := 2 / (2 : ℕ), wk := fun _ => 1,
    S := fun _ => 1, P := fun _ => 1,
    occ := searchOcc false t { T := 300, occ := 2 / (2 : ℕ), ne := 1, tol := 1 / 10 ^ 11 }
      (fun l => toLex (0, (l : ℤ))) fun _ => 1,
    junk := fun _ => 7 }

noncomputable def closedCfg (t : SmearType) : Cfg demoN demoB :=
  { demoCfg (searchOcc false t { T := 300, occ := 2, ne := 1, tol := 1 / 10 ^ 11 } (fun _ => toLex (0, 0)) fun _ => 1)
    with t := t }

noncomputable def spinStart : NState ℝ (SState (LState spinN (copies demoB spinE)) spinN (copies demoB spinE)) :=
  { s := { h := { C := fun _ => !![1; 0], hphi := fun _ => 0, fn := fun _ _ => 0, ek := fun _ _ => 0, mu := 0 },
           F := 3, S := 4, calls := [] },
    file := [], info := { vals := none, converged := false }, force := false, trace := [] }

theorem spin_shell (t : SmearType) : OpenShell 2 spinE spinW (spinCfg t) (closedCfg t) where
  isometry _ := by simp
  channels k := by fin_cases k; simp
  weights _ := rfl
  nonzero _ := by simp [demoCfg, closedCfg]
  S _ := by simp [spinCfg, demoCfg, closedCfg]
  P _ := by simp [spinCfg, demoCfg, closedCfg]
  occ x := C89_same_search (K := 1) (L := 2) (b := demoB) (e := spinE) (m := 2) (wk := fun _ => 1) false t
    { T := 300, occ := 2, ne := 1, tol := 1 / 10 ^ 11 } two_ne_zero (key := fun _ => toLex (0, 0))
    (key' := fun l => toLex (0, (l : ℤ))) (fun a b _ => Subsingleton.elim a b)
    (fun a b h => by simpa [Fin.ext_iff] using h) (fun k => by fin_cases k; simp) x
  la := rfl
  t := rfl
  T := rfl
  kappa := rfl
  mo := rfl

/-- the two channels have the same orbitals and half of the occupations -/
noncomputable def spinOpen : OpenHost 2 spinE spinW spinHost demoHost where
  R h x := h.C = expand spinE spinW x.C ∧ h.hphi = expand spinE spinW x.hphi ∧
    h.fn = perChannel 2 (spread spinE x.fn) ∧ h.ek = spread spinE x.ek
  C h := h.1
  hphi h := h.2.1
  fn h := h.2.2.1
  ek h := h.2.2.2
  setC X h := ⟨rfl, rfl, h.2⟩
  setFn f h := ⟨rfl, h.1, h.2.1, rfl, h.2.2.2⟩
  compute := by
    rintro h x ⟨h1, h2, h3, h4⟩
    refine ⟨rfl, h1, ?_, h3, ?_⟩
    · funext l
      show demoH 0 * h.C l = 1 * (demoH 0 * x.C 0)
      rw [h1, expand, Matrix.one_mul, Matrix.one_mul]
    · funext l i
      show (((h.C l)ᴴ * (demoH 0 * h.C l)) i i).re = (((x.C 0)ᴴ * (demoH 0 * x.C 0)) i i).re
      rw [h1, expand, Matrix.one_mul]
  setMu mu h := ⟨rfl, h⟩
  energy := by
    rintro h x ⟨h1, h2, h3, h4⟩
    refine ⟨?_, h1, h2, h3, h4⟩
    have hd : (diagonal fun i => ((x.fn 0 i / (2 : ℕ) : ℝ) : ℂ)) = ((1 / 2 : ℝ) : ℂ) • diagonal fun i => (x.fn 0 i : ℂ) := by
      ext i j
      by_cases hij : i = j
      · subst hij; simp; ring
      · simp [diagonal_apply_ne _ hij]
    show some (∑ k : Fin 2, (1 : ℝ) * (trace (demoH 0 * (h.C k * diagonal (fun i => (h.fn k i : ℂ)) * (h.C k)ᴴ))).re)
      = some (∑ k : Fin 1, (1 : ℝ) * (trace (demoH k * (x.C k * diagonal (fun i => (x.fn k i : ℂ)) * (x.C k)ᴴ))).re)
    have hk : ∀ k : Fin 2, (trace (demoH 0 * (h.C k * diagonal (fun i => (h.fn k i : ℂ)) * (h.C k)ᴴ))).re
        = 1 / 2 * (trace (demoH 0 * (x.C 0 * diagonal (fun i => (x.fn 0 i : ℂ)) * (x.C 0)ᴴ))).re := by
      intro k
      have hC : h.C k = x.C 0 := by rw [h1, expand, Matrix.one_mul]
      have hf : (diagonal fun i => (h.fn k i : ℂ)) = ((1 / 2 : ℝ) : ℂ) • diagonal fun i => (x.fn 0 i : ℂ) := by
        rw [← hd, h3]; rfl
      rw [hC, hf, Matrix.mul_smul, Matrix.smul_mul, Matrix.mul_smul, trace_smul, smul_eq_mul, Complex.re_ofReal_mul]
    rw [Fin.sum_univ_two, Fin.sum_univ_one, hk, hk]
    congr 1
    ring
  print h := ⟨rfl, h⟩

theorem spin_start : spinOpen.R spinStart.s.h (demoStart 5).s.h := by
  refine ⟨?_, ?_, ?_, rfl⟩
  · funext l; simp [spinStart, demoStart, expand]
  · funext l; simp [spinStart, demoStart, expand]
  · funext l i; simp [spinStart, demoStart, perChannel, spread]

theorem spin_setting (t : SmearType) : Setting spinHost (spinCfg t) where
  host := linearHost_ok _ (fun _ => (demoH_psd 0).isHermitian) _
  lapack := refLapack_ok
  overlap _ := PosSemidef.one
  prec _ := PosDef.one
  weights _ := one_pos
  occ _ _ _ h := (searchOcc_ok h).2

/-- the closed shell and the two channels, with the code's own search -/
example (prm : NlcgParams ℝ) (fuel : ℕ) :
    (solve spinHost (spinCfg .gauss) prm fuel 0 spinStart).map observed
    = (solve demoHost (demoCfg demoSearch) prm fuel 0 (demoStart 5)).map observed := by
  refine (C89_same_run_partial (w' := demoStart 5) spinOpen (spin_shell .gauss) two_ne_zero (by simp [demoCfg, closedCfg])
    (spin_setting _) spin_start ⟨rfl, fun k => ?_⟩ ⟨rfl, rfl, rfl, rfl⟩).1
  show (!![(1 : ℂ); 0])ᴴ * ((1 : Mat 2 2) * !![(1 : ℂ); 0]) = 1
  ext i j; fin_cases i; fin_cases j; simp [mul_apply]

/-- with the Gaussian spline the two channels have a smaller free energy -/
example : ∃ t t', evaluate spinHost (spinCfg .gaussianSpline) (expand spinE spinW (demoStart 5).s.h.C)
      (perChannel 2 (spread spinE fun _ _ => 1)) (spread spinE fun _ _ => 0) 0 spinStart.s = (.ok (), t) ∧
    evaluate demoHost (closedCfg .gaussianSpline) (demoStart 5).s.h.C (fun _ _ => 1) (fun _ _ => 0)
      0 (demoStart 5).s = (.ok (), t') ∧ t.F < t'.F := by
  obtain ⟨t, h, -⟩ := evaluate_of (host := spinHost) (c := spinCfg .gaussianSpline)
    (X := expand spinE spinW (demoStart 5).s.h.C) (fn := perChannel 2 (spread spinE fun _ _ => 1))
    (en := spread spinE fun _ _ => 0) (mu := 0) (s := spinStart.s) rfl rfl rfl rfl rfl
  obtain ⟨t', h', -, h2, h3⟩ := C89_not_gaussian_spline spinOpen (spin_shell .gaussianSpline) rfl spin_start
    (demoStart 5).s.h.C (fun _ _ => 1) (fun _ _ => 0) 0 t h
  have := h3 (by norm_num [closedCfg, demoCfg]) (fun _ => one_pos) ⟨0, 0, by simp⟩
  refine ⟨t, t', h, h', ?_⟩
  norm_num at h2
  linarith

end Nlcg
