import Verif.Proofs.Shift
import Verif.Props.Represent

/-!
# C87: the zero of energy

Band energies are defined up to a common constant. Does the constant matter?
-/

namespace Nlcg
open Matrix Spec ComplexOrder Arith

section
variable {K : ℕ} {n b : Fin K → ℕ} {η ξ : Type} {a : ℝ} {host' : Host η n b} {host : Host ξ n b} {c : Cfg n b}
  {prm : NlcgParams ℝ} {fuel rank : ℕ}

/-- **C87 (part).** If the search for the chemical potential and the eigensolver move along with the band energies,
another zero of energy gives the same run: the same outcome, step log, record, free energies and history, and the
same orbitals and occupations in the end. Missing: the search of the code does not move along, see below. -/
theorem C87_same_run_partial (H : Raised a c.S host' host) (hs : Setting host c) (hs' : Setting host' c)
    (ho : MovesAlong a c.occ) (he : EighMovesAlong a c.la)
    {w : NState ℝ (SState η n b)} {w' : NState ℝ (SState ξ n b)} (hR : H.R w.s.h w'.s.h)
    (h0 : w.s.calls = []) (h0' : SStart host c w'.s)
    (hw : w.file = w'.file ∧ w.info = w'.info ∧ w.force = w'.force ∧ w.trace = w'.trace) :
    (solve host' c prm fuel rank w).map observed = (solve host c prm fuel rank w').map observed ∧
    ∀ r v r' v', solve host' c prm fuel rank w = some (r, v) → solve host c prm fuel rank w' = some (r', v') →
      host'.C v.s.h = host.C v'.s.h ∧ host'.fn v.s.h = host.fn v'.s.h := by
  have hst : SStart host' c w.s := ⟨h0, by rw [H.C hR]; exact h0'.2⟩
  have h1 := nlcg_rel (raiseSim H hs ho he) prm fuel rank (w := w)
    (w' := { w' with s := { w'.s with F := w.s.F, S := w.s.S } }) ⟨⟨hR, rfl, rfl⟩, hw⟩
  have h2 := C55_no_uninitialised_read (prm := prm) (fuel := fuel) (rank := rank) host c
    { w' with s := { w'.s with F := w.s.F, S := w.s.S } } w' ⟨rfl, rfl, rfl, rfl, rfl, rfl⟩
  have e3 := solve_hostOps hs prm fuel rank { w' with s := { w'.s with F := w.s.F, S := w.s.S } } h0'
  rw [solve_hostOps hs' prm fuel rank w hst]
  rw [e3] at h2
  rcases h2 with ⟨e1, e2⟩ | ⟨o, v1, v2, e1, e2, hs, -⟩
  · rw [e1] at h1
    rw [e2]
    cases hq : nlcg (hostOps host' c) prm fuel rank w with
    | none => simp
    | some x => rw [hq] at h1; cases h1
  · rw [e1] at h1
    rw [e2]
    cases hq : nlcg (hostOps host' c) prm fuel rank w with
    | none => rw [hq] at h1; cases h1
    | some x =>
      rw [hq] at h1
      cases h1 with
      | some h1 =>
      obtain ⟨⟨hR, f1, f2, f3, f4⟩, -, hv⟩ := h1
      obtain ⟨r, v⟩ := x
      obtain ⟨s1, s2, s3, s4, s5, s6⟩ := hs
      simp only at f1 f2 f3 f4 hR hv
      have hro : r = o := by cases hv <;> simp_all
      refine ⟨?_, ?_⟩
      · simp [observed, hro, f1, f2, f3, f4, s3, s4, s5, s6]
      · rintro _ _ _ _ ⟨⟩ ⟨⟩
        have := s1 ▸ hR.1
        exact ⟨H.C this, H.fn this⟩

end

/-! ## The search of the code -/

theorem Spec.Decimal.add {x y : ℝ} (hx : Decimal x) (hy : Decimal y) : Decimal (x + y) := by
  obtain ⟨k, m, h⟩ := hx
  obtain ⟨l, p, g⟩ := hy
  refine ⟨k + l, m * 10 ^ l + p * 10 ^ k, ?_⟩
  push_cast
  rw [← h, ← g, pow_add]
  ring

theorem Spec.Decimal.mul {x y : ℝ} (hx : Decimal x) (hy : Decimal y) : Decimal (x * y) := by
  obtain ⟨k, m, h⟩ := hx
  obtain ⟨l, p, g⟩ := hy
  refine ⟨k + l, m * p, ?_⟩
  push_cast
  rw [← h, ← g, pow_add]
  ring

theorem Spec.Decimal.sub {x y : ℝ} (hx : Decimal x) (hy : Decimal y) : Decimal (x - y) := by
  have h : Decimal (-1) := ⟨0, -1, by norm_num⟩
  have := hx.add (h.mul hy)
  rwa [neg_one_mul, ← sub_eq_add_neg] at this

theorem decimal_zero : Decimal 0 := ⟨0, 0, by norm_num⟩

theorem third_not_decimal : ¬ Decimal (1 / 3) := by
  rintro ⟨k, m, h⟩
  have h1 : (10 : ℝ) ^ k = 3 * m := by rw [← h]; ring
  have h2 : (10 : ℤ) ^ k = 3 * m := by exact_mod_cast h1
  have h3 : (10 : ℤ) ^ k % 3 = 1 := by
    have := Int.ModEq.pow k (show (10 : ℤ) ≡ 1 [ZMOD 3] by decide)
    rw [one_pow] at this
    exact this
  omega

/-- all numbers the search tries have finitely many decimal places -/
theorem cpBody_decimal (f : ℝ → ℝ) (j : ℕ) : ∀ st : CPState ℝ, Decimal st.mu → Decimal st.de →
    Decimal ((cpBody f)^[j] st).mu := by
  induction j with
  | zero => intro st h _; exact h
  | succ j ih =>
    intro st h1 h2
    rw [Function.iterate_succ_apply]
    have hde : Decimal (cpBody f st).de := by
      have hb : ∀ (c : Prop) [Decidable c], Decimal (if c then st.de *ᶠ lit (5 / 4) else st.de *ᶠ lit (1 / 4)) := by
        intro c _
        split
        · exact h2.mul (y := lit (5 / 4)) ⟨2, 125, by norm_num⟩
        · exact h2.mul (y := lit (1 / 4)) ⟨2, 25, by norm_num⟩
      exact hb _
    refine ih _ ?_ hde
    have hmu : (cpBody f st).mu = st.mu + (if (lit 0 <ᶠ f st.mu) then 1 else -1) * (cpBody f st).de := by
      show st.mu +ᶠ (lit (((if (lit 0 <ᶠ f st.mu) then 1 else -1 : ℤ) : ℚ)) *ᶠ (cpBody f st).de) = _
      split <;> simp
    rw [hmu]
    refine h1.add (Decimal.mul ?_ hde)
    split
    · exact ⟨0, 1, by norm_num⟩
    · exact ⟨0, -1, by norm_num⟩

theorem findChemPotRun_decimal {f : ℝ → ℝ} {mu0 tol mu : ℝ} (h0 : Decimal mu0)
    (h : findChemPotRun f mu0 tol = .ok mu) : Decimal mu := by
  obtain ⟨j, _, hw, _⟩ := findChemPot_eq (f := f) (mu0 := mu0) (tol := tol)
  have : findChemPotRun f mu0 tol = cpFinish f tol ((cpBody f)^[j] (cpInit mu0)) := by
    simp [findChemPotRun, hw (cpNmax + 1) (by omega)]
  rw [this] at h
  rcases cpFinish_cases (f := f) (tol := tol) ((cpBody f)^[j] (cpInit mu0)) with h1 | h1
  · rw [h1.1] at h
    obtain rfl := Res.ok.inj h
    exact cpBody_decimal f j _ h0 ⟨1, 1, by simp [cpInit]⟩
  · rw [h1.1] at h; cases h

section
variable {K : ℕ} {b : Fin K → ℕ}

/-- **C87 (not true of the code).** The search of the code starts at `0` and moves in steps that are finite decimal
fractions. So the chemical potential it returns is one, and if the zero of energy is moved by anything that is not
(a third, say), the search does not move along: the chemical potential found is always a different one. -/
theorem C87_not_moved_along (t : SmearType) (p : OccParams ℝ) (key : Fin K → Key) (wk : Fin K → ℝ) {a : ℝ}
    (ha : ¬ Decimal a) :
    (∀ (x : Bands b) mu f mu' f', searchOcc false t p key wk x = .ok (mu, f) →
      searchOcc false t p key wk (raise a x) = .ok (mu', f') → mu' ≠ mu + a) ∧
    ((∃ (x : Bands b) (r : _), searchOcc false t p key wk x = .ok r) →
      ¬ MovesAlong a (searchOcc (b := b) false t p key wk)) := by
  have key1 : ∀ (x : Bands b) mu f, searchOcc false t p key wk x = .ok (mu, f) → Decimal mu := by
    intro x mu f h
    have h1 := (searchOcc_ok h).1
    simp only [globalSearch, Bool.false_eq_true, if_false, chemPotGathered] at h1
    refine findChemPotRun_decimal ?_ h1
    simpa using decimal_zero
  have key2 : ∀ (x : Bands b) mu f mu' f', searchOcc false t p key wk x = .ok (mu, f) →
      searchOcc false t p key wk (raise a x) = .ok (mu', f') → mu' ≠ mu + a := by
    intro x mu f mu' f' h h' he
    have := (key1 _ _ _ h').sub (key1 _ _ _ h)
    rw [he, add_sub_cancel_left] at this
    exact ha this
  refine ⟨key2, ?_⟩
  rintro ⟨x, ⟨mu, f⟩, h⟩ hm
  have := hm x
  rw [h] at this
  exact key2 x mu f _ _ h this rfl

/-- **C87 (part).** What remains: whatever the zero of energy, the two searches fill in the same number of electrons
up to twice the tolerance. -/
theorem C87_same_charge_partial (t : SmearType) (p : OccParams ℝ) {key : Fin K → Key}
    (hk : Function.Injective key) (wk : Fin K → ℝ) (a : ℝ) (x : Bands b) {mu mu' : ℝ} {f f' : Bands b}
    (h : searchOcc false t p key wk x = .ok (mu, f)) (h' : searchOcc false t p key wk (raise a x) = .ok (mu', f')) :
    |∑ k, wk k * ∑ i, f' k i - ∑ k, wk k * ∑ i, f k i| < 2 * p.tol := by
  have count : ∀ (x : Bands b) mu f, searchOcc false t p key wk x = .ok (mu, f) →
      |p.ne - ∑ k, wk k * ∑ i, f k i| < p.tol := by
    intro x mu f h
    obtain ⟨h1, h2⟩ := searchOcc_ok h
    simp only [globalSearch, Bool.false_eq_true, if_false, chemPotGathered] at h1
    rcases findChemPotRun_cases (f := fun mu => p.ne -ᶠ kSum id (smearFns t).fn
      (KMap.ofRange (oneRank key wk x).energies.flatten) (KMap.ofRange (oneRank key wk x).weights.flatten) p.T p.occ mu)
      (mu0 := lit 0) (tol := p.tol) with ⟨m, g, hlt⟩ | g
    · rw [h1] at g
      obtain rfl := Res.ok.inj g
      rw [kSum_oneRank _ _ hk] at hlt
      simp only [real_lt, decide_eq_true_eq, real_abs, real_sub] at hlt
      rw [h2]
      simpa only [List.map_ofFn, List.sum_ofFn, Function.comp_def, occs, id] using hlt
    · rw [h1] at g; cases g
  have h1 := count _ _ _ h
  have h2 := count _ _ _ h'
  rw [abs_lt] at h1 h2 ⊢
  constructor <;> linarith [h1.1, h1.2, h2.1, h2.2]

end

/-! ## Examples -/

section
variable {K : ℕ} {n b : Fin K → ℕ} {η : Type}

/-- a host with its zero of energy moved by `a` -/
noncomputable def raiseHost (a : ℝ) (S : (k : Fin K) → Mat (n k) (n k)) (host : Host η n b) : Host η n b :=
  { host with
    setMu := fun mu => host.setMu (mu - a)
    hphi := fun h k => host.hphi h k + (a : ℂ) • (S k * host.C h k)
    ek := fun h k i => host.ek h k i + a * (((host.C h k)ᴴ * (S k * host.C h k)) i i).re
    mu := fun h => host.mu h + a }

/-- it is one in the sense of the theorem -/
def raiseHost_raised (a : ℝ) (S : (k : Fin K) → Mat (n k) (n k)) (host : Host η n b) :
    Raised a S (raiseHost a S host) host where
  R h x := h = x
  C := by rintro h _ rfl; rfl
  hphi := by rintro h _ rfl; rfl
  fn := by rintro h _ rfl; rfl
  ek := by
    rintro h _ rfl ho
    funext k i
    simp only [raiseHost, raise]
    rw [ho k]
    simp
  setC := by rintro h _ X rfl; exact ⟨rfl, rfl⟩
  setFn := by rintro h _ X rfl; exact ⟨rfl, rfl⟩
  compute := by rintro h _ rfl; exact ⟨rfl, rfl⟩
  setMu := by rintro h _ mu rfl; simp [raiseHost]
  energy := by rintro h _ rfl; exact ⟨rfl, rfl⟩
  print := by rintro h _ rfl; exact ⟨rfl, rfl⟩

/-- it keeps the contract of a host if the other one does -/
theorem raiseHost_setting (a : ℝ) {host : Host η n b} {c : Cfg n b} (hs : Setting host c) :
    Setting (raiseHost a c.S host) c where
  host :=
    { setC := hs.host.setC
      setFn := hs.host.setFn
      compute := fun h h' hc => by
        obtain ⟨g1, g2, H, g3⟩ := hs.host.compute h h' hc
        refine ⟨g1, g2, fun k => H k + (a : ℂ) • c.S k, ?_, ?_, ?_⟩
        · intro k
          have h1 := g3.herm k
          have h2 := (hs.overlap k).isHermitian
          rw [IsHermitian, conjTranspose_add, conjTranspose_smul, h1, h2, Complex.star_def, Complex.conj_ofReal]
        · intro k
          show host.hphi h' k + _ = _
          rw [g3.hphi, Matrix.add_mul, Matrix.smul_mul]
          rfl
        · intro k i
          show ((host.ek h' k i + a * (((host.C h' k)ᴴ * (c.S k * host.C h' k)) i i).re : ℝ) : ℂ) = _
          have h2 : ((host.C h' k)ᴴ * (c.S k * host.C h' k)).IsHermitian := by
            rw [← Matrix.mul_assoc]
            exact isHermitian_conjTranspose_mul_mul _ (hs.overlap k).isHermitian
          have h3 : (((((host.C h' k)ᴴ * (c.S k * host.C h' k)) i i).re : ℝ) : ℂ)
              = ((host.C h' k)ᴴ * (c.S k * host.C h' k)) i i := h2.coe_re_apply_self i
          rw [Complex.ofReal_add, Complex.ofReal_mul, h3, g3.ek]
          show _ = ((host.C h' k)ᴴ * ((H k + (a : ℂ) • c.S k) * host.C h' k)) i i
          rw [Matrix.add_mul, Matrix.mul_add, Matrix.smul_mul, Matrix.mul_smul]
          rfl
      setMu := fun mu h h' hm => by
        obtain ⟨g1, g2⟩ := hs.host.setMu _ h h' hm
        refine ⟨⟨g1.C, ?_, g1.fn, ?_⟩, ?_⟩
        · simp only [raiseHost, g1.hphi, g1.C]
        · simp only [raiseHost, g1.ek, g1.C]
        · show host.mu h' + a = mu
          rw [g2]; ring
      energy := fun h e h' hm => by
        obtain ⟨g1, g2⟩ := hs.host.energy h e h' hm
        refine ⟨⟨g1.C, ?_, g1.fn, ?_⟩, ?_⟩
        · simp only [raiseHost, g1.hphi, g1.C]
        · simp only [raiseHost, g1.ek, g1.C]
        · show host.mu h' + a = host.mu h + a
          rw [g2]
      print := fun h h' hm => by
        obtain ⟨g1, g2⟩ := hs.host.print h h' hm
        refine ⟨⟨g1.C, ?_, g1.fn, ?_⟩, ?_⟩
        · simp only [raiseHost, g1.hphi, g1.C]
        · simp only [raiseHost, g1.ek, g1.C]
        · show host.mu h' + a = host.mu h + a
          rw [g2] }
  lapack := hs.lapack
  overlap := hs.overlap
  prec := hs.prec
  weights := hs.weights
  occ := hs.occ

end

/-- an eigensolver that first subtracts the mean eigenvalue -/
noncomputable def centred (la : Lapack) : Lapack :=
  { la with
    heevd := fun {m} A =>
      let d : ℝ := A.trace.re / m
      let r := la.heevd (A - (d : ℂ) • 1)
      ((fun i => r.1.1 i + d, r.1.2), r.2) }

theorem centred_movesAlong (la : Lapack) (a : ℝ) : EighMovesAlong a (centred la) := by
  intro m A _
  rcases Nat.eq_zero_or_pos m with rfl | hm
  · have : A + (a : ℂ) • 1 = A := Subsingleton.elim _ _
    rw [this]
    refine Prod.ext (Prod.ext ?_ rfl) rfl
    funext i
    exact i.elim0
  · have hm' : (m : ℝ) ≠ 0 := by positivity
    have h1 : (A + (a : ℂ) • (1 : Mat m m)).trace.re / m = A.trace.re / m + a := by
      rw [Matrix.trace_add, Matrix.trace_smul, Matrix.trace_one]
      simp
      field_simp
    have h2 : A + (a : ℂ) • (1 : Mat m m) - ((A.trace.re / m + a : ℝ) : ℂ) • 1
        = A - ((A.trace.re / m : ℝ) : ℂ) • 1 := by
      rw [Complex.ofReal_add, add_smul]
      abel
    simp only [centred, h1, h2]
    refine Prod.ext (Prod.ext ?_ rfl) rfl
    funext i
    simp only
    ring

theorem centred_ok {la : Lapack} (h : LapackOk la) : LapackOk (centred la) where
  chol := h.chol
  solve := h.solve
  eigen := by
    intro m A hA hz
    have hB : (A - ((A.trace.re / m : ℝ) : ℂ) • (1 : Mat m m)).IsHermitian := by
      rw [IsHermitian, conjTranspose_sub, conjTranspose_smul, hA, conjTranspose_one, Complex.star_def,
        Complex.conj_ofReal]
    obtain ⟨h1, h2⟩ := h.eigen _ hB hz
    refine ⟨h1, ?_⟩
    rw [Matrix.sub_mul, Matrix.smul_mul, Matrix.one_mul, sub_eq_iff_eq_add] at h2
    simp only [centred]
    rw [h2]
    ext i j
    simp [Matrix.mul_diagonal]
    ring

/-- a level at the chemical potential: moves along -/
noncomputable def pinnedOcc (ek : Bands demoB) : Res (ℝ × Bands demoB) :=
  .ok (ek 0 0, occs .gauss 300 2 ek (ek 0 0))

theorem pinnedOcc_movesAlong (a : ℝ) : MovesAlong a pinnedOcc := by
  intro x
  simp only [pinnedOcc, Res.bind_ok, res_pure, Res.ok.injEq, Prod.mk.injEq, raise, true_and]
  funext k i
  simp only [occs]
  rw [raise, add_sub_add_right_eq_sub]

noncomputable def pinnedCfg : Cfg demoN demoB := { demoCfg pinnedOcc with la := centred refLapack }

/-- The hypotheses of the theorem hold: two hosts for the demonstration system, zeros of energy a third apart. -/
example : ∃ H : Raised (1 / 3) pinnedCfg.S (raiseHost (1 / 3) pinnedCfg.S demoHost) demoHost,
    Setting demoHost pinnedCfg ∧ Setting (raiseHost (1 / 3) pinnedCfg.S demoHost) pinnedCfg ∧
    MovesAlong (1 / 3) pinnedCfg.occ ∧ EighMovesAlong (1 / 3) pinnedCfg.la ∧
    H.R (demoStart 5).s.h (demoStart 7).s.h ∧ SStart demoHost pinnedCfg (demoStart 7).s := by
  have h0 : Setting demoHost (demoCfg pinnedOcc) := demo_setting _ _ (by rintro ek mu f ⟨⟩; rfl)
  have hs : Setting demoHost pinnedCfg :=
    ⟨h0.host, centred_ok refLapack_ok, h0.overlap, h0.prec, h0.weights, h0.occ⟩
  exact ⟨raiseHost_raised _ _ _, hs, raiseHost_setting _ hs, pinnedOcc_movesAlong _, centred_movesAlong _ _, rfl,
    demo_start pinnedOcc 300 7⟩

/-- The search of the code succeeds on some input, and a third is not a finite decimal fraction. -/
example : ¬ MovesAlong (1 / 3) demoSearch := by
  refine (C87_not_moved_along _ _ _ _ third_not_decimal).2
    ⟨fun _ _ => 0, (0, occs .gauss 300 2 (fun _ _ => 0) 0), ?_⟩
  show demoSearch _ = _
  have hk : Function.Injective (fun _ : Fin 1 => (toLex (0, 0) : Key)) := fun _ _ _ => Subsingleton.elim _ _
  have h := C02_good_start_kept (fun mu : ℝ => (1 : ℝ) -ᶠ kSum id (smearFns .gauss).fn
    (KMap.ofRange (oneRank (b := demoB) (fun _ => toLex (0, 0)) (fun _ => 1) fun _ _ => 0).energies.flatten)
    (KMap.ofRange (oneRank (b := demoB) (fun _ => toLex (0, 0)) (fun _ => 1) fun _ _ => 0).weights.flatten)
    300 2 mu) 0 (1 / 10 ^ 11)
    (by simp only [kSum_oneRank _ _ hk]; simp [smearFns, gaussFn, erf_zero, demoB])
    (by simp only [kSum_oneRank _ _ hk]; simp [smearFns, gaussFn, erf_zero, demoB])
  have hg : globalSearch false (smearFns .gauss) (smearFns .gauss) { T := 300, occ := 2, ne := 1, tol := 1 / 10 ^ 11 }
      (oneRank (b := demoB) (fun _ => toLex (0, 0)) (fun _ => 1) fun _ _ => 0) = .ok 0 := by
    refine Eq.trans ?_ h
    simp [globalSearch, chemPotGathered]
  rw [demoSearch, searchOcc_global, hg]
  rfl

end Nlcg
