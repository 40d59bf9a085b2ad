import Verif.Proofs.CallAgain
import Verif.Proofs.InsulatorRef
import Verif.Proofs.SelfConsistent

/-! A host whose charge sloshes: two k-points with one level each, and an energy that grows with the
square of the difference of their occupations. Every start of the solver overshoots. -/

namespace Nlcg
open Matrix Arith Spec ComplexOrder

section first
variable {K : ℕ} {n b : Fin K → ℕ} {η : Type} {host : Host η n b} {c : Cfg n b}

/-- a run that passes the test at its first point -/
theorem solve_first (hn : NeverThrows host) (hT : c.T ≠ 0) {prm : NlcgParams ℝ} (hm : 1 ≤ prm.maxiter)
    (fuel rank : ℕ) {w : NState ℝ (SState η n b)} {pt : Point n b} {s2 : SState η n b}
    (h2 : solverSetup host c w.s = (.ok pt, s2))
    (hsl : |(restarted c.la (dirParams c pt) (kIn host c pt s2.h)).1| < prm.tol) :
    ∃ info w' vals h3, solve host c prm fuel rank w = some (.ok info, w') ∧ info.converged = true ∧
      info.vals = some vals ∧ vals.F = s2.F ∧ host.print s2.h = (some (), h3) ∧ w'.s.h = h3 := by
  obtain ⟨h3, e3⟩ := hn.print s2.h
  obtain ⟨m, hm'⟩ : ∃ m, prm.maxiter.toNat = m + 1 := ⟨prm.maxiter.toNat - 1, by omega⟩
  set q := restarted c.la (dirParams c pt) (kIn host c pt s2.h) with hq
  have hlt : (Arith.abs q.1 <ᶠ prm.tol) = true := by
    simp only [Arith.abs, Arith.lt]
    exact decide_eq_true hsl
  have q1 : (solverOps host c).construct w.s = (.ok (), w.s) := by simp [solverOps, hT]
  have q2 : (solverOps host c).setup w.s = (.ok pt, s2) := h2
  have q3 : (solverOps host c).restarted pt s2 = (.ok q, s2) := rfl
  set s3 : SState η n b := { s2 with h := h3, calls := s2.calls ++ [.print] } with hs3
  have q4 : hostCall .print host.print s2 = (.ok (), s3) := by rw [hostCall, e3]
  rw [solve, nlcg]
  simp only [FM.bind_apply, FM.modify_apply, liftOp, q1, q2, q3, hm', cgLoop, emit, hlt, if_true,
    cgSuccess, setInfo, writeJson, FM.get_apply, FM.pure_apply]
  simp [solverOps, printInfo, q4]
  exact e3

end first

abbrev sloshN : Fin 2 → ℕ := fun _ => 1

/-- half the difference of the occupations -/
noncomputable def polar (f : Bands sloshN) : ℝ := (f 0 0 - f 1 0) / 2

/-- the Hamiltonian: the level with more electrons is pushed up, the other one down -/
noncomputable def sloshLevel (d : ℝ) : Fin 2 → ℝ := ![4 * d, -(4 * d)]

/-- The energy is `2 d²` for `d = polar f`; its derivatives with respect to the two occupations are the
levels times the weights `1/2`. -/
noncomputable def sloshHost : Host (LState sloshN sloshN) sloshN sloshN where
  compute := fun h => (some (), { h with
    hphi := fun k => (sloshLevel (polar h.fn) k : ℂ) • h.C k
    ek := fun k i => sloshLevel (polar h.fn) k * (((h.C k)ᴴ * h.C k) i i).re })
  setC := fun X h => (some (), { h with C := X })
  setFn := fun f h => (some (), { h with fn := f })
  setMu := fun mu h => (some (), { h with mu := mu })
  energy := fun h => (some (2 * polar h.fn ^ 2), h)
  print := fun h => (some (), h)
  C := LState.C
  hphi := LState.hphi
  fn := LState.fn
  ek := LState.ek
  mu := LState.mu

theorem slosh_ok : HostOk sloshHost where
  setC := by rintro X h h' ⟨⟩; rfl
  setFn := by rintro f h h' ⟨⟩; exact ⟨rfl, rfl⟩
  compute := by
    rintro h h' ⟨⟩
    refine ⟨rfl, rfl, fun k => (sloshLevel (polar h.fn) k : ℂ) • 1, ?_, ?_, ?_⟩
    · intro k
      rw [Matrix.IsHermitian, conjTranspose_smul, conjTranspose_one]
      simp
    · intro k
      rw [smul_mul_assoc, Matrix.one_mul]
      rfl
    · intro k i
      rw [smul_mul_assoc, Matrix.one_mul, Matrix.mul_smul, Matrix.smul_apply, smul_eq_mul]
      have hm : ((h.C k)ᴴ * h.C k).IsHermitian := isHermitian_conjTranspose_mul_self _
      have := hm.coe_re_apply_self i
      show ((sloshLevel (polar h.fn) k * (((h.C k)ᴴ * h.C k) i i).re : ℝ) : ℂ) = _
      rw [Complex.ofReal_mul]
      congr 1
  setMu := by rintro mu h h' ⟨⟩; exact ⟨⟨rfl, rfl, rfl, rfl⟩, rfl⟩
  energy := by rintro h e h' ⟨⟩; exact ⟨⟨rfl, rfl, rfl, rfl⟩, rfl⟩
  print := by rintro h h' ⟨⟩; exact ⟨⟨rfl, rfl, rfl, rfl⟩, rfl⟩

theorem slosh_never_throws : NeverThrows sloshHost :=
  ⟨fun _ => ⟨_, rfl⟩, fun _ _ => ⟨_, rfl⟩, fun _ _ => ⟨_, rfl⟩, fun _ _ => ⟨_, rfl⟩, fun _ => ⟨_, _, rfl⟩,
    fun _ => ⟨_, rfl⟩⟩

/-- `kT = 1`, one electron -/
noncomputable def sloshP : OccParams ℝ := { T := 1 / (kB : ℚ), occ := 2, ne := 1, tol := 1 / 10 ^ 11 }

def sloshKey : Fin 2 → Key := fun k => toLex (k.val, 0)

theorem sloshKey_inj : Function.Injective sloshKey := by
  intro i j h
  have := congrArg (fun x => (ofLex x).1) h
  simp only [sloshKey, ofLex_toLex] at this
  exact Fin.ext (by exact_mod_cast this)

noncomputable def sloshCfg : Cfg sloshN sloshN :=
  { la := refLapack, t := .gauss, T := sloshP.T, kappa := 3 / 10, mo := 2, wk := fun _ => 1 / 2,
    S := fun _ => 1, P := fun _ => 1, occ := searchOcc false .gauss sloshP sloshKey fun _ => 1 / 2,
    junk := fun _ => 0 }

theorem slosh_kT : ((kB : ℚ) : ℝ) * sloshP.T = 1 := by
  have := kB_pos.ne'
  simp only [sloshP]
  field_simp

theorem slosh_setting : Setting sloshHost sloshCfg where
  host := slosh_ok
  lapack := refLapack_ok
  overlap := fun _ => PosSemidef.one
  prec := fun _ => PosDef.one
  weights := fun _ => by norm_num [sloshCfg]
  occ := fun ek mu f h => (searchOcc_ok h).2

/-- levels at `a` and `-a` -/
noncomputable def sloshBands (a : ℝ) : Bands sloshN := fun k _ => ![a, -a] k

theorem slosh_search (a : ℝ) :
    sloshCfg.occ (sloshBands a) = .ok (0, occs .gauss sloshP.T 2 (sloshBands a) 0) := by
  show searchOcc false .gauss sloshP sloshKey (fun _ => 1 / 2) (sloshBands a) = _
  rw [searchOcc_global]
  have : globalSearch false (smearFns .gauss) (smearFns .gauss) sloshP (oneRank sloshKey (fun _ => 1 / 2) (sloshBands a))
      = .ok 0 := by
    simp only [globalSearch, Bool.false_eq_true, if_false, chemPotGathered]
    refine findChemPotRun_zero ?_ (by norm_num [sloshP])
    rw [kSum_oneRank _ _ sloshKey_inj, Fin.sum_univ_two, slosh_kT]
    simp only [real_lit, real_sub, List.map_ofFn, List.sum_ofFn, Function.comp_def, Fin.sum_univ_one, sloshBands, id,
      Matrix.cons_val_zero, Matrix.cons_val_one]
    have e1 : sloshP.ne = 1 := rfl
    have e2 : sloshP.occ = 2 := rfl
    rw [e1, e2]
    show 1 - (1 / 2 * gaussFn _ 2 + 1 / 2 * gaussFn _ 2) = 0
    simp only [gaussFn]
    rw [show ((((0 : ℚ) : ℝ) - a) / 1) = -a by push_cast; ring, show ((((0 : ℚ) : ℝ) - -a) / 1) = a by push_cast; ring, erf_neg]
    ring
  rw [this]
  rfl

/-- the free energy of the point reached with levels `a` and `-a` -/
noncomputable def sloshF (a : ℝ) : ℝ := 2 * erf a ^ 2 - Real.exp (-a * a) / √Real.pi

theorem polar_occs (a : ℝ) : polar (occs .gauss sloshP.T 2 (sloshBands a) 0) = -erf a := by
  rw [polar]
  show (gaussFn ((0 - a) / (kB * sloshP.T)) 2 - gaussFn ((0 - -a) / (kB * sloshP.T)) 2) / 2 = _
  rw [slosh_kT, gaussFn, gaussFn, show (0 - a) / 1 = -a by ring, show (0 - -a) / 1 = a by ring, erf_neg]
  ring

theorem slosh_entropy (a : ℝ) : entropyTerm .gauss sloshP.T 2 0
    (List.ofFn fun k : Fin 2 => ((1 / 2 : ℝ), List.ofFn (sloshBands a k))) = -(Real.exp (-a * a) / √Real.pi) := by
  rw [entropyTerm_ofFn (w := fun _ : Fin 2 => (1 / 2 : ℝ)), slosh_kT, Fin.sum_univ_two]
  simp only [Fin.sum_univ_one]
  show -1 * (1 / 2 * gaussEntropy ((0 - a) / 1) 2 + 1 / 2 * gaussEntropy ((0 - -a) / 1) 2) = _
  rw [gaussEntropy, gaussEntropy, show -((0 - a) / 1) * ((0 - a) / 1) = -a * a by ring,
    show -((0 - -a) / 1) * ((0 - -a) / 1) = -a * a by ring]
  ring

theorem slosh_setup (a : ℝ) (s : SState (LState sloshN sloshN) sloshN sloshN) (hC : s.h.C = fun _ => 1)
    (hd : polar s.h.fn = a / 4) :
    ∃ pt s2, solverSetup sloshHost sloshCfg s = (.ok pt, s2) ∧ pt.X = (fun _ => 1) ∧ pt.ek = sloshBands a ∧
      pt.fn = occs .gauss sloshP.T 2 (sloshBands a) 0 ∧ pt.mu = 0 ∧
      pt.hx = (fun k => (sloshLevel (-erf a) k : ℂ) • 1) ∧ s2.h.C = (fun _ => 1) ∧
      s2.h.fn = occs .gauss sloshP.T 2 (sloshBands a) 0 ∧ s2.h.ek = (fun k _ => sloshLevel (-erf a) k) ∧
      s2.F = sloshF a := by
  have hek : ∀ d (C : Orbitals sloshN sloshN), C = (fun _ => 1) →
      (fun k i => sloshLevel d k * (((C k)ᴴ * C k) i i).re : Bands sloshN) = fun k _ => sloshLevel d k := by
    rintro d C rfl
    funext k i
    simp
  have hb : (fun k _ => sloshLevel (a / 4) k : Bands sloshN) = sloshBands a := by
    funext k i
    fin_cases k <;> simp [sloshLevel, sloshBands] <;> ring
  have e0 : sloshHost.ek (sloshHost.compute s.h).2 = sloshBands a := by
    show (fun k i => sloshLevel (polar s.h.fn) k * (((s.h.C k)ᴴ * s.h.C k) i i).re : Bands sloshN) = _
    rw [hek _ _ hC, hd, hb]
  rw [solverSetup, hostCall_bind]
  have hcomp : sloshHost.compute s.h = (some (), (sloshHost.compute s.h).2) := rfl
  rw [hcomp]
  simp only []
  rw [SM.get_bind, SM.lift_bind]
  simp only [e0, slosh_search]
  rw [SM.get_bind, SM.bind_apply]
  obtain ⟨s', he⟩ := evaluate_total (c := sloshCfg) slosh_never_throws (sloshHost.C (sloshHost.compute s.h).2)
    (occs .gauss sloshP.T 2 (sloshBands a) 0) (sloshBands a) 0
    { h := (sloshHost.compute s.h).2, F := s.F, S := s.S, calls := s.calls ++ [.compute] }
  obtain ⟨h1, h2, h3, h4, v, g1, g2, g3, g4, g5, g6⟩ := evaluate_ok he
  simp only [he]
  rw [SM.get_bind, SM.pure_apply]
  cases g1; cases g2; cases g3; cases g4
  have g5' := (Prod.ext_iff.1 g5)
  obtain ⟨g7, g8⟩ := g5'
  simp only [sloshHost, Option.some.injEq] at g7 g8
  refine ⟨_, _, rfl, ?_, rfl, rfl, rfl, ?_, ?_, ?_, ?_, ?_⟩
  · show s'.h.C = _
    rw [← g8]; exact hC
  · show s'.h.hphi = _
    rw [← g8]
    show (fun k => (sloshLevel (polar (occs .gauss sloshP.T 2 (sloshBands a) 0)) k : ℂ) • s.h.C k) = _
    rw [polar_occs, hC]
  · rw [← g8]; exact hC
  · rw [← g8]
  · rw [← g8]
    show (fun k i => sloshLevel (polar (occs .gauss sloshP.T 2 (sloshBands a) 0)) k * (((s.h.C k)ᴴ * s.h.C k) i i).re
      : Bands sloshN) = _
    rw [hek _ _ hC, polar_occs]
  · rw [g6, ← g7]
    show 2 * polar (occs .gauss sloshP.T 2 (sloshBands a) 0) ^ 2
      + entropyTerm .gauss sloshP.T 2 0 (List.ofFn fun k : Fin 2 => ((1 / 2 : ℝ), List.ofFn (sloshBands a k))) = _
    rw [polar_occs, slosh_entropy, sloshF]
    ring

theorem one_le_sqrt_pi : 1 ≤ √Real.pi := by
  rw [Real.one_le_sqrt]
  linarith [Real.pi_gt_three]

theorem sqrt_pi_le_two : √Real.pi ≤ 2 := by
  rw [Real.sqrt_le_left (by norm_num)]
  linarith [Real.pi_le_four]

theorem abs_erf_le (a : ℝ) : |erf a| ≤ 2 * |a| := by
  have h := Convex.norm_image_sub_le_of_norm_hasDerivWithin_le (f := erf) (f' := fun x => 2 / √Real.pi * Real.exp (-x ^ 2))
    (s := Set.univ) (C := 2) (x := 0) (y := a) (fun x _ => (hasDerivAt_erf x).hasDerivWithinAt) (fun x _ => by
      rw [Real.norm_eq_abs, abs_of_nonneg (by positivity)]
      have h1 : 2 / √Real.pi ≤ 2 := by
        rw [div_le_iff₀ (by linarith [one_le_sqrt_pi])]; linarith [one_le_sqrt_pi]
      have h2 : Real.exp (-x ^ 2) ≤ 1 := Real.exp_le_one_iff.2 (by nlinarith [sq_nonneg x])
      calc 2 / √Real.pi * Real.exp (-x ^ 2) ≤ 2 * 1 := mul_le_mul h1 h2 (Real.exp_pos _).le (by norm_num)
        _ = 2 := by norm_num) convex_univ (Set.mem_univ _) (Set.mem_univ _)
  simpa [erf_zero] using h

/-- the error function near zero -/
theorem erf_ge (a : ℝ) (h0 : 0 ≤ a) (h1 : a ≤ 1 / 2) : a / 2 ≤ erf a := by
  have hd : ∀ x, HasDerivAt (fun y => erf y - y / 2) (2 / √Real.pi * Real.exp (-x ^ 2) - 1 / 2) x := fun x =>
    (hasDerivAt_erf x).sub ((hasDerivAt_id x).div_const 2)
  have hm : MonotoneOn (fun y => erf y - y / 2) (Set.Icc 0 (1 / 2)) := by
    refine monotoneOn_of_deriv_nonneg (convex_Icc _ _) (fun x _ => (hd x).continuousAt.continuousWithinAt)
      (fun x _ => (hd x).differentiableAt.differentiableWithinAt) fun x hx => ?_
    rw [interior_Icc] at hx
    rw [(hd x).deriv]
    have e1 : (1 : ℝ) ≤ 2 / √Real.pi := by
      rw [le_div_iff₀ (by linarith [one_le_sqrt_pi])]; linarith [sqrt_pi_le_two]
    have e2 : 1 - x ^ 2 ≤ Real.exp (-x ^ 2) := by linarith [Real.add_one_le_exp (-x ^ 2)]
    have e3 : (1 : ℝ) / 2 ≤ Real.exp (-x ^ 2) := by nlinarith [hx.1, hx.2]
    nlinarith
  have := hm ⟨le_rfl, by norm_num⟩ ⟨h0, h1⟩ h0
  simp only [erf_zero] at this
  linarith

theorem slosh_slope (a : ℝ) (pt : Point sloshN sloshN) (h : LState sloshN sloshN) (p1 : pt.X = fun _ => 1)
    (p2 : pt.ek = sloshBands a) (p4 : pt.mu = 0)
    (p5 : pt.hx = fun k => (sloshLevel (-erf a) k : ℂ) • 1) (p6 : h.ek = fun k _ => sloshLevel (-erf a) k) :
    |(restarted sloshCfg.la (dirParams sloshCfg pt) (kIn sloshHost sloshCfg pt h)).1| ≤ 49 * a ^ 2 := by
  have hphys : ∀ k, Physical (kIn sloshHost sloshCfg pt h k) ((sloshLevel (-erf a) k : ℂ) • 1) := fun k => by
    refine ⟨?_, ?_, ?_, ?_, PosDef.one, by norm_num [kIn, sloshCfg]⟩
    · rw [Matrix.IsHermitian, conjTranspose_smul, conjTranspose_one]; simp
    · show pt.hx k = _ * pt.X k
      rw [p5, p1, Matrix.mul_one]
    · intro i
      show ((h.ek k i : ℝ) : ℂ) = ((pt.X k)ᴴ * ((((sloshLevel (-erf a) k : ℂ) • 1) : Mat 1 1) * pt.X k)) i i
      rw [p6, p1]
      simp
    · show (pt.X k)ᴴ * ((1 : Mat 1 1) * pt.X k) = 1
      rw [p1]; simp
  have hl : ∀ k, lmult sloshCfg.la ((kIn sloshHost sloshCfg pt h k).S * (kIn sloshHost sloshCfg pt h k).X)
      (kIn sloshHost sloshCfg pt h k).hx (kIn sloshHost sloshCfg pt h k).P = (kIn sloshHost sloshCfg pt h k).hx := fun k => by
    show lmult refLapack ((1 : Mat 1 1) * pt.X k) (pt.hx k) 1 = pt.hx k
    rw [p1, p5]
    simp only [lmult, innerM_one, transformM, Matrix.one_mul, conjTranspose_one]
    have := solve_eigen refLapack_ok (N := 1) (A := (1 : Mat 1 1)) PosDef.one ((sloshLevel (-erf a) k : ℂ) • (1 : Mat 1 1))
    rw [Matrix.one_mul] at this
    exact this
  rw [restarted_slope (la := sloshCfg.la) refLapack_ok (dirParams sloshCfg pt) (by simp [dirParams, sloshCfg]) _ _ hphys]
  simp only [hl, sub_self, conjTranspose_zero, Matrix.zero_mul, Matrix.zero_apply, Complex.zero_re, mul_zero,
    Finset.sum_const_zero, zero_add]
  have hoff : ∀ k, (∑ j : Fin (sloshN k), ∑ i : Fin (sloshN k), (if i = j then (0 : ℝ) else
      -quot (kIn sloshHost sloshCfg pt h k).e (kIn sloshHost sloshCfg pt h k).f i j * Complex.normSq
        (((kIn sloshHost sloshCfg pt h k).Xᴴ * (kIn sloshHost sloshCfg pt h k).hx) i j))) = 0 := fun k => by
    refine Finset.sum_eq_zero fun j _ => Finset.sum_eq_zero fun i _ => ?_
    rw [if_pos (Subsingleton.elim i j)]
  simp only [hoff, mul_zero, Finset.sum_const_zero, add_zero]
  have hsh : shift SmearType.gauss sloshP.T 2 (fun _ : Fin 2 => (1 / 2 : ℝ)) (fun k (_ : Fin 1) => sloshLevel (-erf a) k)
      (sloshBands a) 0 = 0 := by
    rw [shift]
    split
    · rfl
    · rw [Fin.sum_univ_two]
      simp only [Fin.sum_univ_one]
      rw [div_eq_zero_iff]
      left
      show 1 / 2 * (gaussDelta ((0 - a) / (kB * sloshP.T)) 2 * (4 * (-erf a) - a))
        + 1 / 2 * (gaussDelta ((0 - -a) / (kB * sloshP.T)) 2 * (-(4 * (-erf a)) - -a)) = 0
      rw [slosh_kT, gaussDelta, gaussDelta, show -((0 - a) / 1) * ((0 - a) / 1) = -a * a by ring,
        show -((0 - -a) / 1) * ((0 - -a) / 1) = -a * a by ring]
      ring
  have hsum : ∀ x : ℝ, x = 3 / 10 / (kB * sloshP.T) * (∑ k : Fin 2, (1 / 2 : ℝ) * ∑ i : Fin 1,
      gaussDelta ((0 - sloshBands a k i) / (kB * sloshP.T)) 2 * (sloshLevel (-erf a) k - sloshBands a k i
        - shift SmearType.gauss sloshP.T 2 (fun _ : Fin 2 => (1 / 2 : ℝ)) (fun k (_ : Fin 1) => sloshLevel (-erf a) k)
          (sloshBands a) 0) ^ 2) → |-x| ≤ 49 * a ^ 2 := by
    rintro x rfl
    rw [hsh, slosh_kT, Fin.sum_univ_two]
    simp only [Fin.sum_univ_one]
    show |-(3 / 10 / 1 * (1 / 2 * (gaussDelta ((0 - a) / 1) 2 * (4 * (-erf a) - a - 0) ^ 2)
      + 1 / 2 * (gaussDelta ((0 - -a) / 1) 2 * (-(4 * (-erf a)) - -a - 0) ^ 2)))| ≤ _
    rw [gaussDelta, gaussDelta, show -((0 - a) / 1) * ((0 - a) / 1) = -a * a by ring,
      show -((0 - -a) / 1) * ((0 - -a) / 1) = -a * a by ring]
    have h1 : 2 * Real.exp (-a * a) / √Real.pi ≤ 2 := by
      rw [div_le_iff₀ (by linarith [one_le_sqrt_pi])]
      have : Real.exp (-a * a) ≤ 1 := Real.exp_le_one_iff.2 (by nlinarith [sq_nonneg a])
      linarith [one_le_sqrt_pi]
    have h2 : 0 ≤ 2 * Real.exp (-a * a) / √Real.pi := by positivity
    have h3 : (4 * erf a + a) ^ 2 ≤ (9 * a) ^ 2 := by
      rw [sq_le_sq]
      calc |4 * erf a + a| ≤ |4 * erf a| + |a| := abs_add_le _ _
        _ ≤ 4 * (2 * |a|) + |a| := by
            rw [abs_mul, abs_of_pos (by norm_num : (0 : ℝ) < 4)]
            linarith [abs_erf_le a]
        _ = |9 * a| := by rw [abs_mul, abs_of_pos (by norm_num : (0 : ℝ) < 9)]; ring
    generalize 2 * Real.exp (-a * a) / √Real.pi = g at h1 h2
    rw [abs_neg, show 3 / 10 / 1 * (1 / 2 * (g * (4 * (-erf a) - a - 0) ^ 2)
      + 1 / 2 * (g * (-(4 * (-erf a)) - -a - 0) ^ 2)) = 3 / 10 * (g * (4 * erf a + a) ^ 2) by ring,
      abs_of_nonneg (by positivity)]
    have h4 : g * (4 * erf a + a) ^ 2 ≤ 2 * (9 * a) ^ 2 := mul_le_mul h1 h3 (sq_nonneg _) (by norm_num)
    nlinarith
  refine hsum _ ?_
  rw [← show (fun k => pt.ek k) = sloshBands a from p2, ← p4]
  have hek : (fun k (_ : Fin 1) => sloshLevel (-erf a) k) = fun k i => (kIn sloshHost sloshCfg pt h k).hii i := by
    show _ = fun k i => h.ek k i
    rw [p6]
  simp only [kIn, dirParams, sloshCfg]
  show _ * (∑ k : Fin 2, (1 / 2 : ℝ) * ∑ i : Fin 1, (smearFns .gauss).delta _ 2 * (h.ek k i - _ -
    shift _ _ _ _ (fun k => h.ek k) _ _) ^ 2) = _
  rw [p6]
  rfl

end Nlcg
