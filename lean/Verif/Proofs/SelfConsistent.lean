import Verif.Props.Solver
import Verif.Spec.SelfConsistent

/-! At a self-consistent solution the restarted direction is zero. -/

namespace Nlcg
open Matrix Arith Spec ComplexOrder

theorem solve_eigen {la : Lapack} (hla : LapackOk la) {N B : ℕ} {A : Mat B B} (hA : A.PosDef)
    (D : Mat B B) : la.solve A (A * D) = D := by
  have h := hla.solveSym A (A * D) hA
  have hu : IsUnit A.det := (Matrix.isUnit_iff_isUnit_det A).1 hA.isUnit
  calc la.solve A (A * D) = A⁻¹ * (A * la.solve A (A * D)) := by
        rw [← Matrix.mul_assoc, nonsing_inv_mul A hu, Matrix.one_mul]
    _ = D := by rw [h, ← Matrix.mul_assoc, nonsing_inv_mul A hu, Matrix.one_mul]

variable {K : ℕ} {n b : Fin K → ℕ}

/-- the direction of one k-point at an eigenvector -/
theorem execSpc_eigen {la : Lapack} (hla : LapackOk la) {N B : ℕ} (p : DirParams) (dF s : ℝ)
    (k : KIn N B) (ho : SOrtho k.S k.X) (hP : k.P.PosDef) (hw : k.wk ≠ 0)
    (hx : k.hx = k.S * k.X * diagonal fun i => (k.e i : ℂ)) :
    (execSpc la p dF s k).dx = 0 ∧ (execSpc la p dF s k).deta = 0 ∧ (execSpc la p dF s k).fr = 0 := by
  have hpd : ((k.S * k.X)ᴴ * (k.P * (k.S * k.X))).PosDef := by
    rw [← Matrix.mul_assoc]; exact hP.conjTranspose_mul_mul_same (sx_injective ho)
  have hl : lmult la (k.S * k.X) k.hx k.P = k.hx := by
    simp only [lmult, innerM_one, transformM]
    have : (k.S * k.X)ᴴ * (k.P * k.hx) = (k.S * k.X)ᴴ * (k.P * (k.S * k.X))
        * diagonal fun i => (k.e i : ℂ) := by rw [hx]; simp only [Matrix.mul_assoc]
    rw [this, solve_eigen hla (N := N) hpd, hx]
  have h1 : (execSpc la p dF s k).dx = 0 := by
    show precondgxUs k.hx k.P (lmult la (k.S * k.X) k.hx k.P) = 0
    rw [hl, precondgxUs_eq]; simp
  have h2 : (execSpc la p dF s k).deta = 0 := by
    show deltaEta p.kappa (innerM k.X k.hx (k.wk : ℂ)) k.e k.wk = 0
    have : k.Xᴴ * k.hx = diagonal fun i => (k.e i : ℂ) := by
      rw [hx, ← Matrix.mul_assoc, ho, Matrix.one_mul]
    have hwc : (k.wk : ℂ) ≠ 0 := by exact_mod_cast hw
    ext i j
    simp only [deltaEta, innerM, this, Matrix.smul_apply, smul_eq_mul, Matrix.zero_apply]
    by_cases hij : i = j
    · subst hij
      simp only [diagonal_apply_eq, if_true]
      push_cast
      field_simp
      ring
    · simp [hij]
  refine ⟨h1, h2, ?_⟩
  show 2 * (innerhTr (execSpc la p dF s k).gx (execSpc la p dF s k).dx).re
    + (innerhTr (execSpc la p dF s k).geta (execSpc la p dF s k).deta).re = 0
  rw [h1, h2]
  simp [innerhTr]

variable {η : Type} {host : Host η n b} {c : Cfg n b} {X : Orbitals n b} {f e : Bands b} {mu : ℝ}

/-- the start of a run in a space that the Hamiltonian maps to itself -/
theorem setup_closed (hs : Setting host c) (hn : NeverThrows host) {L : (k : Fin K) → Mat (b k) (b k)}
    (hsc : ClosedSpace host c X f e mu L) (s : SState η n b) (hc : s.calls = [])
    (hC : host.C s.h = X) (hf : host.fn s.h = f) :
    ∃ pt s', solverSetup host c s = (.ok pt, s') ∧ pt.X = X ∧ pt.ek = e ∧ pt.fn = f ∧ pt.mu = mu ∧
      (∀ k, pt.hx k = c.S k * X k * L k ∧ host.hphi s'.h k = c.S k * X k * L k) ∧
      host.ek s'.h = e ∧ AtHost host s'.h (X, f, mu) ∧
      s'.calls = .compute :: evaluation (X, f, mu) ∧
      ∃ h E h', host.C h = X ∧ host.fn h = f ∧ host.energy h = (some E, h') ∧
        s'.F = E + -(kB * c.T) * ∑ k, c.wk k * ∑ i, (smearFns c.t).entropy ((mu - e k i) / (kB * c.T)) c.mo := by
  obtain ⟨h1, e1⟩ := hn.compute s.h
  obtain ⟨g1, g2, -⟩ := hs.host.compute s.h h1 e1
  obtain ⟨a1, -⟩ := hsc.closed s.h h1 hC hf e1
  have ev := evaluate_spec (c := c) hs.host X f e mu { s with h := h1, calls := [.compute] }
    .start (by intro Y hY; simp at hY) hsc.ortho
  obtain ⟨s', he⟩ := evaluate_total (c := c) hn X f e mu { s with h := h1, calls := [.compute] }
  rcases ev with ⟨s2, e2, -⟩ | ⟨s2, e2, e3, -, e5, -⟩
  · rw [he] at e2; simp at e2
  rw [he] at e2
  obtain rfl : s' = s2 := by simpa using e2
  obtain ⟨k1, k2, k3, k4, v, q1, q2, q3, q4, q5, q6⟩ := evaluate_ok he
  obtain ⟨f1, f2⟩ := hs.host.setFn f k1 k2 q2
  obtain ⟨g3, g4, -⟩ := hs.host.compute k2 k3 q3
  obtain ⟨b1, b2⟩ := hsc.closed k2 k3 (by rw [f2]; exact hs.host.setC X _ k1 q1) f1 q3
  obtain ⟨m1, -⟩ := hs.host.setMu mu k3 k4 q4
  obtain ⟨v1, -⟩ := hs.host.energy k4 v _ q5
  refine ⟨{ X := host.C s'.h, ek := e, ul := c.junk, eta := fun k => makeDiag (e k), fn := f,
            hx := host.hphi s'.h, mu := mu }, s', ?_, e5.C, rfl, rfl, rfl, fun k => ?_, ?_, e5, e3,
    k4, v, s'.h, ?_, ?_, q5, q6.trans (by rw [entropyTerm_ofFn])⟩
  · rw [solverSetup, hostCall_bind, e1]
    simp only [hc, List.nil_append]
    rw [SM.get_bind, SM.lift_bind]
    simp only [a1, hsc.occ]
    rw [SM.get_bind, SM.bind_apply]
    simp only [g1, hC]
    rw [he]
    rfl
  · have hh : host.hphi s'.h k = c.S k * X k * L k := by rw [v1.hphi, m1.hphi]; exact b2 k
    exact ⟨hh, hh⟩
  · rw [v1.ek, m1.ek]; exact b1
  · rw [m1.C, g3, f2]; exact hs.host.setC X _ k1 q1
  · rw [m1.fn, g4, f1]

/-- the start of a run at a self-consistent solution -/
theorem setup_selfConsistent (hs : Setting host c) (hn : NeverThrows host)
    (hsc : SelfConsistent host c X f e mu) (s : SState η n b) (hc : s.calls = [])
    (hC : host.C s.h = X) (hf : host.fn s.h = f) :
    ∃ pt s', solverSetup host c s = (.ok pt, s') ∧ pt.X = X ∧ pt.ek = e ∧ pt.fn = f ∧ pt.mu = mu ∧
      (∀ k, pt.hx k = c.S k * X k * diagonal fun i => (e k i : ℂ)) ∧
      host.ek s'.h = e ∧ AtHost host s'.h (X, f, mu) ∧
      s'.calls = .compute :: evaluation (X, f, mu) ∧
      ∃ h E h', host.C h = X ∧ host.fn h = f ∧ host.energy h = (some E, h') ∧
        s'.F = E + -(kB * c.T) * ∑ k, c.wk k * ∑ i, (smearFns c.t).entropy ((mu - e k i) / (kB * c.T)) c.mo := by
  obtain ⟨pt, s', h1, h2, h3, h4, h5, h6, h7⟩ := setup_closed hs hn ⟨hsc.ortho, hsc.occ, hsc.eigen⟩ s hc hC hf
  exact ⟨pt, s', h1, h2, h3, h4, h5, fun k => (h6 k).1, h7⟩

/-- the slope of one k-point vanishes in a space that the Hamiltonian maps to itself if the pseudo-energies are (nearly)
equal -/
theorem execSpc_tied {la : Lapack} (hla : LapackOk la) {N B : ℕ} (p : DirParams) (dF s : ℝ)
    (k : KIn N B) (ho : SOrtho k.S k.X) (hP : k.P.PosDef) (hw : k.wk ≠ 0) (L : Mat B B)
    (hx : k.hx = k.S * k.X * L) (hL : ∀ i, L i i = (k.e i : ℂ))
    (htie : ∀ i j, |k.e j - k.e i| < 1 / 10 ^ 10) : (execSpc la p dF s k).fr = 0 := by
  have hpd : ((k.S * k.X)ᴴ * (k.P * (k.S * k.X))).PosDef := by
    rw [← Matrix.mul_assoc]; exact hP.conjTranspose_mul_mul_same (sx_injective ho)
  have hl : lmult la (k.S * k.X) k.hx k.P = k.hx := by
    simp only [lmult, innerM_one, transformM]
    have : (k.S * k.X)ᴴ * (k.P * k.hx) = (k.S * k.X)ᴴ * (k.P * (k.S * k.X)) * L := by
      rw [hx]; simp only [Matrix.mul_assoc]
    rw [this, solve_eigen hla (N := N) hpd, hx]
  have h1 : (execSpc la p dF s k).dx = 0 := by
    show precondgxUs k.hx k.P (lmult la (k.S * k.X) k.hx k.P) = 0
    rw [hl, precondgxUs_eq]; simp
  have hX : k.Xᴴ * k.hx = L := by rw [hx, ← Matrix.mul_assoc, ho, Matrix.one_mul]
  have hd : ∀ i, (execSpc la p dF s k).deta i i = 0 := by
    intro i
    show deltaEta p.kappa (innerM k.X k.hx (k.wk : ℂ)) k.e k.wk i i = 0
    have hwc : (k.wk : ℂ) ≠ 0 := by exact_mod_cast hw
    simp only [deltaEta, innerM, hX, Matrix.smul_apply, smul_eq_mul, hL, if_true]
    push_cast
    field_simp
    ring
  have hg : ∀ i j, i ≠ j → (execSpc la p dF s k).geta i j = 0 := by
    intro i j hij
    show gEta _ _ _ _ _ _ _ _ _ _ i j = 0
    simp only [gEta, if_neg hij, if_pos (htie i j)]
  show 2 * (innerhTr (execSpc la p dF s k).gx (execSpc la p dF s k).dx).re
    + (innerhTr (execSpc la p dF s k).geta (execSpc la p dF s k).deta).re = 0
  have h2 : innerhTr (execSpc la p dF s k).geta (execSpc la p dF s k).deta = 0 := by
    rw [innerhTr]
    refine Finset.sum_eq_zero fun i _ => Finset.sum_eq_zero fun j _ => ?_
    by_cases hij : i = j
    · subst hij; rw [hd]; simp
    · rw [hg i j hij]; simp
  rw [h1, h2]
  simp [innerhTr]

/-- a run whose first slope is zero -/
theorem converged_at_once (hs : Setting host c) (hn : NeverThrows host) (hT : c.T ≠ 0) {pt : Point n b}
    {s2 : SState η n b} {w : NState ℝ (SState η n b)} (h2 : solverSetup host c w.s = (.ok pt, s2))
    (hr : (restarted c.la (dirParams c pt) (kIn host c pt s2.h)).1 = 0) (prm : NlcgParams ℝ) (htol : 0 < prm.tol)
    (hm : 1 ≤ prm.maxiter) (fuel rank : ℕ) :
    ∃ w', solve host c prm fuel rank w = some (.ok
        { vals := some { tolerance := -1, F := s2.F, S := s2.S, iter := 0 }, converged := true }, w') ∧
      SameView host s2.h w'.s.h ∧ host.mu w'.s.h = host.mu s2.h ∧ w'.s.calls = s2.calls ++ [.print] ∧
      w'.trace = [.start 0 0, .report 0 s2.F s2.S 0] := by
  obtain ⟨h3, e3⟩ := hn.print s2.h
  obtain ⟨v3, m3⟩ := hs.host.print _ _ e3
  obtain ⟨m, hm'⟩ : ∃ m, prm.maxiter.toNat = m + 1 := ⟨prm.maxiter.toNat - 1, by omega⟩
  have hlt : (Arith.abs (0 : ℝ) <ᶠ prm.tol) = true := by
    simp only [Arith.abs, Arith.lt]
    exact decide_eq_true (by simpa using htol)
  let r : JsonRec ℝ := { step := 0, F := s2.F, entropy := s2.S, slope := 0, bands := true }
  let i : Info ℝ := { vals := some { tolerance := -1, F := s2.F, S := s2.S, iter := 0 }, converged := true }
  let s3 : SState η n b := { s2 with h := h3, calls := s2.calls ++ [.print] }
  refine ⟨⟨s3, if rank = 0 then [r] else [], i, false, [.start 0 0, .report 0 s2.F s2.S 0]⟩, ?_, v3, m3, rfl, rfl⟩
  rw [solve, nlcg]
  have q1 : (solverOps host c).construct w.s = (.ok (), w.s) := by
    simp [solverOps, hT]
  have q2 : (solverOps host c).setup w.s = (.ok pt, s2) := h2
  have q3 : (solverOps host c).restarted pt s2
      = (.ok (0, (restarted c.la (dirParams c pt) (kIn host c pt s2.h)).2), s2) := by
    rw [← hr]; rfl
  have q4 : hostCall .print host.print s2 = (.ok (), s3) := by rw [hostCall, e3]
  simp only [FM.bind_apply, FM.modify_apply, liftOp, q1, q2, q3, hm', cgLoop, emit, hlt, if_true,
    cgSuccess, setInfo, writeJson, FM.get_apply, FM.pure_apply]
  simp [solverOps, printInfo, lit, Arith.add, q4, r, i]

end Nlcg
