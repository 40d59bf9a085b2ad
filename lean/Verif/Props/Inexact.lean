import Verif.Proofs.Inexact

/-! # Properties of steps with rounded operations: C98 -/

namespace Nlcg
open Matrix Spec ComplexOrder
open scoped Matrix.Norms.L2Operator

variable {N B n : ℕ}

/-- **C98 (one step).** How far the orbitals are from S-orthonormal after a step depends on the rounding
errors of this step only, not on how far they were before it. -/
theorem C98_step {ops : MatOps} {eps gamma L : ℝ} (hr : RoundedOps ops eps gamma) {S : Mat N N} (hS : S.PosSemidef)
    (hL : 1 ≤ L) (hsmall : (150 + 40 * gamma) * eps * L ≤ 1 / 8) {X zx : Mat N B} {eta zeta : Mat B B} {t : ℝ}
    (h0 : orthoError S X ≤ 1 / 8) (hm : Moderate S L X zx t) {o : GeoOut N B}
    (h : geodesicR ops X eta zx zeta S t = .ok o) : orthoError S o.X ≤ (150 + 40 * gamma) * eps * L := by
  have heps := hr.eps_nonneg
  have hgam := hr.gamma_nonneg
  have hge : 0 ≤ gamma * (eps * L) := by positivity
  have heL : eps ≤ eps * L := le_mul_of_one_le_right heps hL
  have heL' : 0 ≤ eps * L := by positivity
  have he : eps ≤ 1 / 100 := by linarith
  obtain ⟨h1, h2⟩ := moved_lower hr hS he hm.1 (by linarith) h0 hm.2
  obtain ⟨ek, ul, X2, hw, h3, rfl⟩ : ∃ ek ul X2, ops.eigh (ops.add eta zeta t) = .ok (ek, ul) ∧
      loewdinR ops (ops.add X zx t) (ops.apply S (ops.add X zx t)) = .ok X2 ∧
      o = { ek := ek, ul := ul, X := ops.transform X2 ul } := by
    rw [geodesicR] at h
    rcases hw : ops.eigh (ops.add eta zeta t) with ⟨ek, ul⟩ | e | _ | _
    · rw [hw] at h
      simp only [Res.bind_ok, advanceXR] at h
      rcases hx : loewdinR ops (ops.add X zx t) (ops.apply S (ops.add X zx t)) with X2 | e | _ | _
      · rw [hx] at h
        exact ⟨ek, ul, X2, rfl, rfl, (Res.ok.inj h).symm⟩
      all_goals rw [hx] at h; cases h
    all_goals rw [hw] at h; cases h
  have h4 := step_error (mm := 1 / 2) hr hS.isHermitian he (by norm_num) (by linarith) h1 h2
    (by linarith) (by linarith) (hr.unitary _ _ _ hw).1 h3
  refine h4.trans ?_
  have : 103 / 100 * L / (1 / 2) = 103 / 50 * L := by ring
  rw [this]
  linarith

/-- **C98.** After any number of steps, in any directions, the orbitals are S-orthonormal up to a bound
that does not grow with the number of steps: errors do not accumulate. -/
theorem C98_no_accumulation {ops : MatOps} {eps gamma L : ℝ} (hr : RoundedOps ops eps gamma) {S : Mat N N}
    (hS : S.PosSemidef) (hL : 1 ≤ L) (hsmall : (150 + 40 * gamma) * eps * L ≤ 1 / 8) {X0 X : Mat N B} {i : ℕ}
    (h0 : orthoError S X0 ≤ 1 / 8) (h : Steps ops S (Moderate S L) X0 i X) (hi : i ≠ 0) :
    orthoError S X ≤ (150 + 40 * gamma) * eps * L := by
  revert hi
  suffices key : orthoError S X ≤ 1 / 8 ∧ (i ≠ 0 → orthoError S X ≤ (150 + 40 * gamma) * eps * L) from key.2
  induction h with
  | start => exact ⟨h0, fun h => absurd rfl h⟩
  | step i X eta zx zeta t o _ hm hg ih =>
    have := C98_step hr hS hL hsmall ih.1 hm hg
    exact ⟨this.trans hsmall, fun _ => this⟩

/-! ## Such operations exist -/

/-- every result too large by a factor `1 + d`; the eigensolver sees the Hermitian part only -/
noncomputable def sloppyOps (d : ℝ) : MatOps where
  add := fun A B t => ((1 + d : ℝ) : ℂ) • (A + (t : ℂ) • B)
  apply := fun S A => ((1 + d : ℝ) : ℂ) • (S * A)
  inner := fun A B => ((1 + d : ℝ) : ℂ) • (Aᴴ * B)
  eigh := fun A => refLapack.eigh (((1 / 2 : ℝ) : ℂ) • (A + Aᴴ))
  scaleInvSqrt := fun U w => ((1 + d : ℝ) : ℂ) • (U * diagonal (fun i => ((1 / √(w i) : ℝ) : ℂ)))
  outer := fun A B => ((1 + d : ℝ) : ℂ) • (A * Bᴴ)
  transform := fun A B => ((1 + d : ℝ) : ℂ) • (A * B)

theorem sloppy_hermitian (A : Mat n n) : (((1 / 2 : ℝ) : ℂ) • (A + Aᴴ)).IsHermitian := by
  rw [IsHermitian, conjTranspose_smul, conjTranspose_add, conjTranspose_conjTranspose, add_comm]
  simp

theorem scaled_error {m n : ℕ} (A : Mat m n) {d e : ℝ} (hd : 0 ≤ d) (h : ‖A‖ ≤ e) :
    ‖((1 + d : ℝ) : ℂ) • A - A‖ ≤ d * e := by
  have : ((1 + d : ℝ) : ℂ) • A - A = (d : ℂ) • A := by
    rw [Complex.ofReal_add, add_smul, Complex.ofReal_one, one_smul]; abel
  rw [this, norm_smul, Complex.norm_real, Real.norm_of_nonneg hd]
  exact mul_le_mul_of_nonneg_left h hd

theorem sloppy_rounded {d : ℝ} (hd : 0 ≤ d) : RoundedOps (sloppyOps d) d 1 where
  eps_nonneg := hd
  gamma_nonneg := zero_le_one
  add := fun A B t => scaled_error _ hd ((norm_add_le _ _).trans (by
    rw [norm_smul, Complex.norm_real, Real.norm_eq_abs]))
  apply := fun S A => scaled_error _ hd (l2_opNorm_mul _ _)
  inner := fun A B => scaled_error _ hd ((l2_opNorm_mul _ _).trans (by rw [l2_opNorm_conjTranspose]))
  unitary := fun A w U h => by
    have hu := (refLapack_ok.eigh (sloppy_hermitian A) h).1
    have hu' : U * Uᴴ = 1 := mul_eq_one_comm.1 hu
    rw [hu, hu']
    simpa using hd
  eigh := fun A H w U hH h => by
    obtain ⟨hu, ha⟩ := refLapack_ok.eigh (sloppy_hermitian A) h
    have e : H - U * diagonal (fun i => (w i : ℂ)) * Uᴴ = ((1 / 2 : ℝ) : ℂ) • ((H - A) + (H - A)ᴴ) := by
      rw [← ha, Matrix.mul_assoc, mul_eq_one_comm.1 hu, Matrix.mul_one, conjTranspose_sub, hH.eq]
      have : H = ((1 / 2 : ℝ) : ℂ) • (H + H) := by
        rw [← two_smul ℂ H, smul_smul]; norm_num
      conv_lhs => rw [this]
      rw [← smul_sub]
      congr 1
      abel
    rw [e, norm_smul, Complex.norm_real, Real.norm_of_nonneg (by norm_num)]
    have h1 := norm_add_le (H - A) (H - A)ᴴ
    rw [l2_opNorm_conjTranspose, norm_sub_rev] at h1
    have : 0 ≤ d * ‖A‖ := by positivity
    linarith
  scaleInvSqrt := fun {n} U w r hw => by
    rcases n with _ | n
    · have : ∀ A : Mat 0 0, ‖A‖ = 0 := fun A => by rw [Subsingleton.elim A 0, norm_zero]
      rw [this, this, zero_mul, mul_zero]
    · have hr0 : 0 ≤ r := le_trans (by positivity) (hw 0).2
      refine scaled_error _ hd ((l2_opNorm_mul _ _).trans (mul_le_mul_of_nonneg_left ?_ (norm_nonneg _)))
      exact norm_diag_le hr0 fun i => by rw [abs_of_nonneg (by positivity)]; exact (hw i).2
  outer := fun A B => scaled_error _ hd ((l2_opNorm_mul _ _).trans (by rw [l2_opNorm_conjTranspose]))
  transform := fun A B => scaled_error _ hd (l2_opNorm_mul _ _)

theorem sloppy_eigh (d : ℝ) (A : Mat n n) : ∃ w U, (sloppyOps d).eigh A = .ok (w, U) :=
  eigh_total refLapack_total (sloppy_hermitian A)

theorem sloppy_step (d : ℝ) (X : Mat N B) (eta : Mat B B) (zx : Mat N B) (zeta : Mat B B) (S : Mat N N) (t : ℝ) :
    ∃ o, geodesicR (sloppyOps d) X eta zx zeta S t = .ok o := by
  obtain ⟨w, U, h⟩ := sloppy_eigh d ((sloppyOps d).add eta zeta t)
  obtain ⟨w', U', h'⟩ := sloppy_eigh d ((sloppyOps d).inner ((sloppyOps d).add X zx t)
    ((sloppyOps d).apply S ((sloppyOps d).add X zx t)))
  rw [geodesicR, h]
  simp only [Res.bind_ok, advanceXR, loewdinR, h']
  exact ⟨_, rfl⟩

/-- Histories of any length with operations that are wrong in the sixth digit, always in the same
direction: the orbitals stay orthonormal up to `6e-4`. -/
theorem sloppy_history (i : ℕ) : ∃ X : Mat 2 1, Steps (sloppyOps (1 / 10 ^ 6)) (1 : Mat 2 2) (Moderate 1 3) (unitCol 0) i X ∧
    orthoError 1 X ≤ 1 / 8 := by
  have h0 : orthoError (1 : Mat 2 2) (unitCol 0) ≤ 1 / 8 := by
    have : (unitCol (0 : Fin 2))ᴴ * ((1 : Mat 2 2) * unitCol 0) - 1 = (0 : Mat 1 1) := by
      ext a b
      obtain rfl := Subsingleton.elim a 0
      obtain rfl := Subsingleton.elim b 0
      simp [mul_apply, unitCol, conjTranspose_apply]
    unfold orthoError
    rw [this, norm_zero]
    norm_num
  induction i with
  | zero => exact ⟨_, .start, h0⟩
  | succ i ih =>
    obtain ⟨X, hX, he⟩ := ih
    have hn : ‖X‖ ≤ 11 / 10 := by
      have h1 : ‖Xᴴ * X‖ ≤ 1 / 8 + 1 := by
        have := norm_add_le (Xᴴ * X - 1) 1
        rw [sub_add_cancel, norm11 1, Matrix.one_apply_eq, norm_one] at this
        rw [orthoError, Matrix.one_mul] at he
        linarith
      rw [l2_opNorm_conjTranspose_mul_self] at h1
      nlinarith [norm_nonneg X]
    have hm : Moderate (1 : Mat 2 2) 3 X (unitCol 1) (1 / 16) := by
      have h1 : ‖(1 : Mat 2 2)‖ ≤ 1 := norm_one_le
      constructor
      · rw [unitCol_norm, abs_of_nonneg (by norm_num)]
        have h2 := norm_nonneg X
        calc _ ≤ 1 * (‖X‖ + 1 / 16 * 1) ^ 2 := mul_le_mul_of_nonneg_right h1 (by positivity)
          _ ≤ 3 := by nlinarith
      · have := l2_opNorm_mul Xᴴ (unitCol (1 : Fin 2))
        rw [l2_opNorm_conjTranspose, unitCol_norm] at this
        rw [Matrix.one_mul, abs_of_nonneg (by norm_num)]
        linarith
    obtain ⟨o, ho⟩ := sloppy_step (1 / 10 ^ 6) X 0 (unitCol 1) 0 1 (1 / 16)
    have hs := Steps.step i X 0 (unitCol 1) 0 (1 / 16) o hX hm ho
    refine ⟨o.X, hs, ?_⟩
    exact (C98_step (sloppy_rounded (by norm_num)) PosSemidef.one (by norm_num) (by norm_num) he hm ho).trans (by norm_num)

example (i : ℕ) (hi : i ≠ 0) : ∃ X : Mat 2 1,
    Steps (sloppyOps (1 / 10 ^ 6)) (1 : Mat 2 2) (Moderate 1 3) (unitCol 0) i X ∧ orthoError 1 X ≤ 6 / 10 ^ 4 := by
  obtain ⟨X, h, -⟩ := sloppy_history i
  obtain ⟨Y, hY, h0⟩ := sloppy_history 0
  cases hY
  exact ⟨X, h, (C98_no_accumulation (sloppy_rounded (by norm_num)) PosSemidef.one (by norm_num) (by norm_num) h0 h hi).trans
    (by norm_num)⟩

/-- with exact operations this is the step of `Model/Geodesic.lean` -/
theorem geodesicR_exact (la : Lapack) (X : Mat N B) (eta : Mat B B) (zx : Mat N B) (zeta : Mat B B) (S : Mat N N)
    (t : ℝ) : geodesicR (exactOps la) X eta zx zeta S t = geodesicUs la X eta zx zeta S t := rfl

end Nlcg
