import Verif.Proofs.Descent

/-!
# C16, C17, C18, C21, C64, C65, C67: search directions

`K` k-points (of all ranks); k-point `k` has `n k` basis functions and `b k` bands. `ks k` is the
input of the direction code, `H k` the Hamiltonian, see `Spec.Physical`. `p` holds smearing,
temperature, `kappa`, maximal occupancy and chemical potential. `la` is LAPACK, see
`Spec.LapackOk`.
-/

namespace Nlcg
open Matrix Spec ComplexOrder

variable {K : ℕ} {n b : Fin K → ℕ}

/-- the occupations are those of the pseudo-energies -/
def Occupied (p : DirParams) (ks : (k : Fin K) → KIn (n k) (b k)) : Prop :=
  ∀ k i, (ks k).f i = (smearFns p.t).fn ((p.mu - (ks k).e i) / (kB * p.T)) p.mo

/-! ## A concrete case: one k-point, two basis functions, one band, not stationary -/

/-- one band in a two-dimensional space, `H = [[1, 1], [1, 2]]`, identity overlap and
preconditioner -/
noncomputable def exK : KIn 2 1 where
  X := !![1; 0]
  hx := !![1; 1]
  e := fun _ => 0
  f := fun _ => (smearFns .fermiDirac).fn ((1 - 0) / (kB * 300)) 2
  hii := fun _ => 1
  S := 1
  P := 1
  wk := 1

def exH : Mat 2 2 := !![1, 1; 1, 2]

noncomputable def exP : DirParams := { t := .fermiDirac, T := 300, kappa := 1, mo := 2, mu := 1 }

theorem exK_physical : Physical exK exH where
  herm := by ext i j; fin_cases i <;> fin_cases j <;> simp [exH]
  hx := by ext i j; fin_cases i <;> fin_cases j <;> simp [exK, exH, mul_apply]
  bands := fun i => by fin_cases i; simp [exK, exH, mul_apply]
  ortho := by
    ext i j; fin_cases i; fin_cases j; simp [SOrtho, exK, mul_apply]
  prec := PosDef.one
  weight := by norm_num [exK]

theorem exK_occupied : Occupied exP (fun _ : Fin 1 => exK) := fun k i => rfl

/-! ## C16 -/

/-- **C16.** After a restart the slope is never positive. -/
theorem C16_restart_descends {la : Lapack} (hla : LapackOk la) (p : DirParams)
    (ht : Monotonic p.t) (hT : 0 < p.T) (hkappa : 0 ≤ p.kappa) (hmo : 0 ≤ p.mo)
    (ks : (k : Fin K) → KIn (n k) (b k)) (H : (k : Fin K) → Mat (n k) (n k))
    (hk : ∀ k, Physical (ks k) (H k)) (hf : Occupied p ks) : (restarted la p ks).1 ≤ 0 := by
  have hc : p.t ≠ .cold := by intro h; rw [h] at ht; exact ht
  have hkT : 0 < (kB : ℝ) * p.T := mul_pos kB_pos hT
  rw [restarted_slope hla p hc ks H hk, neg_nonpos]
  refine add_nonneg (add_nonneg ?_ ?_) ?_
  · refine Finset.sum_nonneg fun k _ => mul_nonneg two_pos.le (mul_nonneg (hk k).weight.le
      (Finset.sum_nonneg fun j _ => mul_nonneg ?_ (quad_nonneg (hk k).prec _ _)))
    rw [hf k j]; exact (C06_occupation_bounds p.t ht _ _ hmo).1
  · exact mul_nonneg (div_nonneg hkappa hkT.le) (Finset.sum_nonneg fun k _ =>
      mul_nonneg (hk k).weight.le (Finset.sum_nonneg fun i _ =>
        mul_nonneg (delta_nonneg p.t ht _ _ hmo) (sq_nonneg _)))
  · refine Finset.sum_nonneg fun k _ => mul_nonneg (mul_nonneg hkappa (hk k).weight.le)
      (Finset.sum_nonneg fun j _ => Finset.sum_nonneg fun i _ => ?_)
    split_ifs
    · exact le_rfl
    · exact mul_nonneg (neg_nonneg.2 (quot_nonpos p.t ht p.T p.mu p.mo hT hmo _ _ (hf k) i j))
        (Complex.normSq_nonneg _)

example : LapackOk refLapack ∧ Monotonic exP.t ∧ 0 < exP.T ∧ 0 ≤ exP.kappa ∧ 0 ≤ exP.mo ∧
    (∀ _ : Fin 1, Physical exK exH) ∧ Occupied exP (fun _ : Fin 1 => exK) :=
  ⟨refLapack_ok, trivial, by norm_num [exP], by norm_num [exP], by norm_num [exP],
    fun _ => exK_physical, exK_occupied⟩

/-! ## C17 -/

/-- **C17.** The restarted orbital direction satisfies `(S X)^H Z = 0`. -/
theorem C17_restarted_tangent {la : Lapack} (hla : LapackOk la) (p : DirParams)
    (ks : (k : Fin K) → KIn (n k) (b k)) (k : Fin K) (ho : SOrtho (ks k).S (ks k).X)
    (hP : (ks k).P.PosDef) : Tangent (ks k).S (ks k).X ((restarted la p ks).2.zx k) :=
  tangent_precond hla hP (sx_injective ho)

/-- **C17.** So does the conjugated one, whatever the old direction and the rotation are. -/
theorem C17_conjugated_tangent {la : Lapack} (hla : LapackOk la) (p : DirParams) (frOld : ℝ)
    (ks : (k : Fin K) → KIn (n k) (b k)) (old : Dir n b) (ul : (k : Fin K) → Mat (b k) (b k))
    (k : Fin K) (ho : SOrtho (ks k).S (ks k).X) (hP : (ks k).P.PosDef) :
    Tangent (ks k).S (ks k).X ((conjugated la p frOld ks old ul).2.2.zx k) := by
  have hs := sx_injective ho
  show ((ks k).S * (ks k).X)ᴴ * addM _ _ _ _ = 0
  rw [addM, Matrix.mul_add, Matrix.mul_smul, Matrix.mul_smul]
  have h1 : ((ks k).S * (ks k).X)ᴴ * (execAll la p ks k).dx = 0 := tangent_precond hla hP hs
  have h2 : ((ks k).S * (ks k).X)ᴴ * (conjAll la p ks old ul k).2.1 = 0 :=
    tangent_conjugatex hla _ hs
  rw [h1, h2, smul_zero, smul_zero, add_zero]

example : LapackOk refLapack ∧ SOrtho exK.S exK.X ∧ exK.P.PosDef :=
  ⟨refLapack_ok, exK_physical.ortho, exK_physical.prec⟩

/-! ## C18 -/

/-- derivative of the energy with respect to the orbitals of k-point `k`, `w_k H X f` -/
noncomputable def orbitalGradient (ks : (k : Fin K) → KIn (n k) (b k)) (k : Fin K) :
    Mat (n k) (b k) :=
  ((ks k).wk : ℂ) • ((ks k).hx * diagonal fun j => ((ks k).f j : ℂ))

/-- gradient with respect to the pseudo-Hamiltonian of k-point `k` (see `C15`) -/
noncomputable def etaGradient (p : DirParams) (ks : (k : Fin K) → KIn (n k) (b k)) (k : Fin K) :
    Mat (b k) (b k) :=
  gEta (smearFns p.t) p.T (((ks k).wk : ℂ) • ((ks k).Xᴴ * (ks k).hx)) p.mu (ks k).wk (ks k).e
    (ks k).f
    (dmuDeta (smearFns p.t) (fun k => (ks k).e) (fun k => (ks k).wk) p.mu p.T p.mo)
    (dFdmu (smearFns p.t) (fun k => (ks k).hii) (fun k => (ks k).e) (fun k => (ks k).wk) p.mu p.T
      p.mo) p.mo

/-- directional derivative along `z`, over all k-points; the orbital part counts twice because `X`
and its conjugate both move -/
noncomputable def slopeAlong (p : DirParams) (ks : (k : Fin K) → KIn (n k) (b k)) (z : Dir n b) : ℝ :=
  ∑ k, (2 * rdot (orbitalGradient ks k) (z.zx k) + rdot (etaGradient p ks k) (z.zeta k))

/-- the Lagrange multipliers do not contribute along a tangent direction -/
theorem rdot_gx {la : Lapack} (p : DirParams) (ks : (k : Fin K) → KIn (n k) (b k)) (k : Fin K)
    (Z : Mat (n k) (b k)) (hZ : Tangent (ks k).S (ks k).X Z) :
    rdot (execAll la p ks k).gx Z = rdot (orbitalGradient ks k) Z := by
  have h : rdot (lmult la ((ks k).S * (ks k).X) (ks k).hx (ks k).P) Z = 0 :=
    rdot_mul_left _ _ _ hZ
  show rdot (gradx _ _ _ _) Z = _
  rw [gradx_eq, rdot_add_left, rdot_smul_left _ (lmult la _ _ _), h, mul_zero, add_zero]
  rfl

/-- **C18.** The slope returned by a restart is the derivative along the returned direction. -/
theorem C18_restarted_slope {la : Lapack} (hla : LapackOk la) (p : DirParams)
    (ks : (k : Fin K) → KIn (n k) (b k)) (ho : ∀ k, SOrtho (ks k).S (ks k).X)
    (hP : ∀ k, (ks k).P.PosDef) :
    (restarted la p ks).1 = slopeAlong p ks (restarted la p ks).2 := by
  show ∑ k, (execAll la p ks k).fr = ∑ k, _
  refine Finset.sum_congr rfl fun k _ => ?_
  rw [← rdot_gx (la := la) p ks k _ (C17_restarted_tangent hla p ks k (ho k) (hP k))]
  simp only [execAll, execSpc, innerhTr_re]
  rfl

/-- **C18.** The slope returned by a conjugation is the derivative along the returned direction.
(`frOld = 0` would be a division by zero in the code.) -/
theorem C18_conjugated_slope {la : Lapack} (hla : LapackOk la) (p : DirParams) (frOld : ℝ)
    (_h0 : frOld ≠ 0) (ks : (k : Fin K) → KIn (n k) (b k)) (old : Dir n b)
    (ul : (k : Fin K) → Mat (b k) (b k)) (ho : ∀ k, SOrtho (ks k).S (ks k).X)
    (hP : ∀ k, (ks k).P.PosDef) :
    (conjugated la p frOld ks old ul).2.1
      = slopeAlong p ks (conjugated la p frOld ks old ul).2.2 := by
  have hz := fun k => C17_conjugated_tangent hla p frOld ks old ul k (ho k) (hP k)
  rw [slopeAlong, Finset.sum_congr rfl fun k _ => by rw [← rdot_gx (la := la) p ks k _ (hz k)]]
  simp only [conjugated, addM, rdot_add, rdot_smul, one_smul]
  rw [Finset.mul_sum, ← Finset.sum_add_distrib]
  refine Finset.sum_congr rfl fun k _ => ?_
  have h1 : (execAll la p ks k).fr = 2 * rdot (execAll la p ks k).gx (execAll la p ks k).dx
      + rdot (etaGradient p ks k) (execAll la p ks k).deta := by
    simp only [execAll, execSpc, innerhTr_re]; rfl
  have h2 : (conjAll la p ks old ul k).1
      = 2 * rdot (execAll la p ks k).gx (conjAll la p ks old ul k).2.1
        + rdot (etaGradient p ks k) (conjAll la p ks old ul k).2.2 := by
    rw [rdot_comm _ (conjAll la p ks old ul k).2.1, rdot_comm _ (conjAll la p ks old ul k).2.2]
    simp only [conjAll, execConjugate, innerhTr_re]; rfl
  rw [h1, h2]
  ring

example : (1 : ℝ) ≠ 0 ∧ (∀ _ : Fin 1, SOrtho exK.S exK.X) ∧ (∀ _ : Fin 1, exK.P.PosDef) :=
  ⟨one_ne_zero, fun _ => exK_physical.ortho, fun _ => exK_physical.prec⟩

/-! ## C21 -/

/-- **C21.** The pseudo-Hamiltonian direction of a restart is Hermitian. -/
theorem C21_restarted_hermitian (la : Lapack) (p : DirParams)
    (ks : (k : Fin K) → KIn (n k) (b k)) (k : Fin K) (H : Mat (n k) (n k)) (hH : H.IsHermitian)
    (hx : (ks k).hx = H * (ks k).X) : ((restarted la p ks).2.zeta k).IsHermitian :=
  deltaEta_hermitian _ _ _ _ (innerM_hermitian _ H hH _ hx)

/-- **C21.** So is the one of a conjugation, if the old one was. -/
theorem C21_conjugated_hermitian (la : Lapack) (p : DirParams) (frOld : ℝ)
    (ks : (k : Fin K) → KIn (n k) (b k)) (old : Dir n b) (ul : (k : Fin K) → Mat (b k) (b k))
    (k : Fin K) (H : Mat (n k) (n k)) (hH : H.IsHermitian) (hx : (ks k).hx = H * (ks k).X)
    (hold : (old.zeta k).IsHermitian) :
    ((conjugated la p frOld ks old ul).2.2.zeta k).IsHermitian :=
  addM_hermitian (rotateeta_hermitian _ _ hold)
    (deltaEta_hermitian _ _ _ _ (innerM_hermitian _ H hH _ hx)) 1 _

/-- **C21.** A diagonal pseudo-Hamiltonian advanced along a Hermitian direction by any real step is
Hermitian: the eigensolver gets a Hermitian matrix. -/
theorem C21_advanced_hermitian {B : ℕ} (e : Fin B → ℝ) (z : Mat B B) (hz : z.IsHermitian) (t : ℝ) :
    (advanceEta t (makeDiag e) z).IsHermitian :=
  addM_hermitian (makeDiag_hermitian e) hz t 1

example : exH.IsHermitian ∧ exK.hx = exH * exK.X ∧ (!![(1 : ℂ)]).IsHermitian :=
  ⟨exK_physical.herm, exK_physical.hx, by ext i j; fin_cases i; fin_cases j; simp⟩

/-! ## C67 -/

/-- `W` is the part of `V` that keeps the orbitals `X` orthonormal to first order: it is tangent and
differs from `V` by a combination of the columns of `S X` -/
def TangentPart {N B : ℕ} (S : Mat N N) (X V W : Mat N B) : Prop :=
  Tangent S X W ∧ ∃ L : Mat B B, V = W + S * X * L

/-- the tangent part is unique -/
theorem TangentPart.unique {N B : ℕ} {S : Mat N N} {X V W W' : Mat N B} (ho : SOrtho S X)
    (h : TangentPart S X V W) (h' : TangentPart S X V W') : W = W' := by
  obtain ⟨t, L, e⟩ := h
  obtain ⟨t', L', e'⟩ := h'
  have hs := sx_injective ho
  have key : W - W' = S * X * (L' - L) := by
    rw [Matrix.mul_sub, sub_eq_sub_iff_add_eq_add, ← e, add_comm, ← e']
  have z : (S * X)ᴴ * (S * X) * (L' - L) = 0 := by
    rw [Matrix.mul_assoc, ← key, Matrix.mul_sub, show (S * X)ᴴ * W = 0 from t,
      show (S * X)ᴴ * W' = 0 from t', sub_zero]
  have u := (PosDef.conjTranspose_mul_self (S * X) hs).isUnit
  have : L' - L = 0 := by
    obtain ⟨u, hu⟩ := u
    rw [← hu] at z
    have := congrArg ((↑u⁻¹ : Mat B B) * ·) z
    simpa [← Matrix.mul_assoc] using this
  rw [this, Matrix.mul_zero] at key
  exact sub_eq_zero.1 key

/-- **C67.** A conjugated direction is the restarted direction plus `γ` times the old direction,
carried over to the current point: its orbital part is rotated by `U` and made tangent, its
pseudo-Hamiltonian part is rotated by `U`. `γ` is the Fletcher-Reeves quotient of the restart slope
at the current point and the given old one, and the restart slope at the current point is what is
returned for the next call. -/
theorem C67_fletcher_reeves {la : Lapack} (hla : LapackOk la) (p : DirParams) (frOld : ℝ)
    (_h0 : frOld ≠ 0) (ks : (k : Fin K) → KIn (n k) (b k)) (old : Dir n b)
    (ul : (k : Fin K) → Mat (b k) (b k)) (ho : ∀ k, SOrtho (ks k).S (ks k).X) :
    let r := restarted la p ks
    let c := conjugated la p frOld ks old ul
    c.1 = r.1 ∧ ∀ k, ∃ W, TangentPart (ks k).S (ks k).X (old.zx k * ul k) W ∧
      c.2.2.zx k = r.2.zx k + ((r.1 / frOld : ℝ) : ℂ) • W ∧
      c.2.2.zeta k = r.2.zeta k + ((r.1 / frOld : ℝ) : ℂ) • ((ul k)ᴴ * old.zeta k * ul k) := by
  refine ⟨rfl, fun k => ⟨(conjAll la p ks old ul k).2.1, ⟨tangent_conjugatex hla _
    (sx_injective (ho k)), ?_⟩, ?_, ?_⟩⟩
  · have e : (conjAll la p ks old ul k).2.1 = _ :=
      conjugatex_eq la (rotatex (old.zx k) (ul k)) ((ks k).S * (ks k).X)
    rw [e]
    exact ⟨_, (sub_add_cancel _ _).symm⟩
  · show addM _ _ _ _ = _
    rw [addM, one_smul]
    first | exact add_comm _ _ | rfl
  · show addM _ _ _ _ = _
    rw [addM, one_smul]
    have : (conjAll la p ks old ul k).2.2 = (ul k)ᴴ * old.zeta k * ul k := by
      simp only [conjAll, execConjugate, rotateeta, innerM_one, transformM, Matrix.mul_assoc]
    rw [this]
    first | exact add_comm _ _ | rfl

example : (1 : ℝ) ≠ 0 ∧ (∀ _ : Fin 1, SOrtho exK.S exK.X) :=
  ⟨one_ne_zero, fun _ => exK_physical.ortho⟩

/-! ## C64 -/

/-- **C64 (refuted, general form).** The return codes of the Cholesky routines have no influence:
two LAPACKs that differ only in them give the same directions and slopes. -/
theorem C64_return_codes_ignored (la la' : Lapack)
    (h1 : ∀ {n : ℕ} (A : Mat n n), (la.potrf A).1 = (la'.potrf A).1)
    (h2 : ∀ {n m : ℕ} (A : Mat n n) (C : Mat n m), (la.potrs A C).1 = (la'.potrs A C).1)
    (p : DirParams) (frOld : ℝ) (ks : (k : Fin K) → KIn (n k) (b k)) (old : Dir n b)
    (ul : (k : Fin K) → Mat (b k) (b k)) :
    restarted la p ks = restarted la' p ks ∧
      conjugated la p frOld ks old ul = conjugated la' p frOld ks old ul := by
  have hs : ∀ {n m : ℕ} (A : Mat n n) (C : Mat n m), la.solve A C = la'.solve A C :=
    fun A C => by simp only [Lapack.solve, h1, h2]
  simp only [restarted, conjugated, execAll, conjAll, execSpc, execConjugate, lmult, conjugatex, hs,
    and_self]

/-- the concrete case with an indefinite preconditioner -/
noncomputable def exBad : KIn 2 1 := { exK with P := !![0, 1; 1, 0] }

/-- **C64 (refuted).** For an indefinite preconditioner the factorisation fails, LAPACK says so, and
a direction that is not tangent is returned all the same. -/
theorem C64_not_reported :
    (refLapack.potrf (innerM (exBad.S * exBad.X) (exBad.P * (exBad.S * exBad.X)))).2 ≠ 0 ∧
    ¬ Tangent exBad.S exBad.X ((restarted refLapack exP (fun _ : Fin 1 => exBad)).2.zx 0) := by
  have h0 : innerM (exBad.S * exBad.X) (exBad.P * (exBad.S * exBad.X)) = 0 := by
    ext i j; fin_cases i; fin_cases j
    simp [innerM, exBad, exK, mul_apply]
  refine ⟨?_, ?_⟩
  · rw [h0, ne_eq, refLapack_ok.chol]
    intro h
    exact lt_irrefl _ (h.diag_pos (i := 0))
  · intro h
    have hsol : ∀ C : Mat 1 1, refLapack.solve (0 : Mat 1 1) C = 0 := fun C => by
      show (0 : Mat 1 1)⁻¹ * C = 0
      simp
    have hd : (restarted refLapack exP (fun _ : Fin 1 => exBad)).2.zx 0
        = precondgxUs exBad.hx exBad.P (lmult refLapack (exBad.S * exBad.X) exBad.hx exBad.P) := rfl
    rw [Tangent, hd, precondgxUs_eq, lmult, h0, hsol] at h
    have := congrFun (congrFun h 0) 0
    simp [exBad, exK, mul_apply, transformM] at this

/-- **C64.** If LAPACK reports success, the system is solved. Missing: a failure is not reported to
the caller. -/
theorem C64_success_solves_partial {la : Lapack} (hla : LapackOk la) {n m : ℕ} (A : Mat n n)
    (C : Mat n m) (h : (la.potrf A).2 = 0) : A * la.solve A C = C :=
  hla.solve A C ((hla.chol A).1 h)

example : (refLapack.potrf (1 : Mat 2 2)).2 = 0 := (refLapack_ok.chol _).2 PosDef.one

/-! ## C65 -/

/-- **C65.** A vanishing slope after a restart means that the point is stationary: there are
Lagrange multipliers for all occupied orbitals, orbitals of different occupation do not couple, and
the pseudo-energies of all partially occupied orbitals differ from their orbital energies by the
same constant, at all k-points. -/
theorem C65_zero_slope_stationary {la : Lapack} (hla : LapackOk la) (p : DirParams)
    (ht : Monotonic p.t) (hT : 0 < p.T) (hkappa : 0 < p.kappa) (hmo : 0 ≤ p.mo)
    (ks : (k : Fin K) → KIn (n k) (b k)) (H : (k : Fin K) → Mat (n k) (n k))
    (hk : ∀ k, Physical (ks k) (H k)) (hf : Occupied p ks) (h0 : (restarted la p ks).1 = 0) :
    (∀ k, ∃ L : Mat (b k) (b k), ∀ j, 0 < (ks k).f j → ∀ i,
      (H k * (ks k).X) i j = ((ks k).S * (ks k).X * L) i j) ∧
    (∀ k i j, 1 / 10 ^ 10 ≤ |(ks k).e j - (ks k).e i| → (ks k).f i ≠ (ks k).f j →
      ((ks k).Xᴴ * (H k * (ks k).X)) i j = 0) ∧
    ∃ c, ∀ k i, 0 < (smearFns p.t).delta ((p.mu - (ks k).e i) / (kB * p.T)) p.mo →
      (ks k).hii i - (ks k).e i = c := by
  have hc : p.t ≠ .cold := by intro h; rw [h] at ht; exact ht
  have hkT : 0 < (kB : ℝ) * p.T := mul_pos kB_pos hT
  rw [restarted_slope hla p hc ks H hk, neg_eq_zero] at h0
  have fnn : ∀ k j, 0 ≤ (ks k).f j := fun k j => by
    rw [hf k j]; exact (C06_occupation_bounds p.t ht _ _ hmo).1
  have n1 : ∀ k j, 0 ≤ (ks k).f j * ((((ks k).hx - lmult la ((ks k).S * (ks k).X) (ks k).hx
      (ks k).P)ᴴ * (ks k).P * ((ks k).hx - lmult la ((ks k).S * (ks k).X) (ks k).hx (ks k).P))
        j j).re := fun k j => mul_nonneg (fnn k j) (quad_nonneg (hk k).prec _ _)
  have m1 := fun k => Finset.sum_nonneg fun j (_ : j ∈ Finset.univ) => n1 k j
  have n2 : ∀ c : ℝ, ∀ k i, 0 ≤ (smearFns p.t).delta ((p.mu - (ks k).e i) / (kB * p.T)) p.mo
      * ((ks k).hii i - (ks k).e i - c) ^ 2 := fun c k i =>
    mul_nonneg (delta_nonneg p.t ht _ _ hmo) (sq_nonneg _)
  have n3 : ∀ k i j, 0 ≤ (if i = j then 0 else
      -quot (ks k).e (ks k).f i j * Complex.normSq (((ks k).Xᴴ * (ks k).hx) i j)) := fun k i j => by
    split_ifs
    · exact le_rfl
    · exact mul_nonneg (neg_nonneg.2 (quot_nonpos p.t ht p.T p.mu p.mo hT hmo _ _ (hf k) i j))
        (Complex.normSq_nonneg _)
  have m3 := fun k => Finset.sum_nonneg fun j (_ : j ∈ Finset.univ) =>
    Finset.sum_nonneg fun i (_ : i ∈ Finset.univ) => n3 k i j
  obtain ⟨c, hcdef⟩ : ∃ c, c = shift p.t p.T p.mo (fun k => (ks k).wk) (fun k => (ks k).hii)
    (fun k => (ks k).e) p.mu := ⟨_, rfl⟩
  rw [← hcdef] at h0
  have m2 := fun k => Finset.sum_nonneg fun i (_ : i ∈ Finset.univ) => n2 c k i
  have a1 := fun k (_ : k ∈ Finset.univ) => mul_nonneg two_pos.le (mul_nonneg (hk k).weight.le (m1 k))
  have a2 := fun k (_ : k ∈ Finset.univ) => mul_nonneg (hk k).weight.le (m2 k)
  have a3 := fun k (_ : k ∈ Finset.univ) =>
    mul_nonneg (mul_nonneg hkappa.le (hk k).weight.le) (m3 k)
  have s2 := mul_nonneg (div_nonneg hkappa.le hkT.le) (Finset.sum_nonneg a2)
  have z12 := (add_eq_zero_iff_of_nonneg (add_nonneg (Finset.sum_nonneg a1) s2)
    (Finset.sum_nonneg a3)).1 h0
  have z1 := (add_eq_zero_iff_of_nonneg (Finset.sum_nonneg a1) s2).1 z12.1
  refine ⟨fun k => ⟨la.solve (((ks k).S * (ks k).X)ᴴ * ((ks k).P * ((ks k).S * (ks k).X)))
      (((ks k).S * (ks k).X)ᴴ * ((ks k).P * (ks k).hx)), fun j hj i => ?_⟩, fun k i j hij hne => ?_,
    c, fun k i hi => ?_⟩
  · have := (Finset.sum_eq_zero_iff_of_nonneg a1).1 z1.1 k (Finset.mem_univ k)
    have := (mul_eq_zero.1 ((mul_eq_zero.1 this).resolve_left two_ne_zero)).resolve_left
      (hk k).weight.ne'
    have := (Finset.sum_eq_zero_iff_of_nonneg fun j _ => n1 k j).1 this j (Finset.mem_univ j)
    have := quad_eq_zero (hk k).prec _ j ((mul_eq_zero.1 this).resolve_left hj.ne') i
    rw [Matrix.sub_apply, sub_eq_zero, (hk k).hx] at this
    rw [this, (hk k).hx]
    simp only [lmult, innerM_one, transformM]
  · have := (Finset.sum_eq_zero_iff_of_nonneg a3).1 z12.2 k (Finset.mem_univ k)
    have := (mul_eq_zero.1 this).resolve_left (mul_pos hkappa (hk k).weight).ne'
    have := (Finset.sum_eq_zero_iff_of_nonneg fun j _ => Finset.sum_nonneg fun i _ => n3 k i j).1
      this j (Finset.mem_univ j)
    have := (Finset.sum_eq_zero_iff_of_nonneg fun i _ => n3 k i j).1 this i (Finset.mem_univ i)
    have hne' : i ≠ j := fun h => hne (by rw [h])
    rw [if_neg hne'] at this
    have hq : quot (ks k).e (ks k).f i j ≠ 0 := by
      rw [quot, if_neg (not_lt.2 hij)]
      refine div_ne_zero (sub_ne_zero.2 hne.symm) fun h => ?_
      rw [h, abs_zero] at hij; norm_num at hij
    have := (mul_eq_zero.1 this).resolve_left (neg_ne_zero.2 hq)
    rw [← (hk k).hx]
    exact Complex.normSq_eq_zero.1 this
  · have := (mul_eq_zero.1 z1.2).resolve_left (div_pos hkappa hkT).ne'
    have := (Finset.sum_eq_zero_iff_of_nonneg a2).1 this k (Finset.mem_univ k)
    have := (mul_eq_zero.1 this).resolve_left (hk k).weight.ne'
    have := (Finset.sum_eq_zero_iff_of_nonneg fun i _ => n2 c k i).1 this i (Finset.mem_univ i)
    have := (mul_eq_zero.1 this).resolve_left hi.ne'
    exact sub_eq_zero.1 (pow_eq_zero_iff two_ne_zero |>.1 this)

/-- the lowest eigenvector of `diag(1, 2)`, half occupied -/
noncomputable def statK : KIn 2 1 where
  X := !![1; 0]
  hx := !![1; 0]
  e := fun _ => 1
  f := fun _ => (smearFns .fermiDirac).fn ((1 - 1) / (kB * 300)) 2
  hii := fun _ => 1
  S := 1
  P := 1
  wk := 1

def statH : Mat 2 2 := !![1, 0; 0, 2]

theorem statK_physical : Physical statK statH where
  herm := by ext i j; fin_cases i <;> fin_cases j <;> simp [statH]
  hx := by ext i j; fin_cases i <;> fin_cases j <;> simp [statK, statH, mul_apply]
  bands := fun i => by fin_cases i; simp [statK, statH, mul_apply]
  ortho := by
    ext i j; fin_cases i; fin_cases j; simp [SOrtho, statK, mul_apply]
  prec := PosDef.one
  weight := by norm_num [statK]

example : LapackOk refLapack ∧ Monotonic exP.t ∧ 0 < exP.T ∧ 0 < exP.kappa ∧ 0 ≤ exP.mo ∧
    (∀ _ : Fin 1, Physical statK statH) ∧ Occupied exP (fun _ : Fin 1 => statK) ∧
    (restarted refLapack exP (fun _ : Fin 1 => statK)).1 = 0 ∧ 0 < statK.f 0 := by
  refine ⟨refLapack_ok, trivial, by norm_num [exP], by norm_num [exP], by norm_num [exP], fun _ => statK_physical,
    fun k i => rfl, ?_, ?_⟩
  · rw [restarted_slope refLapack_ok exP (by simp [exP]) _ (fun _ => statH) fun _ => statK_physical]
    have hs : statK.hx = statK.S * statK.X := by simp [statK]
    have hl : lmult refLapack (statK.S * statK.X) statK.hx statK.P = statK.hx := by
      have h1 : (statK.S * statK.X)ᴴ * (statK.P * (statK.S * statK.X)) = 1 := by
        ext i j; fin_cases i; fin_cases j; simp [statK, mul_apply]
      rw [hs]
      simp only [lmult, innerM_one, transformM, h1]
      have := refLapack_ok.solve (1 : Mat 1 1) (1 : Mat 1 1) PosDef.one
      rw [one_mul] at this
      simp only [Lapack.solve, this]
      exact Matrix.mul_one _
    simp only [hl, sub_self]
    simp [statK, shift]
  · show 0 < (smearFns .fermiDirac).fn ((1 - 1) / (kB * 300)) 2
    rw [sub_self, zero_div]
    have h := C13_particle_hole_partial .fermiDirac (by simp) 0 2 (fun _ => .inl (by norm_num))
    rw [neg_zero] at h
    linarith

end Nlcg
