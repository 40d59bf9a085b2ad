import Verif.Proofs.LinAlg
import Verif.Proofs.GradEta
import Verif.Props.Smearing

/-!
# Helper lemmas: search directions
-/

namespace Nlcg
open Matrix Spec ComplexOrder

variable {N B : ℕ}

theorem innerM_one {r m n : ℕ} (A : Mat r m) (C : Mat r n) : innerM A C = Aᴴ * C := by
  rw [innerM, one_smul]

theorem precondgxUs_eq (hx : Mat N B) (P : Mat N N) (xll : Mat N B) :
    precondgxUs hx P xll = P * (xll - hx) := by
  simp only [precondgxUs, addM]
  congr 1
  ext i j
  simp
  ring

theorem gradx_eq (hx : Mat N B) (fn : Fin B → ℝ) (xll : Mat N B) (wk : ℝ) :
    gradx hx fn xll wk = (wk : ℂ) • (hx * diagonal fun j => (fn j : ℂ)) + ((-wk : ℝ) : ℂ) • xll := by
  rw [gradx, addM, one_smul, scaleCols_eq, Complex.ofReal_neg]

theorem conjugatex_eq (la : Lapack) (z sx : Mat N B) :
    conjugatex la z sx = z - sx * la.solve (sxᴴ * sx) (sxᴴ * z) := by
  simp only [conjugatex, addM, innerM_one, transformM, one_smul, neg_smul, sub_eq_add_neg]

/-- restarted direction is tangent -/
theorem tangent_precond {la : Lapack} (hla : LapackOk la) {sx hx : Mat N B} {P : Mat N N}
    (hP : P.PosDef) (hs : Function.Injective sx.mulVec) :
    sxᴴ * precondgxUs hx P (lmult la sx hx P) = 0 := by
  rw [precondgxUs_eq]
  simp only [lmult, innerM_one, transformM]
  have hpd : (sxᴴ * (P * sx)).PosDef := by
    rw [← Matrix.mul_assoc]; exact hP.conjTranspose_mul_mul_same hs
  have h := hla.solveSym _ (sxᴴ * (P * hx)) hpd
  rw [Matrix.mul_sub, Matrix.mul_sub]
  exact sub_eq_zero.2 (by simpa only [Matrix.mul_assoc] using h)

theorem tangent_conjugatex {la : Lapack} (hla : LapackOk la) (z : Mat N B) {sx : Mat N B}
    (hs : Function.Injective sx.mulVec) : sxᴴ * conjugatex la z sx = 0 := by
  rw [conjugatex_eq, Matrix.mul_sub, ← Matrix.mul_assoc,
    hla.solveSym _ _ (PosDef.conjTranspose_mul_self sx hs), sub_self]

/-- a real diagonal factor weights the columns -/
theorem rdot_mul_diagonal {m n : ℕ} (A C : Mat m n) (f : Fin n → ℝ) :
    rdot (A * diagonal fun j => (f j : ℂ)) C = ∑ j, f j * ((Aᴴ * C) j j).re := by
  rw [rdot_sum]
  refine Finset.sum_congr rfl fun j _ => ?_
  rw [mul_apply, Complex.re_sum, Finset.mul_sum]
  refine Finset.sum_congr rfl fun i _ => ?_
  rw [mul_diagonal, conjTranspose_apply, star_mul', mul_right_comm, mul_comm _ (star (f j : ℂ))]
  rw [show star ((f j : ℝ) : ℂ) = ((f j : ℝ) : ℂ) from Complex.conj_ofReal _,
    Complex.re_ofReal_mul]

/-- orbital part of the restarted slope -/
theorem slope_x {la : Lapack} (hla : LapackOk la) {sx hx : Mat N B} {P : Mat N N}
    (hP : P.PosDef) (hs : Function.Injective sx.mulVec) (f : Fin B → ℝ) (wk : ℝ) :
    let xll := lmult la sx hx P
    let r := hx - xll
    rdot (gradx hx f xll wk) (precondgxUs hx P xll)
      = -(wk * ∑ j, f j * ((rᴴ * P * r) j j).re) := by
  intro xll r
  have ht : sxᴴ * precondgxUs hx P xll = 0 := tangent_precond hla hP hs
  have hx' : hx = xll + r := by simp [r]
  obtain ⟨ll, hll⟩ : ∃ ll, xll = sx * ll := ⟨_, rfl⟩
  have h1 : rdot xll (precondgxUs hx P xll) = 0 := by
    conv_lhs => arg 1; rw [hll]
    exact rdot_mul_left _ _ _ ht
  have h2 : rdot (hx * diagonal fun j => (f j : ℂ)) (precondgxUs hx P xll)
      = rdot (r * diagonal fun j => (f j : ℂ)) (precondgxUs hx P xll) := by
    conv_lhs => arg 1; rw [hx', Matrix.add_mul, hll, Matrix.mul_assoc]
    rw [rdot_add_left, rdot_mul_left _ _ _ ht, zero_add]
  have h3 : precondgxUs hx P xll = -(P * r) := by
    rw [precondgxUs_eq, ← Matrix.mul_neg]; simp [r]
  rw [gradx_eq, rdot_add_left, rdot_smul_left, rdot_smul_left, h1, mul_zero, add_zero, h2,
    rdot_mul_diagonal, h3, ← mul_neg, ← Finset.sum_neg_distrib]
  congr 1
  refine Finset.sum_congr rfl fun j _ => ?_
  rw [Matrix.mul_neg, Matrix.neg_apply, Complex.neg_re, mul_neg, Matrix.mul_assoc]

/-- `(r^H P r)_jj` is the squared `P`-norm of column `j` -/
theorem quad_nonneg {P : Mat N N} (hP : P.PosDef) (r : Mat N B) (j : Fin B) :
    0 ≤ ((rᴴ * P * r) j j).re :=
  (Complex.le_def.1 (hP.posSemidef.conjTranspose_mul_mul_same r).diag_nonneg).1

theorem quad_eq_zero {P : Mat N N} (hP : P.PosDef) (r : Mat N B) (j : Fin B)
    (h : ((rᴴ * P * r) j j).re = 0) (i : Fin N) : r i j = 0 := by
  have hq : (rᴴ * P * r) j j = star (r.col j) ⬝ᵥ (P *ᵥ r.col j) := by
    rw [Matrix.mul_assoc, mul_apply]
    simp [dotProduct, mulVec, mul_apply, conjTranspose_apply]
  by_contra hne
  have hc : r.col j ≠ 0 := fun h0 => hne (congrFun h0 i)
  have := (Complex.lt_def.1 (hP.dotProduct_mulVec_pos hc)).1
  rw [← hq, h] at this
  exact lt_irrefl _ this

/-- occupation difference quotient with the code's cut-off for degenerate levels -/
noncomputable def quot (e f : Fin B → ℝ) (i j : Fin B) : ℝ :=
  if |e j - e i| < 1 / 10 ^ 10 then 0 else (f j - f i) / (e j - e i)

/-- pseudo-Hamiltonian part of the restarted slope, one k-point -/
theorem slope_eta (t : SmearType) (ht : t ≠ .cold) (T mu wk dmu dF mo kappa : ℝ) (hwk : wk ≠ 0)
    (h : Mat B B) (e f hii : Fin B → ℝ) (hh : ∀ i, (hii i : ℂ) = h i i) :
    rdot (gEta (smearFns t) T ((wk : ℂ) • h) mu wk e f dmu dF mo)
        (deltaEta kappa ((wk : ℂ) • h) e wk)
      = kappa * (∑ i, (-1 / (kB * T) * (wk * (hii i - e i))
            * (smearFns t).delta ((mu - e i) / (kB * T)) mo
          + (if |dmu| < 1 / 10 ^ 12 then 0 else
            wk * (smearFns t).delta ((mu - e i) / (kB * T)) mo / dmu * (dF / (kB * T))))
          * (hii i - e i))
        + kappa * wk * ∑ j, ∑ i, (if i = j then 0 else quot e f i j * Complex.normSq (h i j)) := by
  have hd : ∀ i, ((wk : ℂ) • h) i i = ((wk * hii i : ℝ) : ℂ) := fun i => by
    rw [Matrix.smul_apply, smul_eq_mul, ← hh i, Complex.ofReal_mul]
  have hwk' : (wk : ℂ) ≠ 0 := Complex.ofReal_ne_zero.2 hwk
  rw [rdot_sum, Finset.mul_sum, Finset.mul_sum, ← Finset.sum_add_distrib]
  refine Finset.sum_congr rfl fun j _ => ?_
  have key : ∀ g : Fin B → ℝ, g j = ∑ i, if i = j then g j else 0 := fun g => by
    rw [Finset.sum_ite_eq' Finset.univ j fun _ => g j, if_pos (Finset.mem_univ j)]
  rw [key fun j => kappa * _, Finset.mul_sum, ← Finset.sum_add_distrib]
  refine Finset.sum_congr rfl fun i _ => ?_
  by_cases hij : i = j
  · subst hij
    rw [if_pos rfl, if_pos rfl, mul_zero, add_zero,
      gEta_diag t ht T _ mu wk e f hii dmu dF mo i (hd i), deltaEta]
    simp only [if_true]
    rw [hd i, RCLike.star_def, Complex.conj_ofReal, Complex.re_ofReal_mul, ← Complex.ofReal_mul,
      ← Complex.ofReal_sub, Complex.ofReal_re]
    field_simp
  · rw [if_neg hij, zero_add]
    rw [if_neg hij, gEta, deltaEta, quot]
    simp only [if_neg hij, Matrix.smul_apply, smul_eq_mul]
    have hn : ∀ c : ℝ, (star ((c : ℂ) * ((wk : ℂ) * h i j))
        * (((kappa / wk : ℝ) : ℂ) * ((wk : ℂ) * h i j))).re
          = kappa * wk * (c * Complex.normSq (h i j)) := fun c => by
      have : star ((c : ℂ) * ((wk : ℂ) * h i j)) * (((kappa / wk : ℝ) : ℂ) * ((wk : ℂ) * h i j))
          = ((kappa * wk * c : ℝ) : ℂ) * (star (h i j) * h i j) := by
        simp only [star_mul', RCLike.star_def, Complex.conj_ofReal]
        push_cast
        field_simp
      rw [this, Complex.re_ofReal_mul, RCLike.star_def, ← Complex.normSq_eq_conj_mul_self,
        Complex.ofReal_re]
      ring
    split_ifs
    · simp
    · exact hn _

/-- with monotone occupations the quotient is never positive -/
theorem quot_nonpos (t : SmearType) (ht : Monotonic t) (T mu mo : ℝ) (hT : 0 < T) (hmo : 0 ≤ mo)
    (e f : Fin B → ℝ) (hf : ∀ i, f i = (smearFns t).fn ((mu - e i) / (kB * T)) mo)
    (i j : Fin B) : quot e f i j ≤ 0 := by
  rw [quot]
  split_ifs
  · exact le_rfl
  · have hm : ∀ i j, e i ≤ e j → f j ≤ f i := fun i j h => by
      rw [hf, hf]; exact C07_monotone_in_mu_and_energy t ht mo T mu mu _ _ hmo hT le_rfl h
    rcases le_total (e i) (e j) with h | h
    · exact div_nonpos_of_nonpos_of_nonneg (by linarith [hm i j h]) (by linarith)
    · exact div_nonpos_of_nonneg_of_nonpos (by linarith [hm j i h]) (by linarith)

theorem innerM_hermitian (X : Mat N B) (H : Mat N N) (hH : H.IsHermitian) (w : ℝ) {hx : Mat N B}
    (h : hx = H * X) : (innerM X hx (w : ℂ)).IsHermitian := by
  subst h
  rw [innerM, IsHermitian, conjTranspose_smul, ← Matrix.mul_assoc, RCLike.star_def,
    Complex.conj_ofReal, (isHermitian_conjTranspose_mul_mul X hH).eq]

theorem addM_hermitian {A C : Mat B B} (hA : A.IsHermitian) (hC : C.IsHermitian) (s t : ℝ) :
    (addM A C (s : ℂ) (t : ℂ)).IsHermitian := by
  rw [addM, IsHermitian, conjTranspose_add, conjTranspose_smul, conjTranspose_smul, hA.eq, hC.eq,
    RCLike.star_def, Complex.conj_ofReal, Complex.conj_ofReal]

theorem makeDiag_hermitian (e : Fin B → ℝ) : (makeDiag e).IsHermitian := by
  rw [makeDiag_eq]
  refine isHermitian_diagonal_of_self_adjoint _ (funext fun i => ?_)
  exact Complex.conj_ofReal _

theorem rotateeta_hermitian (eta u : Mat B B) (h : eta.IsHermitian) :
    (rotateeta eta u).IsHermitian := by
  rw [rotateeta, innerM_one, transformM, ← Matrix.mul_assoc]
  exact isHermitian_conjTranspose_mul_mul u h

theorem deltaEta_hermitian (kappa : ℝ) (h : Mat B B) (e : Fin B → ℝ) (w : ℝ)
    (hh : h.IsHermitian) : (deltaEta kappa h e w).IsHermitian := by
  ext i j
  rw [conjTranspose_apply]
  have := hh.apply i j
  by_cases hij : i = j
  · subst hij
    simp only [deltaEta, if_true, star_sub, star_mul', this, RCLike.star_def, Complex.conj_ofReal]
  · simp only [deltaEta, if_neg hij, if_neg (Ne.symm hij), star_mul', this, RCLike.star_def,
      Complex.conj_ofReal]

section
variable {K : ℕ} {n b : Fin K → ℕ}

/-- the shift of the pseudo-energies that the code projects out -/
noncomputable def shift (t : SmearType) (T mo : ℝ) (w : Fin K → ℝ) (h e : Bands b) (mu : ℝ) : ℝ :=
  if |deltaSum t T mo w e mu| < 1 / 10 ^ 12 then 0 else
    (∑ k, w k * ∑ i, (smearFns t).delta ((mu - e k i) / (kB * T)) mo * (h k i - e k i))
      / deltaSum t T mo w e mu

/-- diagonal part of the pseudo-Hamiltonian slope, all k-points: a variance -/
theorem diag_slope (t : SmearType) (T mo kappa : ℝ) (w : Fin K → ℝ) (h e : Bands b) (mu : ℝ) :
    ∑ k, kappa * (∑ i, (-1 / (kB * T) * (w k * (h k i - e k i))
            * (smearFns t).delta ((mu - e k i) / (kB * T)) mo
          + (if |deltaSum t T mo w e mu| < 1 / 10 ^ 12 then 0 else
            w k * (smearFns t).delta ((mu - e k i) / (kB * T)) mo / deltaSum t T mo w e mu
              * ((∑ k, w k * ∑ i, (smearFns t).delta ((mu - e k i) / (kB * T)) mo
                  * (h k i - e k i)) / (kB * T)))) * (h k i - e k i))
      = -(kappa / (kB * T) * ∑ k, w k * ∑ i, (smearFns t).delta ((mu - e k i) / (kB * T)) mo
          * (h k i - e k i - shift t T mo w h e mu) ^ 2) := by
  obtain ⟨F, hF⟩ : ∃ F, F = ∑ k, w k * ∑ i, (smearFns t).delta ((mu - e k i) / (kB * T)) mo
    * (h k i - e k i) := ⟨_, rfl⟩
  obtain ⟨D, hD⟩ : ∃ D, D = deltaSum t T mo w e mu := ⟨_, rfl⟩
  rw [shift, ← hF, ← hD]
  obtain ⟨A, hA⟩ : ∃ A, A = ∑ k, w k * ∑ i, (smearFns t).delta ((mu - e k i) / (kB * T)) mo
    * (h k i - e k i) ^ 2 := ⟨_, rfl⟩
  have hvar : ∀ c : ℝ, (∑ k, w k * ∑ i, (smearFns t).delta ((mu - e k i) / (kB * T)) mo
      * (h k i - e k i - c) ^ 2) = A - 2 * c * F + c ^ 2 * D := fun c => by
    rw [hA, hF, hD, deltaSum]
    simp only [Finset.mul_sum, ← Finset.sum_sub_distrib, ← Finset.sum_add_distrib]
    exact Finset.sum_congr rfl fun k _ => Finset.sum_congr rfl fun i _ => by ring
  have hlhs : ∀ g : ℝ, (∑ k, kappa * (∑ i, (-1 / (kB * T) * (w k * (h k i - e k i))
            * (smearFns t).delta ((mu - e k i) / (kB * T)) mo
          + w k * (smearFns t).delta ((mu - e k i) / (kB * T)) mo * g) * (h k i - e k i)))
      = -(kappa / (kB * T)) * A + kappa * g * F := fun g => by
    rw [hA, hF]
    simp only [Finset.mul_sum, ← Finset.sum_add_distrib]
    exact Finset.sum_congr rfl fun k _ => Finset.sum_congr rfl fun i _ => by ring
  rw [hvar]
  by_cases hs : |D| < 1 / 10 ^ 12
  · have := hlhs 0
    simp only [mul_zero, zero_mul, add_zero] at this
    simp only [if_pos hs, add_zero]
    rw [this]; ring
  · have hD0 : D ≠ 0 := by rintro rfl; norm_num at hs
    have := hlhs (F / D / (kB * T))
    simp only [if_neg hs]
    refine Eq.trans (Finset.sum_congr rfl fun k _ => ?_) (this.trans ?_)
    · congr 1
      refine Finset.sum_congr rfl fun i _ => ?_
      congr 2
      ring
    · field_simp
      ring

/-- Hypotheses shared by the statements about directions. -/
theorem restarted_slope {la : Lapack} (hla : LapackOk la) (p : DirParams) (ht : p.t ≠ .cold)
    (ks : (k : Fin K) → KIn (n k) (b k)) (H : (k : Fin K) → Mat (n k) (n k))
    (hk : ∀ k, Physical (ks k) (H k)) :
    (restarted la p ks).1 = -(
      (∑ k, 2 * ((ks k).wk * ∑ j, (ks k).f j
        * ((((ks k).hx - lmult la ((ks k).S * (ks k).X) (ks k).hx (ks k).P)ᴴ * (ks k).P
            * ((ks k).hx - lmult la ((ks k).S * (ks k).X) (ks k).hx (ks k).P)) j j).re))
      + p.kappa / (kB * p.T) * (∑ k, (ks k).wk * ∑ i,
          (smearFns p.t).delta ((p.mu - (ks k).e i) / (kB * p.T)) p.mo
          * ((ks k).hii i - (ks k).e i
            - shift p.t p.T p.mo (fun k => (ks k).wk) (fun k => (ks k).hii) (fun k => (ks k).e)
                p.mu) ^ 2)
      + ∑ k, p.kappa * (ks k).wk * ∑ j, ∑ i, (if i = j then 0 else
          -quot (ks k).e (ks k).f i j * Complex.normSq (((ks k).Xᴴ * (ks k).hx) i j))) := by
  have hd := diag_slope p.t p.T p.mo p.kappa (fun k => (ks k).wk) (fun k => (ks k).hii)
    (fun k => (ks k).e) p.mu
  have hfr : ∀ k, (execAll la p ks k).fr
      = 2 * -((ks k).wk * ∑ j, (ks k).f j
        * ((((ks k).hx - lmult la ((ks k).S * (ks k).X) (ks k).hx (ks k).P)ᴴ * (ks k).P
            * ((ks k).hx - lmult la ((ks k).S * (ks k).X) (ks k).hx (ks k).P)) j j).re)
      + (p.kappa * (∑ i, (-1 / (kB * p.T) * ((ks k).wk * ((ks k).hii i - (ks k).e i))
            * (smearFns p.t).delta ((p.mu - (ks k).e i) / (kB * p.T)) p.mo
          + (if |(globals p ks).2| < 1 / 10 ^ 12 then 0 else
            (ks k).wk * (smearFns p.t).delta ((p.mu - (ks k).e i) / (kB * p.T)) p.mo
              / (globals p ks).2 * ((globals p ks).1 / (kB * p.T))))
          * ((ks k).hii i - (ks k).e i))
        + p.kappa * (ks k).wk * ∑ j, ∑ i, (if i = j then 0 else
          quot (ks k).e (ks k).f i j * Complex.normSq (((ks k).Xᴴ * (ks k).hx) i j))) := fun k => by
    simp only [execAll, execSpc, innerhTr_re]
    rw [slope_x hla (hk k).prec (sx_injective (hk k).ortho)]
    congr 1
    exact slope_eta p.t ht p.T p.mu (ks k).wk _ _ p.mo p.kappa (hk k).weight.ne' _ _ _ _
      fun i => by rw [(hk k).hx]; exact (hk k).bands i
  have hg2 : (globals p ks).2 = deltaSum p.t p.T p.mo (fun k => (ks k).wk) (fun k => (ks k).e) p.mu :=
    dmuDeta_eq p.t ht p.T p.mo _ _ _
  have hg1 := dFdmu_eq p.t ht p.T p.mo (fun k => (ks k).wk) (fun k => (ks k).hii)
    (fun k => (ks k).e) p.mu
  rw [restarted, Finset.sum_congr rfl fun k _ => hfr k, Finset.sum_add_distrib,
    Finset.sum_add_distrib, hg2, show (globals p ks).1 = _ from hg1, hd]
  simp only [neg_add, neg_mul, ← Finset.sum_neg_distrib, mul_neg]
  rw [← add_assoc]
  congr 1
  refine Finset.sum_congr rfl fun k _ => ?_
  rw [← mul_neg]
  congr 1
  simp only [← Finset.sum_neg_distrib]
  refine Finset.sum_congr rfl fun j _ => Finset.sum_congr rfl fun i _ => ?_
  split_ifs <;> ring

end

end Nlcg
