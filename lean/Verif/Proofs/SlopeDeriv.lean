import Verif.Spec.Slope
import Verif.Proofs.SpectralDeriv
import Verif.Proofs.GradEta
import Verif.Proofs.Geodesic
import Mathlib.Analysis.Calculus.Deriv.Star
import Mathlib.Analysis.Complex.RealDeriv

/-!
# Derivative of the density matrices and of the free energy along a search path
-/

namespace Nlcg
open Matrix Spec Filter Topology ComplexOrder

/-- entrywise derivative of a matrix at 0 -/
def MD {r c : ℕ} (M : ℝ → Mat r c) (M' : Mat r c) : Prop :=
  ∀ i j, HasDerivAt (fun s => M s i j) (M' i j) 0

theorem MD.congr {r c : ℕ} {M P : ℝ → Mat r c} {M' : Mat r c} (h : MD M M')
    (he : ∀ᶠ s in 𝓝 0, P s = M s) : MD P M' := fun i j =>
  (h i j).congr_of_eventuallyEq (he.mono fun s hs => by simp only [hs])

theorem MD.mul {r c d : ℕ} {A : ℝ → Mat r c} {A' : Mat r c} {C : ℝ → Mat c d} {C' : Mat c d}
    (hA : MD A A') (hC : MD C C') : MD (fun s => A s * C s) (A' * C 0 + A 0 * C') := by
  intro i j
  have h := HasDerivAt.fun_sum (u := Finset.univ) fun m _ => (hA i m).mul (hC m j)
  simp only [mul_apply, Matrix.add_apply, ← Finset.sum_add_distrib]
  exact h

theorem MD.adj {r c : ℕ} {A : ℝ → Mat r c} {A' : Mat r c} (hA : MD A A') :
    MD (fun s => (A s)ᴴ) A'ᴴ := fun i j => (hA j i).star

theorem MD.line {r c : ℕ} (A Z : Mat r c) : MD (fun s => A + (s : ℂ) • Z) Z := by
  intro i j
  have h := ((hasDerivAt_id (0 : ℝ)).ofReal_comp.mul_const (Z i j)).const_add (A i j)
  simpa [Matrix.add_apply, Matrix.smul_apply] using h

variable {n : ℕ}

/-- value of a function of a diagonal matrix -/
theorem matFn_diag {A U : Mat n n} {lam : Fin n → ℝ} (h : Diagonalises A lam U) {a : Fin n → ℝ}
    (h0 : A = rdiag a) (f : ℝ → ℝ) : matFn U lam f = rdiag fun i => f (a i) := by
  ext i j
  rw [matFn_split h f (a i) i j, h0]
  have : ∀ m, rdiag a i m - (if i = m then ((a i : ℝ) : ℂ) else 0) = 0 := by
    intro m
    rw [rdiag, diagonal_apply, sub_self]
  simp only [this, zero_mul, Finset.sum_const_zero, add_zero]
  rw [rdiag, diagonal_apply]

/-- trace of a function of a matrix -/
theorem matFn_trace {A U : Mat n n} {lam : Fin n → ℝ} (h : Diagonalises A lam U) (f : ℝ → ℝ) :
    ∑ l, f (lam l) = (∑ i, matFn U lam f i i).re := by
  have : (matFn U lam f).trace = (rdiag fun l => f (lam l)).trace := by
    rw [matFn, trace_mul_comm, ← Matrix.mul_assoc, h.unit, Matrix.one_mul]
  change _ = ((matFn U lam f).trace).re
  rw [this, rdiag, trace_diagonal, Complex.re_sum]
  simp

theorem matFn_conj (U : Mat n n) (lam : Fin n → ℝ) (f : ℝ → ℝ) : (matFn U lam f)ᴴ = matFn U lam f := by
  have h := rdiag_conj fun l => f (lam l)
  rw [matFn, conjTranspose_mul, conjTranspose_mul, conjTranspose_conjTranspose, Matrix.mul_assoc]
  rw [rdiag] at h
  rw [h]

/-- entrywise product with the divided differences of `f` at `a` -/
noncomputable def ddMat (f : ℝ → ℝ) (a : Fin n → ℝ) (C : Mat n n) : Mat n n :=
  fun i j => ((dslope f (a i) (a j) : ℝ) : ℂ) * C i j

theorem matFn_MD {A : ℝ → Mat n n} {lam : ℝ → Fin n → ℝ} {U : ℝ → Mat n n} {a : Fin n → ℝ}
    {B : Mat n n} (h0 : A 0 = rdiag a) (hA : MD A B)
    (hU : ∀ᶠ s in 𝓝 0, Diagonalises (A s) (lam s) (U s)) {f : ℝ → ℝ}
    (hf : ∀ i, DifferentiableAt ℝ f (a i)) :
    MD (fun s => matFn (U s) (lam s) f) (ddMat f a B) :=
  fun i j => hasDerivAt_matFn (fun i j => by rw [h0]) hA hU hf i j

/-- derivative of a sum over eigenvalues -/
theorem hasDerivAt_eigSum {A : ℝ → Mat n n} {lam : ℝ → Fin n → ℝ} {U : ℝ → Mat n n} {a : Fin n → ℝ}
    {B : Mat n n} (h0 : A 0 = rdiag a) (hA : MD A B)
    (hU : ∀ᶠ s in 𝓝 0, Diagonalises (A s) (lam s) (U s)) {f : ℝ → ℝ} {f' : Fin n → ℝ}
    (hf : ∀ i, HasDerivAt f (f' i) (a i)) :
    HasDerivAt (fun s => ∑ l, f (lam s l)) (∑ i, f' i * (B i i).re) 0 := by
  have h1 := HasDerivAt.fun_sum (u := Finset.univ) fun i _ =>
    matFn_MD h0 hA hU (fun i => (hf i).differentiableAt) i i
  have h2 : HasDerivAt (fun s => (∑ i, matFn (U s) (lam s) f i i).re)
      ((∑ i, ((dslope f (a i) (a i) : ℝ) : ℂ) * B i i).re) 0 :=
    (Complex.reCLM.hasFDerivAt.comp_hasDerivAt (0 : ℝ) h1)
  have h3 : (∑ i, ((dslope f (a i) (a i) : ℝ) : ℂ) * B i i).re = ∑ i, f' i * (B i i).re := by
    rw [Complex.re_sum]
    refine Finset.sum_congr rfl fun i _ => ?_
    rw [dslope_same, (hf i).deriv, Complex.re_ofReal_mul]
  rw [← h3]
  exact h2.congr_of_eventuallyEq (hU.mono fun s hs => matFn_trace hs f)

/-! ## One k-point -/

/-- argument of the smearing as a matrix: `(m - (e + s zeta)) / kT` -/
theorem arg_diag {E U : Mat n n} {ek : Fin n → ℝ} (h : Diagonalises E ek U) (m c : ℝ) :
    Diagonalises (((c⁻¹ : ℝ) : ℂ) • ((m : ℂ) • (1 : Mat n n) - E)) (fun l => (m - ek l) / c) U where
  unit := h.unit
  eig := by
    rw [Matrix.smul_mul, Matrix.sub_mul, h.eig, Matrix.smul_mul, Matrix.one_mul]
    ext i j
    simp only [Matrix.smul_apply, Matrix.sub_apply, mul_diagonal, smul_eq_mul]
    push_cast
    ring

theorem arg_MD (e : Fin n → ℝ) (Z : Mat n n) {m : ℝ → ℝ} {m' : ℝ} (hm : HasDerivAt m m' 0) (c : ℝ) :
    MD (fun s => ((c⁻¹ : ℝ) : ℂ) • (((m s : ℝ) : ℂ) • (1 : Mat n n) - (rdiag e + (s : ℂ) • Z)))
      (((c⁻¹ : ℝ) : ℂ) • (((m' : ℝ) : ℂ) • (1 : Mat n n) - Z)) := by
  intro i j
  have h1 := ((hm.ofReal_comp.mul_const ((1 : Mat n n) i j)).sub (MD.line (rdiag e) Z i j)).const_mul
    ((c⁻¹ : ℝ) : ℂ)
  exact h1

theorem arg_zero (e : Fin n → ℝ) (Z : Mat n n) (m c : ℝ) :
    ((c⁻¹ : ℝ) : ℂ) • (((m : ℝ) : ℂ) • (1 : Mat n n) - (rdiag e + ((0 : ℝ) : ℂ) • Z))
      = rdiag fun i => (m - e i) / c := by
  ext i j
  simp only [Matrix.smul_apply, Matrix.sub_apply, Matrix.add_apply, rdiag, diagonal_apply, one_apply,
    smul_eq_mul, Complex.ofReal_zero, zero_mul, add_zero]
  split_ifs
  · push_cast; ring
  · ring

variable {N B : ℕ}

/-- the steps of length `s` near 0 along `(zx, zeta)` succeed and lead to `o s` -/
def GeoPath (la : Lapack) (X : Mat N B) (e : Fin B → ℝ) (zx : Mat N B) (zeta : Mat B B) (S : Mat N N)
    (o : ℝ → GeoOut N B) : Prop :=
  ∀ᶠ s : ℝ in 𝓝 0, geodesicUs la X (rdiag e) zx zeta S s = .ok (o s)

theorem GeoPath.eig {la : Lapack} (hla : LapackOk la) {X : Mat N B} {e : Fin B → ℝ} {zx : Mat N B}
    {zeta : Mat B B} {S : Mat N N} {o : ℝ → GeoOut N B} (hz : zeta.IsHermitian)
    (h : GeoPath la X e zx zeta S o) :
    ∀ᶠ s : ℝ in 𝓝 0, Diagonalises (rdiag e + (s : ℂ) • zeta) (o s).ek (o s).ul := by
  refine h.mono fun s hs => ?_
  have hh : (rdiag e + (s : ℂ) • zeta).IsHermitian := by
    rw [IsHermitian, conjTranspose_add, rdiag_conj, conjTranspose_smul, hz.eq, RCLike.star_def,
      Complex.conj_ofReal]
  obtain ⟨h1, h2⟩ := hla.eigh hh (geodesicUs_inv hs).1
  exact ⟨h1, h2⟩

/-- The orbitals of the path, before the rotation, are the moved ones times a function of their
overlap. -/
theorem GeoPath.orb {la : Lapack} (hla : LapackOk la) {X : Mat N B} {e : Fin B → ℝ} {zx : Mat N B}
    {zeta : Mat B B} {S : Mat N N} {o : ℝ → GeoOut N B} (hS : S.IsHermitian) (ho : SOrtho S X)
    (ht : Tangent S X zx) (h : GeoPath la X e zx zeta S o) :
    ∃ (w : ℝ → Fin B → ℝ) (V : ℝ → Mat B B), ∀ᶠ s : ℝ in 𝓝 0,
      Diagonalises (1 + ((s ^ 2 : ℝ) : ℂ) • (zxᴴ * (S * zx))) (w s) (V s) ∧
      (o s).X = (X + (s : ℂ) • zx) * matFn (V s) (w s) (fun x => 1 / √x) * (o s).ul := by
  have key : ∀ s : ℝ, ∃ wV : (Fin B → ℝ) × Mat B B,
      geodesicUs la X (rdiag e) zx zeta S s = .ok (o s) →
      Diagonalises (1 + ((s ^ 2 : ℝ) : ℂ) • (zxᴴ * (S * zx))) wV.1 wV.2 ∧
      (o s).X = (X + (s : ℂ) • zx) * matFn wV.2 wV.1 (fun x => 1 / √x) * (o s).ul := by
    intro s
    by_cases hs : geodesicUs la X (rdiag e) zx zeta S s = .ok (o s)
    · obtain ⟨Y, hY, hX⟩ := (geodesicUs_inv hs).2
      obtain ⟨w, V, h1, h2⟩ := loewdin_inv hY
      refine ⟨(w, V), fun _ => ⟨?_, ?_⟩⟩
      · rw [moved_overlap hS ho ht] at h1
        have hh : (1 + ((s ^ 2 : ℝ) : ℂ) • (zxᴴ * (S * zx))).IsHermitian := by
          rw [IsHermitian, conjTranspose_add, conjTranspose_one, conjTranspose_smul, conjTranspose_mul,
            conjTranspose_mul, conjTranspose_conjTranspose, hS.eq, RCLike.star_def,
            Complex.conj_ofReal, Matrix.mul_assoc]
        obtain ⟨h3, h4⟩ := hla.eigh hh h1
        exact ⟨h3, h4⟩
      · rw [hX, h2]; rfl
    · exact ⟨(0, 0), fun h => absurd h hs⟩
  choose wV hwV using key
  exact ⟨fun s => (wV s).1, fun s => (wV s).2, h.mono fun s hs => hwV s hs⟩

theorem density_rotated (P : Mat N B) (U : Mat B B) (lam : Fin B → ℝ) (f : ℝ → ℝ) :
    densityMat (P * U) (fun l => f (lam l)) = P * matFn U lam f * Pᴴ := by
  rw [densityMat, matFn, conjTranspose_mul]
  simp only [Matrix.mul_assoc]

/-- **Derivative of the density matrix** along the path. -/
theorem density_MD {la : Lapack} (hla : LapackOk la) {X : Mat N B} {e : Fin B → ℝ} {zx : Mat N B}
    {zeta : Mat B B} {S : Mat N N} {o : ℝ → GeoOut N B} (hS : S.IsHermitian) (ho : SOrtho S X)
    (ht : Tangent S X zx) (hz : zeta.IsHermitian) (h : GeoPath la X e zx zeta S o)
    {m : ℝ → ℝ} {m' : ℝ} (hm : HasDerivAt m m' 0) (c : ℝ) {fn : ℝ → ℝ}
    (hf : ∀ i, DifferentiableAt ℝ fn ((m 0 - e i) / c)) :
    MD (fun s => densityMat (o s).X fun l => fn ((m s - (o s).ek l) / c))
      (zx * rdiag (fun i => fn ((m 0 - e i) / c)) * Xᴴ
        + X * ddMat fn (fun i => (m 0 - e i) / c)
            (((c⁻¹ : ℝ) : ℂ) • (((m' : ℝ) : ℂ) • (1 : Mat B B) - zeta)) * Xᴴ
        + X * rdiag (fun i => fn ((m 0 - e i) / c)) * zxᴴ)
    ∧ densityMat (o 0).X (fun l => fn ((m 0 - (o 0).ek l) / c))
      = densityMat X fun i => fn ((m 0 - e i) / c) := by
  have he := h.eig hla hz
  obtain ⟨w, V, hV⟩ := h.orb hla hS ho ht
  -- the overlap
  have hO : MD (fun s : ℝ => 1 + ((s ^ 2 : ℝ) : ℂ) • (zxᴴ * (S * zx))) 0 := by
    intro i j
    have h1 := (((hasDerivAt_pow 2 (0 : ℝ)).ofReal_comp.mul_const ((zxᴴ * (S * zx)) i j)).const_add
      ((1 : Mat B B) i j))
    have h2 : ((((2 : ℕ) : ℝ) * (0 : ℝ) ^ (2 - 1) : ℝ) : ℂ) * ((zxᴴ * (S * zx)) i j) = (0 : Mat B B) i j := by
      simp
    rw [h2] at h1
    exact h1
  have hO0 : 1 + (((0 : ℝ) ^ 2 : ℝ) : ℂ) • (zxᴴ * (S * zx)) = rdiag fun _ => 1 := by
    simp [rdiag]
  have hsq : DifferentiableAt ℝ (fun x : ℝ => 1 / √x) 1 :=
    (differentiableAt_const _).div (Real.hasDerivAt_sqrt one_ne_zero).differentiableAt (by simp)
  have hR := matFn_MD (a := fun _ : Fin B => (1 : ℝ)) hO0 hO (hV.mono fun s hs => hs.1) fun _ => hsq
  have hR0 : matFn (V 0) (w 0) (fun x => 1 / √x) = 1 := by
    rw [matFn_diag hV.self_of_nhds.1 hO0]
    simp [rdiag]
  -- the occupations
  have hA := arg_MD e zeta hm c
  have hAd : ∀ᶠ s : ℝ in 𝓝 0, Diagonalises
      (((c⁻¹ : ℝ) : ℂ) • (((m s : ℝ) : ℂ) • (1 : Mat B B) - (rdiag e + (s : ℂ) • zeta)))
      (fun l => (m s - (o s).ek l) / c) (o s).ul := he.mono fun s hs => arg_diag hs (m s) c
  have hG := matFn_MD (arg_zero e zeta (m 0) c) hA hAd hf
  have hG0 : matFn (o 0).ul (fun l => (m 0 - (o 0).ek l) / c) fn = rdiag fun i => fn ((m 0 - e i) / c) :=
    matFn_diag hAd.self_of_nhds (arg_zero e zeta (m 0) c) fn
  -- the product
  have hP := (MD.line X zx).mul hR
  have hD := (hP.mul hG).mul hP.adj
  have hval : ∀ᶠ s : ℝ in 𝓝 0, densityMat (o s).X (fun l => fn ((m s - (o s).ek l) / c)) =
      (X + (s : ℂ) • zx) * matFn (V s) (w s) (fun x => 1 / √x) *
        matFn (o s).ul (fun l => (m s - (o s).ek l) / c) fn *
        ((X + (s : ℂ) • zx) * matFn (V s) (w s) (fun x => 1 / √x))ᴴ := by
    refine hV.mono fun s hs => ?_
    rw [hs.2, density_rotated]
  constructor
  · have hD' := hD.congr hval
    simp only [hR0, hG0, Complex.ofReal_zero, zero_smul, add_zero, Matrix.mul_one] at hD'
    have hz0 : ddMat (fun x : ℝ => 1 / √x) (fun _ : Fin B => 1) 0 = 0 := by
      ext i j; simp [ddMat]
    rw [hz0, Matrix.mul_zero, add_zero, Matrix.add_mul] at hD'
    exact hD'
  · rw [hval.self_of_nhds, hG0, hR0, Complex.ofReal_zero, zero_smul, add_zero, Matrix.mul_one]
    rfl

/-- derivative of a sum over the pseudo-energies of the path -/
theorem bandSum_deriv {la : Lapack} (hla : LapackOk la) {X : Mat N B} {e : Fin B → ℝ} {zx : Mat N B}
    {zeta : Mat B B} {S : Mat N N} {o : ℝ → GeoOut N B} (hz : zeta.IsHermitian)
    (h : GeoPath la X e zx zeta S o) {m : ℝ → ℝ} {m' : ℝ} (hm : HasDerivAt m m' 0) (c : ℝ)
    {fn : ℝ → ℝ} {f' : Fin B → ℝ} (hf : ∀ i, HasDerivAt fn (f' i) ((m 0 - e i) / c)) :
    HasDerivAt (fun s => ∑ l, fn ((m s - (o s).ek l) / c))
      (∑ i, f' i * ((m' - (zeta i i).re) / c)) 0 := by
  have he := h.eig hla hz
  have := hasDerivAt_eigSum (arg_zero e zeta (m 0) c) (arg_MD e zeta hm c)
    (he.mono fun s hs => arg_diag hs (m s) c) hf
  refine hd_to this (fun _ => rfl) (Finset.sum_congr rfl fun i _ => ?_)
  simp only [Matrix.smul_apply, Matrix.sub_apply, one_apply_eq, smul_eq_mul, mul_one,
    Complex.re_ofReal_mul, Complex.sub_re, Complex.ofReal_re]
  rw [div_eq_inv_mul]

end Nlcg
