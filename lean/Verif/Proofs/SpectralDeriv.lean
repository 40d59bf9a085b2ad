import Verif.Model.LinAlg
import Mathlib.Analysis.Calculus.DSlope
import Mathlib.Analysis.Calculus.Deriv.Slope
import Mathlib.Analysis.Calculus.Deriv.Mul
import Mathlib.Analysis.Calculus.Deriv.Add
import Mathlib.Analysis.Complex.Basic
import Mathlib.Topology.Instances.Matrix
import Mathlib.LinearAlgebra.Matrix.NonsingularInverse

/-!
# Derivative of a function of a Hermitian matrix

If `A(t)` is diagonalised by `U(t)` and `A(0)` is diagonal with entries `a`, then `f(A(t))`, formed with
whatever eigenvectors are returned at each `t`, is differentiable at 0 with derivative
`f[a_i, a_j] * A'(0)_ij`, where `f[x, y]` is the divided difference. No continuity of the eigenvectors is
needed (there is none if eigenvalues coincide), and `f` need only be differentiable at the `a_i`.
-/

namespace Nlcg
open Matrix Filter Topology

variable {n : ℕ}

/-- the columns of `U` are an orthonormal basis of eigenvectors of `A` -/
structure Diagonalises (A : Mat n n) (lam : Fin n → ℝ) (U : Mat n n) : Prop where
  unit : Uᴴ * U = 1
  eig : A * U = U * diagonal fun i => (lam i : ℂ)

/-- function of a matrix, from its eigenvalues and eigenvectors -/
noncomputable def matFn (U : Mat n n) (lam : Fin n → ℝ) (r : ℝ → ℝ) : Mat n n :=
  U * diagonal (fun l => (r (lam l) : ℂ)) * Uᴴ

theorem matFn_apply (U : Mat n n) (lam : Fin n → ℝ) (r : ℝ → ℝ) (i j : Fin n) :
    matFn U lam r i j = ∑ l, U i l * (r (lam l) : ℂ) * star (U j l) := by
  rw [matFn, mul_apply]
  simp only [mul_diagonal, conjTranspose_apply]

theorem Diagonalises.unit' {A : Mat n n} {lam : Fin n → ℝ} {U : Mat n n} (h : Diagonalises A lam U) :
    U * Uᴴ = 1 := mul_eq_one_comm.1 h.unit

theorem Diagonalises.norm_le {A : Mat n n} {lam : Fin n → ℝ} {U : Mat n n} (h : Diagonalises A lam U)
    (i l : Fin n) : ‖U i l‖ ≤ 1 := by
  have h1 : ∑ m, ‖U m l‖ ^ 2 = 1 := by
    have := congrFun (congrFun h.unit l) l
    simp only [mul_apply, conjTranspose_apply, one_apply_eq] at this
    have h2 : ∀ m, star (U m l) * U m l = ((‖U m l‖ ^ 2 : ℝ) : ℂ) := by
      intro m
      rw [Complex.star_def, ← Complex.normSq_eq_conj_mul_self, Complex.normSq_eq_norm_sq]
    simp only [h2] at this
    exact_mod_cast this
  have h2 : ‖U i l‖ ^ 2 ≤ 1 := by
    rw [← h1]
    exact Finset.single_le_sum (f := fun m => ‖U m l‖ ^ 2) (fun m _ => by positivity) (Finset.mem_univ i)
  nlinarith [norm_nonneg (U i l)]

theorem Diagonalises.entry {A : Mat n n} {lam : Fin n → ℝ} {U : Mat n n} (h : Diagonalises A lam U)
    (j l : Fin n) : ∑ m, A j m * U m l = U j l * (lam l : ℂ) := by
  have := congrFun (congrFun h.eig j) l
  rwa [mul_diagonal, mul_apply] at this

theorem Diagonalises.value {A : Mat n n} {lam : Fin n → ℝ} {U : Mat n n} (h : Diagonalises A lam U)
    (l : Fin n) : (lam l : ℂ) = ∑ j, star (U j l) * ∑ m, A j m * U m l := by
  have h1 : ∑ j, star (U j l) * U j l = 1 := by
    have := congrFun (congrFun h.unit l) l
    simpa [mul_apply] using this
  simp only [h.entry, ← mul_assoc, ← Finset.sum_mul, h1, one_mul]

/-- functions of a matrix that tends to a diagonal one -/
theorem tendsto_matFn {ι : Type*} {F : Filter ι} {A : ι → Mat n n} {lam : ι → Fin n → ℝ}
    {U : ι → Mat n n} {a : Fin n → ℝ}
    (hA : ∀ i j, Tendsto (fun t => A t i j) F (𝓝 ((diagonal fun i => (a i : ℂ)) i j)))
    (hU : ∀ᶠ t in F, Diagonalises (A t) (lam t) (U t)) {r : ℝ → ℝ} (hr : ∀ i, ContinuousAt r (a i))
    (i j : Fin n) :
    Tendsto (fun t => matFn (U t) (lam t) r i j) F (𝓝 (if i = j then (r (a j) : ℂ) else 0)) := by
  rw [tendsto_iff_ultrafilter]
  intro g hg
  have hU' : ∀ᶠ t in (g : Filter ι), Diagonalises (A t) (lam t) (U t) := hg hU
  -- limits of the eigenvectors along the ultrafilter
  have hex : ∀ i l, ∃ u : ℂ, Tendsto (fun t => U t i l) g (𝓝 u) := by
    intro i l
    obtain ⟨u, -, hu⟩ := (isCompact_closedBall (0 : ℂ) 1).ultrafilter_le_nhds (g.map fun t => U t i l)
      (by
        rw [le_principal_iff]
        refine mem_map.2 (hU'.mono fun t ht => ?_)
        simpa using ht.norm_le i l)
    exact ⟨u, hu⟩
  choose V hV using hex
  have hA' : ∀ i j, Tendsto (fun t => A t i j) g (𝓝 ((diagonal fun i => (a i : ℂ)) i j)) :=
    fun i j => (hA i j).mono_left hg
  -- limits of the eigenvalues
  have hlam : ∀ l, ∃ m : ℝ, Tendsto (fun t => lam t l) g (𝓝 m) := by
    intro l
    have h1 : Tendsto (fun t => ∑ j, star (U t j l) * ∑ m, A t j m * U t m l) g
        (𝓝 (∑ j, star (V j l) * ∑ m, (diagonal fun i => (a i : ℂ)) j m * V m l)) :=
      tendsto_finsetSum _ fun j _ => ((hV j l).star).mul
        (tendsto_finsetSum _ fun m _ => (hA' j m).mul (hV m l))
    have h2 := (Complex.continuous_re.tendsto _).comp h1
    refine ⟨_, h2.congr' (hU'.mono fun t ht => ?_)⟩
    simp only [Function.comp]
    rw [← ht.value l, Complex.ofReal_re]
  choose L hL using hlam
  have hLc : ∀ l, Tendsto (fun t => (lam t l : ℂ)) g (𝓝 (L l : ℂ)) := fun l =>
    (Complex.continuous_ofReal.tendsto _).comp (hL l)
  -- the limit diagonalises the limit
  have hentry : ∀ j l, (a j : ℂ) * V j l = V j l * (L l : ℂ) := by
    intro j l
    have h1 : Tendsto (fun t => ∑ m, A t j m * U t m l) g
        (𝓝 (∑ m, (diagonal fun i => (a i : ℂ)) j m * V m l)) :=
      tendsto_finsetSum _ fun m _ => (hA' j m).mul (hV m l)
    have h2 : Tendsto (fun t => U t j l * (lam t l : ℂ)) g (𝓝 (V j l * (L l : ℂ))) := (hV j l).mul (hLc l)
    have h3 := tendsto_nhds_unique (h1.congr' (hU'.mono fun t ht => ht.entry j l)) h2
    simpa [diagonal_apply] using h3
  have hunit : ∀ l, ∑ m, star (V m l) * V m l = 1 := by
    intro l
    have h1 : Tendsto (fun t => ∑ m, star (U t m l) * U t m l) g (𝓝 (∑ m, star (V m l) * V m l)) :=
      tendsto_finsetSum _ fun m _ => ((hV m l).star).mul (hV m l)
    refine tendsto_nhds_unique (h1.congr' (hU'.mono fun t ht => ?_)) tendsto_const_nhds
    have := congrFun (congrFun ht.unit l) l
    simpa [mul_apply] using this
  have hunit' : ∀ i j, ∑ l, V i l * star (V j l) = if i = j then 1 else 0 := by
    intro i j
    have h1 : Tendsto (fun t => ∑ l, U t i l * star (U t j l)) g (𝓝 (∑ l, V i l * star (V j l))) :=
      tendsto_finsetSum _ fun l _ => (hV i l).mul (hV j l).star
    refine tendsto_nhds_unique (h1.congr' (hU'.mono fun t ht => ?_)) tendsto_const_nhds
    have := congrFun (congrFun ht.unit' i) j
    simpa [mul_apply, one_apply] using this
  have hmem : ∀ l, ∃ m, L l = a m := by
    intro l
    by_contra hc
    push Not at hc
    have : ∀ m, V m l = 0 := by
      intro m
      have h1 := hentry m l
      have h2 : ((a m : ℂ) - (L l : ℂ)) * V m l = 0 := by rw [sub_mul, h1, mul_comm, sub_self]
      rcases mul_eq_zero.1 h2 with h3 | h3
      · exact absurd (by exact_mod_cast (sub_eq_zero.1 h3).symm) (hc m)
      · exact h3
    have h1 := hunit l
    simp [this] at h1
  have hrl : ∀ l, Tendsto (fun t => (r (lam t l) : ℂ)) g (𝓝 (r (L l) : ℂ)) := by
    intro l
    obtain ⟨m, hm⟩ := hmem l
    have h1 : Tendsto r (𝓝 (L l)) (𝓝 (r (L l))) := by rw [hm]; exact hr m
    exact (Complex.continuous_ofReal.tendsto _).comp (h1.comp (hL l))
  have hlim : Tendsto (fun t => ∑ l, U t i l * (r (lam t l) : ℂ) * star (U t j l)) g
      (𝓝 (∑ l, V i l * (r (L l) : ℂ) * star (V j l))) :=
    tendsto_finsetSum _ fun l _ => ((hV i l).mul (hrl l)).mul (hV j l).star
  have hval : ∑ l, V i l * (r (L l) : ℂ) * star (V j l) = if i = j then (r (a j) : ℂ) else 0 := by
    have h1 : ∀ l, V i l * (r (L l) : ℂ) * star (V j l) = (r (a j) : ℂ) * (V i l * star (V j l)) := by
      intro l
      rcases eq_or_ne (V j l) 0 with h0 | h0
      · simp [h0]
      · have h2 : L l = a j := by
          have := hentry j l
          rw [mul_comm] at this
          exact_mod_cast (mul_left_cancel₀ h0 this).symm
        rw [h2]
        ring
    simp only [h1, ← Finset.mul_sum, hunit' i j]
    split <;> simp
  rw [← hval]
  simpa only [matFn_apply] using hlim

theorem matFn_split {A : Mat n n} {lam : Fin n → ℝ} {U : Mat n n} (h : Diagonalises A lam U) (f : ℝ → ℝ)
    (c : ℝ) (i j : Fin n) : matFn U lam f i j =
      (if i = j then (f c : ℂ) else 0) +
        ∑ m, (A i m - if i = m then (c : ℂ) else 0) * matFn U lam (dslope f c) m j := by
  have h1 : ∑ m, A i m * matFn U lam (dslope f c) m j =
      ∑ l, U i l * (lam l : ℂ) * ((dslope f c (lam l) : ℝ) : ℂ) * star (U j l) := by
    simp only [matFn_apply, Finset.mul_sum]
    rw [Finset.sum_comm]
    refine Finset.sum_congr rfl fun l _ => ?_
    rw [← h.entry i l, Finset.sum_mul, Finset.sum_mul]
    exact Finset.sum_congr rfl fun m _ => by ring
  have h2 : ∑ l, U i l * star (U j l) = if i = j then 1 else 0 := by
    have := congrFun (congrFun h.unit' i) j
    simpa [mul_apply, one_apply] using this
  have h3 : (if i = j then (f c : ℂ) else 0) = (f c : ℂ) * ∑ l, U i l * star (U j l) := by
    rw [h2]; split <;> simp
  simp only [sub_mul, Finset.sum_sub_distrib, h1, ite_mul, zero_mul, Finset.sum_ite_eq, Finset.mem_univ,
    if_true]
  rw [h3, matFn_apply, matFn_apply, Finset.mul_sum, Finset.mul_sum, ← Finset.sum_sub_distrib,
    ← Finset.sum_add_distrib]
  refine Finset.sum_congr rfl fun l _ => ?_
  have := sub_smul_dslope f c (lam l)
  simp only [smul_eq_mul] at this
  have h4 : f (lam l) = f c + (lam l - c) * dslope f c (lam l) := by linarith
  rw [h4]
  push_cast
  ring

/-- **Derivative of a function of a matrix** at a diagonal matrix -/
theorem hasDerivAt_matFn {A : ℝ → Mat n n} {lam : ℝ → Fin n → ℝ} {U : ℝ → Mat n n} {a : Fin n → ℝ}
    {B : Mat n n} (h0 : ∀ i j, A 0 i j = (diagonal fun i => (a i : ℂ)) i j)
    (hA : ∀ i j, HasDerivAt (fun t => A t i j) (B i j) 0)
    (hU : ∀ᶠ t in 𝓝 0, Diagonalises (A t) (lam t) (U t)) {f : ℝ → ℝ}
    (hf : ∀ i, DifferentiableAt ℝ f (a i)) (i j : Fin n) :
    HasDerivAt (fun t => matFn (U t) (lam t) f i j) (((dslope f (a i) (a j) : ℝ) : ℂ) * B i j) 0 := by
  have hr : ∀ m, ContinuousAt (dslope f (a i)) (a m) := by
    intro m
    rcases eq_or_ne (a m) (a i) with h | h
    · rw [h]
      exact continuousAt_dslope_same.2 (hf i)
    · exact (continuousAt_dslope_of_ne h).2 (hf m).continuousAt
  have hcont : ∀ i j, Tendsto (fun t => A t i j) (𝓝[≠] 0) (𝓝 ((diagonal fun i => (a i : ℂ)) i j)) := by
    intro i j
    rw [← h0]
    exact (hA i j).continuousAt.tendsto.mono_left nhdsWithin_le_nhds
  have hU' : ∀ᶠ t in 𝓝[≠] 0, Diagonalises (A t) (lam t) (U t) := nhdsWithin_le_nhds hU
  have hzero : matFn (U 0) (lam 0) f i j = if i = j then (f (a i) : ℂ) else 0 := by
    rw [matFn_split hU.self_of_nhds f (a i) i j]
    have : ∀ m, A 0 i m - (if i = m then ((a i : ℝ) : ℂ) else 0) = 0 := by
      intro m
      rw [h0, diagonal_apply, sub_self]
    simp [this]
  rw [hasDerivAt_iff_tendsto_slope]
  have hlim : Tendsto (fun t : ℝ => ∑ m, slope (fun t => A t i m) 0 t *
      matFn (U t) (lam t) (dslope f (a i)) m j) (𝓝[≠] 0)
      (𝓝 (∑ m, B i m * if m = j then ((dslope f (a i) (a j) : ℝ) : ℂ) else 0)) :=
    tendsto_finsetSum _ fun m _ => ((hasDerivAt_iff_tendsto_slope.1 (hA i m))).mul
      (tendsto_matFn hcont hU' hr m j)
  have hval : ∑ m, B i m * (if m = j then ((dslope f (a i) (a j) : ℝ) : ℂ) else 0) =
      ((dslope f (a i) (a j) : ℝ) : ℂ) * B i j := by
    simp [mul_comm]
  rw [← hval]
  refine hlim.congr' (hU'.mono fun t ht => ?_)
  simp only [slope, vsub_eq_sub, sub_zero]
  rw [hzero, matFn_split ht f (a i) i j, add_sub_cancel_left, Finset.smul_sum]
  refine Finset.sum_congr rfl fun m _ => ?_
  rw [h0, diagonal_apply, smul_mul_assoc]

end Nlcg
