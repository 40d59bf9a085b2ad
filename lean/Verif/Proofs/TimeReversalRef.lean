import Verif.Proofs.TimeReversal
import Verif.Proofs.LinearHost
import Mathlib.SetTheory.Cardinal.Order
import Mathlib.LinearAlgebra.Matrix.NonsingularInverse

/-! A LAPACK that keeps its contract and respects complex conjugation, and hosts with time-reversal symmetry. -/

namespace Nlcg
open Spec Matrix ComplexOrder

section lapack
variable {N : ℕ}

theorem cj_one {f : Bool} : cj f (1 : Mat N N) = 1 := by
  cases f
  · rfl
  · ext i j
    simp only [cj, if_true, map_apply, one_apply]
    split_ifs <;> simp

theorem cj_inv {f : Bool} (A : Mat N N) : cj f A⁻¹ = (cj f A)⁻¹ := by
  cases f
  · rfl
  · have hd : (cj true A).det = starRingEnd ℂ A.det := (RingHom.map_det _ _).symm
    by_cases h : IsUnit A.det
    · refine (inv_eq_right_inv ?_).symm
      rw [← cj_mul, mul_nonsing_inv _ h, cj_one]
    · have h' : ¬ IsUnit (cj true A).det := by
        rw [hd, isUnit_iff_ne_zero]
        rw [isUnit_iff_ne_zero] at h
        simpa using h
      rw [nonsing_inv_apply_not_isUnit _ h, nonsing_inv_apply_not_isUnit _ h', cj_zero]

theorem cj_isHermitian {f : Bool} {A : Mat N N} (h : A.IsHermitian) : (cj f A).IsHermitian := by
  rw [IsHermitian, cj_conjTranspose, h.eq]

theorem cj_posDef {f : Bool} {A : Mat N N} : (cj f A).PosDef ↔ A.PosDef := by
  have : ∀ {A : Mat N N}, A.PosDef → (cj f A).PosDef := by
    intro A h
    cases f
    · exact h
    · have h1 : cj true A = Aᵀ := by
        conv_lhs => rw [← h.isHermitian.eq]
        ext i j
        simp [cj, conjTranspose_apply]
      rw [h1]
      exact h.transpose
  exact ⟨fun h => by have := this h; rwa [cj_cj] at this, this⟩

/-- eigenvalues and eigenvectors of a real matrix: real eigenvectors -/
noncomputable def realEigh (A : Mat N N) : ((Fin N → ℝ) × Mat N N) × Int := by
  classical
  exact if h : (A.map Complex.re).IsHermitian then
    ((h.eigenvalues, (h.eigenvectorUnitary.1).map Complex.ofReal), 0) else ((0, 0), 1)

/-- the conjugate of the result of the eigensolver -/
noncomputable def cjEigh (r : ((Fin N → ℝ) × Mat N N) × Int) : ((Fin N → ℝ) × Mat N N) × Int :=
  ((r.1.1, cj true r.1.2), r.2)

/-- the matrix before its conjugate in some order, or a real one, is diagonalised -/
noncomputable def evenEigh (A : Mat N N) : ((Fin N → ℝ) × Mat N N) × Int := by
  classical
  exact if cj true A = A then realEigh A
    else if WellOrderingRel A (cj true A) then refEigh A else cjEigh (refEigh (cj true A))

/-- a LAPACK that keeps its contract and respects complex conjugation -/
noncomputable def evenLapack : Lapack where
  potrf A := by classical exact (A, if A.PosDef then 0 else 1)
  potrs A C := (A⁻¹ * C, 0)
  heevd A := evenEigh A

theorem realEigh_even (A : Mat N N) : cjEigh (realEigh A) = realEigh A := by
  classical
  unfold realEigh
  split_ifs
  · refine Prod.ext (Prod.ext rfl ?_) rfl
    ext i j
    simp [cjEigh, cj]
  · exact Prod.ext (Prod.ext rfl (cj_zero (f := true) (m := N) (p := N))) rfl

theorem evenEigh_even (A : Mat N N) : evenEigh (cj true A) = cjEigh (evenEigh A) := by
  classical
  unfold evenEigh
  rw [cj_cj]
  by_cases h : cj true A = A
  · rw [if_pos h.symm, if_pos h, h, realEigh_even]
  · rw [if_neg fun h' => h h'.symm, if_neg h]
    by_cases hw : WellOrderingRel A (cj true A)
    · rw [if_pos hw, if_neg fun h' => (asymm hw h' : False)]
    · rw [if_neg hw]
      have : WellOrderingRel (cj true A) A := by
        rcases trichotomous_of WellOrderingRel A (cj true A) with h1 | h1 | h1
        · exact absurd h1 hw
        · exact absurd h1.symm h
        · exact h1
      rw [if_pos this]
      refine Prod.ext (Prod.ext rfl ?_) rfl
      simp only [cjEigh, cj_cj]

theorem evenLapack_real : LapackReal evenLapack where
  potrf A := by
    refine Prod.ext rfl ?_
    simp only [evenLapack]
    classical
    exact if_congr cj_posDef rfl rfl
  potrs A C := by
    refine Prod.ext ?_ rfl
    simp only [evenLapack, cj_mul, cj_inv]
  heevd A := evenEigh_even A

/-- what the eigensolver promises -/
def GoodEigh (A : Mat N N) (r : ((Fin N → ℝ) × Mat N N) × Int) : Prop :=
  r.2 = 0 ∧ r.1.2ᴴ * r.1.2 = 1 ∧ A * r.1.2 = r.1.2 * diagonal fun i => (r.1.1 i : ℂ)

theorem refEigh_good {A : Mat N N} (h : A.IsHermitian) : GoodEigh A (refEigh A) :=
  ⟨refLapack_total A h, refLapack_ok.eigen A h (refLapack_total A h)⟩

theorem cjEigh_good {A : Mat N N} {r : ((Fin N → ℝ) × Mat N N) × Int} (h : GoodEigh A r) :
    GoodEigh (cj true A) (cjEigh r) := by
  obtain ⟨h1, h2, h3⟩ := h
  refine ⟨h1, ?_, ?_⟩
  · simp only [cjEigh, cj_conjTranspose, ← cj_mul, h2, cj_one]
  · have : (diagonal fun i => (r.1.1 i : ℂ)) = cj true (diagonal fun i => (r.1.1 i : ℂ)) := (cj_makeDiag r.1.1).symm
    simp only [cjEigh]
    rw [← cj_mul, h3, cj_mul, ← this]

theorem realEigh_good {A : Mat N N} (hA : cj true A = A) (h : A.IsHermitian) : GoodEigh A (realEigh A) := by
  classical
  have hre : A = (A.map Complex.re).map Complex.ofReal := by
    ext i j
    have := congrFun (congrFun hA i) j
    simp only [cj, if_true, map_apply] at this ⊢
    exact (Complex.conj_eq_iff_re.1 this).symm
  have hh : (A.map Complex.re).IsHermitian := by
    ext i j
    have := congrFun (congrFun h.eq i) j
    simp only [conjTranspose_apply, map_apply] at this ⊢
    rw [← this]
    simp
  have hu : (hh.eigenvectorUnitary.1)ᴴ * hh.eigenvectorUnitary.1 = 1 :=
    Unitary.coe_star_mul_self hh.eigenvectorUnitary
  have hs := hh.spectral_theorem
  rw [Unitary.conjStarAlgAut_apply] at hs
  have hs' : A.map Complex.re * hh.eigenvectorUnitary.1 = hh.eigenvectorUnitary.1 * diagonal hh.eigenvalues := by
    refine (congrArg (· * hh.eigenvectorUnitary.1) hs).trans ?_
    refine (Matrix.mul_assoc _ _ _).trans ?_
    exact (congrArg (_ * ·) hu).trans (Matrix.mul_one _)
  rw [realEigh, dif_pos hh]
  have hm : ∀ {m p q : ℕ} (X : Matrix (Fin m) (Fin p) ℝ) (Y : Matrix (Fin p) (Fin q) ℝ),
      (X * Y).map Complex.ofReal = X.map Complex.ofReal * Y.map Complex.ofReal :=
    fun X Y => Matrix.map_mul (f := Complex.ofRealHom)
  refine ⟨rfl, ?_, ?_⟩
  · have h1 := congrArg (fun X => X.map Complex.ofReal) hu
    simp only [hm] at h1
    rw [show ((hh.eigenvectorUnitary.1)ᴴ.map Complex.ofReal : Mat N N)
      = ((hh.eigenvectorUnitary.1).map Complex.ofReal)ᴴ by ext i j; simp [conjTranspose_apply]] at h1
    refine h1.trans ?_
    ext i j
    simp only [map_apply, one_apply]
    split_ifs <;> simp
  · have h1 := congrArg (fun X => X.map Complex.ofReal) hs'
    simp only [hm] at h1
    rw [← hre] at h1
    rw [show ((diagonal hh.eigenvalues).map Complex.ofReal : Mat N N) = diagonal fun i => (hh.eigenvalues i : ℂ) by
      ext i j
      simp only [map_apply, diagonal_apply]
      split_ifs <;> simp] at h1
    exact h1

theorem evenEigh_good {A : Mat N N} (h : A.IsHermitian) : GoodEigh A (evenEigh A) := by
  classical
  unfold evenEigh
  split_ifs with h1 h2
  · exact realEigh_good h1 h
  · exact refEigh_good h
  · have := cjEigh_good (refEigh_good (cj_isHermitian (f := true) h))
    rwa [cj_cj] at this

theorem evenLapack_total : EighTotal evenLapack := fun _ h => (evenEigh_good h).1

theorem evenLapack_ok : LapackOk evenLapack where
  chol A := refLapack_ok.chol A
  solve A C h := refLapack_ok.solve A C h
  eigen _ h _ := (evenEigh_good h).2

end lapack

section hosts
variable {K L : ℕ} {n b : Fin K → ℕ} {e : Fin L → Fin K} {σ : Fin L → Bool}

/-- the k-points of the reduced set, with their partners -/
noncomputable def starH (σ : Fin L → Bool) (e : Fin L → Fin K) (H : (k : Fin K) → Mat (n k) (n k)) (l : Fin L) :
    Mat (n (e l)) (n (e l)) := cj (σ l) (H (e l))

theorem cj_trace_re {f : Bool} {N : ℕ} (A : Mat N N) : (trace (cj f A)).re = (trace A).re := by
  cases f
  · rfl
  · simp only [trace, Complex.re_sum, diag_apply, cj, if_true, map_apply, Complex.conj_re]

theorem linearEnergy_star {H : (k : Fin K) → Mat (n k) (n k)} {wk : Fin K → ℝ} {wk' : Fin L → ℝ}
    (hw : ∀ k, ∑ l with e l = k, wk' l = wk k) (X : Orbitals n b) (f : Bands b) :
    linearEnergy (n := fun l => n (e l)) (b := copies b e) (starH σ e H) wk' (fun l => cj (σ l) (X (e l))) (spread e f)
      = linearEnergy H wk X f := by
  have h : ∀ l, (trace (starH σ e H l * (cj (σ l) (X (e l)) * diagonal (fun i => (spread e f l i : ℂ))
      * (cj (σ l) (X (e l)))ᴴ))).re
      = (trace (H (e l) * (X (e l) * diagonal (fun i => (f (e l) i : ℂ)) * (X (e l))ᴴ))).re := by
    intro l
    have hd : (diagonal fun i => (spread e f l i : ℂ)) = cj (σ l) (makeDiag (f (e l))) := (cj_makeDiag _).symm
    rw [hd, cj_conjTranspose, starH, ← cj_mul, ← cj_mul, ← cj_mul, cj_trace_re]
    rfl
  simp only [linearEnergy, h]
  rw [← Finset.sum_fiberwise (s := Finset.univ) (g := e)]
  refine Finset.sum_congr rfl fun k _ => ?_
  rw [← hw k, Finset.sum_mul]
  refine Finset.sum_congr rfl fun l hl => ?_
  rw [(Finset.mem_filter.1 hl).2]

/-- non-interacting electrons on a full set of k-points and on the set reduced by time reversal -/
def linearHost_star (σ : Fin L → Bool) (H : (k : Fin K) → Mat (n k) (n k)) {wk : Fin K → ℝ} {wk' : Fin L → ℝ}
    (hw : ∀ k, ∑ l with e l = k, wk' l = wk k) :
    SameHost e (fun _ => 1) (reversedHost σ (linearHost (n := fun l => n (e l)) (b := copies b e) (starH σ e H) wk'))
      (linearHost (b := b) H wk) where
  R h x := h.C = (fun l => cj (σ l) (x.C (e l))) ∧ h.hphi = (fun l => cj (σ l) (x.hphi (e l))) ∧
    h.fn = spread e x.fn ∧ h.ek = spread e x.ek ∧ h.mu = x.mu
  C := by
    rintro h x ⟨h1, -⟩
    funext l
    simp [reversedHost, reversed, linearHost, h1, cj_cj, expand]
  hphi := by
    rintro h x ⟨-, h1, -⟩
    funext l
    simp [reversedHost, reversed, linearHost, h1, cj_cj, expand]
  fn := fun h => h.2.2.1
  ek := fun h => h.2.2.2.1
  setC := by
    rintro h x X ⟨h1, h2⟩
    refine ⟨rfl, ?_, h2⟩
    funext l
    simp [reversedHost, reversed, linearHost, expand]
  setFn := by
    rintro h x f ⟨h1, h2, h3, h4⟩
    exact ⟨rfl, h1, h2, rfl, h4⟩
  compute := by
    rintro h x ⟨h1, h2, h3, h4, h5⟩
    refine ⟨rfl, h1, ?_, h3, ?_, h5⟩
    · funext l
      simp only [reversedHost, linearHost, h1, starH, cj_mul]
    · funext l i
      simp only [reversedHost, linearHost, h1, starH, cj_conjTranspose, ← cj_mul, spread]
      cases σ l
      · rfl
      · simp [cj]
  setMu := by
    rintro h x mu ⟨h1, h2, h3, h4, h5⟩
    exact ⟨rfl, h1, h2, h3, h4, rfl⟩
  energy := by
    rintro h x ⟨h1, h2, h3, h4, h5⟩
    refine ⟨?_, h1, h2, h3, h4, h5⟩
    have := linearEnergy_star (σ := σ) (H := H) hw x.C x.fn
    simp only [reversedHost, linearHost, h1, h3, this]
  print := by
    rintro h x hR
    exact ⟨rfl, hR⟩

variable {η : Type}

/-- a symmetric host, seen as a description of itself -/
def Spec.TimeSymmetric.same {host : Host η n b} (H : TimeSymmetric host) :
    SameHost (fun k : Fin K => k) (fun k => (1 : Mat (n k) (n k))) (reversedHost (fun _ => true) host) host where
  R := H.R
  C hR := by
    funext k
    simp only [reversedHost, reversed, expand, Matrix.one_mul, H.C hR k, cj_cj]
  hphi hR := by
    funext k
    simp only [reversedHost, reversed, expand, Matrix.one_mul, H.hphi hR k, cj_cj]
  fn hR := H.fn hR
  ek hR := H.ek hR
  setC X hR := by
    have h : reversed (fun _ => true) (expand (fun k : Fin K => k) (fun k => (1 : Mat (n k) (n k))) X)
        = fun k => cj true (X k) := by
      funext k
      simp only [reversed, expand, Matrix.one_mul]
    simp only [reversedHost, h]
    exact H.setC X hR
  setFn f hR := H.setFn f hR
  compute hR := H.compute hR
  setMu mu hR := H.setMu mu hR
  energy hR := H.energy hR
  print hR := H.print hR

/-- non-interacting electrons with a real Hamiltonian -/
def linearHost_symmetric {H : (k : Fin K) → Mat (n k) (n k)} (hH : ∀ k, cj true (H k) = H k) (wk : Fin K → ℝ) :
    TimeSymmetric (linearHost (b := b) H wk) where
  R h x := h.C = (fun k => cj true (x.C k)) ∧ h.hphi = (fun k => cj true (x.hphi k)) ∧
    h.fn = x.fn ∧ h.ek = x.ek ∧ h.mu = x.mu
  C hR k := congrFun hR.1 k
  hphi hR k := congrFun hR.2.1 k
  fn hR := hR.2.2.1
  ek hR := hR.2.2.2.1
  setC X hR := ⟨rfl, rfl, hR.2⟩
  setFn f hR := ⟨rfl, hR.1, hR.2.1, rfl, hR.2.2.2⟩
  compute := by
    rintro h x ⟨h1, h2, h3, h4, h5⟩
    refine ⟨rfl, h1, ?_, h3, ?_, h5⟩
    · funext k
      simp only [linearHost, h1, cj_mul, hH]
    · funext k i
      simp only [linearHost, h1]
      rw [← hH k, cj_conjTranspose, ← cj_mul, ← cj_mul, hH k]
      simp [cj]
  setMu mu hR := ⟨rfl, hR.1, hR.2.1, hR.2.2.1, hR.2.2.2.1, rfl⟩
  energy := by
    rintro h x ⟨h1, h2, h3, h4, h5⟩
    refine ⟨?_, h1, h2, h3, h4, h5⟩
    have := linearEnergy_star (σ := fun _ => true) (e := fun k : Fin K => k) (H := H) (wk := wk) (wk' := wk)
      (fun k => by simp [Finset.filter_eq']) x.C x.fn
    have hs : starH (fun _ => true) (fun k : Fin K => k) H = H := funext fun k => hH k
    rw [hs] at this
    simp only [linearHost, h1, h3]
    exact congrArg some this
  print hR := ⟨rfl, hR⟩

end hosts

end Nlcg
