import Verif.Props.SelfConsistent
import Verif.Props.Variational
import Verif.Props.Represent
import Verif.Props.Descent

/-! # Stationary states of electrons that do not interact -/

namespace Nlcg
open Matrix Spec Real

variable {K : ℕ} {n b : Fin K → ℕ}

/-- free energy of eigenvectors with Gauss smearing, for pseudo-energies that differ from the eigenvalues by a
constant -/
theorem eigen_energy {T mo : ℝ} {wk : Fin K → ℝ} {H S : (k : Fin K) → Mat (n k) (n k)} {X : Orbitals n b} {e ek : Bands b}
    (ho : ∀ k, SOrtho (S k) (X k)) (he : ∀ k, H k * X k = S k * X k * diagonal fun i => (e k i : ℂ)) (mu d : ℝ)
    (hd : ∀ k i, e k i - ek k i = d) :
    electrons wk (occs .gauss T mo ek mu) = exactElectrons .gauss T mo wk e (mu + d) ∧
    bandEnergy H wk X (occs .gauss T mo ek mu)
        + -(kB * T) * ∑ k, wk k * ∑ i, (smearFns .gauss).entropy ((mu - ek k i) / (kB * T)) mo
      = exactFreeEnergy .gauss T mo wk e (mu + d) := by
  have hx : ∀ k i, (mu - ek k i) / (kB * T) = (mu + d - e k i) / (kB * T) := fun k i => by
    rw [← hd k i]; congr 1; ring
  have hl : ∀ k i, levels H X k i = e k i := fun k i => by
    have h1 := ho k
    rw [SOrtho] at h1
    rw [levels, he, ← Matrix.mul_assoc, h1, Matrix.one_mul, diagonal_apply_eq, Complex.ofReal_re]
  constructor
  · simp only [electrons, exactElectrons, occs, hx]
    refine Finset.sum_congr rfl fun k _ => ?_
    congr 1
    refine Finset.sum_congr rfl fun i _ => ?_
    show gaussFn _ mo = _
    simp only [gaussFn, idealFn]
    ring
  · simp only [bandEnergy, exactFreeEnergy, hl, Finset.mul_sum, ← Finset.sum_add_distrib, occs, hx]
    refine Finset.sum_congr rfl fun k _ => Finset.sum_congr rfl fun i _ => ?_
    show wk k * (gaussFn _ mo * e k i) + -(kB * T) * (wk k * gaussEntropy _ mo) = _
    simp only [gaussFn, gaussEntropy, idealFn, idealEntropy, neg_sq_eq]
    ring

section closed
variable {n' : Fin K → ℕ} {W : (k : Fin K) → Mat (n' k) (n k)} {H : (k : Fin K) → Mat (n k) (n k)}
  {H' : (k : Fin K) → Mat (n' k) (n' k)} {wk : Fin K → ℝ}

theorem linear_ek_closed {N N' B : ℕ} {A : Mat N N} {A' : Mat N' N'} {V : Mat N' N} (hV : Vᴴ * V = 1)
    (hA : A' * V = V * A) (X : Mat N B) : (V * X)ᴴ * (A' * (V * X)) = Xᴴ * (A * X) := by
  rw [← Matrix.mul_assoc A', hA, Matrix.mul_assoc V, conjTranspose_mul, Matrix.mul_assoc, ← Matrix.mul_assoc Vᴴ, hV,
    Matrix.one_mul]

theorem linearEnergy_closed (hW : ∀ k, (W k)ᴴ * W k = 1) (hH : ∀ k, H' k * W k = W k * H k) (X : Orbitals n b)
    (f : Bands b) : linearEnergy H' wk (fun k => W k * X k) f = linearEnergy H wk X f := by
  unfold linearEnergy
  refine Finset.sum_congr rfl fun k _ => ?_
  have : H' k * (W k * X k * diagonal (fun i => (f k i : ℂ)) * (W k * X k)ᴴ) =
      W k * (H k * (X k * diagonal (fun i => (f k i : ℂ)) * (X k)ᴴ) * (W k)ᴴ) := by
    rw [conjTranspose_mul]
    simp only [Matrix.mul_assoc]
    rw [← Matrix.mul_assoc (H' k) (W k), hH, Matrix.mul_assoc]
  rw [this, trace_mul_comm, Matrix.mul_assoc, hW, Matrix.mul_one]

/-- a Hamiltonian that maps the range of `W` to itself, and what it is there -/
noncomputable def linear_closed (hW : ∀ k, (W k)ᴴ * W k = 1) (hH : ∀ k, H' k * W k = W k * H k) :
    SameHost (n := n) (b := b) id W (linearHost H' wk) (linearHost H wk) where
  R h x := (h.C = fun k => W k * x.C k) ∧ (h.hphi = fun k => W k * x.hphi k) ∧ h.fn = x.fn ∧ h.ek = x.ek
  C h := h.1
  hphi h := h.2.1
  fn h := h.2.2.1
  ek h := h.2.2.2
  setC X h := ⟨rfl, rfl, h.2⟩
  setFn f h := ⟨rfl, h.1, h.2.1, rfl, h.2.2.2⟩
  compute {h x} hR := by
    refine ⟨rfl, hR.1, funext fun k => ?_, hR.2.2.1, ?_⟩
    · show H' k * h.C k = W k * (H k * x.C k)
      rw [hR.1, ← Matrix.mul_assoc, hH, Matrix.mul_assoc]
    · funext k i
      show (((h.C k)ᴴ * (H' k * h.C k)) i i).re = (((x.C k)ᴴ * (H k * x.C k)) i i).re
      rw [hR.1, linear_ek_closed (hW k) (hH k)]
  setMu mu h := ⟨rfl, h⟩
  energy {h x} hR := by
    refine ⟨congrArg some ?_, hR⟩
    rw [hR.1, hR.2.2.1]
    exact linearEnergy_closed hW hH _ _
  print h := ⟨rfl, h⟩

end closed
end Nlcg
