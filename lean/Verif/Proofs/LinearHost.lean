import Verif.Proofs.SearchOcc
import Verif.Proofs.SolverRun
import Mathlib.LinearAlgebra.Matrix.PosDef

/-! A host with a fixed Hamiltonian (non-interacting electrons), to show that the assumptions on the
host can be met. -/

namespace Nlcg
open Matrix Spec ComplexOrder

variable {K : ℕ} {n b : Fin K → ℕ}

structure LState (n b : Fin K → ℕ) where
  C : Orbitals n b
  hphi : Orbitals n b
  fn : Bands b
  ek : Bands b
  mu : ℝ

/-- energy of non-interacting electrons -/
noncomputable def linearEnergy (H : (k : Fin K) → Mat (n k) (n k)) (wk : Fin K → ℝ) (X : Orbitals n b)
    (f : Bands b) : ℝ :=
  ∑ k, wk k * (trace (H k * (X k * diagonal (fun i => (f k i : ℂ)) * (X k)ᴴ))).re

noncomputable def linearHost (H : (k : Fin K) → Mat (n k) (n k)) (wk : Fin K → ℝ) :
    Host (LState n b) n b where
  compute := fun h => (some (), { h with hphi := fun k => H k * h.C k
                                         ek := fun k i => (((h.C k)ᴴ * (H k * h.C k)) i i).re })
  setC := fun X h => (some (), { h with C := X })
  setFn := fun f h => (some (), { h with fn := f })
  setMu := fun mu h => (some (), { h with mu := mu })
  energy := fun h => (some (linearEnergy H wk h.C h.fn), h)
  print := fun h => (some (), h)
  C := LState.C
  hphi := LState.hphi
  fn := LState.fn
  ek := LState.ek
  mu := LState.mu

theorem linearHost_ok (H : (k : Fin K) → Mat (n k) (n k)) (hH : ∀ k, (H k).IsHermitian)
    (wk : Fin K → ℝ) : HostOk (linearHost (b := b) H wk) where
  setC := by rintro X h h' ⟨⟩; rfl
  setFn := by rintro f h h' ⟨⟩; exact ⟨rfl, rfl⟩
  compute := by
    rintro h h' ⟨⟩
    refine ⟨rfl, rfl, H, hH, fun k => rfl, fun k i => ?_⟩
    have hm : ((h.C k)ᴴ * (H k * h.C k)).IsHermitian := by
      rw [← Matrix.mul_assoc]; exact isHermitian_conjTranspose_mul_mul _ (hH k)
    exact (hm.coe_re_apply_self i)
  setMu := by rintro mu h h' ⟨⟩; exact ⟨⟨rfl, rfl, rfl, rfl⟩, rfl⟩
  energy := by rintro h e h' ⟨⟩; exact ⟨⟨rfl, rfl, rfl, rfl⟩, rfl⟩
  print := by rintro h h' ⟨⟩; exact ⟨⟨rfl, rfl, rfl, rfl⟩, rfl⟩

theorem linearHost_energy (H : (k : Fin K) → Mat (n k) (n k)) (c : Cfg n b)
    (ho : ∀ ek ek' mu mu' f f', (∀ k, (List.ofFn (ek' k)).Perm (List.ofFn (ek k))) →
      c.occ ek = .ok (mu, f) → c.occ ek' = .ok (mu', f') → mu' = mu) :
    EnergyOf (linearHost H c.wk) c (linearEnergy H c.wk) where
  energy := by rintro h e h' - ⟨⟩; rfl
  density := fun X X' f f' _ _ h => by simp only [linearEnergy, h]
  occ := ho

theorem linearEnergy_nonneg (H : (k : Fin K) → Mat (n k) (n k)) (hH : ∀ k, (H k).PosSemidef)
    (wk : Fin K → ℝ) (hw : ∀ k, 0 ≤ wk k) (X : Orbitals n b) (f : Bands b) (hf : ∀ k i, 0 ≤ f k i) :
    0 ≤ linearEnergy H wk X f := by
  refine Finset.sum_nonneg fun k _ => mul_nonneg (hw k) ?_
  have h1 : ((X k)ᴴ * H k * X k).PosSemidef := (hH k).conjTranspose_mul_mul_same (X k)
  rw [← Matrix.mul_assoc, trace_mul_comm, ← Matrix.mul_assoc, ← Matrix.mul_assoc, trace]
  rw [Complex.re_sum]
  refine Finset.sum_nonneg fun i _ => ?_
  rw [diag_apply, mul_diagonal]
  have := h1.diag_nonneg (i := i)
  obtain ⟨h2, h3⟩ := Complex.nonneg_iff.1 this
  rw [Complex.mul_re, Complex.ofReal_re, Complex.ofReal_im, mul_zero, sub_zero]
  exact mul_nonneg h2 (hf k i)

end Nlcg
