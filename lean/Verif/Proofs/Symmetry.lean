import Verif.Spec.Symmetry
import Verif.Props.Gauge
import Verif.Proofs.GroundState

/-!
# Proofs about symmetries
-/

namespace Nlcg
open Matrix Spec

variable {K : ℕ} {n b : Fin K → ℕ} {η : Type} {U : Turn n} {host : Host η n b} {c : Cfg n b}

theorem SymmetricSystem_same (h : SymmetricSystem U c) (hw : ∀ k, c.wk k ≠ 0) :
    SameSystem (n := n) (b := b) id U c c where
  isometry := h.unitary
  weights k := by
    have : (Finset.univ.filter fun l : Fin K => id l = k) = {k} := by ext l; simp
    rw [this, Finset.sum_singleton]
  nonzero := ⟨hw, hw⟩
  S := h.S
  P := h.P
  occ x := by
    show c.occ x = _
    cases c.occ x <;> rfl
  la := rfl
  t := rfl
  T := rfl
  kappa := rfl
  mo := rfl

theorem unitary_right {N : ℕ} {A : Mat N N} (h : Aᴴ * A = 1) : A * Aᴴ = 1 := mul_eq_one_comm.1 h

/-- the turned host and the original one describe the same system in two bases -/
noncomputable def turned_same (hU : ∀ k, (U k)ᴴ * U k = 1) (host : Host η n b) :
    SameHost (n := n) (b := b) id U (turned U host) host where
  R h x := h = x
  C := by rintro h x rfl; rfl
  hphi := by rintro h x rfl; rfl
  fn := by rintro h x rfl; rfl
  ek := by rintro h x rfl; rfl
  setC := by
    rintro h x X rfl
    have : (fun k => (U k)ᴴ * expand (n := n) (b := b) id U X k) = X := by
      funext k
      show (U k)ᴴ * (U k * X k) = X k
      rw [← Matrix.mul_assoc, hU, Matrix.one_mul]
    show (host.setC (fun k => (U k)ᴴ * expand (n := n) (b := b) id U X k) h).1 = _ ∧
      (host.setC (fun k => (U k)ᴴ * expand (n := n) (b := b) id U X k) h).2 = _
    rw [this]
    exact ⟨rfl, rfl⟩
  setFn := by rintro h x f rfl; exact ⟨rfl, rfl⟩
  compute := by rintro h x rfl; exact ⟨rfl, rfl⟩
  setMu := by rintro h x mu rfl; exact ⟨rfl, rfl⟩
  energy := by rintro h x rfl; exact ⟨rfl, rfl⟩
  print := by rintro h x rfl; exact ⟨rfl, rfl⟩

theorem turned_ok (hU : ∀ k, (U k)ᴴ * U k = 1) (hh : HostOk host) : HostOk (turned U host) where
  setC X h h' e := by
    funext k
    have := hh.setC _ h h' e
    show U k * host.C h' k = X k
    rw [this, ← Matrix.mul_assoc, unitary_right (hU k), Matrix.one_mul]
  setFn f h h' e := by
    obtain ⟨h1, h2⟩ := hh.setFn f h h' e
    exact ⟨h1, funext fun k => by show U k * host.C h' k = U k * host.C h k; rw [h2]⟩
  compute h h' e := by
    obtain ⟨h1, h2, H, h3⟩ := hh.compute h h' e
    refine ⟨funext fun k => by show U k * host.C h' k = U k * host.C h k; rw [h1], h2,
      fun k => U k * H k * (U k)ᴴ, fun k => ?_, fun k => ?_, fun k i => ?_⟩
    · have := isHermitian_mul_mul_conjTranspose (U k) (h3.herm k)
      exact this
    · show U k * host.hphi h' k = U k * H k * (U k)ᴴ * (U k * host.C h' k)
      rw [h3.hphi, Matrix.mul_assoc (U k * H k), ← Matrix.mul_assoc (U k)ᴴ, hU, Matrix.one_mul, Matrix.mul_assoc]
    · show (host.ek h' k i : ℂ) = ((U k * host.C h' k)ᴴ * (U k * H k * (U k)ᴴ * (U k * host.C h' k))) i i
      rw [h3.ek, Matrix.mul_assoc (U k * H k), ← Matrix.mul_assoc (U k)ᴴ, hU, Matrix.one_mul, conjTranspose_mul,
        Matrix.mul_assoc (host.C h' k)ᴴ, Matrix.mul_assoc (U k) (H k), ← Matrix.mul_assoc (U k)ᴴ (U k), hU,
        Matrix.one_mul]
  setMu mu h h' e := by
    obtain ⟨h1, h2⟩ := hh.setMu mu h h' e
    exact ⟨⟨funext fun k => by show U k * host.C h' k = U k * host.C h k; rw [h1.C],
      funext fun k => by show U k * host.hphi h' k = U k * host.hphi h k; rw [h1.hphi], h1.fn, h1.ek⟩, h2⟩
  energy h E h' e := by
    obtain ⟨h1, h2⟩ := hh.energy h E h' e
    exact ⟨⟨funext fun k => by show U k * host.C h' k = U k * host.C h k; rw [h1.C],
      funext fun k => by show U k * host.hphi h' k = U k * host.hphi h k; rw [h1.hphi], h1.fn, h1.ek⟩, h2⟩
  print h h' e := by
    obtain ⟨h1, h2⟩ := hh.print h h' e
    exact ⟨⟨funext fun k => by show U k * host.C h' k = U k * host.C h k; rw [h1.C],
      funext fun k => by show U k * host.hphi h' k = U k * host.hphi h k; rw [h1.hphi], h1.fn, h1.ek⟩, h2⟩

theorem turned_setting (hU : ∀ k, (U k)ᴴ * U k = 1) (hs : Setting host c) : Setting (turned U host) c :=
  ⟨turned_ok hU hs.host, hs.lapack, hs.overlap, hs.prec, hs.weights, hs.occ⟩

/-! ## A host with a fixed Hamiltonian that commutes with `U` -/

section linear
variable {H : (k : Fin K) → Mat (n k) (n k)} {wk : Fin K → ℝ}

/-- non-interacting electrons whose Hamiltonian commutes with `U` -/
noncomputable def linear_symmetric (hU : ∀ k, (U k)ᴴ * U k = 1) (hH : ∀ k, H k * U k = U k * H k) :
    SymmetricHost U (linearHost (b := b) H wk) := linear_closed hU hH

/-- the same, seen through `U` and up to phases -/
noncomputable def linear_turned (hU : ∀ k, (U k)ᴴ * U k = 1) (hH : ∀ k, H k * U k = U k * H k) :
    GaugeHost (turned U (linearHost (b := b) H wk)) (linearHost H wk) where
  R v h x := IsPhase v ∧ (fun k => U k * h.C k) = rephase v x.C ∧ h.fn = x.fn ∧ h.ek = x.ek
  C h := h.2.1
  fn h := h.2.2.1
  ek h := h.2.2.2
  setC X u hu h := by
    refine ⟨rfl, hu, funext fun k => ?_, h.2.2⟩
    show U k * ((U k)ᴴ * rephase u X k) = rephase u X k
    rw [← Matrix.mul_assoc, unitary_right (hU k), Matrix.one_mul]
  setFn f h := ⟨rfl, h.1, h.2.1, rfl, h.2.2.2⟩
  compute {v h x} hR := by
    refine ⟨rfl, hR.1, hR.2.1, hR.2.2.1, ?_⟩
    funext k i
    show (((h.C k)ᴴ * (H k * h.C k)) i i).re = (((x.C k)ᴴ * (H k * x.C k)) i i).re
    rw [← linear_ek_closed (hU k) (hH k), congrFun hR.2.1 k, rephase, linear_ek_phase _ _ (hR.1 k)]
  hphi := by
    rintro v h x _ _ hR ⟨⟩ ⟨⟩
    funext k
    show U k * (H k * h.C k) = H k * x.C k * diagonal (v k)
    rw [← Matrix.mul_assoc, ← hH, Matrix.mul_assoc, congrFun hR.2.1 k, rephase, Matrix.mul_assoc]
  setMu mu h := ⟨rfl, h⟩
  energy {v h x} hR := by
    refine ⟨?_, hR⟩
    refine congrArg some ?_
    rw [← linearEnergy_closed hU hH, hR.2.1, hR.2.2.1, linearEnergy_phase _ _ _ _ hR.1]
  print h := ⟨rfl, h⟩

end linear
end Nlcg
