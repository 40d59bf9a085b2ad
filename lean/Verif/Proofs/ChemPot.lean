import Verif.Model.ChemPot
import Verif.Proofs.While
import Mathlib.Tactic.Linarith
import Mathlib.Tactic.Ring
import Mathlib.Tactic.NormNum
import Mathlib.Tactic.Positivity
import Mathlib.Tactic.FieldSimp

/-! Helper lemmas for the chemical potential search. -/

namespace Nlcg
open Arith

section general
variable {α : Type} [Arith α] {f : α → α} {mu0 tol : α}

theorem cpBody_counter (st : CPState α) (k : Nat) :
    ((cpBody f)^[k] st).counter = st.counter + k := by
  induction k generalizing st with
  | zero => rfl
  | succ k ih => rw [Function.iterate_succ_apply, ih]; simp [cpBody]; omega

theorem cp_loop_ends : ∃ j ≤ cpNmax,
    (∀ fuel, cpNmax ≤ fuel → whileFuel (cpGuard f tol) (cpBody f) fuel (cpInit mu0) =
      some ((cpBody f)^[j] (cpInit mu0))) ∧
    cpGuard f tol ((cpBody f)^[j] (cpInit mu0)) = false ∧
    ∀ i < j, cpGuard f tol ((cpBody f)^[i] (cpInit mu0)) = true := by
  have hg : cpGuard f tol ((cpBody f)^[cpNmax] (cpInit mu0)) = false := by
    unfold cpGuard; rw [cpBody_counter]; simp [cpInit]
  obtain ⟨j, hj, hw, hgj, hi⟩ := whileFuel_of_exit (n := cpNmax) (le_refl _) hg
  exact ⟨j, hj, fun fuel hf => whileFuel_mono hf hw, hgj, hi⟩

theorem findChemPot_eq : ∃ j ≤ cpNmax,
    (∀ fuel, cpNmax ≤ fuel → findChemPot fuel f mu0 tol =
      some (cpFinish f tol ((cpBody f)^[j] (cpInit mu0)), j)) ∧
    cpGuard f tol ((cpBody f)^[j] (cpInit mu0)) = false ∧
    ∀ i < j, cpGuard f tol ((cpBody f)^[i] (cpInit mu0)) = true := by
  obtain ⟨j, hj, hw, h⟩ := cp_loop_ends (f := f) (mu0 := mu0) (tol := tol)
  refine ⟨j, hj, ?_, h⟩
  intro fuel hf
  have hc : ((cpBody f)^[j] (cpInit mu0)).counter = j := by rw [cpBody_counter]; simp [cpInit]
  simp [findChemPot, hw fuel hf, hc]

theorem findChemPotRun_eq (fuel : Nat) (h : cpNmax ≤ fuel) :
    (findChemPot fuel f mu0 tol).map Prod.fst = some (findChemPotRun f mu0 tol) := by
  obtain ⟨j, _, hw, _⟩ := findChemPot_eq (f := f) (mu0 := mu0) (tol := tol)
  simp [findChemPotRun, hw fuel h, hw (cpNmax + 1) (by omega)]

theorem cpFinish_cases (st : CPState α) :
    (cpFinish f tol st = .ok st.mu ∧ (Arith.abs (f st.mu) <ᶠ tol) = true) ∨
    (cpFinish f tol st = .throw .runtimeError ∧ (Arith.abs (f st.mu) <ᶠ tol) = false) := by
  unfold cpFinish
  cases h : (Arith.abs (f st.mu) <ᶠ tol) <;> simp

theorem findChemPotRun_cases :
    (∃ mu, findChemPotRun f mu0 tol = .ok mu ∧ (Arith.abs (f mu) <ᶠ tol) = true) ∨
    findChemPotRun f mu0 tol = .throw .runtimeError := by
  obtain ⟨j, _, hw, _⟩ := findChemPot_eq (f := f) (mu0 := mu0) (tol := tol)
  have : findChemPotRun f mu0 tol = cpFinish f tol ((cpBody f)^[j] (cpInit mu0)) := by
    simp [findChemPotRun, hw (cpNmax + 1) (by omega)]
  rw [this]
  rcases cpFinish_cases (f := f) (tol := tol) ((cpBody f)^[j] (cpInit mu0)) with h | h
  · exact Or.inl ⟨_, h.1, h.2⟩
  · exact Or.inr h.1

end general

/-! ### Convergence in exact arithmetic -/

section real
variable {f : ℝ → ℝ} {tol m δ : ℝ}

/-- `mu` sits at distance `d` on side `σ` of `m`, step width `w`, last direction `s`. -/
structure CPAt (m : ℝ) (σ : Int) (d w : ℝ) (s : Int) (st : CPState ℝ) : Prop where
  mu : st.mu = m + σ * d
  de : st.de = w
  s : st.s = s

/-- some iterate up to `K` is within tolerance -/
def CPExit (f : ℝ → ℝ) (tol : ℝ) (K : Nat) (st : CPState ℝ) : Prop :=
  ∃ k ≤ K, |f ((cpBody f)^[k] st).mu| ≤ tol

theorem CPExit.mono {K L : Nat} {st : CPState ℝ} (h : CPExit f tol K st) (hKL : K ≤ L) :
    CPExit f tol L st := by
  obtain ⟨k, hk, h⟩ := h; exact ⟨k, by omega, h⟩

theorem CPExit.shift {K j : Nat} {st : CPState ℝ} (h : CPExit f tol K ((cpBody f)^[j] st)) :
    CPExit f tol (K + j) st := by
  obtain ⟨k, hk, h⟩ := h
  exact ⟨k + j, by omega, by rwa [Function.iterate_add_apply]⟩

/-- the hypotheses on the charge function: too few electrons only below `m`, too many
only above, and a window of half width `δ` around `m` inside the tolerance -/
structure CPWindow (f : ℝ → ℝ) (tol m δ : ℝ) : Prop where
  low : ∀ mu, tol < f mu → mu < m
  high : ∀ mu, f mu < -tol → m < mu
  window : ∀ mu, |mu - m| ≤ δ → |f mu| < tol
  pos : 0 ≤ δ

theorem cp_step (H : CPWindow f tol m δ) {σ s : Int} {d w : ℝ} {st : CPState ℝ}
    (hσ : σ = 1 ∨ σ = -1) (hd : 0 < d) (h : CPAt m σ d w s st) (hne : tol < |f st.mu|) :
    CPAt m σ (d - (if s = -σ then w * (5 / 4) else w * (1 / 4)))
      (if s = -σ then w * (5 / 4) else w * (1 / 4)) (-σ) (cpBody f st) := by
  have htol : 0 < tol := lt_of_le_of_lt (abs_nonneg _) (H.window m (by simpa using H.pos))
  have hdir : (if (0 : ℝ) < f st.mu then (1 : Int) else -1) = -σ := by
    rcases hσ with rfl | rfl
    · have : ¬ (0 : ℝ) < f st.mu := by
        intro hp
        rw [abs_of_pos hp] at hne
        have := H.low _ hne
        rw [h.mu] at this; norm_num at this; linarith
      simp [this]
    · have : (0 : ℝ) < f st.mu := by
        by_contra hp
        rw [abs_of_nonpos (not_lt.mp hp)] at hne
        have := H.high st.mu (by linarith)
        rw [h.mu] at this; norm_num at this; linarith
      simp [this]
  have hdir' : (if (Arith.lit 0 : ℝ) <ᶠ f st.mu then (1 : Int) else -1) = -σ := by
    simpa using hdir
  constructor
  · simp only [cpBody]
    rw [hdir']
    simp only [h.s, h.de, h.mu, real_add, real_mul, real_lit]
    have : (-σ = s) ↔ (s = -σ) := eq_comm
    simp only [this]
    split <;> push_cast <;> ring
  · simp only [cpBody]
    rw [hdir']
    simp only [h.s, h.de, real_mul, real_lit]
    have : (-σ = s) ↔ (s = -σ) := eq_comm
    simp only [this]
    split <;> push_cast <;> ring
  · simp only [cpBody, hdir']

theorem CPAt.flip {σ s : Int} {d w : ℝ} {st : CPState ℝ} (h : CPAt m σ d w s st) :
    CPAt m (-σ) (-d) w s st :=
  ⟨by rw [h.mu]; push_cast; ring, h.de, h.s⟩

/-- walking in one direction with growing steps until `m` is passed -/
theorem cp_walk (H : CPWindow f tol m δ) (n : Nat) {σ : Int} {d w : ℝ} {st : CPState ℝ}
    (hσ : σ = 1 ∨ σ = -1) (hw : 0 < w) (hd : 0 < d) (h : CPAt m σ d w (-σ) st)
    (hreach : d ≤ 5 * w * ((5 / 4) ^ n - 1)) :
    CPExit f tol n st ∨ ∃ k ≤ n, ∃ d' w', CPAt m (-σ) d' w' (-σ) ((cpBody f)^[k] st) ∧
      0 < d' ∧ d' ≤ w' ∧ 0 < w' ∧ w' ≤ w * (5 / 4) ^ n ∧ w' ≤ 5 / 4 * w + d / 4 := by
  induction n generalizing d w st with
  | zero => simp at hreach; linarith
  | succ n ih =>
    by_cases hex : |f st.mu| ≤ tol
    · exact Or.inl ⟨0, by omega, hex⟩
    have hst := cp_step H hσ hd h (not_le.mp hex)
    simp only [if_true] at hst
    rcases lt_trichotomy (d - w * (5 / 4)) 0 with hlt | heq | hgt
    · right
      refine ⟨1, by omega, _, _, hst.flip, by linarith, by linarith, by linarith, ?_, by linarith⟩
      have : (1 : ℝ) ≤ (5 / 4) ^ n := one_le_pow₀ (by norm_num)
      rw [pow_succ]; nlinarith
    · left
      refine ⟨1, by omega, ?_⟩
      rw [heq] at hst
      have := H.window ((cpBody f st).mu) (by rw [hst.mu]; simpa using H.pos)
      exact this.le
    · have hr : d - w * (5 / 4) ≤ 5 * (w * (5 / 4)) * ((5 / 4) ^ n - 1) := by
        rw [pow_succ] at hreach; nlinarith
      rcases ih (by linarith) hgt hst hr with he | ⟨k, hk, d', w', hat, h1, h2, h3, h4, h5⟩
      · exact Or.inl (CPExit.shift (j := 1) he)
      · right
        refine ⟨k + 1, by omega, d', w', hat, h1, h2, h3, ?_, by linarith⟩
        rw [pow_succ]; linarith [h4]

/-- one bracketing cycle: at most four updates, step width shrinks by 125/256 -/
theorem cp_cycle (H : CPWindow f tol m δ) {σ : Int} {d w : ℝ} {st : CPState ℝ}
    (hσ : σ = 1 ∨ σ = -1) (hd : 0 < d) (hdw : d ≤ w) (h : CPAt m σ d w σ st) :
    CPExit f tol 4 st ∨ ∃ k ≤ 4, ∃ d' w', CPAt m (-σ) d' w' (-σ) ((cpBody f)^[k] st) ∧
      0 < d' ∧ d' ≤ w' ∧ w' ≤ w * (125 / 256) := by
  have hw : 0 < w := by linarith
  by_cases hex : |f st.mu| ≤ tol
  · exact Or.inl ⟨0, by omega, hex⟩
  have hst := cp_step H hσ hd h (not_le.mp hex)
  have hne : ¬ (σ = -σ) := by rcases hσ with rfl | rfl <;> decide
  simp only [hne, if_false] at hst
  rcases lt_trichotomy (d - w * (1 / 4)) 0 with hlt | heq | hgt
  · right
    exact ⟨1, by omega, _, _, hst.flip, by linarith, by linarith, by linarith⟩
  · left
    refine ⟨1, by omega, ?_⟩
    rw [heq] at hst
    exact (H.window ((cpBody f st).mu) (by rw [hst.mu]; simpa using H.pos)).le
  · rcases cp_walk H 3 hσ (by linarith) hgt hst (by norm_num; linarith) with
      he | ⟨k, hk, d', w', hat, h1, h2, h3, h4, _⟩
    · exact Or.inl (CPExit.shift (K := 3) (j := 1) he)
    · right
      exact ⟨k + 1, by omega, d', w', hat, h1, h2, by norm_num at h4; linarith⟩

theorem cp_cycles (H : CPWindow f tol m δ) (n : Nat) {σ : Int} {d w : ℝ} {st : CPState ℝ}
    (hσ : σ = 1 ∨ σ = -1) (hd : 0 < d) (hdw : d ≤ w) (h : CPAt m σ d w σ st)
    (hδ : w * (125 / 256) ^ n ≤ δ) : CPExit f tol (4 * n) st := by
  induction n generalizing σ d w st with
  | zero =>
    refine ⟨0, by omega, ?_⟩
    have : |st.mu - m| ≤ δ := by
      rw [h.mu]
      have : m + (σ : ℝ) * d - m = σ * d := by ring
      rw [this, abs_mul, abs_of_pos hd]
      rcases hσ with rfl | rfl <;> norm_num <;> simp at hδ <;> linarith
    exact (H.window _ this).le
  | succ n ih =>
    rcases cp_cycle H hσ hd hdw h with he | ⟨k, hk, d', w', hat, h1, h2, h3⟩
    · exact he.mono (by omega)
    · have hσ' : -σ = 1 ∨ -σ = -1 := by rcases hσ with rfl | rfl <;> simp
      have hp : (0 : ℝ) < (125 / 256) ^ n := by positivity
      have := ih hσ' h1 h2 hat (by rw [pow_succ] at hδ; nlinarith)
      exact (CPExit.shift this).mono (by omega)

theorem cp_converges (H : CPWindow f tol m δ) {mu0 D : ℝ} (n c : Nat) (hD : |m - mu0| ≤ D)
    (hn : D ≤ (1 / 10) * ((5 / 4) ^ n - 1)) (hc : (D / 4 + 1 / 8) * (125 / 256) ^ c ≤ δ) :
    CPExit f tol (n + 4 * c) (cpInit mu0) := by
  have hp : (0 : ℝ) < (125 / 256) ^ c := by positivity
  have hD0 : 0 ≤ D := (abs_nonneg _).trans hD
  rcases lt_trichotomy (mu0 - m) 0 with hlt | heq | hgt
  · -- start below `m`: the first direction repeats the preset one
    have hat : CPAt m (-1) (m - mu0) (1 / 10) (-(-1)) (cpInit mu0) :=
      ⟨by simp [cpInit], by simp [cpInit], by simp [cpInit]⟩
    have hdle : m - mu0 ≤ D := (le_abs_self _).trans hD
    have hp1 : (1 : ℝ) ≤ (5 / 4) ^ n := one_le_pow₀ (by norm_num)
    rcases cp_walk H n (Or.inr rfl) (by norm_num) (by linarith) hat (by linarith) with
      he | ⟨k, hk, d', w', hat', h1, h2, h3, _, h5⟩
    · exact he.mono (by omega)
    · have := cp_cycles H c (Or.inl rfl) h1 h2 hat'
        (le_trans (mul_le_mul_of_nonneg_right (by linarith) hp.le) hc)
      exact (CPExit.shift this).mono (by omega)
  · refine ⟨0, by omega, ?_⟩
    exact (H.window _ (by simp only [Function.iterate_zero, id, cpInit]; rw [heq]; simpa using H.pos)).le
  · have hat : CPAt m 1 (mu0 - m) (1 / 10) 1 (cpInit mu0) :=
      ⟨by simp [cpInit], by simp [cpInit], by simp [cpInit]⟩
    have hdle : mu0 - m ≤ D := by rw [abs_sub_comm] at hD; exact (le_abs_self _).trans hD
    by_cases hex : |f (cpInit mu0).mu| ≤ tol
    · exact ⟨0, by omega, hex⟩
    have hst := cp_step H (Or.inl rfl) hgt hat (not_le.mp hex)
    simp only [show ¬ ((1 : Int) = -1) by decide, if_false] at hst
    have hn1 : 1 ≤ n := by
      rcases Nat.eq_zero_or_pos n with rfl | h
      · simp at hn; linarith
      · exact h
    rcases lt_trichotomy (mu0 - m - 1 / 10 * (1 / 4)) 0 with hl | he | hg
    · have := cp_cycles H c (Or.inr rfl) (by linarith) (by linarith) hst.flip
        (le_trans (mul_le_mul_of_nonneg_right (by linarith) hp.le) hc)
      exact (CPExit.shift (j := 1) this).mono (by omega)
    · refine ⟨1, by omega, ?_⟩
      rw [he] at hst
      exact (H.window ((cpBody f (cpInit mu0)).mu) (by rw [hst.mu]; simpa using H.pos)).le
    · obtain ⟨n', rfl⟩ : ∃ k, n = k + 1 := ⟨n - 1, by omega⟩
      rcases cp_walk H n' (Or.inl rfl) (by norm_num) hg hst
          (by rw [pow_succ] at hn; linarith) with he' | ⟨k, hk, d', w', hat', h1, h2, h3, _, h5⟩
      · exact (CPExit.shift (j := 1) he').mono (by omega)
      · have := cp_cycles H c (Or.inr rfl) h1 h2 hat'
          (le_trans (mul_le_mul_of_nonneg_right (by linarith) hp.le) hc)
        rw [← Function.iterate_succ_apply] at this
        exact (CPExit.shift this).mono (by omega)

end real

/-! ### Newton -/

section newton
variable {α : Type} [Arith α] {N dN ddN : α → α} {ne tol : α} {maxstep : Nat}

theorem newtonBody_inr {st st' : NewtonState α}
    (h : newtonBody N dN ddN ne tol maxstep st = .inr st') :
    st'.iter = st.iter + 1 ∧ st.iter + 1 ≤ maxstep := by
  simp only [newtonBody] at h
  split at h
  · cases h
  split at h
  · split at h <;> cases h
  split at h
  · cases h
  · cases h; simp; omega

theorem newtonBody_inl {st : NewtonState α} {r : Res α}
    (h : newtonBody N dN ddN ne tol maxstep st = .inl r) :
    r = .throw .failedToConverge ∨
      ∃ mu, r = .ok mu ∧ (lit (1 / 100) <ᶠ Arith.abs (N mu -ᶠ ne)) = false := by
  simp only [newtonBody] at h
  split at h
  · left; cases h; rfl
  split at h
  · split at h
    · left; cases h; rfl
    · rename_i hh; right; cases h; exact ⟨_, rfl, by simpa using hh⟩
  split at h
  · left; cases h; rfl
  · cases h

theorem newtonLoop_spec (n : Nat) {st : NewtonState α} {p : Nat} {r : Res α × Nat}
    (h : newtonLoop N dN ddN ne tol maxstep n st p = some r) :
    (r.1 = .throw .failedToConverge ∨
      ∃ mu, r.1 = .ok mu ∧ (lit (1 / 100) <ᶠ Arith.abs (N mu -ᶠ ne)) = false) ∧
    (st.iter ≤ maxstep → r.2 + st.iter ≤ p + maxstep + 1) := by
  induction n generalizing st p with
  | zero => simp [newtonLoop] at h
  | succ n ih =>
    unfold newtonLoop at h
    split at h
    · rename_i r' hb
      cases h
      exact ⟨newtonBody_inl hb, by intro; simp; omega⟩
    · rename_i st' hb
      obtain ⟨h1, h2⟩ := ih h
      have := newtonBody_inr hb
      refine ⟨h1, fun hi => ?_⟩
      have := h2 (by omega)
      omega

theorem newtonLoop_isSome (n : Nat) {st : NewtonState α} {p : Nat}
    (hn : maxstep + 1 ≤ n + st.iter) (hn0 : 0 < n) :
    (newtonLoop N dN ddN ne tol maxstep n st p).isSome := by
  induction n generalizing st p with
  | zero => omega
  | succ n ih =>
    unfold newtonLoop
    split
    · rfl
    · rename_i st' hb
      have := newtonBody_inr hb
      exact ih (by omega) (by omega)

theorem newtonLoop_mono (n m : Nat) {st : NewtonState α} {p : Nat} {r : Res α × Nat} (hnm : n ≤ m)
    (h : newtonLoop N dN ddN ne tol maxstep n st p = some r) :
    newtonLoop N dN ddN ne tol maxstep m st p = some r := by
  induction n generalizing m st p with
  | zero => simp [newtonLoop] at h
  | succ n ih =>
    obtain ⟨m, rfl⟩ : ∃ k, m = k + 1 := ⟨m - 1, by omega⟩
    unfold newtonLoop at h ⊢
    cases hb : newtonBody N dN ddN ne tol maxstep st with
    | inl r' => rw [hb] at h; exact h
    | inr st' => rw [hb] at h; exact ih m (by omega) h

end newton
end Nlcg
