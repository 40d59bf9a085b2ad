import Verif.Proofs.KSets

/-!
# C107: disagreement about the k-points is noticed
-/

namespace Nlcg
open KMap
variable {β : Type}

/-- **C107.** If the first iteration gets through on a rank, the host's weights, band energies and orbitals there belong to
the same k-points, and there are occupations and `H X` for all of them. -/
theorem C107_noticed (g : KNum β) (h : KHost β) (r : KMap Key (ℝ × β × β)) (hr : firstIteration g h = .ok r) :
    Spec.OneSet h :=
  ((firstIteration_asks (bad := ¬ Spec.Total g) (fun hb => not_not.1 hb) h).1 r hr).1

/-- **C107.** If they do not belong together, and nothing else fails, the run ends with the exception `out_of_range`. -/
theorem C107_exception (g : KNum β) (hg : Spec.Total g) (h : KHost β) (hn : ¬ Spec.OneSet h) :
    firstIteration g h = .throw .outOfRange :=
  (firstIteration_asks (bad := False) (fun _ => hg) h).2.2 not_false hn

/-- **C107.** If they do, no look-up fails, and there is a direction for every k-point. -/
theorem C107_accepted (g : KNum β) (hg : Spec.Total g) (h : KHost β) (hs : Spec.OneSet h) :
    ∃ r, firstIteration g h = .ok r ∧ keys r = keys h.C := by
  have := firstIteration_asks (bad := False) (fun _ => hg) h
  obtain ⟨r, hr⟩ := this.2.1 not_false hs
  exact ⟨r, hr, (this.1 r hr).2⟩

/-- The start alone, before the first iteration, accepts exactly this: weights and band energies belong to the same
k-points, and there are weights and `H X` for all orbitals. -/
theorem C107_start (g : KNum β) (hg : Spec.Total g) (h : KHost β) :
    (∃ r, startKeys g h = .ok r) ↔
      (∀ k, k ∈ keys h.ek ↔ k ∈ keys h.wk) ∧ ∀ k ∈ keys h.C, k ∈ keys h.wk ∧ k ∈ keys h.hphi := by
  have := startKeys_asks (bad := False) (fun _ => hg) h
  exact ⟨fun ⟨r, hr⟩ => (this.1 r hr).1, fun hp => this.2.1 not_false hp⟩

/-- a numerical part that does nothing -/
noncomputable def stillNum : KNum ℝ where
  search _ := .ok 0
  occ _ e := e
  entropy _ _ := 0
  dF _ _ _ _ := .ok 0
  deltas _ _ := 0
  dir _ _ _ x _ _ _ _ := .ok (0, x, x)
  diag _ := 0
  step x _ _ _ := .ok ([], x, x)

theorem stillNum_total : Spec.Total stillNum :=
  ⟨fun _ => ⟨_, rfl⟩, fun _ _ _ _ => ⟨_, rfl⟩, fun _ _ _ _ _ _ _ _ => ⟨_, rfl⟩, fun _ _ _ _ => ⟨_, rfl⟩⟩

/-- So a k-point without orbitals goes unnoticed if the loop is not entered (`maxiter` is 0) or the start counts as
converged. -/
theorem C107_not_at_start : ∃ (g : KNum ℝ) (h : KHost ℝ) (r : ℝ × KMap Key (ℝ × ℝ × ℝ)), Spec.Total g ∧
    startKeys g h = .ok r ∧ ¬ Spec.OneSet h := by
  obtain ⟨r, hr⟩ := (C107_start stillNum stillNum_total
    ⟨[(toLex (0, 0), 1)], [(toLex (0, 0), [1])], [], [], []⟩).2 ⟨by simp [keys], by simp [keys]⟩
  refine ⟨_, _, r, stillNum_total, hr, fun h => ?_⟩
  have := (h.orbitals (toLex (0, 0))).2 (by simp [keys])
  simp [keys] at this

/-- two k-points with everything -/
example : ∃ r, firstIteration stillNum ⟨[(toLex (0, 0), 1), (toLex (1, 0), 1)], [(toLex (0, 0), [1]), (toLex (1, 0), [2])],
    [(toLex (0, 0), [1]), (toLex (1, 0), [1])], [(toLex (0, 0), 1), (toLex (1, 0), 1)],
    [(toLex (0, 0), 1), (toLex (1, 0), 1)]⟩ = .ok r ∧ keys r = [toLex (0, 0), toLex (1, 0)] :=
  C107_accepted _ stillNum_total _ ⟨by simp [keys], by simp [keys], by simp [keys], by simp [keys]⟩

/-- ... and with the weight of one of them missing -/
example : firstIteration stillNum ⟨[(toLex (0, 0), 1)], [(toLex (0, 0), [1]), (toLex (1, 0), [2])],
    [(toLex (0, 0), [1]), (toLex (1, 0), [1])], [(toLex (0, 0), 1), (toLex (1, 0), 1)],
    [(toLex (0, 0), 1), (toLex (1, 0), 1)]⟩ = .throw .outOfRange := by
  refine C107_exception _ stillNum_total _ fun h => ?_
  have := (h.energies (toLex (1, 0))).1 (by simp [keys])
  simp [keys] at this

end Nlcg
