import Verif.Proofs.Sizes

/-!
# C109: sizes that do not fit

`restartAllSizes ks` is the computation of the first search direction for the k-points `ks` of a rank, with the sizes of
what the host gave for them; `.ub` is an access outside a view.
-/

namespace Nlcg
open Spec

/-- **C109.** If the sizes fit, nothing is accessed outside its extents. Missing from C109: that other sizes are refused,
which is false. -/
theorem C109_fitting_partial (ks : List KSizes) (hq : ∀ k ∈ ks, NothingFails k) (hf : ∀ k ∈ ks, Fitting k) :
    restartAllSizes ks = .ok () :=
  restartAllSizes_ok fun k hk => ⟨hq k hk, hf k hk⟩

/-- **C109.** Whatever the sizes are, they are never the reason of an exception or of a failed assertion. -/
theorem C109_not_refused (ks : List KSizes) (hq : ∀ k ∈ ks, NothingFails k) :
    restartAllSizes ks = .ok () ∨ restartAllSizes ks = .ub := by
  induction ks with
  | nil => exact Or.inl rfl
  | cons k ks ih =>
    rw [restartAllSizes]
    rcases restartSizes_okOrUb (hq k (by simp)) with e | ⟨u, e⟩
    · rw [e]; exact Or.inr rfl
    · rw [e, Res.bind_ok]; exact ih fun q h => hq q (by simp [h])

/-- **C109 is false.** Whenever the sizes of some k-point with orbitals do not fit, the first direction is computed with
accesses outside the views. -/
theorem C109_not_noticed (ks : List KSizes) (hq : ∀ k ∈ ks, NothingFails k)
    (hbad : ∃ k ∈ ks, 0 < k.X.rows ∧ 0 < k.X.cols ∧ ¬ Fitting k) : restartAllSizes ks = .ub :=
  restartAllSizes_ub hq hbad

/-- two k-points with 20 and 21 plane waves and 4 bands -/
example : restartAllSizes [⟨⟨20, 4⟩, ⟨20, 4⟩, 4, .ok (), .ok ()⟩, ⟨⟨21, 4⟩, ⟨21, 4⟩, 4, .ok (), .ok ()⟩] = .ok () :=
  C109_fitting_partial _ (by simp [NothingFails]) (by simp [Fitting])

/-- at the second one the host gives five band energies -/
example : restartAllSizes [⟨⟨20, 4⟩, ⟨20, 4⟩, 4, .ok (), .ok ()⟩, ⟨⟨21, 4⟩, ⟨21, 4⟩, 5, .ok (), .ok ()⟩] = .ub :=
  C109_not_noticed _ (by simp [NothingFails])
    ⟨⟨⟨21, 4⟩, ⟨21, 4⟩, 5, .ok (), .ok ()⟩, by simp, by simp [Fitting]⟩

/-- or only three -/
example : restartAllSizes [⟨⟨20, 4⟩, ⟨20, 4⟩, 4, .ok (), .ok ()⟩, ⟨⟨21, 4⟩, ⟨21, 4⟩, 3, .ok (), .ok ()⟩] = .ub :=
  C109_not_noticed _ (by simp [NothingFails])
    ⟨⟨⟨21, 4⟩, ⟨21, 4⟩, 3, .ok (), .ok ()⟩, by simp, by simp [Fitting]⟩

end Nlcg
