import Verif.Spec.MpiType
import Mathlib.Tactic.Ring
import Mathlib.Tactic.Linarith
import Mathlib.Order.Lattice

/-!
# Properties of MPI messages with pairs
-/

namespace Nlcg

/-! ## C79 -/

theorem roundUp_of_dvd {x a : ℕ} (ha : 0 < a) (h : a ∣ x) : roundUp x a = x := by
  obtain ⟨c, rfl⟩ := h
  rw [roundUp, Nat.add_sub_assoc ha, Nat.mul_add_div ha, Nat.div_eq_of_lt (by omega)]
  ring

theorem le_roundUp {x a : ℕ} (ha : 0 < a) : x ≤ roundUp x a := by
  rw [roundUp]
  have h1 := Nat.div_add_mod (x + a - 1) a
  have h2 := Nat.mod_lt (x + a - 1) ha
  have h3 : a * ((x + a - 1) / a) = (x + a - 1) / a * a := Nat.mul_comm _ _
  omega

theorem dvd_roundUp (x a : ℕ) : a ∣ roundUp x a := Dvd.intro_left _ rfl

theorem CType.align_pos : ∀ {t : CType}, Spec.Layout t → 0 < t.align
  | .basic _ _, h => h.2.1
  | .pair _ _, h => lt_of_lt_of_le (CType.align_pos h.1) (le_max_left _ _)

theorem CType.size_pos : ∀ {t : CType}, Spec.Layout t → 0 < t.size
  | .basic _ _, h => h.1
  | .pair _ _, h => lt_of_lt_of_le (lt_of_lt_of_le (CType.size_pos h.2) (Nat.le_add_left _ _))
      (le_roundUp (lt_of_lt_of_le (CType.align_pos h.1) (le_max_left _ _)))

theorem CType.extent_eq : ∀ {t : CType}, Spec.Layout t → Spec.NoGap t → t.extent = t.size
  | .basic _ _, _, _ => rfl
  | .pair a b, h, g => by
    rw [CType.extent, CType.size, CType.extent_eq h.1 g.1, CType.extent_eq h.2 g.2.1,
      roundUp_of_dvd (CType.align_pos h.2) g.2.2, max_eq_right (Nat.le_add_right _ _)]

theorem CType.typeMap_eq : ∀ {t : CType}, Spec.Layout t → Spec.NoGap t → t.typeMap = t.value
  | .basic _ _, _, _ => rfl
  | .pair a b, h, g => by
    rw [CType.typeMap, CType.value, CType.typeMap_eq h.1 g.1, CType.typeMap_eq h.2 g.2.1, CType.second,
      roundUp_of_dvd (CType.align_pos h.2) g.2.2]

/-- the bytes of a value lie inside the object -/
theorem CType.value_lt : ∀ {t : CType}, Spec.Layout t → ∀ d ∈ t.value, d < t.size
  | .basic _ _, _, d, hd => List.mem_range.1 hd
  | .pair a b, h, d, hd => by
    have h0 : roundUp a.size b.align + b.size ≤ (CType.pair a b).size :=
      le_roundUp (lt_of_lt_of_le (CType.align_pos h.1) (le_max_left _ _))
    have h1 : a.size ≤ roundUp a.size b.align := le_roundUp (CType.align_pos h.2)
    rcases List.mem_append.1 hd with hd | hd
    · have := CType.value_lt h.1 d hd; omega
    · obtain ⟨e, he, rfl⟩ := List.mem_map.1 hd
      have := CType.value_lt h.2 e he
      simp only [CType.second]; omega

/-- C79, the part that holds: if no pair has a gap in front of its second member, all objects of a message
arrive unchanged, and nothing behind them is overwritten. Missing: pairs with a gap, see `C79_not_with_gap`. -/
theorem C79_arrive_partial {β : Type} {t : CType} (ht : Spec.Layout t) (hg : Spec.NoGap t) (n : ℕ)
    (src dst : ℕ → β) :
    Spec.Arrived t n src (transfer t n src dst) ∧
      ∀ p, n * t.size ≤ p → transfer t n src dst p = dst p := by
  refine ⟨fun i hi d hd => ?_, fun p hp => ?_⟩
  · rw [transfer, if_pos]
    exact ⟨i, hi, d, by rwa [CType.typeMap_eq ht hg], by rw [CType.extent_eq ht hg]⟩
  · rw [transfer, if_neg]
    rintro ⟨i, hi, d, hd, rfl⟩
    rw [CType.typeMap_eq ht hg] at hd
    rw [CType.extent_eq ht hg] at hp
    have h1 := CType.value_lt ht d hd
    have h2 : (i + 1) * t.size ≤ n * t.size := Nat.mul_le_mul_right _ hi
    rw [Nat.add_mul] at h2
    omega

/-- C79: for a pair of basic types the condition is sharp: messages arrive exactly if there is no gap. -/
theorem C79_sharp {s a s' a' : ℕ} (h : Spec.Layout (.pair (.basic s a) (.basic s' a'))) :
    (∀ (n : ℕ) (src dst : ℕ → Bool), Spec.Arrived (.pair (.basic s a) (.basic s' a')) n src
      (transfer (.pair (.basic s a) (.basic s' a')) n src dst)) ↔ a' ∣ s := by
  refine ⟨fun H => ?_, fun hd n src dst => (C79_arrive_partial h ⟨trivial, trivial, hd⟩ n src dst).1⟩
  by_contra hd
  have hs' : 0 < s' := h.2.1
  have ha' : 0 < a' := h.2.2.1
  have hlt : s < roundUp s a' := lt_of_le_of_ne (le_roundUp ha') fun e => hd (e ▸ dvd_roundUp s a')
  have h1 := H 1 (fun _ => true) (fun _ => false) 0 (by omega) (roundUp s a' + (s' - 1)) (by
    simp only [CType.value, CType.second, CType.size, CType.align]
    exact List.mem_append_right _ (List.mem_map.2 ⟨s' - 1, List.mem_range.2 (by omega), rfl⟩))
  rw [transfer] at h1
  split at h1
  · rename_i hc
    obtain ⟨i, hi, d, hd, e⟩ := hc
    obtain rfl : i = 0 := by omega
    simp only [CType.typeMap, CType.size, List.mem_append, List.mem_range, List.mem_map] at hd
    rcases hd with hd | ⟨d', hd', rfl⟩ <;> omega
  · cases h1

/-- C79: so every container of scalars (`char`, `int`, `double`) arrives unchanged. -/
theorem C79_scalars {β : Type} {s a : ℕ} (h : Spec.Layout (.basic s a)) (ha : a ∣ 8) (n : ℕ) (src dst : ℕ → β) :
    Spec.Arrived (.pair cKey (.basic s a)) n src (transfer (.pair cKey (.basic s a)) n src dst) :=
  (C79_arrive_partial (t := .pair cKey (.basic s a)) ⟨⟨⟨by decide, by decide, by decide⟩, by decide, by decide, by decide⟩, h⟩
    ⟨⟨trivial, trivial, by decide⟩, trivial, ha⟩ n src dst).1

/-- C79 is false: pairs of a k-point index and a `Kokkos::complex<double>` given to `Communicator::allgather` do
not arrive: half of the number is lost. The same holds for pairs of an `int` and a `double`. -/
theorem C79_not_with_gap :
    (∃ src dst : ℕ → Bool, ¬Spec.Arrived (.pair cKey cKokkosComplex) 1 src
      (transfer (.pair cKey cKokkosComplex) 1 src dst)) ∧
    ∃ src dst : ℕ → Bool, ¬Spec.Arrived (.pair cInt cDouble) 1 src (transfer (.pair cInt cDouble) 1 src dst) := by
  refine ⟨⟨fun _ => true, fun _ => false, fun h => ?_⟩, ⟨fun _ => true, fun _ => false, fun h => ?_⟩⟩
  · have := h 0 (by omega) 31 (by decide)
    rw [transfer, if_neg] at this
    · cases this
    · rintro ⟨i, hi, d, hd, e⟩
      obtain rfl : i = 0 := by omega
      simp only [Nat.zero_mul, Nat.zero_add] at e
      subst e
      revert hd
      decide
  · have := h 0 (by omega) 15 (by decide)
    rw [transfer, if_neg] at this
    · cases this
    · rintro ⟨i, hi, d, hd, e⟩
      obtain rfl : i = 0 := by omega
      simp only [Nat.zero_mul, Nat.zero_add] at e
      subst e
      revert hd
      decide

/-- The types the library gathers (keys, and real numbers with keys) have no gap, and neither has a pair with
`std::complex<double>`. -/
example : (Spec.Layout cKey ∧ Spec.NoGap cKey) ∧
    (Spec.Layout (.pair cKey cDouble) ∧ Spec.NoGap (.pair cKey cDouble)) ∧
    Spec.Layout (.pair cKey cStdComplex) ∧ Spec.NoGap (.pair cKey cStdComplex) := by
  simp only [Spec.Layout, Spec.NoGap, cKey, cInt, cDouble, cStdComplex]
  decide

/-! ## C80 -/

/-- C80 is false: every gather of scalars leaves two datatypes behind, every gather of arrays of numbers one,
so the number of datatypes grows without bound. -/
theorem C80_not_released (m l : ℕ) :
    openTypes ((List.replicate m (gatherScalarsCalls cDouble)).flatten ++
      (List.replicate l (gatherArraysCalls cDouble)).flatten) = 2 * m + l := by
  have h1 : ∀ c : MpiCall, ((List.replicate m (gatherScalarsCalls cDouble)).flatten).count c =
      m * (gatherScalarsCalls cDouble).count c := by
    intro c
    induction m with
    | zero => simp
    | succ m ih => rw [List.replicate_succ, List.flatten_cons, List.count_append, ih]; ring
  have h2 : ∀ c : MpiCall, ((List.replicate l (gatherArraysCalls cDouble)).flatten).count c =
      l * (gatherArraysCalls cDouble).count c := by
    intro c
    induction l with
    | zero => simp
    | succ m ih => rw [List.replicate_succ, List.flatten_cons, List.count_append, ih]; ring
  have e1 : (gatherScalarsCalls cDouble).count .typeCommit = 2 := by decide
  have e2 : (gatherScalarsCalls cDouble).count .typeFree = 0 := by decide
  have e3 : (gatherArraysCalls cDouble).count .typeCommit = 1 := by decide
  have e4 : (gatherArraysCalls cDouble).count .typeFree = 0 := by decide
  rw [openTypes, List.count_append, List.count_append, h1, h1, h2, h2, e1, e2, e3, e4]
  push_cast
  ring

/-- the calls of a type: none that touches a communicator, every created type is committed -/
theorem typeCalls_ok : ∀ t : CType, (∀ c ∈ typeCalls t, c = .typeCreate ∨ c = .typeCommit) ∧
    (typeCalls t).count .typeCreate = (typeCalls t).count .typeCommit
  | .basic _ _ => by simp [typeCalls]
  | .pair a b => by
    obtain ⟨h1, h2⟩ := typeCalls_ok a
    obtain ⟨h3, h4⟩ := typeCalls_ok b
    refine ⟨fun c hc => ?_, ?_⟩
    · simp only [typeCalls, List.mem_append, List.mem_cons, List.not_mem_nil, or_false] at hc
      rcases hc with (hc | hc) | hc
      · exact h1 c hc
      · exact h3 c hc
      · exact hc
    · simp only [typeCalls, List.count_append, h2, h4]
      simp

/-- C80, the part that holds: gathers of any type neither duplicate nor free a communicator of the caller, commit
every datatype they create, and leave nothing else behind. Missing: the datatypes are never freed. -/
theorem C80_communicators_partial (t : CType) (cs : List MpiCall)
    (hcs : cs = gatherScalarsCalls t ∨ cs = gatherArraysCalls t) :
    .commDup ∉ cs ∧ .commFree ∉ cs ∧ cs.count .typeCreate = cs.count .typeCommit := by
  have hg : ∀ t, (∀ c ∈ gatherCalls t, c = .typeCreate ∨ c = .typeCommit ∨ c = .collective) ∧
      (gatherCalls t).count .typeCreate = (gatherCalls t).count .typeCommit := by
    intro t
    obtain ⟨h1, h2⟩ := typeCalls_ok t
    refine ⟨fun c hc => ?_, by simp [gatherCalls, h2]⟩
    rcases List.mem_append.1 hc with hc | hc
    · rcases h1 c hc with h | h <;> simp [h]
    · simp [List.mem_singleton.1 hc]
  have key : (∀ c ∈ cs, c = .typeCreate ∨ c = .typeCommit ∨ c = .collective) ∧
      cs.count .typeCreate = cs.count .typeCommit := by
    rcases hcs with rfl | rfl
    · refine ⟨fun c hc => ?_, ?_⟩
      · rcases List.mem_append.1 hc with hc | hc <;> exact (hg _).1 c hc
      · simp only [gatherScalarsCalls, List.count_append, (hg _).2]
    · refine ⟨fun c hc => ?_, ?_⟩
      · simp only [gatherArraysCalls, gatherVecCalls, List.mem_append] at hc
        rcases hc with ((hc | hc) | (hc | hc)) | hc <;> exact (hg _).1 c hc
      · simp only [gatherArraysCalls, gatherVecCalls, List.count_append, (hg _).2]
  refine ⟨fun h => ?_, fun h => ?_, key.2⟩ <;>
  · have := key.1 _ h
    simp at this

/-- The calls of a gather are not trivial. -/
example : (gatherScalarsCalls cDouble).length = 6 ∧ (gatherArraysCalls cDouble).length = 7 := by decide

end Nlcg
