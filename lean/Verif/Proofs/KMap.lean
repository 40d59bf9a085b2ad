import Verif.Model.KMap
import Mathlib.Data.List.Nodup

/-! Lemmas on maps. -/

namespace Nlcg.KMap
variable {κ β : Type} [LinearOrder κ]

theorem lookup_of_lt {k : κ} {m : KMap κ β} (h : ∀ e ∈ m, k < e.1) : lookup k m = none := by
  induction m with
  | nil => rfl
  | cons e m ih =>
    obtain ⟨k', v⟩ := e
    have hk : k < k' := h (k', v) (by simp)
    have := ih (fun e he => h e (by simp [he]))
    simp [lookup, hk.ne, this]

theorem lookup_eq_some_mem {k : κ} {v : β} {m : KMap κ β} (h : lookup k m = some v) :
    (k, v) ∈ m := by
  induction m with
  | nil => simp [lookup] at h
  | cons e m ih =>
    obtain ⟨k', v'⟩ := e
    unfold lookup at h
    split at h
    · rename_i hk; subst hk; simp at h; simp [h]
    · simp [ih h]

theorem mem_iff_lookup {k : κ} {v : β} {m : KMap κ β} (hs : Sorted m) :
    (k, v) ∈ m ↔ lookup k m = some v := by
  refine ⟨fun h => ?_, lookup_eq_some_mem⟩
  induction m with
  | nil => simp at h
  | cons e m ih =>
    obtain ⟨k', v'⟩ := e
    obtain ⟨h1, h2⟩ := List.pairwise_cons.mp hs
    rcases List.mem_cons.mp h with h | h
    · cases h; simp [lookup]
    · have : k' < k := h1 _ h
      simp [lookup, this.ne', ih h2 h]

theorem lookup_isSome_iff {k : κ} {m : KMap κ β} : (lookup k m).isSome ↔ k ∈ keys m := by
  induction m with
  | nil => simp [lookup, keys]
  | cons e m ih =>
    obtain ⟨k', v'⟩ := e
    unfold lookup
    split
    · rename_i h; subst h; simp [keys]
    · rename_i h; rw [ih]; simp [keys, h]

theorem lookup_eq_none_iff {k : κ} {m : KMap κ β} : lookup k m = none ↔ k ∉ keys m := by
  rw [← lookup_isSome_iff]; cases lookup k m <;> simp

theorem mem_set {k : κ} {v : β} {m : KMap κ β} {e : κ × β} (h : e ∈ set k v m) :
    e = (k, v) ∨ e ∈ m := by
  induction m with
  | nil => simpa [set] using h
  | cons a m ih =>
    obtain ⟨k', v'⟩ := a
    unfold set at h
    split at h
    · simpa using h
    · split at h
      · rcases List.mem_cons.mp h with h | h <;> simp [h]
      · rcases List.mem_cons.mp h with h | h
        · simp [h]
        · rcases ih h with h | h <;> simp [h]

theorem sorted_set {k : κ} {v : β} {m : KMap κ β} (hs : Sorted m) : Sorted (set k v m) := by
  induction m with
  | nil => simp [set, Sorted]
  | cons a m ih =>
    obtain ⟨k', v'⟩ := a
    obtain ⟨h1, h2⟩ := List.pairwise_cons.mp hs
    unfold set
    split
    · rename_i hk
      refine List.pairwise_cons.mpr ⟨?_, hs⟩
      intro e he
      rcases List.mem_cons.mp he with rfl | he
      · exact hk
      · exact hk.trans (h1 e he)
    · split
      · rename_i hk; subst hk
        exact List.pairwise_cons.mpr ⟨h1, h2⟩
      · rename_i hk1 hk2
        refine List.pairwise_cons.mpr ⟨?_, ih h2⟩
        intro e he
        rcases mem_set he with rfl | he
        · exact lt_of_le_of_ne (not_lt.mp hk1) (Ne.symm hk2)
        · exact h1 e he

theorem lookup_set {k k0 : κ} {v : β} {m : KMap κ β} (hs : Sorted m) :
    lookup k0 (set k v m) = if k0 = k then some v else lookup k0 m := by
  induction m with
  | nil => simp [set, lookup]
  | cons a m ih =>
    obtain ⟨k', v'⟩ := a
    obtain ⟨h1, h2⟩ := List.pairwise_cons.mp hs
    unfold set
    split
    · simp [lookup]
    · split
      · rename_i hk; subst hk
        simp only [lookup]; split <;> rfl
      · rename_i hk1 hk2
        simp only [lookup]
        rw [ih h2]
        by_cases h : k0 = k'
        · subst h; simp [Ne.symm hk2]
        · simp [h]

theorem mem_insertNew {k : κ} {v : β} {m : KMap κ β} {e : κ × β} (h : e ∈ insertNew k v m) :
    e = (k, v) ∨ e ∈ m := by
  induction m with
  | nil => simpa [insertNew] using h
  | cons a m ih =>
    obtain ⟨k', v'⟩ := a
    unfold insertNew at h
    split at h
    · simpa using h
    · split at h
      · exact Or.inr h
      · rcases List.mem_cons.mp h with h | h
        · simp [h]
        · rcases ih h with h | h <;> simp [h]

theorem sorted_insertNew {k : κ} {v : β} {m : KMap κ β} (hs : Sorted m) :
    Sorted (insertNew k v m) := by
  induction m with
  | nil => simp [insertNew, Sorted]
  | cons a m ih =>
    obtain ⟨k', v'⟩ := a
    obtain ⟨h1, h2⟩ := List.pairwise_cons.mp hs
    unfold insertNew
    split
    · rename_i hk
      refine List.pairwise_cons.mpr ⟨?_, hs⟩
      intro e he
      rcases List.mem_cons.mp he with rfl | he
      · exact hk
      · exact hk.trans (h1 e he)
    · split
      · exact hs
      · rename_i hk1 hk2
        refine List.pairwise_cons.mpr ⟨?_, ih h2⟩
        intro e he
        rcases mem_insertNew he with rfl | he
        · exact lt_of_le_of_ne (not_lt.mp hk1) (Ne.symm hk2)
        · exact h1 e he

theorem lookup_insertNew {k k0 : κ} {v : β} {m : KMap κ β} (hs : Sorted m) :
    lookup k0 (insertNew k v m) = ((lookup k0 m) <|> if k0 = k then some v else none) := by
  induction m with
  | nil => simp [insertNew, lookup]
  | cons a m ih =>
    obtain ⟨k', v'⟩ := a
    obtain ⟨h1, h2⟩ := List.pairwise_cons.mp hs
    unfold insertNew
    split
    · rename_i hk
      by_cases h : k0 = k
      · subst h
        have : lookup k0 ((k', v') :: m) = none := by
          apply lookup_of_lt
          intro e he
          rcases List.mem_cons.mp he with rfl | he
          · exact hk
          · exact hk.trans (h1 e he)
        rw [this]; simp [lookup]
      · rw [lookup]; simp [h]
    · split
      · rename_i hk; subst hk
        by_cases h : k0 = k
        · subst h; simp [lookup]
        · simp [h]
      · rename_i hk1 hk2
        simp only [lookup]
        rw [ih h2]
        by_cases h : k0 = k'
        · subst h; simp
        · simp [h]

/-- sorted maps with the same contents are equal -/
theorem ext {m m' : KMap κ β} (hs : Sorted m) (hs' : Sorted m')
    (h : ∀ k, lookup k m = lookup k m') : m = m' := by
  induction m generalizing m' with
  | nil =>
    cases m' with
    | nil => rfl
    | cons e m' =>
      have := h e.1
      obtain ⟨k, v⟩ := e
      simp [lookup] at this
  | cons e m ih =>
    obtain ⟨k, v⟩ := e
    obtain ⟨h1, h2⟩ := List.pairwise_cons.mp hs
    cases m' with
    | nil => have := h k; simp [lookup] at this
    | cons e' m' =>
      obtain ⟨k', v'⟩ := e'
      obtain ⟨h1', h2'⟩ := List.pairwise_cons.mp hs'
      have hkk : k = k' := by
        rcases lt_trichotomy k k' with hlt | heq | hgt
        · have hn : lookup k ((k', v') :: m') = none := by
            apply lookup_of_lt
            intro e he
            rcases List.mem_cons.mp he with rfl | he
            · exact hlt
            · exact hlt.trans (h1' e he)
          have := h k; rw [hn] at this; simp [lookup] at this
        · exact heq
        · have hn : lookup k' ((k, v) :: m) = none := by
            apply lookup_of_lt
            intro e he
            rcases List.mem_cons.mp he with rfl | he
            · exact hgt
            · exact hgt.trans (h1 e he)
          have := h k'; rw [hn] at this; simp [lookup] at this
      subst hkk
      have hv : v = v' := by have := h k; simpa [lookup] using this
      subst hv
      congr 1
      apply ih h2 h2'
      intro k0
      by_cases hk0 : k0 = k
      · subst hk0
        rw [lookup_of_lt h1, lookup_of_lt h1']
      · have := h k0; simpa [lookup, hk0] using this

theorem sorted_nil : Sorted ([] : KMap κ β) := List.Pairwise.nil

theorem sorted_setAll (l : List (κ × β)) {m : KMap κ β} (hs : Sorted m) : Sorted (setAll l m) := by
  induction l generalizing m with
  | nil => exact hs
  | cons e l ih => exact ih (sorted_set hs)

/-- the last entry with a key wins -/
theorem lookup_setAll (l : List (κ × β)) {m : KMap κ β} (hs : Sorted m) (k : κ) :
    lookup k (setAll l m) = (lookup k l.reverse <|> lookup k m) := by
  induction l generalizing m with
  | nil => simp [setAll, lookup]
  | cons e l ih =>
    have happ : ∀ (a b : List (κ × β)), lookup k (a ++ b) = (lookup k a <|> lookup k b) := by
      intro a b
      induction a with
      | nil => simp [lookup]
      | cons x a iha => obtain ⟨x1, x2⟩ := x; simp only [List.cons_append, lookup]; split <;> simp [iha]
    have : setAll (e :: l) m = setAll l (set e.1 e.2 m) := rfl
    rw [this, ih (sorted_set hs), lookup_set hs, List.reverse_cons, happ]
    obtain ⟨e1, e2⟩ := e
    simp only [lookup]
    cases lookup k l.reverse <;> simp
    split <;> simp

theorem sorted_foldl_insertNew (l : List (κ × β)) {m : KMap κ β} (hs : Sorted m) :
    Sorted (l.foldl (fun m e => insertNew e.1 e.2 m) m) := by
  induction l generalizing m with
  | nil => exact hs
  | cons e l ih => exact ih (sorted_insertNew hs)

theorem sorted_ofRange (l : List (κ × β)) : Sorted (ofRange l) := sorted_foldl_insertNew l sorted_nil

/-- the first entry with a key wins -/
theorem lookup_ofRange (l : List (κ × β)) (k : κ) : lookup k (ofRange l) = lookup k l := by
  have : ∀ (l : List (κ × β)) (m : KMap κ β), Sorted m →
      lookup k (l.foldl (fun m e => insertNew e.1 e.2 m) m) = (lookup k m <|> lookup k l) := by
    intro l
    induction l with
    | nil => intro m _; simp [lookup]
    | cons e l ih =>
      intro m hs
      obtain ⟨e1, e2⟩ := e
      simp only [List.foldl_cons]
      rw [ih _ (sorted_insertNew hs), lookup_insertNew hs]
      simp only [lookup]
      cases lookup k m <;> simp
      split <;> simp
  simpa [lookup, ofRange] using this l [] sorted_nil

theorem lookup_append (k : κ) (a b : List (κ × β)) :
    lookup k (a ++ b) = (lookup k a <|> lookup k b) := by
  induction a with
  | nil => simp [lookup]
  | cons x a iha => obtain ⟨x1, x2⟩ := x; simp only [List.cons_append, lookup]; split <;> simp [iha]

theorem lookup_flatten (k : κ) (ls : List (List (κ × β))) :
    lookup k ls.flatten = ls.findSome? (lookup k) := by
  induction ls with
  | nil => simp [lookup]
  | cons a ls ih =>
    rw [List.flatten_cons, lookup_append, ih, List.findSome?_cons]
    cases lookup k a <;> simp

/-- with distinct keys, order does not matter -/
theorem lookup_reverse {l : List (κ × β)} (hnd : (keys l).Nodup) (k : κ) :
    lookup k l.reverse = lookup k l := by
  have key : ∀ (l : List (κ × β)), (keys l).Nodup → ∀ v, (k, v) ∈ l → lookup k l = some v := by
    intro l
    induction l with
    | nil => simp
    | cons e l ih =>
      intro hnd v hm
      obtain ⟨e1, e2⟩ := e
      simp only [keys, List.map_cons, List.nodup_cons] at hnd
      rcases List.mem_cons.mp hm with h | h
      · cases h; simp [lookup]
      · have : k ≠ e1 := by
          rintro rfl
          exact hnd.1 (List.mem_map.mpr ⟨_, h, rfl⟩)
        simp [lookup, this, ih hnd.2 v h]
  cases h : lookup k l with
  | none =>
    rw [lookup_eq_none_iff] at h ⊢
    simpa [keys] using h
  | some v =>
    have hm := lookup_eq_some_mem h
    exact key l.reverse (by simpa [keys, List.map_reverse, List.nodup_reverse] using hnd) v (by simpa using hm)

theorem lookup_of_mem_nodup {l : List (κ × β)} (hnd : (keys l).Nodup) {k : κ} {v : β}
    (h : (k, v) ∈ l) : lookup k l = some v := by
  induction l with
  | nil => simp at h
  | cons e l ih =>
    obtain ⟨k', v'⟩ := e
    simp only [keys, List.map_cons, List.nodup_cons] at hnd
    rcases List.mem_cons.mp h with hm | hm
    · cases hm; simp [lookup]
    · have : k ≠ k' := by
        rintro rfl; exact hnd.1 (List.mem_map.mpr ⟨(k, v), hm, rfl⟩)
      simp [lookup, this, ih hnd.2 hm]

theorem lookup_perm {l l' : List (κ × β)} (hnd : (keys l).Nodup) (hp : l.Perm l') (k : κ) :
    lookup k l = lookup k l' := by
  have hnd' : (keys l').Nodup := ((hp.map Prod.fst).nodup_iff).mp hnd
  cases h : lookup k l with
  | some v => exact (lookup_of_mem_nodup hnd' (hp.mem_iff.mp (lookup_eq_some_mem h))).symm
  | none =>
    cases h' : lookup k l' with
    | none => rfl
    | some v =>
      rw [lookup_of_mem_nodup hnd (hp.mem_iff.mpr (lookup_eq_some_mem h'))] at h
      exact h.symm

theorem ofRange_perm {l l' : List (κ × β)} (hnd : (keys l).Nodup) (hp : l.Perm l') :
    ofRange l = ofRange l' :=
  ext (sorted_ofRange l) (sorted_ofRange l') fun k => by
    rw [lookup_ofRange, lookup_ofRange, lookup_perm hnd hp]

theorem setAll_nil_eq_ofRange {l : List (κ × β)} (hnd : (keys l).Nodup) :
    setAll l [] = ofRange l :=
  ext (sorted_setAll l sorted_nil) (sorted_ofRange l) fun k => by
    rw [lookup_ofRange, lookup_setAll l sorted_nil, lookup_reverse hnd]; simp [lookup]

theorem insertNew_perm {k : κ} {v : β} {m : KMap κ β} (h : k ∉ keys m) :
    (insertNew k v m).Perm ((k, v) :: m) := by
  induction m with
  | nil => exact List.Perm.refl _
  | cons e m ih =>
    obtain ⟨k', v'⟩ := e
    simp only [keys, List.map_cons, List.mem_cons, not_or] at h
    simp only [insertNew]
    split
    · exact List.Perm.refl _
    · rw [if_neg h.1]
      exact ((ih h.2).cons _).trans (List.Perm.swap _ _ _)

/-- with distinct keys, building the map only sorts the entries -/
theorem ofRange_perm_self {l : List (κ × β)} (hnd : (keys l).Nodup) : (ofRange l).Perm l := by
  have : ∀ (l : List (κ × β)) (m : KMap κ β), (keys (m ++ l)).Nodup →
      (l.foldl (fun m e => insertNew e.1 e.2 m) m).Perm (m ++ l) := by
    intro l
    induction l with
    | nil => intro m _; simp
    | cons e l ih =>
      intro m hm
      have hk : e.1 ∉ keys m := by
        intro hc
        simp only [keys, List.map_append, List.map_cons] at hm hc
        rw [List.nodup_append] at hm
        exact hm.2.2 _ hc _ (by simp) rfl
      have hp := insertNew_perm (v := e.2) hk
      have hp2 : (insertNew e.1 e.2 m ++ l).Perm (m ++ e :: l) :=
        (hp.append_right l).trans (List.perm_middle.symm)
      exact (ih _ (((hp2.map Prod.fst).nodup_iff).mpr hm)).trans hp2
  simpa [ofRange] using this l [] (by simpa using hnd)

theorem lookup_mapVal {γ : Type} (g : β → γ) (k : κ) (l : List (κ × β)) :
    lookup k (l.map fun e => (e.1, g e.2)) = (lookup k l).map g := by
  induction l with
  | nil => rfl
  | cons e l ih =>
    simp only [List.map_cons, lookup]
    split
    · rfl
    · exact ih

end Nlcg.KMap
