import Verif.Proofs.StepRecord

/-!
# Properties of the step file
-/

namespace Nlcg
open Spec
variable {α : Type}

/-! ## C82 -/

/-- C82: if the texts of the host are valid, all records are written, and wherever the program dies: a reader that
knows only the rules of JSON finds exactly the complete records in the file, and the rest. -/
theorem C82_readable_partial {nf : NumFmt α} (hnf : FmtOk nf) (rs : List (StepData α)) (next : StepData α)
    (hc : ∀ r ∈ next :: rs, ∀ e ∈ r.comps, e.1 ≠ none) (p q : List Char) (hq : q ≠ [])
    (hpq : p ++ q = (stepJson nf next).text) :
    ∃ f, writeSteps nf rs [] = .ok f ∧ (read .start (f ++ p)).docs = Spec.texts nf rs ∧
      (read .start (f ++ p)).cur = p := by
  have hc' : ∀ r ∈ rs, ∀ e ∈ r.comps, e.1 ≠ none := fun r hr => hc r (by simp [hr])
  refine ⟨_, writeSteps_eq hnf rs hc' [], ?_⟩
  have key : ∀ (rs : List (StepData α)) (D : List (List Char)), (∀ r ∈ rs, ∀ e ∈ r.comps, e.1 ≠ none) →
      read (rd D [] 0) (Spec.texts nf rs).flatten = rd (D ++ Spec.texts nf rs) [] 0 := by
    intro rs
    induction rs with
    | nil => intro D _; simp [Spec.texts, read_nil]
    | cons r rs ih =>
      intro D h
      have e : Spec.texts nf (r :: rs) = (stepJson nf r).text :: Spec.texts nf rs := rfl
      rw [e, List.flatten_cons, read_append, stepJson,
        read_doc (by rw [← stepJson]; exact good_stepJson hnf r (h r (by simp))),
        ih _ fun r' hr' => h r' (by simp [hr'])]
      simp
  rw [List.nil_append, read_append, show Reader.start = rd [] [] 0 from rfl, key rs [] hc', List.nil_append]
  exact read_part (good_stepJson hnf next (hc next (by simp))) _ hq hpq

/-- C82: and nothing is lost in the texts: two runs that leave the same complete texts have logged the same data, number
by number. (Numbers that are not finite are written as `null` and are lost.) -/
theorem C82_nothing_lost {nf : NumFmt α} (hnf : FmtOk nf) {rs rs' : List (StepData α)}
    (hr : ∀ r ∈ rs, RecordOk nf r) (hr' : ∀ r ∈ rs', RecordOk nf r) (h : Spec.texts nf rs = Spec.texts nf rs') :
    rs = rs' := by
  refine map_inj_on (fun r m r' m' e => stepJson_inj hnf (hr r m) (hr' r' m') ?_) h
  have stop : Stop [] := by intro c x e; cases e
  have g := good_stepJson hnf r fun e he => ((hr r m).comps e he).1
  have g' := good_stepJson hnf r' fun e he => ((hr' r' m').comps e he).1
  exact (text_inj _ _ g g' [] [] stop stop (by simpa using e)).1

/-- C82 is false if the name of an energy component is not valid UTF-8: the program is terminated while the record is
written, whatever the rest of the record. -/
theorem C82_not_invalid_name (nf : NumFmt α) (r : StepData α) (room : ℕ) (file : List Char) (x : α)
    (h : (none, x) ∈ r.comps) : closeLogger true room (stepJson nf r) file = .abort := by
  rw [closeLogger, if_pos rfl, if_neg]
  rw [Bool.not_eq_true]
  by_contra hv
  rw [Bool.not_eq_false, stepJson, Json.valid, validFields_iff] at hv
  have hl : KMap.lookup "ks_energy_comps".toList (stepDict nf r) =
      some (.obj (r.comps.map fun e => (e.1, nf.json e.2))) := by
    rw [stepDict_lookup nf r (by decide) (by decide), (lookup_base nf r _).2]
    rfl
  have h1 := (hv _ (List.mem_map.2 ⟨_, KMap.lookup_eq_some_mem hl, rfl⟩)).2
  simp only [Json.valid, validFields_iff] at h1
  have h2 := (h1 _ (List.mem_map.2 ⟨_, h, rfl⟩)).1
  simp at h2

/-- C82 is false if a record does not fit on the disk: errors are ignored, the next record is appended to the torn one,
and the reader finds neither. -/
theorem C82_not_full_disk {nf : NumFmt α} (hnf : FmtOk nf) (r r' : StepData α) (h : ∀ e ∈ r.comps, e.1 ≠ none)
    (h' : ∀ e ∈ r'.comps, e.1 ≠ none) :
    ∃ f f', closeLogger true 1 (stepJson nf r) [] = .ok f ∧
      closeLogger true (stepJson nf r').text.length (stepJson nf r') f = .ok f' ∧ (read .start f').docs = [] := by
  have g := good_stepJson hnf r h
  have g' := good_stepJson hnf r' h'
  have ht : (stepJson nf r).text.take 1 = ['{'] := by
    rw [stepJson]
    cases (stepDict nf r).map fun e => ((some e.1 : Option (List Char)), e.2) with
    | nil => simp [Json.text]
    | cons f fs => obtain ⟨k, x⟩ := f; simp [Json.text]
  refine ⟨['{'], '{' :: (stepJson nf r').text, ?_, ?_, ?_⟩
  · rw [closeLogger, if_pos rfl, if_pos (good_valid _ g), ht, List.nil_append]
  · rw [closeLogger, if_pos rfl, if_pos (good_valid _ g'), List.take_length, List.singleton_append]
  · rw [read_cons, show Reader.start.step '{' = rd [] ['{'] (0 + 1) from rfl, read_text _ g']

/-- C82: the other ranks leave the file alone. -/
theorem C82_other_ranks (room : ℕ) (j : Json) (file : List Char) : closeLogger false room j file = .ok file := rfl

/-- numbers in tally marks -/
def tally : NumFmt ℕ where
  int := fun i => if 0 ≤ i then List.replicate (i.toNat + 1) '1' else '-' :: List.replicate (-i).toNat '1'
  real := fun n => some (List.replicate (n + 1) '1')

theorem tally_ok : FmtOk tally where
  int := fun i => by
    simp only [tally]
    split_ifs
    · exact ⟨by simp, fun c hc => by rw [List.eq_of_mem_replicate hc]; decide⟩
    · refine ⟨by simp, fun c hc => ?_⟩
      rcases List.mem_cons.1 hc with rfl | hc
      · decide
      · rw [List.eq_of_mem_replicate hc]; decide
  real := fun x t h => by
    simp only [tally, Option.some.injEq] at h
    subst h
    exact ⟨by simp, fun c hc => by rw [List.eq_of_mem_replicate hc]; decide⟩
  int_inj := fun i j h => by
    simp only [tally] at h
    split_ifs at h with h1 h2 h3
    · have := congrArg List.length h
      simp only [List.length_replicate] at this
      omega
    · rw [List.replicate_succ] at h; simp at h
    · rw [List.replicate_succ] at h; simp at h
    · have := congrArg List.length h
      simp only [List.length_cons, List.length_replicate] at this
      omega
  real_inj := fun x y t h h' => by
    simp only [tally, Option.some.injEq] at h h'
    have := congrArg List.length (h.trans h'.symm)
    simpa using this

/-- a record with names that need escaping and bands of two k-points -/
def demoRecord (i : ℤ) : StepData ℕ :=
  { step := i, F := 1, eks := 2, entropy := 3, slopeX := 4, slopeEta := 5, efermi := 6
    comps := [(some "a\"}".toList, 7), (some "b\n".toList, 8)]
    bands := some ([(toLex (0, 0), [1, 2]), (toLex (1, 0), [])], [(toLex (0, 0), [0, 0]), (toLex (1, 0), [])]) }

theorem demo_record_ok (i : ℤ) : RecordOk tally (demoRecord i) where
  scalars := by simp [tally]
  comps := fun e he => by
    simp only [demoRecord, List.mem_cons, List.not_mem_nil, or_false] at he
    rcases he with rfl | rfl <;> simp [tally]
  bands := fun e f h => by
    simp only [demoRecord, Option.some.injEq, Prod.mk.injEq] at h
    obtain ⟨rfl, rfl⟩ := h
    simp [tally]

/-- A file with a complete and a torn record is read. -/
example : ∃ f, writeSteps tally [demoRecord 0] [] = .ok f ∧
    (read .start (f ++ (stepJson tally (demoRecord 1)).text.take 30)).docs = [(stepJson tally (demoRecord 0)).text] := by
  obtain ⟨f, h1, h2, -⟩ := C82_readable_partial tally_ok [demoRecord 0] (demoRecord 1)
    (fun r hr e he => by
      simp only [List.mem_cons, List.not_mem_nil, or_false] at hr
      rcases hr with rfl | rfl <;> exact ((demo_record_ok _).comps e he).1)
    ((stepJson tally (demoRecord 1)).text.take 30) ((stepJson tally (demoRecord 1)).text.drop 30)
    (by decide +kernel) (List.take_append_drop _ _)
  exact ⟨f, h1, h2⟩

/-- Records that differ in one number leave different files. -/
example : Spec.texts tally [demoRecord 0] ≠ Spec.texts tally [demoRecord 1] := fun h => by
  have := C82_nothing_lost tally_ok (by simpa using demo_record_ok 0) (by simpa using demo_record_ok 1) h
  simp [demoRecord] at this

end Nlcg
