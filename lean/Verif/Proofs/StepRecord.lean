import Verif.Proofs.StepFile
import Mathlib.Tactic.CongrExclamation

/-!
# The records of the step file as JSON
-/

namespace Nlcg
open Spec
variable {α : Type}

mutual
theorem good_valid : ∀ j : Json, j.Good → j.valid = true
  | .null, _ => by rw [Json.valid]
  | .num _, _ => by rw [Json.valid]
  | .str s, h => by rw [Json.Good] at h; rw [Json.valid]; exact Option.isSome_iff_ne_none.2 h
  | .arr xs, h => by rw [Json.Good] at h; rw [Json.valid]; exact good_validAll xs h
  | .obj fs, h => by rw [Json.Good] at h; rw [Json.valid]; exact good_validFields fs h
theorem good_validAll : ∀ xs : List Json, Json.GoodAll xs → Json.validAll xs = true
  | [], _ => by rw [Json.validAll]
  | x :: xs, h => by
    rw [Json.GoodAll] at h
    rw [Json.validAll, good_valid x h.1, good_validAll xs h.2]; rfl
theorem good_validFields : ∀ fs : List (Option (List Char) × Json), Json.GoodFields fs → Json.validFields fs = true
  | [], _ => by rw [Json.validFields]
  | (k, x) :: fs, h => by
    rw [Json.GoodFields] at h
    rw [Json.validFields, good_valid x h.2.1, good_validFields fs h.2.2, Option.isSome_iff_ne_none.2 h.1]; rfl
end

theorem goodAll_iff (xs : List Json) : Json.GoodAll xs ↔ ∀ x ∈ xs, x.Good := by
  induction xs with
  | nil => simp [Json.GoodAll]
  | cons x xs ih => simp [Json.GoodAll, ih]

theorem goodFields_iff (fs : List (Option (List Char) × Json)) :
    Json.GoodFields fs ↔ ∀ f ∈ fs, f.1 ≠ none ∧ f.2.Good := by
  induction fs with
  | nil => simp [Json.GoodFields]
  | cons x xs ih => obtain ⟨k, x⟩ := x; simp [Json.GoodFields, ih, and_assoc]

theorem validFields_iff (fs : List (Option (List Char) × Json)) :
    Json.validFields fs = true ↔ ∀ f ∈ fs, f.1.isSome = true ∧ f.2.valid = true := by
  induction fs with
  | nil => simp [Json.validFields]
  | cons x xs ih => obtain ⟨k, x⟩ := x; simp [Json.validFields, ih, and_assoc]

theorem good_json {nf : NumFmt α} (hnf : FmtOk nf) (x : α) : (nf.json x).Good := by
  rw [NumFmt.json]
  cases h : nf.real x with
  | none => simp [Json.Good]
  | some t => simp only [Json.Good]; exact hnf.real x t h

theorem good_bandEntry {nf : NumFmt α} (hnf : FmtOk nf) (e : Key × List α) : (bandEntry nf e).Good := by
  rw [bandEntry, Json.Good, goodFields_iff]
  intro f hf
  simp only [List.mem_cons, List.not_mem_nil, or_false] at hf
  rcases hf with rfl | rfl | rfl
  · exact ⟨by simp, by simp only [Json.Good]; exact hnf.int _⟩
  · exact ⟨by simp, by simp only [Json.Good]; exact hnf.int _⟩
  · refine ⟨by simp, ?_⟩
    simp only [Json.Good, goodAll_iff, List.mem_map]
    rintro x ⟨y, -, rfl⟩
    exact good_json hnf y

/-- all members are good -/
def DictGood (d : Dict) : Prop := ∀ e ∈ d, e.2.Good

theorem DictGood.set {d : Dict} (h : DictGood d) {k : List Char} {x : Json} (hx : x.Good) :
    DictGood (KMap.set k x d) := fun e he => by
  rcases KMap.mem_set he with rfl | he
  · exact hx
  · exact h e he

theorem DictGood.push {d : Dict} (h : DictGood d) {k : List Char} {x : Json} (hx : x.Good) :
    DictGood (Dict.push k x d) := by
  rw [Dict.push]
  split
  · rename_i xs hl
    refine h.set ?_
    have := h _ (KMap.lookup_eq_some_mem hl)
    simp only [Json.Good, goodAll_iff, List.mem_append, List.mem_singleton] at this ⊢
    rintro y (hy | rfl)
    · exact this y hy
    · exact hx
  · refine h.set ?_
    simp only [Json.Good, goodAll_iff, List.mem_singleton]
    rintro y rfl
    exact hx

theorem DictGood.logBands {nf : NumFmt α} (hnf : FmtOk nf) {d : Dict} (h : DictGood d) (key : String)
    (v : List (Key × List α)) : DictGood (Dict.logBands nf key v d) := by
  induction v generalizing d with
  | nil => exact h
  | cons e v ih => exact ih (h.push (good_bandEntry hnf e))

/-- what is logged without the bands -/
def baseDict (nf : NumFmt α) (r : StepData α) : Dict :=
  (((((((Dict.start nf r.step).logNum nf "F" r.F).logNum nf "EKS" r.eks).logNum nf "entropy" r.entropy).logNum nf
    "slope_x" r.slopeX).logNum nf "slope_eta" r.slopeEta).logNum nf "fermi_energy" r.efermi).logMap nf
    "ks_energy_comps" r.comps

theorem dictGood_step {nf : NumFmt α} (hnf : FmtOk nf) (r : StepData α) (hc : ∀ e ∈ r.comps, e.1 ≠ none) :
    DictGood (stepDict nf r) := by
  have h0 : DictGood (Dict.start nf r.step) := by
    refine DictGood.set (DictGood.set (fun e he => by simp at he) ?_) ?_
    · simp [Json.Good]
    · simp only [Json.Good]; exact hnf.int _
  have hm : (Json.obj (r.comps.map fun e => (e.1, nf.json e.2))).Good := by
    simp only [Json.Good, goodFields_iff, List.mem_map]
    rintro f ⟨e, he, rfl⟩
    exact ⟨hc e he, good_json hnf _⟩
  have h1 : DictGood (baseDict nf r) :=
    DictGood.set (DictGood.set (DictGood.set (DictGood.set (DictGood.set (DictGood.set (DictGood.set h0
      (good_json hnf r.F)) (good_json hnf r.eks)) (good_json hnf r.entropy)) (good_json hnf r.slopeX))
      (good_json hnf r.slopeEta)) (good_json hnf r.efermi)) hm
  rw [stepDict]
  split
  · exact DictGood.logBands hnf (DictGood.logBands hnf h1 _ _) _ _
  · exact h1

theorem good_stepJson {nf : NumFmt α} (hnf : FmtOk nf) (r : StepData α) (hc : ∀ e ∈ r.comps, e.1 ≠ none) :
    (stepJson nf r).Good := by
  rw [stepJson, Json.Good, goodFields_iff]
  intro f hf
  obtain ⟨e, he, rfl⟩ := List.mem_map.1 hf
  exact ⟨by simp, dictGood_step hnf r hc e he⟩

theorem sorted_start {nf : NumFmt α} (i : ℤ) : KMap.Sorted (Dict.start nf i) :=
  KMap.sorted_set (KMap.sorted_set KMap.sorted_nil)

theorem sorted_push {d : Dict} (h : KMap.Sorted d) (k : List Char) (x : Json) : KMap.Sorted (Dict.push k x d) := by
  rw [Dict.push]
  split <;> exact KMap.sorted_set h

theorem sorted_logBands {nf : NumFmt α} (key : String) (v : List (Key × List α)) {d : Dict} (h : KMap.Sorted d) :
    KMap.Sorted (Dict.logBands nf key v d) := by
  induction v generalizing d with
  | nil => exact h
  | cons e v ih => exact ih (sorted_push h _ _)

theorem lookup_logBands_ne {nf : NumFmt α} {key : String} {k : List Char} (hk : k ≠ key.toList)
    (v : List (Key × List α)) {d : Dict} (h : KMap.Sorted d) :
    KMap.lookup k (Dict.logBands nf key v d) = KMap.lookup k d := by
  induction v generalizing d with
  | nil => rfl
  | cons e v ih =>
    rw [Dict.logBands, List.foldl_cons]
    refine (ih (sorted_push h _ _)).trans ?_
    rw [Dict.push]
    split <;> rw [KMap.lookup_set h, if_neg hk]

theorem lookup_logBands_self {nf : NumFmt α} {key : String} (v : List (Key × List α)) {d : Dict} (h : KMap.Sorted d)
    (xs : List Json) (hx : KMap.lookup key.toList d = some (.arr xs)) :
    KMap.lookup key.toList (Dict.logBands nf key v d) = some (.arr (xs ++ v.map (bandEntry nf))) := by
  induction v generalizing d xs with
  | nil => simpa [Dict.logBands] using hx
  | cons e v ih =>
    rw [Dict.logBands, List.foldl_cons]
    refine (ih (sorted_push h _ _) (xs ++ [bandEntry nf e]) ?_).trans (by simp)
    rw [Dict.push, hx]
    simp only
    rw [KMap.lookup_set h, if_pos rfl]

theorem lookup_logBands_new {nf : NumFmt α} {key : String} (v : List (Key × List α)) (hv : v ≠ []) {d : Dict}
    (h : KMap.Sorted d) (hx : KMap.lookup key.toList d = none) :
    KMap.lookup key.toList (Dict.logBands nf key v d) = some (.arr (v.map (bandEntry nf))) := by
  rcases v with _ | ⟨e, v⟩
  · exact absurd rfl hv
  · rw [Dict.logBands, List.foldl_cons]
    refine (lookup_logBands_self v (sorted_push h _ _) [bandEntry nf e] ?_).trans (by simp)
    rw [Dict.push, hx]
    simp only
    rw [KMap.lookup_set h, if_pos rfl]

theorem lookup_base (nf : NumFmt α) (r : StepData α) (k : List Char) :
    KMap.Sorted (baseDict nf r) ∧ KMap.lookup k (baseDict nf r) =
      if k = "ks_energy_comps".toList then some (.obj (r.comps.map fun e => (e.1, nf.json e.2)))
      else if k = "fermi_energy".toList then some (nf.json r.efermi)
      else if k = "slope_eta".toList then some (nf.json r.slopeEta)
      else if k = "slope_x".toList then some (nf.json r.slopeX)
      else if k = "entropy".toList then some (nf.json r.entropy)
      else if k = "EKS".toList then some (nf.json r.eks)
      else if k = "F".toList then some (nf.json r.F)
      else if k = "step".toList then some (.num (nf.int r.step))
      else if k = "type".toList then some (.str (some "cg_iteration".toList))
      else none := by
  have s0 := sorted_start (nf := nf) r.step
  have s1 := KMap.sorted_set (k := "F".toList) (v := nf.json r.F) s0
  have s2 := KMap.sorted_set (k := "EKS".toList) (v := nf.json r.eks) s1
  have s3 := KMap.sorted_set (k := "entropy".toList) (v := nf.json r.entropy) s2
  have s4 := KMap.sorted_set (k := "slope_x".toList) (v := nf.json r.slopeX) s3
  have s5 := KMap.sorted_set (k := "slope_eta".toList) (v := nf.json r.slopeEta) s4
  have s6 := KMap.sorted_set (k := "fermi_energy".toList) (v := nf.json r.efermi) s5
  refine ⟨KMap.sorted_set s6, ?_⟩
  simp only [baseDict, Dict.logMap, Dict.logNum]
  rw [KMap.lookup_set s6, KMap.lookup_set s5, KMap.lookup_set s4, KMap.lookup_set s3, KMap.lookup_set s2,
    KMap.lookup_set s1, KMap.lookup_set s0, Dict.start, KMap.lookup_set (KMap.sorted_set KMap.sorted_nil), KMap.lookup_set KMap.sorted_nil]
  congr!

theorem json_inj {nf : NumFmt α} (hnf : FmtOk nf) {x y : α} (hx : nf.real x ≠ none) (hy : nf.real y ≠ none)
    (h : nf.json x = nf.json y) : x = y := by
  rw [NumFmt.json, NumFmt.json] at h
  cases h1 : nf.real x with
  | none => exact absurd h1 hx
  | some t =>
    cases h2 : nf.real y with
    | none => exact absurd h2 hy
    | some t' =>
      rw [h1, h2] at h
      simp only [Json.num.injEq] at h
      subst h
      exact hnf.real_inj x y t h1 h2

theorem map_inj_on {β γ : Type} {f : β → γ} : ∀ {l l' : List β}, (∀ x ∈ l, ∀ y ∈ l', f x = f y → x = y) →
    l.map f = l'.map f → l = l'
  | [], [], _, _ => rfl
  | [], _ :: _, _, h => by simp at h
  | _ :: _, [], _, h => by simp at h
  | x :: l, y :: l', hi, h => by
    simp only [List.map_cons, List.cons.injEq] at h
    rw [hi x (by simp) y (by simp) h.1, map_inj_on (fun a ha b hb => hi a (by simp [ha]) b (by simp [hb])) h.2]

theorem bands_inj {nf : NumFmt α} (hnf : FmtOk nf) {v v' : List (Key × List α)}
    (hv : ∀ e ∈ v, ∀ x ∈ e.2, nf.real x ≠ none) (hv' : ∀ e ∈ v', ∀ x ∈ e.2, nf.real x ≠ none)
    (h : v.map (bandEntry nf) = v'.map (bandEntry nf)) : v = v' := by
  refine map_inj_on (fun e he e' he' hh => ?_) h
  simp only [bandEntry, Json.obj.injEq, List.cons.injEq, Prod.mk.injEq, true_and, Json.num.injEq, Json.arr.injEq,
    and_true] at hh
  obtain ⟨h1, h2, h3⟩ := hh
  have h4 := map_inj_on (fun x hx y hy => json_inj hnf (hv e he x hx) (hv' e' he' y hy)) h3
  obtain ⟨⟨a, b⟩, l⟩ := e
  obtain ⟨⟨a', b'⟩, l'⟩ := e'
  obtain rfl := hnf.int_inj _ _ h1
  obtain rfl := hnf.int_inj _ _ h2
  simp only at h4
  subst h4
  rfl

theorem stepDict_lookup (nf : NumFmt α) (r : StepData α) {k : List Char} (h1 : k ≠ "eta".toList)
    (h2 : k ≠ "fn".toList) : KMap.lookup k (stepDict nf r) = KMap.lookup k (baseDict nf r) := by
  have hs := (lookup_base nf r k).1
  have e : stepDict nf r = match r.bands with
    | some (e, f) => ((baseDict nf r).logBands nf "eta" e).logBands nf "fn" f
    | none => baseDict nf r := rfl
  rw [e]
  split
  · rw [lookup_logBands_ne h2 _ (sorted_logBands _ _ hs), lookup_logBands_ne h1 _ hs]
  · rfl

theorem stepDict_bands {nf : NumFmt α} {r : StepData α} (hr : RecordOk nf r) :
    KMap.lookup "eta".toList (stepDict nf r) = r.bands.map (fun b => .arr (b.1.map (bandEntry nf))) ∧
    KMap.lookup "fn".toList (stepDict nf r) = r.bands.map (fun b => .arr (b.2.map (bandEntry nf))) := by
  have h1 := lookup_base nf r "eta".toList
  have h2 := lookup_base nf r "fn".toList
  have hs := h1.1
  have e1 : KMap.lookup "eta".toList (baseDict nf r) = none := by rw [h1.2]; rfl
  have e2 : KMap.lookup "fn".toList (baseDict nf r) = none := by rw [h2.2]; rfl
  have e : stepDict nf r = match r.bands with
    | some (e, f) => ((baseDict nf r).logBands nf "eta" e).logBands nf "fn" f
    | none => baseDict nf r := rfl
  rw [e]
  cases hb : r.bands with
  | none => simp only [Option.map_none]; exact ⟨e1, e2⟩
  | some b =>
    obtain ⟨a, f⟩ := b
    obtain ⟨n1, n2, -⟩ := hr.bands a f hb
    simp only [Option.map_some]
    refine ⟨?_, ?_⟩
    · rw [lookup_logBands_ne (by decide) _ (sorted_logBands _ _ hs), lookup_logBands_new a n1 hs e1]
    · rw [lookup_logBands_new f n2 (sorted_logBands _ _ hs)]
      rw [lookup_logBands_ne (by decide) _ hs, e2]

theorem stepJson_inj {nf : NumFmt α} (hnf : FmtOk nf) {r r' : StepData α} (hr : RecordOk nf r) (hr' : RecordOk nf r')
    (h : stepJson nf r = stepJson nf r') : r = r' := by
  have hd : stepDict nf r = stepDict nf r' := by
    simp only [stepJson, Json.obj.injEq] at h
    exact map_inj_on (fun x _ y _ hxy => by
      simp only [Prod.mk.injEq, Option.some.injEq] at hxy
      exact Prod.ext hxy.1 hxy.2) h
  have hl : ∀ k, k ≠ "eta".toList → k ≠ "fn".toList →
      KMap.lookup k (baseDict nf r) = KMap.lookup k (baseDict nf r') := fun k h1 h2 => by
    rw [← stepDict_lookup nf r h1 h2, ← stepDict_lookup nf r' h1 h2, hd]
  have l1 := hl "F".toList (by decide) (by decide)
  have l2 := hl "EKS".toList (by decide) (by decide)
  have l3 := hl "entropy".toList (by decide) (by decide)
  have l4 := hl "slope_x".toList (by decide) (by decide)
  have l5 := hl "slope_eta".toList (by decide) (by decide)
  have l6 := hl "fermi_energy".toList (by decide) (by decide)
  have l7 := hl "ks_energy_comps".toList (by decide) (by decide)
  have l8 := hl "step".toList (by decide) (by decide)
  rw [(lookup_base nf r _).2, (lookup_base nf r' _).2] at l1 l2 l3 l4 l5 l6 l7 l8
  have sc := hr.scalars
  have sc' := hr'.scalars
  simp only [List.mem_cons, List.not_mem_nil, or_false, forall_eq_or_imp, forall_eq] at sc sc'
  obtain ⟨a1, a2, a3, a4, a5, a6⟩ := sc
  obtain ⟨b1, b2, b3, b4, b5, b6⟩ := sc'
  have m1 := json_inj hnf a1 b1 (Option.some.inj l1)
  have m2 := json_inj hnf a2 b2 (Option.some.inj l2)
  have m3 := json_inj hnf a3 b3 (Option.some.inj l3)
  have m4 := json_inj hnf a4 b4 (Option.some.inj l4)
  have m5 := json_inj hnf a5 b5 (Option.some.inj l5)
  have m6 := json_inj hnf a6 b6 (Option.some.inj l6)
  have m8 : r.step = r'.step := hnf.int_inj _ _ (Json.num.inj (Option.some.inj l8))
  have m7 : r.comps = r'.comps := by
    refine map_inj_on (fun e he e' he' hh => ?_) (Json.obj.inj (Option.some.inj l7))
    simp only [Prod.mk.injEq] at hh
    exact Prod.ext hh.1 (json_inj hnf (hr.comps e he).2 (hr'.comps e' he').2 hh.2)
  have m9 : r.bands = r'.bands := by
    obtain ⟨u1, u2⟩ := stepDict_bands hr
    obtain ⟨v1, v2⟩ := stepDict_bands hr'
    rw [hd, v1] at u1
    rw [hd, v2] at u2
    cases hb : r.bands with
    | none =>
      cases hb' : r'.bands with
      | none => rfl
      | some b' => rw [hb, hb'] at u1; simp at u1
    | some b =>
      cases hb' : r'.bands with
      | none => rw [hb, hb'] at u1; simp at u1
      | some b' =>
        rw [hb, hb'] at u1 u2
        simp only [Option.map_some, Option.some.injEq, Json.arr.injEq] at u1 u2
        obtain ⟨a, f⟩ := b
        obtain ⟨a', f'⟩ := b'
        obtain ⟨-, -, n⟩ := hr.bands a f hb
        obtain ⟨-, -, n'⟩ := hr'.bands a' f' hb'
        obtain rfl : a = a' := bands_inj hnf (fun e he => n e (by simp [he])) (fun e he => n' e (by simp [he])) u1.symm
        obtain rfl : f = f' := bands_inj hnf (fun e he => n e (by simp [he])) (fun e he => n' e (by simp [he])) u2.symm
        rfl
  cases r
  cases r'
  simp only at m1 m2 m3 m4 m5 m6 m7 m8 m9
  subst m1 m2 m3 m4 m5 m6 m7 m8 m9
  rfl

theorem writeSteps_eq {nf : NumFmt α} (hnf : FmtOk nf) (rs : List (StepData α))
    (hc : ∀ r ∈ rs, ∀ e ∈ r.comps, e.1 ≠ none) (file : List Char) :
    writeSteps nf rs file = .ok (file ++ (Spec.texts nf rs).flatten) := by
  induction rs generalizing file with
  | nil => simp [writeSteps, Spec.texts]
  | cons r rs ih =>
    rw [writeSteps, closeLogger, if_pos rfl, if_pos (good_valid _ (good_stepJson hnf r (hc r (by simp)))),
      List.take_length, Res.bind_ok, ih fun r' hr' => hc r' (by simp [hr'])]
    simp [Spec.texts]

end Nlcg
