import Verif.Model.Layout
import Verif.Model.Format
import Verif.Proofs.KMap
import Mathlib.Tactic.Linarith
import Mathlib.Tactic.Positivity
import Mathlib.Tactic.FieldSimp
import Mathlib.Tactic.Ring
import Mathlib.Order.Monotone.Basic

/-!
# Layouts, preconditioner, grids, buffers (`C48`, `C52`, `C56`-`C60`)
-/

namespace Nlcg

/-! ## Slab layouts -/

theorem slabLoop_ok {ncol : ℤ} : ∀ {bs : List Block} {r : ℤ}, (∀ b ∈ bs, b.y = 0 ∧ b.ncols = ncol) →
    slabLoop ncol bs r = .ok (r + (bs.map Block.nrows).sum)
  | [], r, _ => by simp [slabLoop]
  | b :: bs, r, h => by
    have hb := h b (by simp)
    rw [slabLoop, if_neg (by simp [hb]), slabLoop_ok fun b hb => h b (by simp [hb])]
    simp [add_assoc]

theorem slabLoop_throw {ncol : ℤ} : ∀ {bs : List Block} {r : ℤ}, (¬ ∀ b ∈ bs, b.y = 0 ∧ b.ncols = ncol) →
    slabLoop ncol bs r = .throw .runtimeError
  | [], r, h => absurd (by simp) h
  | b :: bs, r, h => by
    rw [slabLoop]
    split
    · rfl
    · rename_i hb
      simp only [not_or, not_not] at hb
      refine slabLoop_throw fun hall => h fun c hc => ?_
      rcases List.mem_cons.1 hc with rfl | hc
      · exact ⟨hb.2, hb.1⟩
      · exact hall c hc

/-- **C48** with a declared number of columns: accepted iff all blocks start at column 0 and have that
number of columns; the number of rows is the sum; otherwise an exception. -/
theorem C48_declared (blocks : List Block) {ncols : ℤ} (hn : ncols ≠ -1) :
    ((∀ b ∈ blocks, b.y = 0 ∧ b.ncols = ncols) →
      slabLayout blocks ncols = .ok ((blocks.map Block.nrows).sum, ncols)) ∧
    ((¬ ∀ b ∈ blocks, b.y = 0 ∧ b.ncols = ncols) → slabLayout blocks ncols = .throw .runtimeError) := by
  constructor <;> intro h
  · simp [slabLayout, hn, slabLoop_ok h]
  · simp [slabLayout, hn, slabLoop_throw h]

/-- **C48** without a declared number of columns, for at least one block: accepted iff all blocks start at
column 0 and have the same number of columns. -/
theorem C48_undeclared_partial (blocks : List Block) (hne : blocks ≠ []) :
    ((∀ b ∈ blocks, b.y = 0) ∧ (∀ b ∈ blocks, ∀ b' ∈ blocks, b.ncols = b'.ncols) →
      ∃ c, (∀ b ∈ blocks, b.ncols = c) ∧ slabLayout blocks = .ok ((blocks.map Block.nrows).sum, c)) ∧
    (¬ ((∀ b ∈ blocks, b.y = 0) ∧ (∀ b ∈ blocks, ∀ b' ∈ blocks, b.ncols = b'.ncols)) →
      slabLayout blocks = .throw .runtimeError) := by
  obtain ⟨b0, bs, rfl⟩ := List.exists_cons_of_ne_nil hne
  constructor
  · rintro ⟨h1, h2⟩
    refine ⟨b0.ncols, fun b hb => h2 b hb b0 (by simp), ?_⟩
    have := slabLoop_ok (ncol := b0.ncols) (r := 0) (bs := b0 :: bs)
      fun b hb => ⟨h1 b hb, h2 b hb b0 (by simp)⟩
    simp [slabLayout, this]
  · intro h
    have := slabLoop_throw (ncol := b0.ncols) (r := 0) (bs := b0 :: bs) fun hall =>
      h ⟨fun b hb => (hall b hb).1, fun b hb b' hb' => (hall b hb).2.trans (hall b' hb').2.symm⟩
    simp [slabLayout, this]

/-- **C48** fails for an empty list without a declared number of columns: `blocks[0]` is read. -/
theorem C48_not_empty : slabLayout [] = .ub := by simp [slabLayout]

/-- two blocks of 2 and 3 rows with 4 columns; a block that starts in column 1 -/
example : slabLayout [⟨0, 0, 2, 4⟩, ⟨2, 0, 3, 4⟩] = .ok (5, 4) ∧
    slabLayout [⟨0, 0, 2, 4⟩, ⟨2, 1, 3, 4⟩] = .throw .runtimeError := by decide +kernel

/-! ## Fetching vectors -/

section fetch
variable {β : Type}

/-- **C60** for host memory (and device memory if compiled for it): the result has exactly the listed
k-points; for a key listed more than once the last vector counts. -/
theorem C60_all_fetched_partial {cuda : Bool} {vs : List (HostVector β)}
    (h : ∀ v ∈ vs, v.memtype = .host ∨ (v.memtype = .device ∧ cuda = true)) :
    ∃ m, makeMmvector cuda vs [] = .ok m ∧
      (∀ k, k ∈ KMap.keys m ↔ ∃ v ∈ vs, v.key = k) ∧
      ∀ pre v post, vs = pre ++ v :: post → (∀ w ∈ post, w.key ≠ v.key) →
        KMap.lookup v.key m = some v.values := by
  have run : ∀ (vs : List (HostVector β)) (acc : KMap Key β),
      (∀ v ∈ vs, v.memtype = .host ∨ (v.memtype = .device ∧ cuda = true)) →
      makeMmvector cuda vs acc = .ok (KMap.setAll (vs.map fun v => (v.key, v.values)) acc) := by
    intro vs
    induction vs with
    | nil => intro acc _; rfl
    | cons v vs ih =>
      intro acc h
      have ih' := ih (KMap.set v.key v.values acc) fun w hw => h w (by simp [hw])
      rcases h v (by simp) with e | ⟨e, ec⟩
      · rw [makeMmvector, if_neg (by simp [e]), if_pos e, ih']; rfl
      · rw [makeMmvector, if_pos e, if_pos ec, ih']; rfl
  refine ⟨_, run vs [] h, ?_, ?_⟩
  · intro k
    rw [← KMap.lookup_isSome_iff, KMap.lookup_setAll _ KMap.sorted_nil]
    cases hl : KMap.lookup k (vs.map fun v => (v.key, v.values)).reverse with
    | some x =>
      have := KMap.lookup_eq_some_mem hl
      simp only [List.mem_reverse, List.mem_map, Prod.mk.injEq] at this
      obtain ⟨v, hv, rfl, _⟩ := this
      simpa using ⟨v, hv, rfl⟩
    | none =>
      rw [KMap.lookup_eq_none_iff] at hl
      constructor
      · intro hh
        simp [KMap.lookup] at hh
      · rintro ⟨v, hv, rfl⟩
        exact absurd (by simpa [KMap.keys] using ⟨v, hv, rfl⟩) hl
  · rintro pre v post rfl hpost
    rw [KMap.lookup_setAll _ KMap.sorted_nil]
    have : KMap.lookup v.key (List.map (fun v => (v.key, v.values)) (pre ++ v :: post)).reverse =
        some v.values := by
      simp only [List.map_append, List.map_cons, List.reverse_append, List.reverse_cons, List.append_assoc]
      rw [KMap.lookup_append]
      have hn : KMap.lookup v.key (List.map (fun v => (v.key, v.values)) post).reverse = none := by
        rw [KMap.lookup_eq_none_iff]
        simp only [KMap.keys, List.map_reverse, List.map_map, List.mem_reverse, List.mem_map,
          Function.comp_apply, not_exists, not_and]
        exact fun w hw => hpost w hw
      rw [hn]
      simp [KMap.lookup]
    rw [this]
    rfl

/-- **C60**: device memory is refused by a build without CUDA. -/
theorem C60_device_refused {vs : List (HostVector β)} (h : ∃ v ∈ vs, v.memtype = .device)
    (acc : KMap Key β) : makeMmvector false vs acc = .throw .runtimeError := by
  induction vs generalizing acc with
  | nil => simp at h
  | cons v vs ih =>
    rw [makeMmvector]
    split
    · simp
    · rename_i hv
      have h' : ∃ v ∈ vs, v.memtype = .device := by
        obtain ⟨w, hw, e⟩ := h
        rcases List.mem_cons.1 hw with rfl | hw
        · exact absurd e hv
        · exact ⟨w, hw, e⟩
      split <;> exact ih h' _

/-- **C60** fails for other memory types: such a k-point is silently missing. -/
theorem C60_not_reported (k : Key) (x : β) (cuda : Bool) :
    makeMmvector cuda [⟨.none, k, x⟩] [] = .ok [] := rfl

example : makeMmvector false [⟨.host, toLex (1, 0), 5⟩, ⟨.host, toLex (0, 0), 7⟩] [] =
    .ok [(toLex (0, 0), 7), (toLex (1, 0), 5)] := by decide +kernel

end fetch

/-! ## Kinetic preconditioner -/

/-- **C56**: the entry is the formula of Teter, Payne and Allan. -/
theorem C56_formula {T : ℝ} (hT : 0 ≤ T) : teterEntry T =
    (27 + 18 * T + 12 * T ^ 2 + 8 * T ^ 3) / (27 + 18 * T + 12 * T ^ 2 + 8 * T ^ 3 + 16 * T ^ 4) := by
  have h : 0 < 27 + 18 * T + 12 * (T * T) + 8 * (T * T * T) := by positivity
  simp only [teterEntry]
  have h2 : 0 < 27 + 18 * T + 12 * (T * T) + 8 * (T * T * T) + 16 * (T * T * (T * T)) := by positivity
  rw [show (27 + 18 * T + 12 * T ^ 2 + 8 * T ^ 3) = 27 + 18 * T + 12 * (T * T) + 8 * (T * T * T) by ring,
    show 16 * T ^ 4 = 16 * (T * T * (T * T)) by ring]
  field_simp

/-- **C56**: entries lie in (0, 1]. -/
theorem C56_bounds {T : ℝ} (hT : 0 ≤ T) : 0 < teterEntry T ∧ teterEntry T ≤ 1 := by
  rw [C56_formula hT]
  have h : 0 < 27 + 18 * T + 12 * T ^ 2 + 8 * T ^ 3 := by positivity
  have h2 : 0 ≤ 16 * T ^ 4 := by positivity
  constructor
  · positivity
  · rw [div_le_one (by positivity)]
    linarith

/-- **C56**: entries decrease with the kinetic energy. -/
theorem C56_decreasing : StrictAntiOn teterEntry (Set.Ici 0) := by
  intro a ha b hb hab
  have ha : 0 ≤ a := ha
  have hb : 0 ≤ b := hb
  rw [C56_formula ha, C56_formula hb]
  rw [div_lt_div_iff₀ (by positivity) (by positivity)]
  have h1 : a ^ 4 < b ^ 4 := by gcongr
  have h2 : a ^ 3 ≤ b ^ 3 := by gcongr
  have h3 : a ^ 2 ≤ b ^ 2 := by gcongr
  have hab' : 0 ≤ a * b := by positivity
  have e2 : (a * b) * a ^ 3 ≤ (a * b) * b ^ 3 := by gcongr
  have e3 : (a * b) ^ 2 * a ^ 2 ≤ (a * b) ^ 2 * b ^ 2 := by gcongr
  have e4 : (a * b) ^ 3 * a ≤ (a * b) ^ 3 * b := by gcongr
  nlinarith

/-- **C56** for the whole preconditioner: the entry of a k-point the host lists last under its key is the
list of these numbers. -/
theorem C56_preconditioner {ekin : List (HostVector (List ℝ))} {pre post : List (HostVector (List ℝ))}
    {v : HostVector (List ℝ)} (hm : ∀ v ∈ ekin, v.memtype = .host) (he : ekin = pre ++ v :: post)
    (hl : ∀ w ∈ post, w.key ≠ v.key) :
    ∃ P, teterPreconditioner false ekin = .ok P ∧ KMap.lookup v.key P = some (v.values.map teterEntry) := by
  obtain ⟨m, e, _, h⟩ := C60_all_fetched_partial (cuda := false) fun v hv => Or.inl (hm v hv)
  refine ⟨_, by rw [teterPreconditioner, e]; rfl, ?_⟩
  rw [KMap.lookup_mapVal (fun x : List ℝ => x.map teterEntry) v.key m, h pre v post he hl]
  rfl

example : teterEntry 0 = 1 ∧ teterEntry 1 = 65 / 81 := by
  constructor <;> norm_num [teterEntry]

/-! ## Equidistant points -/

/-- **C57**: `n` points. -/
theorem C57_length {a b : ℝ} {n : ℕ} {l : List ℝ} (h : linspace a b n = .ok l) : l.length = n := by
  simp only [linspace, show ¬ ((n : ℤ) < 0) by omega, if_false, Res.ok.injEq] at h
  subst h
  simp

/-- **C57**: the points are equidistant from `a` on, and for at least two of them the last is `b`. -/
theorem C57_points (a b : ℝ) (n : ℕ) : ∃ l dx, linspace a b n = .ok l ∧
    (∀ i, ∀ hi : i < l.length, l[i] = a + i * dx) ∧
    (∀ h : 1 < l.length, l[l.length - 1] = b) := by
  have h0 : ¬ ((n : ℤ) < 0) := by omega
  refine ⟨_, if (n : ℤ) > 1 then (b - a) / ((n : ℤ) - 1) else 0, by rw [linspace, if_neg h0], ?_, ?_⟩
  · intro i hi
    simp
  · intro h
    have hn : 1 < n := by simpa using h
    have h1 : ((n : ℤ) > 1) := by omega
    have h2 : (n : ℝ) - 1 ≠ 0 := by
      have : (1 : ℝ) < n := by exact_mod_cast hn
      linarith
    simp only [List.getElem_map, List.getElem_range, List.length_map, List.length_range, h1, if_true,
      Int.toNat_natCast, Int.cast_natCast]
    rw [Nat.cast_sub (by omega)]
    push_cast
    field_simp
    ring

/-- **C57**: the first point is `a` (also for a single point). -/
theorem C57_first {a b : ℝ} {n : ℕ} {l : List ℝ} (h : linspace a b n = .ok l) (hn : 0 < l.length) :
    l[0] = a := by
  obtain ⟨l', dx, e, h1, _⟩ := C57_points a b n
  rw [e] at h
  simp only [Res.ok.injEq] at h
  subst h
  simpa using h1 0 hn

example : linspace 1 3 3 = .ok [1, 2, 3] := by
  have : Int.toNat 3 = 3 := rfl
  norm_num [linspace, this, List.range_succ]

/-! ## Formatting -/

/-- **C52** fails: text without conversions never fits (there is no room for the terminator). -/
theorem C52_not_plain_text {fmt : List Char} (h : '%' ∉ fmt) (args : List FmtArg) :
    formatString fmt args = .ub := by
  have key : sprintfText fmt args = .ok fmt := by
    induction fmt with
    | nil => rfl
    | cons c f ih =>
      have hc : c ≠ '%' := fun e => h (by simp [e])
      have hf := ih fun e => h (by simp [e])
      rw [sprintfText.eq_def]
      split <;> simp_all
  simp [formatString, key]

/-- **C52**: the buffer is large enough exactly if the text is shorter than the format string. -/
theorem C52_fits_partial {fmt t : List Char} {args : List FmtArg} (h : sprintfText fmt args = .ok t) :
    (t.length < fmt.length → formatString fmt args = .ok t) ∧
    (fmt.length ≤ t.length → formatString fmt args = .ub) := by
  constructor <;> intro hl
  · simp only [formatString, h, Res.bind_ok]
    rw [if_pos (by omega)]
    rfl
  · simp only [formatString, h, Res.bind_ok]
    rw [if_neg (by omega)]

/-- `format("k=%d", 7)` fits, `format("k=%d", 100)` and `format("ab")` do not -/
example : formatString "k=%d".toList [.int 7] = .ok "k=7".toList ∧
    formatString "k=%d".toList [.int 100] = .ub ∧ formatString "ab".toList [] = .ub := by decide +kernel

/-! ## Workspaces and handles of GPU libraries -/

/-- **C59** fails for every matrix: the complex workspace has `n` elements, more are announced. -/
theorem C59_not_work {n : ℤ} (lda nb : ℤ) (hn : 1 ≤ n) : (magmaWork n lda nb).work < (magmaWork n lda nb).lwork := by
  simp only [magmaWork, lt_max_iff]
  right
  nlinarith

/-- **C59** for the other work arrays. -/
theorem C59_others_partial (n lda nb : ℤ) :
    (magmaWork n lda nb).wANeeded ≤ (magmaWork n lda nb).wA ∧
    (magmaWork n lda nb).lrwork ≤ (magmaWork n lda nb).rwork ∧
    (magmaWork n lda nb).liwork ≤ (magmaWork n lda nb).iwork := by
  refine ⟨?_, le_rfl, le_rfl⟩
  simp only [magmaWork]
  rw [mul_comm]

/-- for 100 bands: 100 allocated, 10200 announced -/
example : (magmaWork 100 100 32).work = 100 ∧ (magmaWork 100 100 32).lwork = 10200 := by decide +kernel

/-- **C58** fails: no sequence of calls ever releases a handle; the destroy function is only called with a
null handle. -/
theorem C58_not_released (ops : List HandleOp) :
    (handleRun handleInit ops).live.length = (handleRun handleInit ops).created ∧
    ∀ h ∈ (handleRun handleInit ops).destroyed, h = none := by
  have key : ∀ (ops : List HandleOp) (s : HandleState), s.live.length = s.created →
      (∀ h ∈ s.destroyed, h = none) → (handleRun s ops).live.length = (handleRun s ops).created ∧
        ∀ h ∈ (handleRun s ops).destroyed, h = none := by
    intro ops
    induction ops with
    | nil => intro s h1 h2; exact ⟨h1, h2⟩
    | cons o ops ih =>
      intro s h1 h2
      refine ih _ ?_ ?_
      · cases o <;> simp only [handleStep] <;> split <;> simp [h1]
      · cases o <;> simp only [handleStep] <;> split
        · exact h2
        · exact h2
        · intro h hh
          rcases List.mem_append.1 hh with hh | hh
          · exact h2 h hh
          · simpa using hh
        · exact h2
  exact key ops _ rfl (by simp [handleInit])

/-- **C58**: what does hold: after `get` the handle is one the library has created and not destroyed, and
it stays the same until `destroy`. -/
theorem C58_get_valid_partial (ops : List HandleOp) :
    ∃ h, (handleRun handleInit (ops ++ [.get])).handle = some h ∧
      h ∈ (handleRun handleInit (ops ++ [.get])).live ∧
      (handleRun handleInit (ops ++ [.get, .get])).handle = some h := by
  have app : ∀ (a b : List HandleOp) (s : HandleState), handleRun s (a ++ b) = handleRun (handleRun s a) b := by
    intro a b
    induction a with
    | nil => intro s; rfl
    | cons o a ih => intro s; exact ih _
  have inv : ∀ (ops : List HandleOp) (s : HandleState), (∀ h, s.handle = some h → h ∈ s.live) →
      ∀ h, (handleRun s ops).handle = some h → h ∈ (handleRun s ops).live := by
    intro ops
    induction ops with
    | nil => intro s h; exact h
    | cons o ops ih =>
      intro s hs
      refine ih _ ?_
      cases o <;> simp only [handleStep] <;> split <;> simp_all
  have h0 := inv ops handleInit (by simp [handleInit])
  rw [app, app]
  simp only [handleRun, handleStep]
  cases e : (handleRun handleInit ops).handle with
  | some h => exact ⟨h, by simp [e], by simpa [e] using h0 h e, by simp [e]⟩
  | none => exact ⟨_, rfl, by simp, rfl⟩

/-- one use: a handle is created, `destroy` forgets it, it stays alive in the library -/
example : (handleRun handleInit [.get, .destroy]).live = [0] ∧
    (handleRun handleInit [.get, .destroy]).handle = none ∧
    (handleRun handleInit [.destroy]).destroyed = [none] := by decide +kernel

end Nlcg
