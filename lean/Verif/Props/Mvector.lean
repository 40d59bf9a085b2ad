import Verif.Proofs.Mvector
import Mathlib.Data.Rat.Defs

/-!
# C36-C40, C61: distributed containers

`locals` is the list of the maps stored by the ranks of the k-point communicator.
-/

namespace Nlcg
variable {κ β γ δ : Type} [LinearOrder κ]

/-! ## C36 -/

/-- Gathering scalars: every rank gets the same (sorted) map, and it holds exactly the entries of
all ranks. -/
theorem C36_scalar_union [Inhabited κ] [Inhabited β] (locals : List (KMap κ β))
    (hnd : (KMap.keys locals.flatten).Nodup) :
    ∃ all : KMap κ β, allgatherScalar locals = .ok (List.replicate locals.length all) ∧
      all.Sorted ∧
      ∀ k v, KMap.lookup k all = some v ↔ ∃ m ∈ locals, (k, v) ∈ m := by
  refine ⟨_, allgatherScalar_eq locals, KMap.sorted_ofRange _, fun k v => ?_⟩
  rw [KMap.lookup_ofRange]
  constructor
  · intro h
    exact List.mem_flatten.mp (KMap.lookup_eq_some_mem h)
  · intro h
    exact KMap.lookup_of_mem_nodup hnd (List.mem_flatten.mpr h)

/-- Gathering arrays of any lengths (release build, or no empty arrays): the same. -/
theorem C36_array_union [Inhabited κ] [Inhabited β] (ndebug : Bool)
    (locals : List (KMap κ (List β))) (hnd : (KMap.keys locals.flatten).Nodup)
    (hne : ndebug = true ∨ ∀ m ∈ locals, ∀ e ∈ m, e.2 ≠ []) :
    ∃ all : KMap κ (List β),
      allgatherView ndebug locals = .ok (List.replicate locals.length all) ∧ all.Sorted ∧
      ∀ k v, KMap.lookup k all = some v ↔ ∃ m ∈ locals, (k, v) ∈ m := by
  refine ⟨_, allgatherView_eq ndebug locals hne, KMap.sorted_setAll _ KMap.sorted_nil,
    fun k v => ?_⟩
  rw [KMap.lookup_setAll _ KMap.sorted_nil, KMap.lookup_reverse hnd]
  constructor
  · intro h
    have : KMap.lookup k locals.flatten = some v := by simpa [KMap.lookup] using h
    exact List.mem_flatten.mp (KMap.lookup_eq_some_mem this)
  · intro h
    rw [KMap.lookup_of_mem_nodup hnd (List.mem_flatten.mpr h)]; rfl

/-- Gathering plain vectors (`_allgather`): every rank receives the list of all ranks' vectors. -/
theorem C36_vectors [Inhabited β] (locals : List (List β)) :
    allgatherVec locals = .ok (List.replicate locals.length locals) :=
  allgatherVec_eq locals

/-! ## C37 -/

/-- scalars: with duplicates the entry of the lowest rank is kept -/
theorem C37_scalar_keeps_first [Inhabited κ] [Inhabited β] (locals : List (KMap κ β)) :
    ∃ all : KMap κ β, allgatherScalar locals = .ok (List.replicate locals.length all) ∧
      ∀ k, KMap.lookup k all = locals.findSome? (KMap.lookup k) :=
  ⟨_, allgatherScalar_eq locals, fun k => by rw [KMap.lookup_ofRange, KMap.lookup_flatten]⟩

/-- arrays: with duplicates the entry of the highest rank is kept -/
theorem C37_array_keeps_last [Inhabited κ] [Inhabited β] (ndebug : Bool)
    (locals : List (KMap κ (List β))) (hs : ∀ m ∈ locals, m.Sorted)
    (hne : ndebug = true ∨ ∀ m ∈ locals, ∀ e ∈ m, e.2 ≠ []) :
    ∃ all : KMap κ (List β),
      allgatherView ndebug locals = .ok (List.replicate locals.length all) ∧
      ∀ k, KMap.lookup k all = locals.reverse.findSome? (KMap.lookup k) := by
  refine ⟨_, allgatherView_eq ndebug locals hne, fun k => ?_⟩
  rw [KMap.lookup_setAll _ KMap.sorted_nil]
  have hrev : locals.flatten.reverse = (locals.reverse.map List.reverse).flatten := by
    rw [List.reverse_flatten, List.map_reverse]
  rw [hrev, KMap.lookup_flatten]
  have : ∀ ls : List (KMap κ (List β)), (∀ m ∈ ls, m.Sorted) →
      (ls.map List.reverse).findSome? (KMap.lookup k) = ls.findSome? (KMap.lookup k) := by
    intro ls
    induction ls with
    | nil => intro _; rfl
    | cons m ls ih =>
      intro h
      have hnd : (KMap.keys m).Nodup := by
        unfold KMap.keys
        exact List.pairwise_map.mpr (List.Pairwise.imp (fun h => ne_of_lt h) (h m (by simp)))
      simp only [List.map_cons, List.findSome?_cons, KMap.lookup_reverse hnd,
        ih (fun m hm => h m (by simp [hm]))]
  rw [this _ (fun m hm => hs m (by simpa using hm))]
  simp [KMap.lookup]

/-- What is left of C37: for a key held by one rank only, both versions keep that rank's entry
(here for arrays of length one against scalars). Missing: keys held by several ranks, for which
the claim is false, see `C37_not_consistent`. -/
theorem C37_unique_keys_partial [Inhabited κ] [Inhabited β] (locals : List (KMap κ β))
    (hnd : (KMap.keys locals.flatten).Nodup) :
    ∃ (a : KMap κ β) (b : KMap κ (List β)),
      allgatherScalar locals = .ok (List.replicate locals.length a) ∧
      allgatherView false (locals.map fun m => m.map fun e => (e.1, [e.2])) =
        .ok (List.replicate locals.length b) ∧
      ∀ k, KMap.lookup k b = (KMap.lookup k a).map fun v => [v] := by
  refine ⟨_, KMap.setAll (locals.map fun m => m.map fun e => (e.1, [e.2])).flatten [],
    allgatherScalar_eq locals, ?_, ?_⟩
  · rw [allgatherView_eq false _ (Or.inr (by
      intro m hm e he
      obtain ⟨m', _, rfl⟩ := List.mem_map.mp hm
      obtain ⟨e', _, rfl⟩ := List.mem_map.mp he
      simp))]
    simp
  · intro k
    have hfl : (locals.map fun m => m.map fun e => (e.1, [e.2])).flatten =
        locals.flatten.map fun e => (e.1, [e.2]) := by rw [List.map_flatten]
    rw [hfl, KMap.setAll_nil_eq_ofRange, KMap.lookup_ofRange, KMap.lookup_ofRange,
      KMap.lookup_mapVal (fun v => [v])]
    simpa [KMap.keys, Function.comp_def] using hnd

/-- C37 is false: two ranks holding the same key; the scalar gather keeps rank 0's value, the
array gather rank 1's. -/
theorem C37_not_consistent :
    allgatherScalar [[((0 : ℕ), (10 : ℕ))], [(0, 11)]] = .ok [[(0, 10)], [(0, 10)]] ∧
    allgatherView false [[((0 : ℕ), [(10 : ℕ)])], [(0, [11])]] = .ok [[(0, [11])], [(0, [11])]] := by
  decide

/-! ## C38 -/

/-- Summing with the k-point communicator gives on every rank the sum over all k-points of all
ranks; another distribution of the same entries over any number of ranks gives the same value. -/
theorem C38_global_sum {M : Type} [AddCommMonoid M] (own : Comm) (locals locals' : List (KMap κ M))
    (hr : 1 ≤ locals.length) (hr' : 1 ≤ locals'.length)
    (hp : locals.flatten.Perm locals'.flatten) :
    ∃ s : M, s = (locals.flatten.map Prod.snd).sum ∧
      sumMv own (some .k) locals = .ok (List.replicate locals.length s) ∧
      sumMv own (some .k) locals' = .ok (List.replicate locals'.length s) := by
  have aux : ∀ ls : List (KMap κ M), 1 ≤ ls.length → sumMv own (some .k) ls =
      .ok (List.replicate ls.length (ls.flatten.map Prod.snd).sum) := by
    intro ls hls
    have : ¬ Comm.size ls.length .k < own.size ls.length := by
      cases own <;> simp only [Comm.size] <;> omega
    simp only [sumMv, if_neg this, allreduceSum, List.length_map, foldr_add_eq_sum, sum_localSums]
  refine ⟨_, rfl, aux locals hr, ?_⟩
  rw [aux locals' hr', (hp.map Prod.snd).sum_eq]

/-- the same when the communicator is taken from a container that carries the k-point
communicator (as `wk * ..` does) -/
theorem C38_global_sum_own {M : Type} [AddCommMonoid M] (locals : List (KMap κ M)) :
    sumMv .k none locals =
      .ok (List.replicate locals.length (locals.flatten.map Prod.snd).sum) := by
  simp [sumMv, allreduceSum, foldr_add_eq_sum, sum_localSums]

/-- a communicator smaller than the container's own is refused on every rank -/
theorem C38_small_comm_refused {M : Type} [AddCommMonoid M] (locals : List (KMap κ M))
    (h : 1 < locals.length) : sumMv .k (some .self) locals = .throw .runtimeError := by
  simp [sumMv, Comm.size, h]

/-! ## C39 -/

/-- What holds: with one rank the norm is global; with several, every rank obtains the
contribution of its own k-points. Missing: the contributions of the other ranks. -/
theorem C39_local_norm_partial {M : Type} [AddCommMonoid M] (locals : List (KMap κ M)) :
    innerhReduce locals = .ok (locals.map fun m => (m.map Prod.snd).sum) ∧
    (locals.length = 1 → innerhReduce locals = .ok [(locals.flatten.map Prod.snd).sum]) := by
  have h : innerhReduce locals = .ok (locals.map fun m => (m.map Prod.snd).sum) := by
    simp only [innerhReduce, sumMv, lt_irrefl, if_false]
    congr 1
    exact List.map_congr_left fun m _ => localSum_eq m
  refine ⟨h, fun h1 => ?_⟩
  obtain ⟨m, rfl⟩ := List.length_eq_one_iff.mp h1
  rw [h]; simp

/-- C39 is false: two ranks with one k-point each obtain different "norms", neither of which is
the global one. -/
theorem C39_not_global :
    ∃ locals : List (KMap ℕ ℕ), ∃ a b,
      innerhReduce locals = .ok [a, b] ∧ a ≠ b ∧
      a ≠ (locals.flatten.map Prod.snd).sum ∧ b ≠ (locals.flatten.map Prod.snd).sum :=
  ⟨[[(0, 1)], [(1, 2)]], 1, 2, by decide, by decide, by decide, by decide⟩

/-! ## C40 -/

/-- Element-wise application: if every further container has an entry for every key of the first,
the result has exactly the keys of the first container, the value at `k` is the function of the
entries with key `k`, and the function has been called exactly once per key, in key order. -/
theorem C40_elementwise (f : β → List γ → Res δ) (g : β → List γ → δ)
    (hfg : ∀ x l, f x l = .ok (g x l)) (x : KMap κ β) (args : List (KMap κ γ)) (hs : x.Sorted)
    (hk : ∀ k ∈ KMap.keys x, ∀ m ∈ args, (KMap.lookup k m).isSome) :
    ∃ (r : KMap κ δ) (calls : List (β × List γ)), tapplyEval f x args = (.ok r, calls) ∧
      KMap.keys r = KMap.keys x ∧ calls.map Prod.fst = x.map Prod.snd ∧
      ∀ k v, KMap.lookup k x = some v → ∃ vs, args.map (KMap.lookup k) = vs.map some ∧
        KMap.lookup k r = some (g v vs) := by
  rcases tapplyBind_spec args x with ⟨m, h1, h2, h3, h4⟩ | ⟨_, k, hkx, m, hm, hnone⟩
  · have hms : KMap.Sorted m := by
      unfold KMap.Sorted at hs ⊢
      have : (x.map Prod.fst).Pairwise (· < ·) := List.pairwise_map.mpr hs
      rw [← h2] at this
      exact List.pairwise_map.mp this
    refine ⟨m.map fun e => (e.1, g e.2.1 e.2.2), m.map Prod.snd, ?_, ?_, ?_, ?_⟩
    · have := evalThreaded_ok f g m [] (fun e _ => hfg _ _)
      rw [setAll_sorted (sorted_mapVal hms fun _ a => g a.1 a.2)] at this
      simp only [tapplyEval, h1, this]
    · simpa [KMap.keys, Function.comp_def] using h2
    · simpa [Function.comp_def] using h3
    · intro k v hkv
      have hkm : k ∈ KMap.keys m := by
        have : k ∈ KMap.keys x := by rw [← KMap.lookup_isSome_iff, hkv]; rfl
        unfold KMap.keys at this ⊢; rw [h2]; exact this
      obtain ⟨⟨k', a⟩, ha, rfl⟩ := List.mem_map.mp hkm
      refine ⟨a.2, h4 _ ha, ?_⟩
      have hx : KMap.lookup k' (m.map fun e => (e.1, e.2.1)) = some v := by
        have hmx : (m.map fun e => (e.1, e.2.1)) = x := by
          clear hkv hkm ha h1 h4 hms hk hs
          induction m generalizing x with
          | nil => cases x with
            | nil => rfl
            | cons e x => simp at h2
          | cons e m ih => cases x with
            | nil => simp at h2
            | cons e' x =>
              simp only [List.map_cons, List.cons.injEq] at h2 h3 ⊢
              exact ⟨Prod.ext h2.1 h3.1, ih x h2.2 h3.2⟩
        rw [hmx]; exact hkv
      have hm1 := (KMap.mem_iff_lookup hms).mp ha
      rw [KMap.lookup_mapVal (fun a : β × List γ => a.1), hm1] at hx
      simp only [Option.map_some, Option.some.injEq] at hx
      rw [KMap.lookup_mapVal (fun a : β × List γ => g a.1 a.2), hm1, ← hx]; rfl
  · have := hk k hkx m hm
    rw [hnone] at this; cases this

/-- If one of the further containers lacks a key of the first, `std::out_of_range` is thrown and
the function has not been called at all. -/
theorem C40_missing_key (f : β → List γ → Res δ) (x : KMap κ β) (args : List (KMap κ γ))
    (k : κ) (hk : k ∈ KMap.keys x) (m : KMap κ γ) (hm : m ∈ args)
    (hnone : KMap.lookup k m = none) :
    tapplyEval f x args = (.throw .outOfRange, []) := by
  rcases tapplyBind_spec args x with ⟨m', h1, h2, h3, h4⟩ | ⟨h1, _⟩
  · exfalso
    have hkm : k ∈ m'.map Prod.fst := by rw [h2]; exact hk
    obtain ⟨e, he, rfl⟩ := List.mem_map.mp hkm
    have h := h4 e he
    have : none ∈ args.map (KMap.lookup e.1) := List.mem_map.mpr ⟨m, hm, hnone⟩
    rw [h] at this
    simp at this
  · simp [tapplyEval, h1]

/-- Taking a container of tuples apart keeps keys and components. -/
theorem C40_unzip (m : KMap κ (β × γ)) (hs : m.Sorted) :
    unzip2 m = (m.map (fun e => (e.1, e.2.1)), m.map fun e => (e.1, e.2.2)) := by
  rw [unzip2, unzip2_foldl, setAll_sorted (sorted_mapVal hs fun _ a => a.1),
    setAll_sorted (sorted_mapVal hs fun _ a => a.2)]

/-! ## C61 -/

/-- Release builds: arrays of every length, also empty ones, are gathered on every rank. -/
theorem C61_release_build [Inhabited κ] [Inhabited β] (locals : List (KMap κ (List β))) :
    ∃ all, allgatherView true locals = .ok (List.replicate locals.length all) :=
  ⟨_, allgatherView_eq true locals (Or.inl rfl)⟩

/-- Debug builds work if no entry is empty. Missing: empty entries, for which the claim is false
(`C61_debug_aborts`). -/
theorem C61_debug_partial [Inhabited κ] [Inhabited β] (locals : List (KMap κ (List β)))
    (hne : ∀ m ∈ locals, ∀ e ∈ m, e.2 ≠ []) :
    ∃ all, allgatherView false locals = .ok (List.replicate locals.length all) :=
  ⟨_, allgatherView_eq false locals (Or.inr hne)⟩

/-- C61 is false for debug builds: an empty last entry trips the assertion. -/
theorem C61_debug_aborts :
    allgatherView false [[((0 : ℕ), [(7 : ℕ)])], [(1, [])]] = .abort ∧
    allgatherView true [[((0 : ℕ), [(7 : ℕ)])], [(1, [])]] =
      .ok [[(0, [7]), (1, [])], [(0, [7]), (1, [])]] := by
  decide

/-! ## Non-vacuity -/

section Examples
/-- three ranks, one without entries, blocks of different lengths -/
def exLocals : List (KMap ℕ (List ℕ)) := [[(3, [1, 2]), (5, [9])], [], [(4, [7, 7, 7])]]

example : (KMap.keys exLocals.flatten).Nodup ∧ (∀ m ∈ exLocals, ∀ e ∈ m, e.2 ≠ []) := by decide
example : allgatherView false exLocals =
    .ok (List.replicate 3 [(3, [1, 2]), (4, [7, 7, 7]), (5, [9])]) := by decide
example : (exLocals.flatten).Perm ([[(4, [7, 7, 7]), (3, [1, 2])], [(5, [9])]] : List (KMap ℕ (List ℕ))).flatten := by
  decide
example : tapplyEval (fun x l => Res.ok (x + l.sum)) ([(1, 10), (2, 20)] : KMap ℕ ℕ)
    [[(1, 1), (2, 2), (3, 3)], [(1, 100), (2, 200)]] =
    (.ok [(1, 111), (2, 222)], [(10, [1, 100]), (20, [2, 200])]) := by decide
example : tapplyEval (fun x l => Res.ok (x + l.sum)) ([(1, 10), (2, 20)] : KMap ℕ ℕ)
    [[(1, 1)]] = (.throw .outOfRange, []) := by decide
end Examples

end Nlcg
