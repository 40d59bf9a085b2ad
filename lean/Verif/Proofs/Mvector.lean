import Verif.Model.Mvector
import Verif.Proofs.Mpi
import Mathlib.Algebra.BigOperators.Group.List.Basic

namespace Nlcg
variable {κ β γ δ : Type} [LinearOrder κ]

theorem argsAt_spec (k : κ) (args : List (KMap κ γ)) :
    (∃ vs, argsAt k args = .ok vs ∧ args.map (KMap.lookup k) = vs.map some) ∨
    (argsAt k args = .throw .outOfRange ∧ ∃ m ∈ args, KMap.lookup k m = none) := by
  induction args with
  | nil => exact Or.inl ⟨[], rfl, rfl⟩
  | cons m ms ih =>
    cases h : KMap.lookup k m with
    | none => exact Or.inr ⟨by simp [argsAt, h], m, by simp, h⟩
    | some v =>
      rcases ih with ⟨vs, h1, h2⟩ | ⟨h1, m', hm', h2⟩
      · exact Or.inl ⟨v :: vs, by simp [argsAt, h, h1], by simp [h, h2]⟩
      · exact Or.inr ⟨by simp [argsAt, h, h1], m', by simp [hm'], h2⟩

theorem tapplyBind_spec (args : List (KMap κ γ)) (x : KMap κ β) :
    (∃ m, tapplyBind args x = .ok m ∧ m.map Prod.fst = x.map Prod.fst ∧
      m.map (fun e => e.2.1) = x.map Prod.snd ∧
      ∀ e ∈ m, args.map (KMap.lookup e.1) = e.2.2.map some) ∨
    (tapplyBind args x = .throw .outOfRange ∧
      ∃ k ∈ KMap.keys x, ∃ m ∈ args, KMap.lookup k m = none) := by
  induction x with
  | nil => exact Or.inl ⟨[], rfl, rfl, rfl, by simp⟩
  | cons e x ih =>
    obtain ⟨k, v⟩ := e
    rcases argsAt_spec k args with ⟨vs, h1, h2⟩ | ⟨h1, m', hm', h2⟩
    · rcases ih with ⟨m, i1, i2, i3, i4⟩ | ⟨i1, k', hk', i2⟩
      · refine Or.inl ⟨(k, (v, vs)) :: m, by simp [tapplyBind, h1, i1], by simp [i2],
          by simp [i3], ?_⟩
        intro e he
        rcases List.mem_cons.mp he with rfl | he
        · exact h2
        · exact i4 e he
      · refine Or.inr ⟨by simp [tapplyBind, h1, i1], k', ?_, i2⟩
        simp only [KMap.keys, List.map_cons, List.mem_cons]; exact Or.inr hk'
    · exact Or.inr ⟨by simp [tapplyBind, h1], k, by simp [KMap.keys], m', hm', h2⟩

theorem evalThreaded_ok (f : β → List γ → Res δ) (g : β → List γ → δ) (m : KMap κ (β × List γ))
    (acc : KMap κ δ) (h : ∀ e ∈ m, f e.2.1 e.2.2 = .ok (g e.2.1 e.2.2)) :
    evalThreaded f m acc =
      (.ok (KMap.setAll (m.map fun e => (e.1, g e.2.1 e.2.2)) acc), m.map Prod.snd) := by
  induction m generalizing acc with
  | nil => rfl
  | cons e m ih =>
    obtain ⟨k, a⟩ := e
    have h0 : f a.1 a.2 = .ok (g a.1 a.2) := h (k, a) (by simp)
    simp only [evalThreaded, h0]
    rw [ih _ (fun e he => h e (by simp [he]))]
    rfl

theorem setAll_sorted {m : KMap κ β} (hs : KMap.Sorted m) : KMap.setAll m [] = m := by
  have hnd : (KMap.keys m).Nodup := by
    unfold KMap.keys
    refine (List.pairwise_map.mpr ?_)
    exact List.Pairwise.imp (fun h => ne_of_lt h) hs
  refine KMap.ext (KMap.sorted_setAll m KMap.sorted_nil) hs fun k => ?_
  rw [KMap.lookup_setAll m KMap.sorted_nil, KMap.lookup_reverse hnd]; simp [KMap.lookup]

theorem unzip2_foldl (m : KMap κ (β × γ)) (u : KMap κ β × KMap κ γ) :
    m.foldl (fun u e => (KMap.set e.1 e.2.1 u.1, KMap.set e.1 e.2.2 u.2)) u =
      (KMap.setAll (m.map fun e => (e.1, e.2.1)) u.1,
       KMap.setAll (m.map fun e => (e.1, e.2.2)) u.2) := by
  induction m generalizing u with
  | nil => rfl
  | cons e m ih => rw [List.foldl_cons, ih]; rfl

theorem sorted_mapVal {m : KMap κ β} (hs : KMap.Sorted m) (g : κ → β → γ) :
    KMap.Sorted (m.map fun e => (e.1, g e.1 e.2)) := by
  unfold KMap.Sorted at *
  exact List.pairwise_map.mpr hs

section sums
variable {M : Type} [AddCommMonoid M]

omit [LinearOrder κ] in
theorem localSum_eq (m : KMap κ M) : localSum m = (m.map Prod.snd).sum := by
  have : ∀ (m : KMap κ M) (a : M), m.foldl (fun s e => s + e.2) a = a + (m.map Prod.snd).sum := by
    intro m
    induction m with
    | nil => intro a; simp
    | cons e m ih => intro a; rw [List.foldl_cons, ih, List.map_cons, List.sum_cons, add_assoc]
  rw [localSum, this, zero_add]

theorem foldr_add_eq_sum (l : List M) : l.foldr (· + ·) 0 = l.sum := by
  induction l with
  | nil => rfl
  | cons x l ih => rw [List.foldr_cons, ih, List.sum_cons]

omit [LinearOrder κ] in
theorem sum_localSums (locals : List (KMap κ M)) :
    (locals.map localSum).sum = (locals.flatten.map Prod.snd).sum := by
  induction locals with
  | nil => rfl
  | cons m ms ih =>
    rw [List.map_cons, List.sum_cons, ih, List.flatten_cons, List.map_append, List.sum_append,
      localSum_eq]

end sums
end Nlcg
