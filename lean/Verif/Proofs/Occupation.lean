import Verif.Model.Occupation
import Verif.Spec.KPoints
import Verif.Proofs.Mpi
import Verif.Proofs.ChemPot

/-! Lemmas on the distributed occupation routine. -/

namespace Nlcg
open Arith Spec
variable {α : Type} [Arith α]

omit [Arith α] in
theorem Dist.energies_flatten (d : Dist α) :
    d.energies.flatten = d.flatten.map fun p => (p.key, p.energies) := by
  simp [Dist.energies, List.map_flatten]

omit [Arith α] in
theorem Dist.weights_flatten (d : Dist α) :
    d.weights.flatten = d.flatten.map fun p => (p.key, p.weight) := by
  simp [Dist.weights, List.map_flatten]

omit [Arith α] in
theorem Dist.energies_nodup {d : Dist α} (h : d.Proper) :
    (KMap.keys d.energies.flatten).Nodup := by
  rw [Dist.energies_flatten]; simpa [KMap.keys, Dist.Proper, Function.comp_def] using h

omit [Arith α] in
theorem Dist.weights_nodup {d : Dist α} (h : d.Proper) :
    (KMap.keys d.weights.flatten).Nodup := by
  rw [Dist.weights_flatten]; simpa [KMap.keys, Dist.Proper, Function.comp_def] using h

/-- what the whole communicator computes: one search on the union of all k-points -/
def globalSearch (useNewton : Bool) (gauss sf : SmearFns α) (p : OccParams α) (d : Dist α) :
    Res α :=
  (if useNewton then chemPotGatheredNewton gauss sf p.T p.occ p.ne p.tol
    else chemPotGathered sf p.T p.occ p.ne p.tol)
    (KMap.ofRange d.energies.flatten) (KMap.ofRange d.weights.flatten)

theorem occupationWith_replicate (search : KMap Key (List α) → KMap Key α → Res α)
    (sf : SmearFns α) (kT occ : α) (xs : List (KMap Key (List α))) (a : KMap Key (List α))
    (b : KMap Key α) (n m : Nat) (hn : xs.length ≤ n) (hm : xs.length ≤ m) :
    occupationWith search sf kT occ xs (List.replicate n a) (List.replicate m b) =
      xs.map fun x => finishRank sf kT occ x (search a b) := by
  induction xs generalizing n m with
  | nil => simp [occupationWith]
  | cons x xs ih =>
    cases n with
    | zero => simp at hn
    | succ n =>
      cases m with
      | zero => simp at hm
      | succ m =>
        simp only [List.length_cons] at hn hm
        simp only [List.replicate_succ, occupationWith, List.map_cons,
          ih n m (by omega) (by omega)]

theorem occupation_eq [Inhabited α] (ndebug useNewton : Bool) (gauss sf : SmearFns α)
    (p : OccParams α) (d : Dist α) (hd : d.Proper)
    (hne : ndebug = true ∨ ∀ r ∈ d, ∀ q ∈ r, q.energies ≠ []) :
    occupationFromMvector ndebug useNewton gauss sf p d.energies d.weights =
      .ok (d.energies.map fun x =>
        finishRank sf (lit kB *ᶠ p.T) p.occ x (globalSearch useNewton gauss sf p d)) := by
  unfold occupationFromMvector
  rw [allgatherView_eq ndebug d.energies (by
    rcases hne with h | h
    · exact Or.inl h
    · refine Or.inr ?_
      intro m hm e he
      simp only [Dist.energies, List.mem_map] at hm
      obtain ⟨r, hr, rfl⟩ := hm
      obtain ⟨q, hq, rfl⟩ := List.mem_map.mp he
      exact h r hr q hq), Res.bind_ok, allgatherScalar_eq, Res.bind_ok]
  rw [KMap.setAll_nil_eq_ofRange (Dist.energies_nodup hd)]
  simp only [Res.pure_eq]
  rw [occupationWith_replicate _ _ _ _ _ _ _ _ _ (le_refl _)
    (by simp [Dist.energies, Dist.weights])]
  rfl

theorem globalSearch_same (useNewton : Bool) (gauss sf : SmearFns α) (p : OccParams α)
    {d d' : Dist α} (hd : d.Proper) (h : d.Same d') :
    globalSearch useNewton gauss sf p d = globalSearch useNewton gauss sf p d' := by
  unfold globalSearch
  rw [KMap.ofRange_perm (l' := d'.energies.flatten) (Dist.energies_nodup hd)
      (by rw [Dist.energies_flatten, Dist.energies_flatten]; exact h.map _),
    KMap.ofRange_perm (l' := d'.weights.flatten) (Dist.weights_nodup hd)
      (by rw [Dist.weights_flatten, Dist.weights_flatten]; exact h.map _)]

theorem finishRank_ok {sf : SmearFns α} {kT occ : α} {x : KMap Key (List α)} {r : Res α}
    {o : α × KMap Key (List α)} (h : finishRank sf kT occ x r = .ok o) :
    r = .ok o.1 ∧ o.2 = occupy sf o.1 kT occ x := by
  unfold finishRank at h
  rw [Res.bind_eq_ok] at h
  obtain ⟨mu, h1, h2⟩ := h
  simp only [Res.pure_eq, Res.ok.injEq] at h2
  subst h2; exact ⟨h1, rfl⟩

theorem occupy_flatten (sf : SmearFns α) (mu kT occ : α) (e : List (KMap Key (List α))) :
    (e.map (occupy sf mu kT occ)).flatten = occupy sf mu kT occ e.flatten := by
  unfold occupy
  rw [List.map_flatten]

/-! ### exact sums -/

theorem foldl_add_eq_sum (l : List ℝ) (a : ℝ) : l.foldl (· + ·) a = a + l.sum := by
  induction l generalizing a with
  | nil => simp
  | cons x l ih => rw [List.foldl_cons, ih, List.sum_cons, add_assoc]

theorem foldl_add_map {γ : Type} (g : γ → ℝ) (l : List γ) (a : ℝ) :
    l.foldl (fun s e => s + g e) a = a + (l.map g).sum := by
  induction l generalizing a with
  | nil => simp
  | cons x l ih => rw [List.foldl_cons, ih, List.map_cons, List.sum_cons, add_assoc]

theorem sumFunc_real (func : ℝ → ℝ → ℝ) (ek : List ℝ) (mu T mo : ℝ) :
    sumFunc func ek mu T mo = (ek.map fun e => func ((mu - e) / ((kB : ℚ) * T)) mo).sum := by
  unfold sumFunc
  simp only [real_add, real_mul, real_sub, real_div, real_lit]
  rw [foldl_add_map]
  push_cast
  rw [zero_add]
  congr 1
  apply List.map_congr_left
  intro e _
  congr 2; ring

theorem kSum_real (g : ℝ → ℝ) (func : ℝ → ℝ → ℝ) (xAll : KMap Key (List ℝ))
    (wkAll : KMap Key ℝ) (T occ mu : ℝ) :
    kSum g func xAll wkAll T occ mu = (wkAll.map fun e => g e.2 *
      ((energiesAt xAll e.1).map fun e => func ((mu - e) / ((kB : ℚ) * T)) occ).sum).sum := by
  unfold kSum
  simp only [real_add, real_mul, sumFunc_real]
  rw [foldl_add_map]
  simp

/-- Exact global sum over a proper distribution: the order and the distribution are irrelevant. -/
theorem kSum_dist (g : ℝ → ℝ) (func : ℝ → ℝ → ℝ) (d : Dist ℝ) (hd : d.Proper) (T occ mu : ℝ) :
    kSum g func (KMap.ofRange d.energies.flatten) (KMap.ofRange d.weights.flatten) T occ mu =
      (d.flatten.map fun q => g q.weight *
        (q.energies.map fun e => func ((mu - e) / ((kB : ℚ) * T)) occ).sum).sum := by
  rw [kSum_real]
  have hp := KMap.ofRange_perm_self (Dist.weights_nodup hd)
  rw [(hp.map _).sum_eq, Dist.weights_flatten, List.map_map]
  congr 1
  apply List.map_congr_left
  intro q hq
  have : energiesAt (KMap.ofRange d.energies.flatten) q.key = q.energies := by
    unfold energiesAt
    rw [KMap.lookup_ofRange, KMap.lookup_of_mem_nodup (Dist.energies_nodup hd) (v := q.energies)]
    rw [Dist.energies_flatten]
    exact List.mem_map.mpr ⟨q, hq, rfl⟩
  simp only [Function.comp_apply, this]

theorem totalCharge_occupy (sf : SmearFns ℝ) (d : Dist ℝ) (mu kT occ : ℝ) :
    totalCharge d (d.energies.map (occupy sf mu kT occ)) =
      (d.flatten.map fun q => q.weight *
        (q.energies.map fun e => sf.fn ((mu - e) / kT) occ).sum).sum := by
  unfold totalCharge Dist.energies
  induction d with
  | nil => simp
  | cons r d ih =>
    simp only [List.map_cons, List.zipWith_cons_cons, List.sum_cons, List.flatten_cons,
      List.map_append, List.sum_append]
    rw [ih]
    congr 1
    induction r with
    | nil => simp [occupy]
    | cons q r ihr =>
      simp only [occupy, List.map_cons, List.zipWith_cons_cons, List.sum_cons] at ihr ⊢
      rw [ihr]; simp

end Nlcg
