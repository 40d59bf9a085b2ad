import Verif.Spec.Parallel
import Verif.Proofs.Memory
import Mathlib.Algebra.BigOperators.Group.List.Basic

namespace Nlcg
open Spec
variable {ι α : Type}

/-- Executed alone in memory `m`, the iteration makes `n` accesses, all to existing addresses in `F`, and its stores
are to addresses in `W`. -/
inductive Fits (F W : Set ℕ) : Iter α → Mem α → ℕ → Prop
  | done (m : Mem α) : Fits F W .done m 0
  | load {a : ℕ} {k : α → Iter α} {m : Mem α} {v : α} {n : ℕ} (ha : a ∈ F) (hv : m a = some v)
      (h : Fits F W (k v) m n) : Fits F W (.load a k) m (n + 1)
  | store {a : ℕ} {v u : α} {k : Iter α} {m : Mem α} {n : ℕ} (ha : a ∈ F) (hw : a ∈ W) (hu : m a = some u)
      (h : Fits F W k (fun x => if x = a then some v else m x) n) : Fits F W (.store a v k) m (n + 1)

theorem Fits.transport {F W : Set ℕ} {it : Iter α} {m m' : Mem α} {n : ℕ} (h : Fits F W it m n)
    (e : ∀ a ∈ F, m' a = m a) : Fits F W it m' n := by
  induction h generalizing m' with
  | done m => exact .done m'
  | load ha hv h ih => exact .load ha ((e _ ha).trans hv) (ih e)
  | store ha hw hu h ih =>
    refine .store ha hw ((e _ ha).trans hu) (ih fun x hx => ?_)
    simp only
    split
    · rfl
    · exact e x hx

theorem Fits.load_mem {F W : Set ℕ} {a : ℕ} {k : α → Iter α} {m : Mem α} {n : ℕ}
    (h : Fits F W (.load a k) m n) : a ∈ F ∧ ∃ v, m a = some v := by
  cases h with
  | load ha hv _ => exact ⟨ha, _, hv⟩

theorem Fits.store_mem {F W : Set ℕ} {a : ℕ} {v : α} {k : Iter α} {m : Mem α} {n : ℕ}
    (h : Fits F W (.store a v k) m n) : a ∈ W ∧ a ∈ F ∧ ∃ u, m a = some u := by
  cases h with
  | store ha hw hu _ => exact ⟨hw, ha, _, hu⟩

/-- executed alone, the iteration ends normally and changes only `W`; and another memory that is the same on `F`
changes in the same way -/
theorem Fits.run_ok {F W : Set ℕ} {it : Iter α} {m : Mem α} {n : ℕ} (h : Fits F W it m n) :
    ∃ m', it.run m = (.ok (), m') ∧ (∀ a, a ∉ W → m' a = m a) ∧
      (∀ b v, b ∉ F → it.run (fun x => if x = b then some v else m x) =
        (.ok (), fun x => if x = b then some v else m' x)) := by
  induction h with
  | done m => exact ⟨m, rfl, fun a _ => rfl, fun b v _ => rfl⟩
  | @load a k m v n ha hv h ih =>
    obtain ⟨m', e, hw, hb⟩ := ih
    refine ⟨m', ?_, hw, fun b u hbF => ?_⟩
    · rw [Iter.run, load_bind hv, e]
    · have hne : a ≠ b := fun h => hbF (h ▸ ha)
      rw [Iter.run, load_bind (v := v) (by simp [hne, hv]), hb b u hbF]
  | @store a v u k m n ha hw hu h ih =>
    obtain ⟨m', e, hW, hb⟩ := ih
    refine ⟨m', ?_, fun x hx => ?_, fun b y hbF => ?_⟩
    · rw [Iter.run, ok_bind (store_ok hu), e]
    · have : x ≠ a := by
        rintro rfl
        exact hx hw
      rw [hW x hx]
      simp [this]
    · have hne : a ≠ b := fun h => hbF (h ▸ ha)
      rw [Iter.run, ok_bind (store_ok (u := u) (by simp [hne, hu])), ← hb b y hbF]
      congr 1
      funext x
      by_cases h1 : x = a
      · subst h1; simp [hne]
      · simp [h1]

theorem Fits.seq {F W : Set ℕ} {p q : Iter α} {m : Mem α} {n : ℕ} (h : Fits F W p m n) :
    ∀ {m' : Mem α} {n' : ℕ}, p.run m = (.ok (), m') → Fits F W q m' n' → Fits F W (p.seq q) m (n' + n) := by
  induction h with
  | done m =>
    intro m' n' e hq
    obtain rfl : m = m' := (Prod.mk.inj e).2
    simpa [Iter.seq] using hq
  | @load a k m v n ha hv h ih =>
    intro m' n' e hq
    rw [Iter.run, load_bind hv] at e
    exact .load ha hv (ih e hq)
  | @store a v u k m n ha hw hu h ih =>
    intro m' n' e hq
    rw [Iter.run, ok_bind (store_ok hu)] at e
    exact .store ha hw hu (ih e hq)

theorem Iter.run_seq (p q : Iter α) : (p.seq q).run = (do p.run; q.run) := by
  induction p with
  | done => rfl
  | load a k ih =>
    funext m
    simp only [Iter.seq, Iter.run, SM.bind_apply, ih]
    rcases Nlcg.load a m with ⟨r, m'⟩
    cases r <;> rfl
  | store a v k ih =>
    funext m
    simp only [Iter.seq, Iter.run, SM.bind_apply, ih]
    rcases Nlcg.store a v m with ⟨r, m'⟩
    cases r <;> rfl

theorem Iter.run_loop {κ : Type} (f : κ → Iter α) :
    ∀ l : List κ, (Iter.loop l f).run = forEach l fun x => (f x).run
  | [] => rfl
  | x :: l => by rw [Iter.loop, Iter.run_seq, Iter.run_loop f l, forEach]

/-- memory does not disappear -/
theorem Iter.run_exists {it : Iter α} : ∀ {m m' : Mem α}, it.run m = (.ok (), m') → ∀ {a : ℕ},
    (∃ v, m a = some v) → ∃ v, m' a = some v := by
  induction it with
  | done =>
    intro m m' e a h
    obtain rfl : m = m' := (Prod.mk.inj e).2
    exact h
  | load b k ih =>
    intro m m' e a h
    cases hb : m b with
    | none => simp [Iter.run, SM.bind_apply, Nlcg.load, hb] at e
    | some v =>
      rw [Iter.run, load_bind hb] at e
      exact ih v e h
  | store b v k ih =>
    intro m m' e a h
    cases hb : m b with
    | none => simp [Iter.run, SM.bind_apply, Nlcg.store, hb] at e
    | some u =>
      rw [Iter.run, ok_bind (store_ok hb)] at e
      refine ih e ?_
      by_cases hab : a = b
      · exact ⟨v, by simp [hab]⟩
      · simpa [hab] using h

/-- an inner loop stays within a footprint if each of its iterations does -/
theorem Fits.loop {F W : Set ℕ} {κ : Type} (f : κ → Iter α) (c : ℕ) :
    ∀ (l : List κ), (∀ x ∈ l, ∀ m : Mem α, (∀ a ∈ F, ∃ v, m a = some v) → Fits F W (f x) m c) →
      ∀ m : Mem α, (∀ a ∈ F, ∃ v, m a = some v) → Fits F W (Iter.loop l f) m (l.length * c)
  | [], _ => fun m _ => by simpa [Iter.loop] using Fits.done m
  | x :: l, h => fun m hm => by
    have hx := h x (by simp) m hm
    obtain ⟨m', e, -, -⟩ := hx.run_ok
    have := hx.seq e (Fits.loop f c l (fun y hy => h y (by simp [hy])) m'
      fun a ha => Iter.run_exists e (hm a ha))
    rw [List.length_cons, Nat.add_mul, Nat.one_mul]
    exact this

variable [DecidableEq ι]

/-- the remaining accesses of all iterations stay within their footprints -/
def FitAll (F W : ι → Set ℕ) (l : List ι) (c : ι → ℕ) (s : PState ι α) : Prop :=
  ∀ i ∈ l, Fits (F i) (W i) (s.todo i) s.mem (c i)

theorem FitAll.pstep {F W : ι → Set ℕ} {l : List ι} {c : ι → ℕ} {s s' : PState ι α}
    (hd : ∀ i ∈ l, ∀ j ∈ l, i ≠ j → Disjoint (W i) (F j)) (h : FitAll F W l c s) (st : PStep l s s') :
    ∃ i ∈ l, ∃ n, c i = n + 1 ∧ FitAll F W l (fun j => if j = i then n else c j) s' := by
  cases st with
  | @load i a k v hi ht hv =>
    have h1 := h i hi
    rw [ht] at h1
    generalize hc : c i = ci at h1
    cases h1 with
    | @load _ _ _ v' n ha hv' hk =>
      obtain rfl : v = v' := by rw [hv] at hv'; exact Option.some.inj hv'
      refine ⟨i, hi, n, hc, fun j hj => ?_⟩
      by_cases e : j = i
      · subst e; simpa using hk
      · simpa [e] using h j hj
  | @store i a v u k hi ht hu =>
    have h1 := h i hi
    rw [ht] at h1
    generalize hc : c i = ci at h1
    cases h1 with
    | @store _ _ u' _ _ n ha hw hu' hk =>
      refine ⟨i, hi, n, hc, fun j hj => ?_⟩
      by_cases e : j = i
      · subst e; simpa using hk
      · simp only [e, if_false]
        refine (h j hj).transport fun x hx => ?_
        have : x ≠ a := by
          rintro rfl
          exact Set.disjoint_left.1 (hd i hi j hj (Ne.symm e)) hw hx
        simp [this]

/-- the rest of the loop, one iteration after the other -/
def rest (l : List ι) (t : ι → Iter α) : MemM α Unit := forEach l fun i => (t i).run

theorem forEach_congr {κ : Type} {f g : κ → MemM α Unit} : ∀ {l : List κ}, (∀ x ∈ l, f x = g x) →
    forEach l f = forEach l g
  | [], _ => rfl
  | x :: l, h => by
    rw [forEach, forEach, h x (by simp), forEach_congr fun y hy => h y (by simp [hy])]

theorem FitAll.tail {F W : ι → Set ℕ} {c : ι → ℕ} {x : ι} {l : List ι} {t : ι → Iter α} {m m' : Mem α}
    (hn : (x :: l).Nodup) (hd : ∀ i ∈ x :: l, ∀ j ∈ x :: l, i ≠ j → Disjoint (W i) (F j))
    (h : FitAll F W (x :: l) c ⟨t, m⟩) (e : ∀ a, a ∉ W x → m' a = m a) : FitAll F W l c ⟨t, m'⟩ := by
  intro j hj
  have hx : x ≠ j := by rintro rfl; exact (List.nodup_cons.1 hn).1 hj
  exact (h j (by simp [hj])).transport fun a ha =>
    e a fun hw => Set.disjoint_left.1 (hd x (by simp) j (by simp [hj]) hx) hw ha

/-- executing the rest of the loop one iteration after the other gives the same before and after a load -/
theorem rest_load {F W : ι → Set ℕ} {c : ι → ℕ} {t : ι → Iter α} {i : ι} {a : ℕ} {k : α → Iter α} {v : α}
    (ht : t i = .load a k) : ∀ (l : List ι) (m : Mem α), l.Nodup →
      (∀ i ∈ l, ∀ j ∈ l, i ≠ j → Disjoint (W i) (F j)) → FitAll F W l c ⟨t, m⟩ → i ∈ l → m a = some v →
      rest l t m = rest l (fun j => if j = i then k v else t j) m
  | [], _, _, _, _, hi, _ => by simp at hi
  | x :: l, m, hn, hd, h, hi, hv => by
    obtain ⟨hxl, hnl⟩ := List.nodup_cons.1 hn
    obtain ⟨m', e, hw, -⟩ := (h x (by simp)).run_ok
    simp only at e
    by_cases hx : x = i
    · subst hx
      have e1 : rest l (fun j => if j = x then k v else t j) = rest l t :=
        forEach_congr fun j hj => by
          have : j ≠ x := by rintro rfl; exact hxl hj
          simp [this]
      have e2 : (k v).run m = (t x).run m := by rw [ht, Iter.run, load_bind hv]
      show forEach (x :: l) (fun i => (t i).run) m = forEach (x :: l) (fun i => (if i = x then k v else t i).run) m
      rw [forEach, forEach, ok_bind e, ok_bind (by rw [if_pos rfl, e2]; exact e)]
      exact (congrFun e1 m').symm
    · have hil : i ∈ l := by simpa [Ne.symm hx] using hi
      have hF : a ∈ F i := by
        have := h i (by simp [hil])
        simp only [ht] at this
        exact this.load_mem.1
      have hv' : m' a = some v := by
        exact (hw a fun hw' => Set.disjoint_left.1 (hd x (by simp) i hi hx) hw' hF).trans hv
      show forEach (x :: l) (fun i => (t i).run) m = forEach (x :: l) (fun j => (if j = i then k v else t j).run) m
      rw [forEach, forEach, ok_bind e, ok_bind (by rw [if_neg hx]; exact e)]
      exact rest_load ht l m' hnl (fun i hi j hj => hd i (by simp [hi]) j (by simp [hj])) (h.tail hn hd hw) hil hv'

/-- executing the rest of the loop one iteration after the other gives the same before and after a store -/
theorem rest_store {F W : ι → Set ℕ} {c : ι → ℕ} {t : ι → Iter α} {i : ι} {a : ℕ} {k : Iter α} {v u : α}
    (ht : t i = .store a v k) : ∀ (l : List ι) (m : Mem α), l.Nodup →
      (∀ i ∈ l, ∀ j ∈ l, i ≠ j → Disjoint (W i) (F j)) → FitAll F W l c ⟨t, m⟩ → i ∈ l → m a = some u →
      rest l t m = rest l (fun j => if j = i then k else t j) (fun x => if x = a then some v else m x)
  | [], _, _, _, _, hi, _ => by simp at hi
  | x :: l, m, hn, hd, h, hi, hv => by
    obtain ⟨hxl, hnl⟩ := List.nodup_cons.1 hn
    obtain ⟨m', e, hw, hb⟩ := (h x (by simp)).run_ok
    simp only at e
    have hW : a ∈ W i ∧ a ∈ F i := by
      have := h i hi
      simp only [ht] at this
      exact ⟨this.store_mem.1, this.store_mem.2.1⟩
    by_cases hx : x = i
    · subst hx
      have e1 : rest l (fun j => if j = x then k else t j) = rest l t :=
        forEach_congr fun j hj => by
          have : j ≠ x := by rintro rfl; exact hxl hj
          simp [this]
      have e2 : k.run (fun y => if y = a then some v else m y) = (t x).run m := by
        rw [ht, Iter.run, ok_bind (store_ok hv)]
      show forEach (x :: l) (fun i => (t i).run) m = forEach (x :: l) (fun i => (if i = x then k else t i).run) _
      rw [forEach, forEach, ok_bind e, ok_bind (by rw [if_pos rfl, e2]; exact e)]
      exact (congrFun e1 m').symm
    · have hil : i ∈ l := by simpa [Ne.symm hx] using hi
      have hax : a ∉ F x := fun ha => Set.disjoint_left.1 (hd i hi x (by simp) (Ne.symm hx)) hW.1 ha
      have hv' : m' a = some u := by
        exact (hw a fun hw' => Set.disjoint_left.1 (hd x (by simp) i hi hx) hw' hW.2).trans hv
      show forEach (x :: l) (fun i => (t i).run) m = forEach (x :: l) (fun j => (if j = i then k else t j).run) _
      rw [forEach, forEach, ok_bind e, ok_bind (by rw [if_neg hx]; exact hb a v hax)]
      exact rest_store ht l m' hnl (fun i hi j hj => hd i (by simp [hi]) j (by simp [hj])) (h.tail hn hd hw) hil hv'

theorem rest_pstep {F W : ι → Set ℕ} {c : ι → ℕ} {l : List ι} (hn : l.Nodup)
    (hd : ∀ i ∈ l, ∀ j ∈ l, i ≠ j → Disjoint (W i) (F j)) {s s' : PState ι α} (h : FitAll F W l c s)
    (st : PStep l s s') : rest l s.todo s.mem = rest l s'.todo s'.mem := by
  cases st with
  | load hi ht hv => exact rest_load ht l s.mem hn hd h hi hv
  | store hi ht hu => exact rest_store ht l s.mem hn hd h hi hu

theorem rest_ok {F W : ι → Set ℕ} {c : ι → ℕ} {t : ι → Iter α} : ∀ (l : List ι) (m : Mem α), l.Nodup →
      (∀ i ∈ l, ∀ j ∈ l, i ≠ j → Disjoint (W i) (F j)) → FitAll F W l c ⟨t, m⟩ →
      ∃ m', rest l t m = (.ok (), m') ∧ ∀ a, (∀ i ∈ l, a ∉ W i) → m' a = m a
  | [], m, _, _, _ => ⟨m, rfl, fun _ _ => rfl⟩
  | x :: l, m, hn, hd, h => by
    obtain ⟨m', e, hw, -⟩ := (h x (by simp)).run_ok
    simp only at e
    obtain ⟨m'', e', hw'⟩ := rest_ok l m' (List.nodup_cons.1 hn).2
      (fun i hi j hj => hd i (by simp [hi]) j (by simp [hj])) (h.tail hn hd hw)
    refine ⟨m'', ?_, fun a ha => ?_⟩
    · show forEach (x :: l) (fun i => (t i).run) m = _
      rw [forEach, ok_bind e]
      exact e'
    · rw [hw' a fun i hi => ha i (by simp [hi]), hw a (ha x (by simp))]

theorem rest_finished {s : PState ι α} : ∀ {l : List ι}, Finished l s → rest l s.todo s.mem = (.ok (), s.mem)
  | [], _ => rfl
  | x :: l, h => by
    show forEach (x :: l) (fun i => (s.todo i).run) s.mem = _
    rw [forEach, h x (by simp)]
    exact rest_finished (l := l) fun i hi => h i (by simp [hi])

theorem PStep.mono {l l' : List ι} (hl : ∀ i, i ∈ l → i ∈ l') {s s' : PState ι α} (h : PStep l s s') :
    PStep l' s s' := by
  cases h with
  | load hi ht hv => exact .load (hl _ hi) ht hv
  | store hi ht hu => exact .store (hl _ hi) ht hu

theorem sum_update {l : List ι} {c : ι → ℕ} {i : ι} {k : ℕ} (hn : l.Nodup) (hi : i ∈ l) (hk : c i = k + 1) :
    (l.map fun j => if j = i then k else c j).sum + 1 = (l.map c).sum := by
  induction l with
  | nil => simp at hi
  | cons x l ihl =>
    obtain ⟨hx, hnl⟩ := List.nodup_cons.1 hn
    by_cases e : x = i
    · subst e
      have : (l.map fun j => if j = x then k else c j) = l.map c :=
        List.map_congr_left fun j hj => by
          have : j ≠ x := by rintro rfl; exact hx hj
          simp [this]
      simp only [List.map_cons, if_true, List.sum_cons, this, hk]; omega
    · have hil : i ∈ l := by simpa [Ne.symm e] using hi
      have := ihl hnl hil
      simp only [List.map_cons, e, if_false, List.sum_cons]; omega

/-- all about a state reached after `n` accesses -/
theorem psteps_inv {F W : ι → Set ℕ} {c : ι → ℕ} {l : List ι} (hn : l.Nodup)
    (hd : ∀ i ∈ l, ∀ j ∈ l, i ≠ j → Disjoint (W i) (F j)) {body : ι → Iter α} {m : Mem α}
    (h : FitAll F W l c ⟨body, m⟩) {n : ℕ} {s : PState ι α} (st : PSteps l n ⟨body, m⟩ s) :
    ∃ c', FitAll F W l c' s ∧ (l.map c').sum + n = (l.map c).sum ∧ rest l body m = rest l s.todo s.mem := by
  generalize hs : (⟨body, m⟩ : PState ι α) = s₀ at st
  induction st with
  | refl s => subst hs; exact ⟨c, h, rfl, rfl⟩
  | @step n s t u st1 st2 ih =>
    obtain ⟨c', hf, hsum, hrest⟩ := ih hs
    obtain ⟨i, hi, k, hk, hf'⟩ := hf.pstep hd st2
    refine ⟨_, hf', ?_, hrest.trans (rest_pstep hn hd hf st2)⟩
    have := sum_update hn hi hk
    omega

/-- iterations with separate footprints may be executed in parallel; every order gives the same -/
theorem safe_of_fits {F W : ι → Set ℕ} {c : ι → ℕ} {l : List ι} (hn : l.Nodup)
    (hd : ∀ i ∈ l, ∀ j ∈ l, i ≠ j → Disjoint (W i) (F j)) {body : ι → Iter α} {m : Mem α}
    (h : FitAll F W l c ⟨body, m⟩) :
    ∃ m', SafeLoop l body m m' ∧ (∀ l', l'.Perm l → forEach l' (fun i => (body i).run) m = (.ok (), m')) ∧
      ∀ a, (∀ i ∈ l, a ∉ W i) → m' a = m a := by
  obtain ⟨m', e, hw⟩ := rest_ok l m hn hd h
  have prog : ∀ {l' : List ι} {c' : ι → ℕ} {s : PState ι α}, FitAll F W l' c' s →
      Finished l' s ∨ ∃ s', PStep l' s s' := by
    intro l' c' s hf
    by_cases hfin : Finished l' s
    · exact .inl hfin
    · right
      simp only [Finished, not_forall] at hfin
      obtain ⟨i, hi, hne⟩ := hfin
      have := hf i hi
      cases ht : s.todo i with
      | done => exact absurd ht hne
      | load a k =>
        rw [ht] at this
        obtain ⟨-, v, hv⟩ := this.load_mem
        exact ⟨_, .load hi ht hv⟩
      | store a v k =>
        rw [ht] at this
        obtain ⟨-, -, u, hu⟩ := this.store_mem
        exact ⟨_, .store hi ht hu⟩
  refine ⟨m', ⟨?_, ?_, ⟨(l.map c).sum, ?_⟩, ?_, ?_⟩, fun l' hl' => ?_, hw⟩
  · rintro n s st ⟨i, hi, j, hj, hij, a, ⟨v, k, hwi⟩, hj'⟩
    obtain ⟨c', hf, -, -⟩ := psteps_inv hn hd h st
    have h1 := hf i hi
    have h2 := hf j hj
    rw [hwi] at h1
    refine Set.disjoint_left.1 (hd i hi j hj hij) h1.store_mem.1 ?_
    rcases hj' with ⟨k', e⟩ | ⟨v', k', e⟩
    · rw [e] at h2; exact h2.load_mem.1
    · rw [e] at h2; exact h2.store_mem.2.1
  · rintro n s st ⟨i, hi, a, hacc, hnone⟩
    obtain ⟨c', hf, -, -⟩ := psteps_inv hn hd h st
    have h1 := hf i hi
    rcases hacc with ⟨k', e⟩ | ⟨v', k', e⟩
    · rw [e] at h1
      obtain ⟨-, v, hv⟩ := h1.load_mem
      rw [hnone] at hv; cases hv
    · rw [e] at h1
      obtain ⟨-, -, v, hv⟩ := h1.store_mem
      rw [hnone] at hv; cases hv
  · intro n s st
    obtain ⟨c', -, hs, -⟩ := psteps_inv hn hd h st
    omega
  · intro n s st
    obtain ⟨c', hf, -, -⟩ := psteps_inv hn hd h st
    exact prog hf
  · intro n s st hfin
    obtain ⟨c', -, -, hr⟩ := psteps_inv hn hd h st
    rw [e, rest_finished hfin] at hr
    exact (Prod.mk.inj hr).2.symm
  · -- another order: both orders agree with some complete interleaving
    have hmem : ∀ i, i ∈ l' ↔ i ∈ l := fun i => hl'.mem_iff
    have hn' : l'.Nodup := hl'.nodup_iff.2 hn
    have hd' : ∀ i ∈ l', ∀ j ∈ l', i ≠ j → Disjoint (W i) (F j) :=
      fun i hi j hj => hd i ((hmem i).1 hi) j ((hmem j).1 hj)
    have h' : FitAll F W l' c ⟨body, m⟩ := fun i hi => h i ((hmem i).1 hi)
    have key : ∀ (N n : ℕ) (s : PState ι α), PSteps l n ⟨body, m⟩ s → PSteps l' n ⟨body, m⟩ s →
        (l.map c).sum ≤ n + N → ∃ n' s', PSteps l n' ⟨body, m⟩ s' ∧ PSteps l' n' ⟨body, m⟩ s' ∧ Finished l s' := by
      intro N
      induction N with
      | zero =>
        intro n s st st' hN
        obtain ⟨c', hf, hs, -⟩ := psteps_inv hn hd h st
        rcases prog hf with hfin | ⟨s', hst⟩
        · exact ⟨n, s, st, st', hfin⟩
        · obtain ⟨c'', -, hs', -⟩ := psteps_inv hn hd h (st.step hst)
          omega
      | succ N ih =>
        intro n s st st' hN
        obtain ⟨c', hf, hs, -⟩ := psteps_inv hn hd h st
        rcases prog hf with hfin | ⟨s', hst⟩
        · exact ⟨n, s, st, st', hfin⟩
        · exact ih (n + 1) s' (st.step hst) (st'.step (hst.mono fun i hi => (hmem i).2 hi)) (by omega)
    obtain ⟨n, s, st, st', hfin⟩ := key (l.map c).sum 0 _ (.refl _) (.refl _) (by omega)
    obtain ⟨_, -, -, hr⟩ := psteps_inv hn hd h st
    obtain ⟨_, -, -, hr'⟩ := psteps_inv hn' hd' h' st'
    have hfin' : Finished l' s := fun i hi => hfin i ((hmem i).1 hi)
    rw [rest_finished hfin] at hr
    rw [rest_finished hfin'] at hr'
    exact hr'.trans (hr.symm.trans e)

/-- iterations that store to one address each, which no other iteration accesses -/
theorem safe_writes {l : List ι} (hn : l.Nodup) {body : ι → Iter α} {m : Mem α} (w : ι → ℕ) (F : ι → Set ℕ)
    (hF : ∀ i ∈ l, ∀ j ∈ l, w i ∈ F j → i = j) (h : ∀ i ∈ l, ∃ n, Fits (F i) {w i} (body i) m n) :
    ∃ m', SafeLoop l body m m' ∧ (∀ l', l'.Perm l → forEach l' (fun i => (body i).run) m = (.ok (), m')) ∧
      ∀ a, (∀ i ∈ l, a ≠ w i) → m' a = m a := by
  classical
  refine safe_of_fits (F := F) (W := fun i => {w i}) (c := fun i => if hi : i ∈ l then (h i hi).choose else 0) hn ?_ ?_
  · intro i hi j hj hij
    rw [Set.disjoint_singleton_left]
    exact fun hw => hij (hF i hi j hj hw)
  · intro i hi
    simp only [hi, dif_pos]
    exact (h i hi).choose_spec

theorem forEach_append {κ : Type} (f : κ → MemM α Unit) (l' : List κ) : ∀ l : List κ,
    forEach (l ++ l') f = (do forEach l f; forEach l' f)
  | [] => rfl
  | x :: l => by
    rw [List.cons_append, forEach, forEach_append f l' l, forEach]
    funext m
    simp only [SM.bind_apply]
    rcases f x m with ⟨r, m'⟩
    cases r <;> rfl

theorem forEach_map {κ κ' : Type} (g : κ' → κ) (f : κ → MemM α Unit) : ∀ l : List κ',
    forEach (l.map g) f = forEach l fun x => f (g x)
  | [] => rfl
  | x :: l => by rw [List.map_cons, forEach, forEach_map g f l, forEach]

theorem forEach_flatMap {κ κ' : Type} (g : κ' → List κ) (f : κ → MemM α Unit) : ∀ l : List κ',
    forEach (l.flatMap g) f = forEach l fun x => forEach (g x) f
  | [] => rfl
  | x :: l => by rw [List.flatMap_cons, forEach_append, forEach_flatMap g f l, forEach]

theorem run_store_done (a : ℕ) (v : α) : (Iter.store a v .done).run = store a v := by
  funext m
  rw [Iter.run, SM.bind_apply]
  unfold store
  cases m a <;> rfl

theorem run_load (a : ℕ) (k : α → Iter α) : (Iter.load a k).run = (do let v ← load a; (k v).run) := rfl

theorem run_done : (Iter.done : Iter α).run = pure () := rfl

end Nlcg
