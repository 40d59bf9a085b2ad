import Verif.Spec.MemSolver
import Verif.Proofs.MemAlgo
import Verif.Proofs.Simulation

/-! A run in memory corresponds to the run with matrices as values. -/

namespace Nlcg
open Spec Matrix

variable {E : HostEnv} {la : Lapack} {m : Mem ℂ}

/-! ## Programs on memory for all k-points -/

theorem mapAll_pure : ∀ {K : ℕ} {β : Fin K → Type} {f : (k : Fin K) → MemM ℂ (β k)} {x : (k : Fin K) → β k}
    {m : Mem ℂ}, (∀ k, f k m = (.ok (x k), m)) → mapAll f m = (.ok x, m)
  | 0, _, _, x, m, _ => by
    rw [mapAll, SM.pure_apply]
    exact congrArg (fun y => (Res.ok y, m)) (funext fun k => k.elim0)
  | K + 1, β, f, x, m, h => by
    rw [mapAll, ok_bind (h 0), ok_bind (mapAll_pure fun k => h k.succ), SM.pure_apply]
    exact congrArg (fun y => (Res.ok y, m)) (Fin.cons_self_tail x)

theorem mapAll_ok : ∀ {K : ℕ} {β : Fin K → Type} {f : (k : Fin K) → MemM ℂ (β k)}
    {Q : Mem ℂ → (k : Fin K) → β k → Prop} {m : Mem ℂ}, Spec.Finite m →
    (∀ k m1, Ext ∅ m m1 → ∃ x m', f k m1 = (.ok x, m') ∧ Ext ∅ m1 m' ∧ Q m' k x) →
    (∀ m1 m2 k x, Ext ∅ m1 m2 → Q m1 k x → Q m2 k x) →
    ∃ x m', mapAll f m = (.ok x, m') ∧ Ext ∅ m m' ∧ ∀ k, Q m' k (x k)
  | 0, _, _, _, m, hm, _, _ => ⟨_, m, by rw [mapAll, SM.pure_apply], Ext.refl hm _, fun k => k.elim0⟩
  | K + 1, β, f, Q, m, hm, hf, hQ => by
    obtain ⟨a, m1, e1, x1, q1⟩ := hf 0 m (Ext.refl hm _)
    obtain ⟨r, m2, e2, x2, q2⟩ := mapAll_ok (f := fun k : Fin K => f k.succ)
      (Q := fun m k x => Q m k.succ x) x1.fin (fun k m' x' => hf k.succ m' (x1.trans x'))
      (fun m1 m2 k x => hQ m1 m2 k.succ x)
    refine ⟨Fin.cons a r, m2, ?_, x1.trans x2, fun k => ?_⟩
    · rw [mapAll, ok_bind e1, ok_bind e2, SM.pure_apply]
    · refine Fin.cases ?_ (fun k => ?_) k
      · exact hQ m1 m2 0 a x2 q1
      · exact q2 k

/-- a task per k-point, each with a new object as result -/
theorem mapAll_new {K : ℕ} {β : Type} {f : Fin K → MemM ℂ β} {own : Fin K → β → Set ℕ} {H : Mem ℂ → Fin K → β → Prop}
    (hm : Spec.Finite m) (hfin : ∀ k x, (own k x).Finite)
    (hf : ∀ k m1, Ext ∅ m m1 → ∃ x m', f k m1 = (.ok x, m') ∧ H m' k x ∧ (∀ a ∈ own k x, m1 a = none) ∧
      SameOutside (own k x) m1 m')
    (hH : ∀ m1 m2 k x, Ext ∅ m1 m2 → H m1 k x → H m2 k x) :
    ∃ x m', mapAll f m = (.ok x, m') ∧ Ext ∅ m m' ∧ ∀ k, H m' k (x k) ∧ ∀ a ∈ own k (x k), m a = none := by
  refine mapAll_ok (Q := fun m' k x => H m' k x ∧ ∀ a ∈ own k x, m a = none) hm (fun k m1 x1 => ?_)
    (fun m1 m2 k x e h => ⟨hH m1 m2 k x e h.1, h.2⟩)
  obtain ⟨x, m', e, h, f, s⟩ := hf k m1 x1
  exact ⟨x, m', e, Ext.new x1.fin f s (hfin k x), h, x1.free' f⟩

theorem readVec_ok {n w : ℕ} {x : Fin n → ℝ} (h : HoldsReal m w x) : readVec w n m = (.ok x, m) := by
  refine mapAll_pure fun i => ?_
  rw [load_bind (h i), SM.pure_apply, Complex.ofReal_re]

theorem readBands_ok {K : ℕ} {b : Fin K → ℕ} {w : Fin K → ℕ} {x : Bands b} (h : ∀ k, HoldsReal m (w k) (x k)) :
    readBands b w m = (.ok x, m) := mapAll_pure fun k => readVec_ok (h k)

theorem newVec_ok (hE : EnvOk E la) (hm : Spec.Finite m) {n : ℕ} (x : Fin n → ℝ) :
    ∃ w m', newVec E x m = (.ok w, m') ∧ HoldsReal m' w x ∧ (∀ a ∈ vecCells w n, m a = none) ∧
      SameOutside (vecCells w n) m m' := by
  obtain ⟨w, m1, e1, h1, f1, s1⟩ := vec_ok hE hm n
  obtain ⟨m2, e2, h2, s2⟩ := forEach_writes (fun i : Fin n => w + i) (fun i => (x i : ℂ))
    (fun i => store (w + i) (x i : ℂ)) m1 (List.finRange n) m1 (List.nodup_finRange n)
    (fun i _ j _ h => Fin.ext (by simpa using h))
    (fun i _ m' hm' => by
      refine store_ok (u := 0) ?_
      rw [hm' _ fun j _ hne e => hne (Fin.ext (by simpa using e.symm))]
      exact h1 i)
    (fun _ => rfl)
  refine ⟨w, m2, by rw [newVec, ok_bind e1, ok_bind e2, SM.pure_apply], fun i => h2 i (List.mem_finRange i), f1, ?_⟩
  intro a ha
  rw [s2 a fun i _ e => ha ⟨by omega, by have := i.2; omega⟩, s1 a ha]

variable {K : ℕ} {n b : Fin K → ℕ}

theorem newBands_ok (hE : EnvOk E la) (hm : Spec.Finite m) (x : Bands b) :
    ∃ w m', mapAll (fun k => newVec E (x k)) m = (.ok w, m') ∧ Ext ∅ m m' ∧
      ∀ k, HoldsReal m' (w k) (x k) ∧ ∀ a ∈ vecCells (w k) (b k), m a = none :=
  mapAll_new (own := fun k w => vecCells w (b k)) (H := fun m k w => HoldsReal m w (x k)) hm
    (fun _ _ => vecCells_finite _ _) (fun k _ x1 => newVec_ok hE x1.fin (x k)) (fun _ _ _ _ e h => h.ext0 e)

theorem fetchBands_ok (hE : EnvOk E la) (hm : Spec.Finite m) {src : Fin K → ℕ} {x : Bands b}
    (h : ∀ k, HoldsReal m (src k) (x k)) :
    ∃ w m', fetchBands E b src m = (.ok w, m') ∧ Ext ∅ m m' ∧
      ∀ k, HoldsReal m' (w k) (x k) ∧ ∀ a ∈ vecCells (w k) (b k), m a = none := by
  refine mapAll_new (own := fun k w => vecCells w (b k)) (H := fun m k w => HoldsReal m w (x k)) hm
    (fun _ _ => vecCells_finite _ _) (fun k m1 x1 => ?_) (fun _ _ _ _ e h => h.ext0 e)
  obtain ⟨w, m2, e2, h2, f2, s2⟩ := vec_ok hE x1.fin (b k)
  have hs := (h k).ext0 x1
  obtain ⟨m3, e3, h3, s3⟩ := copyVec_ok (dst := w) (hs.ext0 (Ext.new x1.fin f2 s2 (vecCells_finite _ _)))
    (HoldsReal.some (x := fun _ => 0) (by simpa [HoldsReal] using h2)) (disjoint_new hs.some f2).symm
  refine ⟨w, m3, by rw [ok_bind e2, ok_bind e3, SM.pure_apply], h3, f2, ?_⟩
  simpa using s2.trans s3

theorem copyAll_ok (hE : EnvOk E la) (hm : Spec.Finite m) {x : Fin K → MView} {X : Orbitals n b}
    (hn : ∀ k, 0 < n k) (cx : ∀ k, ColMajor (x k)) (hx : ∀ k, Holds m (x k) (X k)) :
    ∃ v m', copyAll E x m = (.ok v, m') ∧ Ext ∅ m m' ∧
      ∀ k, (ColMajor (v k) ∧ Holds m' (v k) (X k)) ∧ ∀ a ∈ cells (v k), m a = none :=
  mapAll_new (own := fun _ v => cells v) (H := fun m k v => ColMajor v ∧ Holds m v (X k)) hm
    (fun _ _ => cells_finite _)
    (fun k _ x1 => copyNew_ok hE x1.fin (hn k) (cx k) (hx k).1 (hx k).2.1 ((hx k).ext0 x1))
    (fun _ _ _ _ e h => ⟨h.1, h.2.ext0 e⟩)

theorem makeDiagK_view {sch : Sched} {x n base : ℕ} {m m' : Mem ℂ} {v : MView}
    (h : makeDiagK sch x n base m = (.ok v, m')) : v = ⟨base, n, n, 1, n, true⟩ := by
  rw [makeDiagK, ok_bind (allocate_eq _ _ _ _), SM.bind_apply] at h
  split at h
  · rw [SM.pure_apply] at h
    simp only [Prod.mk.injEq, Res.ok.injEq] at h
    exact h.1.symm
  all_goals simp at h

theorem makeDiagAll_ok (hE : EnvOk E la) (hm : Spec.Finite m) {w : Fin K → ℕ} {x : Bands b}
    (hb : ∀ k, 0 < b k) (h : ∀ k, HoldsReal m (w k) (x k)) :
    ∃ v m', makeDiagAll E b w m = (.ok v, m') ∧ Ext ∅ m m' ∧
      ∀ k, (ColMajor (v k) ∧ Holds m' (v k) (makeDiag (x k))) ∧ ∀ a ∈ cells (v k), m a = none := by
  refine mapAll_new (own := fun _ v => cells v) (H := fun m k v => ColMajor v ∧ Holds m v (makeDiag (x k))) hm
    (fun _ _ => cells_finite _) (fun k m1 x1 => ?_) (fun _ _ _ _ e h => ⟨h.1, h.2.ext0 e⟩)
  have hfree := hE.heap m1 (b k * b k) x1.fin
  obtain ⟨v, m2, e2, h2, c2, s2⟩ := C47_make_diag E.sch ((h k).ext0 x1) hfree
  have hv := makeDiagK_view e2
  have hc : cells v = {a | E.heap.place m1 (b k * b k) ≤ a ∧ a < E.heap.place m1 (b k * b k) + b k * b k} := by
    refine Set.Subset.antisymm c2 fun a ha => ?_
    rw [hv]
    exact mem_cells_contiguous ha.1 ha.2
  refine ⟨v, m2, by rw [SM.get_bind, e2], ⟨hv ▸ contiguous_colMajor (hb k), ?_⟩, ?_, hc ▸ s2⟩
  · have : makeDiag (x k) = Matrix.diagonal fun i => (x k i : ℂ) := by
      ext i j
      simp [makeDiag, Matrix.diagonal_apply]
    rw [this]
    exact h2
  · intro a ha
    rw [hc] at ha
    exact hfree a ha.1 ha.2

theorem emptyAll_ok (hE : EnvOk E la) (hm : Spec.Finite m) (x : Fin K → MView) :
    ∃ v m', mapAll (fun k => E.empty (x k).rows (x k).cols (x k).isLocal) m = (.ok v, m') ∧ Ext ∅ m m' := by
  obtain ⟨v, m', e, h, _⟩ := mapAll_new (f := fun k => E.empty (x k).rows (x k).cols (x k).isLocal) (m := m)
    (own := fun _ v => cells v) (H := fun _ _ _ => True) hm (fun _ _ => cells_finite _)
    (fun k m1 x1 => by
      obtain ⟨b, m', e, _, f, s⟩ := empty_ok hE x1.fin (x k).rows (x k).cols (x k).isLocal
      exact ⟨_, m', e, trivial, f, s⟩) (fun _ _ _ _ _ h => h)
  exact ⟨v, m', e, h⟩

/-- a table of results has an entry for each k-point -/
theorem atAll_ok {β : Type} {xs : List (Fin K × β)} (h : (xs.map Prod.fst).Perm (List.finRange K)) :
    ∃ f, atAll xs = .ok f ∧ ∀ k, (k, f k) ∈ xs := by
  have hk : ∀ k, ∃ y, (xs.find? fun kx => kx.1 = k) = some (k, y) := by
    intro k
    have : k ∈ xs.map Prod.fst := h.mem_iff.2 (List.mem_finRange k)
    obtain ⟨kx, hkx, e⟩ := List.mem_map.1 this
    cases hf : xs.find? fun kx => kx.1 = k with
    | none => simpa [e] using List.find?_eq_none.1 hf kx hkx
    | some y =>
      have := List.find?_some hf
      simp only [decide_eq_true_eq] at this
      subst this
      exact ⟨y.2, rfl⟩
  choose f hf using hk
  obtain ⟨g, hg⟩ := forAllK_of_ok (fun k : Fin K => match xs.find? fun kx => kx.1 = k with
    | some kx => Res.ok kx.2
    | none => .ub) fun k => ⟨f k, by simp only [hf k]⟩
  refine ⟨g, hg, fun k => ?_⟩
  have := forAllK_ok hg k
  simp only [hf k, Res.ok.injEq] at this
  rw [← this]
  exact List.mem_of_find?_eq_some (hf k)

theorem occMem_ok {c : MCfg b} (hE : EnvOk c.E la) (hm : Spec.Finite m) {w : Fin K → ℕ} {e : Bands b}
    (h : ∀ k, HoldsReal m (w k) (e k)) {mu : ℝ} {f : Bands b} (ho : c.occ e = .ok (mu, f)) :
    ∃ v m', occMem c w m = (.ok (mu, v), m') ∧ Ext ∅ m m' ∧
      ∀ k, HoldsReal m' (v k) (f k) ∧ ∀ a ∈ vecCells (v k) (b k), m a = none := by
  obtain ⟨v, m', e1, x1, h1⟩ := newBands_ok hE hm f
  refine ⟨v, m', ?_, x1, h1⟩
  rw [occMem, ok_bind (readBands_ok h), SM.lift_bind, ho]
  simp only
  rw [ok_bind e1, SM.pure_apply]

theorem occMem_fail {c : MCfg b} {w : Fin K → ℕ} {e : Bands b} (h : ∀ k, HoldsReal m (w k) (e k))
    {r : Res (ℝ × Bands b)} (ho : c.occ e = r) (hr : ∀ x, r ≠ .ok x) :
    (occMem c w m).2 = m ∧ RelRes (fun _ _ => False) (occMem c w m).1 r := by
  rw [occMem, ok_bind (readBands_ok h), SM.lift_bind, ho]
  cases r with
  | ok x => exact absurd rfl (hr x)
  | throw x => exact ⟨rfl, .throw x⟩
  | ub => exact ⟨rfl, .ub⟩
  | abort => exact ⟨rfl, .abort⟩

theorem writeC_one (hE : EnvOk E la) (hm : Spec.Finite m) {r c : ℕ} (hr : 0 < r) {C x : MView} {A0 X : Mat r c}
    (cC : ColMajor C) (hC : Holds m C A0) (cx : ColMajor x) (hx : Holds m x X) :
    ∃ m', withScope (fun _ : Unit => ∅) (do
        let xh ← copyNew E x x
        deepCopyK E.sch C xh) m = (.ok (), m') ∧ Holds m' C X ∧ SameOutside (cells C) m m' := by
  obtain ⟨v, m1, e1, ⟨cv, hv⟩, f1, s1⟩ := copyNew_ok hE hm hr cx hx.1 hx.2.1 hx
  have x1 := Ext.new hm f1 s1 (cells_finite _)
  have d1 : Disjoint (cells C) (cells v) := disjoint_new hC.accessible f1
  obtain ⟨⟨⟩, m2, e2, h2, s2⟩ := deepCopy_computes E.sch cC.inj (.inl d1.symm) hv hC.1 hC.2.1
    (hC.accessible.ext0 x1)
  have x2 : Ext (cells C) m m2 :=
    ⟨x1.fin.step s2 (cells_finite _), fun a y ha hy => by rw [s2 a ha]; exact x1.keep a y (by simp) hy⟩
  obtain ⟨m3, e3, k3, s3⟩ := withScope_ok (own := fun _ : Unit => ∅) (p := (do
        let xh ← copyNew E x x
        deepCopyK E.sch C xh)) (by rw [ok_bind e1, e2]) x2
  refine ⟨m3, e3, ⟨h2.1, h2.2.1, fun i j => ?_⟩, by simpa using s3⟩
  rw [k3 _ (.inr ?_)]
  · exact h2.2.2 i j
  · rw [hC.2.2 i j]
    simp

theorem writeC_ok (hE : EnvOk E la) (hm : Spec.Finite m) (hn : ∀ k, 0 < n k) {C x : Fin K → MView}
    {A0 X : Orbitals n b} (cC : ∀ k, ColMajor (C k)) (hC : ∀ k, Holds m (C k) (A0 k))
    (hCC : ∀ {k l}, k ≠ l → Disjoint (cells (C k)) (cells (C l))) (cx : ∀ k, ColMajor (x k))
    (hx : ∀ k, Holds m (x k) (X k)) (hxC : ∀ {k l}, k ≠ l → Disjoint (cells (x k)) (cells (C l))) :
    ∃ m', writeC E C x m = (.ok (), m') ∧ (∀ k, Holds m' (C k) (X k)) ∧
      SameOutside {a | ∃ k, a ∈ cells (C k)} m m' := by
  suffices H : ∀ (l : List (Fin K)) (m : Mem ℂ), l.Nodup → Spec.Finite m → (∀ k ∈ l, Holds m (C k) (A0 k)) →
      (∀ k ∈ l, Holds m (x k) (X k)) → ∃ m', forEach l (fun k => withScope (fun _ => ∅) do
        let xh ← copyNew E (x k) (x k)
        deepCopyK E.sch (C k) xh) m = (.ok (), m') ∧ (∀ k ∈ l, Holds m' (C k) (X k)) ∧
        SameOutside {a | ∃ k ∈ l, a ∈ cells (C k)} m m' by
    obtain ⟨m', e, h, s⟩ := H (List.finRange K) m (List.nodup_finRange K) hm (fun k _ => hC k) (fun k _ => hx k)
    exact ⟨m', e, fun k => h k (List.mem_finRange k), by simpa [List.mem_finRange] using s⟩
  intro l
  induction l with
  | nil => exact fun m _ _ _ _ => ⟨m, rfl, by simp, fun _ _ => rfl⟩
  | cons k l ih =>
    intro m hl hm hC hx
    obtain ⟨hkl, hl⟩ := List.nodup_cons.1 hl
    obtain ⟨m1, e1, h1, s1⟩ := writeC_one hE hm (hn k) (cC k) (hC k (by simp)) (cx k) (hx k (by simp))
    have hne : ∀ {k'}, k' ∈ l → k' ≠ k := fun h e => hkl (e ▸ h)
    obtain ⟨m2, e2, h2, s2⟩ := ih m1 hl (hm.step s1 (cells_finite _))
      (fun k' h => (hC k' (by simp [h])).frame s1 (hCC (hne h)))
      (fun k' h => (hx k' (by simp [h])).frame s1 (hxC (hne h)))
    refine ⟨m2, by rw [forEach, ok_bind e1, e2], fun k' hk' => ?_, ?_⟩
    · rcases List.mem_cons.1 hk' with rfl | h
      · refine h1.frame s2 ?_
        rw [Set.disjoint_left]
        rintro a ha ⟨k'', hk'', ha'⟩
        exact Set.disjoint_left.1 (hCC (hne hk'').symm) ha ha'
      · exact h2 k' h
    · refine (s1.trans s2).mono ?_
      rintro a (ha | ⟨k', hk', ha⟩)
      · exact ⟨k, by simp, ha⟩
      · exact ⟨k', by simp [hk'], ha⟩

variable {η ξ : Type} {mh : MHost η b} {host : Host ξ n b} {mc : MCfg b} {c : Cfg n b}

theorem globalsMem_ok (hE : EnvOk mc.E la) (hm : Spec.Finite m) {h : η} {pt : PtMem K} {hii e : Bands b}
    (h1 : ∀ k, HoldsReal m (mh.ek h k) (hii k)) (h2 : ∀ k, HoldsReal m (pt.ek k) (e k)) :
    globalsMem mh mc pt h m =
      (.ok (dFdmu (smearFns mc.t) hii e mc.wk pt.mu mc.T mc.mo, dmuDeta (smearFns mc.t) e mc.wk pt.mu mc.T mc.mo), m) := by
  obtain ⟨w, m1, e1, x1, hw⟩ := fetchBands_ok hE hm h1
  obtain ⟨m2, e2, _, s2⟩ := withScope_ok (own := fun _ : ℝ × ℝ => ∅) (p := do
    let he ← fetchBands mc.E b (mh.ek h)
    let hii ← readBands b he
    let e ← readBands b pt.ek
    pure (dFdmu (smearFns mc.t) hii e mc.wk pt.mu mc.T mc.mo, dmuDeta (smearFns mc.t) e mc.wk pt.mu mc.T mc.mo))
    (by rw [ok_bind e1, ok_bind (readBands_ok fun k => (hw k).1), ok_bind (readBands_ok fun k => (h2 k).ext0 x1),
      SM.pure_apply]) x1
  have : m2 = m := funext fun a => s2 a (by simp)
  rw [this] at e2
  exact e2

/-! ## Corresponding states -/

/-- States of the two runs correspond when the hosts do and the free energies agree. What is in use and
does not belong to the host remains so. -/
def memWorld (M : MirrorsHost mh host) : World (MState η) (SState ξ n b) where
  R s s' := Spec.Finite s.mem ∧ M.Rep s.h s.mem s'.h ∧ s.F = s'.F ∧ s.S = s'.S
  le s t := ∀ a x, a ∉ M.own s.h → s.mem a = some x → a ∉ M.own t.h ∧ t.mem a = some x
  refl _ := fun _ _ h h' => ⟨h, h'⟩
  trans h h' := fun a x h1 h2 => h' a x (h a x h1 h2).1 (h a x h1 h2).2

variable {M : MirrorsHost mh host}

theorem Spec.MatAt.mono {r c : ℕ} {s t : MState η} {v : MView} {A : Mat r c} (hl : (memWorld M).le s t)
    (h : MatAt (M.own s.h) s.mem v A) : MatAt (M.own t.h) t.mem v A := by
  obtain ⟨h1, h2, h3⟩ := h
  have key : ∀ a ∈ cells v, a ∉ M.own t.h ∧ t.mem a = s.mem a := by
    intro a ha
    obtain ⟨x, hx⟩ := h2.accessible a ha
    have := hl a x (Set.disjoint_left.1 h3 ha) hx
    exact ⟨this.1, this.2.trans hx.symm⟩
  refine ⟨h1, ⟨h2.1, h2.2.1, fun i j => ?_⟩, Set.disjoint_left.2 fun a ha => (key a ha).1⟩
  rw [(key _ (mem_cells (h2.1 ▸ i.2) (h2.2.1 ▸ j.2))).2]
  exact h2.2.2 i j

theorem Spec.VecAt.mono {r : ℕ} {s t : MState η} {w : ℕ} {x : Fin r → ℝ} (hl : (memWorld M).le s t)
    (h : VecAt (M.own s.h) s.mem w x) : VecAt (M.own t.h) t.mem w x := by
  obtain ⟨h2, h3⟩ := h
  have key : ∀ a ∈ vecCells w r, a ∉ M.own t.h ∧ t.mem a = s.mem a := by
    intro a ha
    obtain ⟨x, hx⟩ := h2.some a ha
    have := hl a x (Set.disjoint_left.1 h3 ha) hx
    exact ⟨this.1, this.2.trans hx.symm⟩
  refine ⟨fun i => ?_, Set.disjoint_left.2 fun a ha => (key a ha).1⟩
  rw [(key _ ⟨by omega, by omega⟩).2]
  exact h2 i

/-- growing memory disturbs neither the host nor what is in use -/
theorem world_ext {s : MState η} {s' : SState ξ n b} (hR : (memWorld M).R s s') {m' : Mem ℂ} (x : Ext ∅ s.mem m') :
    (memWorld M).R { s with mem := m' } s' ∧ (memWorld M).le s { s with mem := m' } := by
  refine ⟨⟨x.fin, M.rep_mem hR.2.1 fun a ha => ?_, hR.2.2⟩, fun a y h1 h2 => ⟨h1, x.keep a y (by simp) h2⟩⟩
  obtain ⟨v, hv⟩ := M.used hR.2.1 a ha
  rw [hv]
  exact x.keep a v (by simp) hv

/-- new memory does not belong to the host -/
theorem own_new {s : MState η} {s' : SState ξ n b} (hR : (memWorld M).R s s') {S : Set ℕ}
    (h : ∀ a ∈ S, s.mem a = none) : Disjoint S (M.own s.h) := (disjoint_new (M.used hR.2.1) h).symm

theorem runMem_bind {β γ : Type} {p : MemM ℂ β} {x : β} {s : MState η} {m' : Mem ℂ} (h : p s.mem = (.ok x, m'))
    (f : β → SM (MState η) γ) : (runMem p >>= f) s = f x { s with mem := m' } := by
  rw [SM.bind_apply, runMem, h]

theorem Out.bind {τ τ' β γ β' γ' : Type} {W : World τ τ'} {Q : τ → β → γ → Prop} {Q' : τ → β' → γ' → Prop}
    {s : τ} {s' : τ'} {p : SM τ β} {p' : SM τ' γ} {f : β → SM τ β'} {f' : γ → SM τ' γ'}
    (h : Out W Q s (p s) (p' s'))
    (hf : ∀ t t' a b, W.R t t' → W.le s t → Q t a b → Out W Q' t (f a t) (f' b t')) :
    Out W Q' s ((p >>= f) s) ((p' >>= f') s') := by
  rw [SM.bind_apply, SM.bind_apply]
  obtain ⟨h1, h2, h3⟩ := h
  generalize p s = x at *
  generalize p' s' = y at *
  obtain ⟨r, t⟩ := x
  obtain ⟨r', t'⟩ := y
  simp only at h1 h2 h3
  cases h3 with
  | ok hq =>
    have g := hf t t' _ _ h1 h2 hq
    exact ⟨g.1, W.trans h2 g.2.1, g.2.2⟩
  | throw e => exact ⟨h1, h2, .throw e⟩
  | ub => exact ⟨h1, h2, .ub⟩
  | abort => exact ⟨h1, h2, .abort⟩

theorem Out.from {τ τ' β γ : Type} {W : World τ τ'} {Q : τ → β → γ → Prop} {s t : τ} {x : Res β × τ}
    {y : Res γ × τ'} (h : Out W Q t x y) (hl : W.le s t) : Out W Q s x y := ⟨h.1, W.trans hl h.2.1, h.2.2⟩

theorem onHost_out {β : Type} {s : MState η} {s' : SState ξ n b} (hR : (memWorld M).R s s')
    {f : η → Mem ℂ → Option β × η × Mem ℂ} {g : ξ → Option β × ξ} (cl : HostCall n b)
    (h : Answers M.own M.Rep s.h s.mem (f s.h s.mem) (g s'.h)) :
    Out (memWorld M) (fun _ a b => a = b) s (onHost f s) (hostCall cl g s') := by
  obtain ⟨h1, h2, h3, h4⟩ := h
  unfold onHost hostCall
  generalize f s.h s.mem = r at *
  generalize g s'.h = r' at *
  obtain ⟨o, t, m'⟩ := r
  obtain ⟨o', t'⟩ := r'
  simp only at h1 h2 h3 h4
  subst h1
  cases o with
  | none => exact ⟨⟨h3, h2, hR.2.2⟩, h4, .throw _⟩
  | some x => exact ⟨⟨h3, h2, hR.2.2⟩, h4, .ok rfl⟩

/-- the evaluation of the free energy -/
theorem evaluateMem_out (hc : SameCfg mc c) (hn : ∀ k, 0 < n k) {s : MState η} {s' : SState ξ n b}
    (hR : (memWorld M).R s s') {x : Fin K → MView} {fn en : Fin K → ℕ} {X : Orbitals n b} {f e : Bands b} (mu : ℝ)
    (cx : ∀ k, ColMajor (x k)) (hx : ∀ k, Holds s.mem (x k) (X k))
    (hxC : ∀ {k l}, k ≠ l → Disjoint (cells (x k)) (cells (mh.C s.h l)))
    (hf : ∀ k, VecAt (M.own s.h) s.mem (fn k) (f k)) (he : ∀ k, VecAt (M.own s.h) s.mem (en k) (e k)) :
    Out (memWorld M) (fun _ _ _ => True) s (evaluateMem mh mc x fn en mu s) (evaluate host c X f e mu s') := by
  obtain ⟨m1, e1, h1, s1⟩ := writeC_ok hc.env hR.1 hn (fun k => (M.C hR.2.1 k).1) (fun k => (M.C hR.2.1 k).2.1)
    (M.C_apart hR.2.1) cx hx hxC
  obtain ⟨y, ey, hy⟩ := M.setC X hR.2.1 h1 s1
  have hsub : {a | ∃ k, a ∈ cells (mh.C s.h k)} ⊆ M.own s.h := by
    rintro a ⟨k, ha⟩
    exact (M.C hR.2.1 k).2.2 ha
  have hfin : {a | ∃ k, a ∈ cells (mh.C s.h k)}.Finite := by
    have : {a | ∃ k, a ∈ cells (mh.C s.h k)} = ⋃ k, cells (mh.C s.h k) := by ext; simp
    rw [this]
    exact Set.finite_iUnion fun k => cells_finite _
  have hR1 : (memWorld M).R { s with mem := m1 } { s' with h := y, calls := s'.calls ++ [.setC X] } :=
    ⟨hR.1.step s1 hfin, hy, hR.2.2⟩
  have hl1 : (memWorld M).le s { s with mem := m1 } :=
    fun a v h2 h3 => ⟨h2, by rw [← h3]; exact s1 a fun h => h2 (hsub h)⟩
  unfold evaluateMem evaluate
  rw [runMem_bind (readBands_ok fun k => (hf k).1), SM.get_bind, runMem_bind e1]
  rw [SM.bind_apply (hostCall _ _), hostCall, ey]
  refine Out.from ?_ hl1
  refine Out.bind (onHost_out hR1 _ (M.setFn f hR1.1 hR1.2.1)) fun t2 t2' _ _ hR2 hl2 _ => ?_
  refine Out.bind (onHost_out hR2 _ (M.compute hR2.1 hR2.2.1)) fun t3 t3' _ _ hR3 hl3 _ => ?_
  refine Out.bind (onHost_out hR3 _ (M.setMu mu hR3.1 hR3.2.1)) fun t4 t4' _ _ hR4 hl4 _ => ?_
  refine Out.bind (onHost_out hR4 _ (M.energy hR4.1 hR4.2.1)) fun t5 t5' et et' hR5 hl5 heq => ?_
  subst heq
  have hl : (memWorld M).le s t5 := (memWorld M).trans hl1 ((memWorld M).trans hl2 ((memWorld M).trans hl3
    ((memWorld M).trans hl4 hl5)))
  rw [runMem_bind (readBands_ok fun k => ((he k).mono hl).1), SM.modify_apply, SM.modify_apply]
  refine ⟨⟨hR5.1, hR5.2.1, ?_, ?_⟩, (memWorld M).refl _, .ok trivial⟩
  · simp only [hc.t, hc.T, hc.mo, hc.wk]
  · simp only [hc.t, hc.T, hc.mo, hc.wk]

/-! ## Corresponding points and directions -/

theorem Spec.PtRel0.mono {s t : MState η} {p : PtMem K} {q : Point n b} (hl : (memWorld M).le s t)
    (h : PtRel0 M s p q) : PtRel0 M t p q :=
  ⟨fun k => (h.X k).mono hl, fun k => (h.ek k).mono hl, fun k => (h.eta k).mono hl, fun k => (h.fn k).mono hl,
    fun k => (h.hx k).mono hl, h.mu⟩

theorem Spec.PtRel.mono {s t : MState η} {p : PtMem K} {q : Point n b} (hl : (memWorld M).le s t)
    (h : PtRel M s p q) : PtRel M t p q := ⟨h.toPtRel0.mono hl, fun k => (h.ul k).mono hl⟩

theorem Spec.DirRel.mono {s t : MState η} {d : DirMem K} {e : Dir n b} (hl : (memWorld M).le s t)
    (h : DirRel M s d e) : DirRel M t d e := ⟨fun k => (h.zx k).mono hl, fun k => (h.zeta k).mono hl⟩

theorem globals_run (hc : SameCfg mc c) {s : MState η} {s' : SState ξ n b} (hR : (memWorld M).R s s')
    {p : PtMem K} {q : Point n b} (hp : PtRel0 M s p q) :
    globalsMem mh mc p s.h s.mem = (.ok (globals (dirParams c q) (kIn host c q s'.h)), s.mem) := by
  rw [globalsMem_ok hc.env hR.1 (fun k => (M.ek hR.2.1 k).1) (fun k => (hp.ek k).1)]
  simp only [globals, dirParams, kIn, hc.t, hc.T, hc.mo, hc.wk, hp.mu]

theorem dirParamsMem_eq (hc : SameCfg mc c) {p : PtMem K} {q : Point n b} (hmu : p.mu = q.mu) :
    dirParamsMem mc p = dirParams c q := by
  simp only [dirParamsMem, dirParams, hc.t, hc.T, hc.kappa, hc.mo, hmu]

theorem kMem_holds (hc : SameCfg mc c) {s : MState η} {p : PtMem K} {q : Point n b} (hp : PtRel0 M s p q)
    (h : ξ) (k : Fin K) : HoldsK s.mem (kMem mc p k) (kIn host c q h k) :=
  { cX := (hp.X k).1, X := (hp.X k).2.1, chx := (hp.hx k).1, hx := (hp.hx k).2.1, e := (hp.ek k).1,
    f := (hp.fn k).1, S := hc.S k, P := hc.P k }

theorem restarted_out (hc : SameCfg mc c) (hn : ∀ k, 0 < n k) (hb : ∀ k, 0 < b k) {s : MState η}
    {s' : SState ξ n b} (hR : (memWorld M).R s s') {p : PtMem K} {q : Point n b} (hp : PtRel0 M s p q) :
    Out (memWorld M) (fun t x y => x.1 = y.1 ∧ DirRel M t x.2 y.2) s (solverRestartedMem mh mc p s)
      (solverRestarted host c q s') := by
  obtain ⟨r, m', e, hfr, h1, h2, h3, h4⟩ := restartedMem_ok hc.env hR.1 hn hb (kMem_holds hc hp s'.h)
    (dirParams c q)
  have x1 := Ext.new hR.1 h3 h4 (allCells_finite (fun _ => (cells_finite _).union (cells_finite _)) _)
  obtain ⟨z, ez, hz⟩ := atAll_ok h1.keys
  obtain ⟨hR', hl⟩ := world_ext hR x1
  have hwk : mc.wk = fun k => (kIn host c q s'.h k).wk := by
    funext k
    simp only [kIn, hc.wk]
  have e1 : solverRestartedMem mh mc p s = (.ok (r.fr, { zx := fun k => (z k).dx, zeta := fun k => (z k).deta }),
      { s with mem := m' }) := by
    rw [solverRestartedMem, SM.get_bind, runMem_bind (globals_run hc hR hp), dirParamsMem_eq hc hp.mu, hwk,
      runMem_bind e, SM.lift_bind, ez]
    rfl
  rw [e1, solverRestarted, SM.get_bind, SM.pure_apply]
  refine ⟨hR', hl, .ok ⟨hfr, fun k => ?_, fun k => ?_⟩⟩
  · have g := h2 _ (hz k)
    exact ⟨g.cdx, g.dx, own_new hR fun a ha => h3 a ⟨_, hz k, .inl ha⟩⟩
  · have g := h2 _ (hz k)
    exact ⟨g.cdeta, g.deta, own_new hR fun a ha => h3 a ⟨_, hz k, .inr ha⟩⟩

theorem conjugated_out (hc : SameCfg mc c) (hn : ∀ k, 0 < n k) (hb : ∀ k, 0 < b k) {s : MState η}
    {s' : SState ξ n b} (hR : (memWorld M).R s s') {p : PtMem K} {q : Point n b} (hp : PtRel M s p q)
    {d : DirMem K} {d' : Dir n b} (hd : DirRel M s d d') (fr : ℝ) :
    Out (memWorld M) (fun t x y => x.1 = y.1 ∧ x.2.1 = y.2.1 ∧ DirRel M t x.2.2 y.2.2) s
      (solverConjugatedMem mh mc fr p d s) (solverConjugated host c fr q d' s') := by
  obtain ⟨r, m', e, hfr, hsl, h1, h2, h3, h4⟩ := conjugatedMem_ok hc.env hR.1 hn hb
    (kMem_holds hc hp.toPtRel0 s'.h) (dirParams c q) fr (fun k => (hd.zx k).1) (fun k => (hd.zeta k).1)
    (fun k => (hp.ul k).1) (fun k => (hd.zx k).2.1) (fun k => (hd.zeta k).2.1) (fun k => (hp.ul k).2.1)
  have x1 := Ext.new hR.1 h3 h4 (allCells_finite (fun _ => (cells_finite _).union (cells_finite _)) _)
  obtain ⟨z, ez, hz⟩ := atAll_ok h1.keys
  obtain ⟨hR', hl⟩ := world_ext hR x1
  have hwk : mc.wk = fun k => (kIn host c q s'.h k).wk := by
    funext k
    simp only [kIn, hc.wk]
  have e1 : solverConjugatedMem mh mc fr p d s = (.ok (r.fr, r.slope,
      (⟨fun k => (z k).zx, fun k => (z k).zeta⟩ : DirMem K)), { s with mem := m' }) := by
    rw [solverConjugatedMem, SM.get_bind, runMem_bind (globals_run hc hR hp.toPtRel0), dirParamsMem_eq hc hp.mu,
      hwk, runMem_bind e, SM.lift_bind, ez]
    rfl
  rw [e1, solverConjugated, SM.get_bind, SM.pure_apply]
  refine ⟨hR', hl, .ok ⟨hfr, hsl, fun k => ?_, fun k => ?_⟩⟩
  · have g := h2 _ (hz k)
    exact ⟨g.1, g.2.1, own_new hR fun a ha => h3 a ⟨_, hz k, .inl ha⟩⟩
  · have g := h2 _ (hz k)
    exact ⟨g.2.2.1, g.2.2.2.1, own_new hR fun a ha => h3 a ⟨_, hz k, .inr ha⟩⟩

theorem refresh_out (hc : SameCfg mc c) (hn : ∀ k, 0 < n k) (hb : ∀ k, 0 < b k) {s : MState η}
    {s' : SState ξ n b} (hR : (memWorld M).R s s') {p : PtMem K} {q : Point n b} (hp : PtRel M s p q) :
    Out (memWorld M) (PtRel M) s (solverRefreshMem mh mc p s) (solverRefresh host q s') := by
  obtain ⟨eta, m1, e1, x1, h1⟩ := makeDiagAll_ok hc.env hR.1 hb fun k => (hp.ek k).1
  obtain ⟨hR1, hl1⟩ := world_ext hR x1
  obtain ⟨fn, m2, e2, x2, h2⟩ := fetchBands_ok hc.env hR1.1 fun k => (M.fn hR1.2.1 k).1
  obtain ⟨hR2, hl2⟩ := world_ext hR1 x2
  obtain ⟨hx, m3, e3, x3, h3⟩ := copyAll_ok hc.env hR2.1 hn (fun k => (M.hphi hR2.2.1 k).1)
    fun k => (M.hphi hR2.2.1 k).2.1
  obtain ⟨hR3, hl3⟩ := world_ext hR2 x3
  have e : solverRefreshMem mh mc p s = (.ok { p with eta := eta, fn := fn, hx := hx }, { s with mem := m3 }) := by
    rw [solverRefreshMem, runMem_bind e1, SM.get_bind, runMem_bind e2, runMem_bind e3, SM.pure_apply]
  have hl : (memWorld M).le s { s with mem := m3 } := (memWorld M).trans hl1 ((memWorld M).trans hl2 hl3)
  rw [e, solverRefresh, SM.get_bind, SM.pure_apply]
  refine ⟨hR3, hl, .ok ⟨⟨fun k => (hp.X k).mono hl, fun k => (hp.ek k).mono hl, fun k => ?_, fun k => ?_,
    fun k => ?_, hp.mu⟩, fun k => (hp.ul k).mono hl⟩⟩
  · exact MatAt.mono ((memWorld M).trans hl2 hl3) ⟨(h1 k).1.1, (h1 k).1.2, own_new hR (h1 k).2⟩
  · exact VecAt.mono hl3 ⟨(h2 k).1, own_new hR1 (h2 k).2⟩
  · exact ⟨(h3 k).1.1, (h3 k).1.2, own_new hR2 (h3 k).2⟩

/-- the search for the chemical potential -/
theorem occMem_out (hc : SameCfg mc c) {s : MState η} {s' : SState ξ n b} (hR : (memWorld M).R s s')
    {w : Fin K → ℕ} {e : Bands b} (h : ∀ k, VecAt (M.own s.h) s.mem (w k) (e k)) :
    Out (memWorld M) (fun t x y => x.1 = y.1 ∧ ∀ k, VecAt (M.own t.h) t.mem (x.2 k) (y.2 k)) s
      (runMem (occMem mc w) s) ((SM.lift (c.occ e) : SM (SState ξ n b) _) s') := by
  rw [SM.lift_apply]
  cases ho : c.occ e with
  | ok r =>
    obtain ⟨mu, f⟩ := r
    obtain ⟨v, m', e1, x1, h1⟩ := occMem_ok hc.env hR.1 (fun k => (h k).1) (hc.occ ▸ ho)
    obtain ⟨hR1, hl1⟩ := world_ext hR x1
    rw [runMem, e1]
    exact ⟨hR1, hl1, .ok ⟨rfl, fun k => ⟨(h1 k).1, own_new hR (h1 k).2⟩⟩⟩
  | _ =>
    obtain ⟨h1, h2⟩ := occMem_fail (c := mc) (m := s.mem) (fun k => (h k).1) (hc.occ ▸ ho) (by simp)
    rw [runMem, h1]
    refine ⟨hR, (memWorld M).refl _, ?_⟩
    simp only
    generalize (occMem mc w s.mem).1 = r at h2
    cases h2 <;> constructor

theorem setup_out (hc : SameCfg mc c) (hn : ∀ k, 0 < n k) (hb : ∀ k, 0 < b k) {s : MState η}
    {s' : SState ξ n b} (hR : (memWorld M).R s s') :
    Out (memWorld M) (PtRel0 M) s (setupMem mh mc s) (solverSetup host c s') := by
  unfold setupMem solverSetup
  refine Out.bind (onHost_out hR _ (M.compute hR.1 hR.2.1)) fun s1 s1' _ _ hR1 hl1 _ => ?_
  obtain ⟨ek, m2, e2, x2, h2⟩ := fetchBands_ok hc.env hR1.1 fun k => (M.ek hR1.2.1 k).1
  obtain ⟨hR2, hl2⟩ := world_ext hR1 x2
  have hek : ∀ k, VecAt (M.own s1.h) m2 (ek k) (host.ek s1'.h k) := fun k => ⟨(h2 k).1, own_new hR1 (h2 k).2⟩
  rw [SM.get_bind, runMem_bind e2, SM.get_bind]
  refine Out.from ?_ hl2
  refine Out.bind (occMem_out hc hR2 hek) fun s3 s3' r r' hR3 hl3 hr => ?_
  obtain ⟨mu, fn⟩ := r
  obtain ⟨mu', f⟩ := r'
  obtain ⟨hmu, hfn⟩ := hr
  simp only at hmu hfn
  subst hmu
  have hek3 := fun k => (hek k).mono hl3
  simp only
  rw [SM.get_bind, SM.get_bind]
  refine Out.bind (evaluateMem_out hc hn hR3 mu (fun k => (M.C hR3.2.1 k).1) (fun k => (M.C hR3.2.1 k).2.1)
    (M.C_apart hR3.2.1) hfn hek3) fun s4 s4' _ _ hR4 hl4 _ => ?_
  have hek4 := fun k => (hek3 k).mono hl4
  obtain ⟨hx, m5, e5, x5, h5⟩ := copyAll_ok hc.env hR4.1 hn (fun k => (M.hphi hR4.2.1 k).1)
    fun k => (M.hphi hR4.2.1 k).2.1
  obtain ⟨hR5, hl5⟩ := world_ext hR4 x5
  obtain ⟨x, m6, e6, x6, h6⟩ := copyAll_ok hc.env hR5.1 hn (fun k => (M.C hR5.2.1 k).1)
    fun k => (M.C hR5.2.1 k).2.1
  obtain ⟨hR6, hl6⟩ := world_ext hR5 x6
  obtain ⟨eta, m7, e7, x7, h7⟩ := makeDiagAll_ok hc.env hR6.1 hb fun k =>
    ((hek4 k).mono ((memWorld M).trans hl5 hl6)).1
  obtain ⟨hR7, hl7⟩ := world_ext hR6 x7
  obtain ⟨ul, m8, e8, x8⟩ := emptyAll_ok hc.env hR7.1 eta
  obtain ⟨hR8, hl8⟩ := world_ext hR7 x8
  rw [SM.get_bind, runMem_bind e5, SM.get_bind, runMem_bind e6, runMem_bind e7, runMem_bind e8, SM.get_bind,
    SM.pure_apply, SM.pure_apply]
  have l78 := (memWorld M).trans hl7 hl8
  have l68 := (memWorld M).trans hl6 l78
  have l58 := (memWorld M).trans hl5 l68
  refine ⟨hR8, l58, .ok ⟨fun k => ?_, fun k => (hek4 k).mono l58, fun k => ?_,
    fun k => ((hfn k).mono hl4).mono l58, fun k => ?_, rfl⟩⟩
  · exact MatAt.mono l78 ⟨(h6 k).1.1, (h6 k).1.2, own_new hR5 (h6 k).2⟩
  · exact MatAt.mono hl8 ⟨(h7 k).1.1, (h7 k).1.2, own_new hR6 (h7 k).2⟩
  · exact MatAt.mono l68 ⟨(h5 k).1.1, (h5 k).1.2, own_new hR4 (h5 k).2⟩

theorem geo_out (hc : SameCfg mc c) (hn : ∀ k, 0 < n k) (hb : ∀ k, 0 < b k) {s : MState η}
    {s' : SState ξ n b} (hR : (memWorld M).R s s') {p : PtMem K} {q : Point n b} (hp : PtRel0 M s p q)
    {d : DirMem K} {d' : Dir n b} (hd : DirRel M s d d') (t : ℝ) :
    Out (memWorld M) (PtRel M) s (solverGeoMem mh mc p d t s) (solverGeo host c q d' t s') := by
  have hg := geodesicAllMem_refines hc.env hR.1 hn hb hc.S (fun k => (hp.X k).1) (fun k => (hd.zx k).1)
    (fun k => (hd.zeta k).1) (fun k => (hp.X k).2.1) (fun k => (hp.eta k).2.1) (fun k => (hd.zx k).2.1)
    (fun k => (hd.zeta k).2.1) t
  unfold solverGeoMem solverGeo
  cases hv : forAllK fun k => geodesicUs c.la (q.X k) (q.eta k) (d'.zx k) (d'.zeta k) (c.S k) t with
  | throw x =>
    rw [hv] at hg
    have hg : _ = (Res.throw x, s.mem) := hg
    rw [SM.bind_apply, runMem, hg, SM.lift_bind]
    exact ⟨hR, (memWorld M).refl _, .throw x⟩
  | ub => rw [hv] at hg; exact hg.elim
  | abort => rw [hv] at hg; exact hg.elim
  | ok g =>
    rw [hv] at hg
    obtain ⟨xs, m1, e1, ⟨h1, h2⟩, f1, s1⟩ := hg
    have x1 := Ext.new hR.1 f1 s1 (allCells_finite
      (fun _ => ((vecCells_finite _ _).union (cells_finite _)).union (cells_finite _)) _)
    obtain ⟨hR1, hl1⟩ := world_ext hR x1
    obtain ⟨z, ez, hz⟩ := atAll_ok h1.keys
    have hfree : ∀ k, ∀ a ∈ vecCells (z k).ek (b k) ∪ cells (z k).ul ∪ cells (z k).X, s.mem a = none := by
      intro k a ha
      refine f1 a ⟨_, hz k, ?_⟩
      simp only
      rw [(h2 _ (hz k)).ul.2.1]
      exact ha
    have hek : ∀ k, VecAt (M.own s.h) m1 (z k).ek (g k).ek := fun k =>
      ⟨(h2 _ (hz k)).ek, own_new hR fun a ha => hfree k a (.inl (.inl ha))⟩
    have hX : ∀ k, MatAt (M.own s.h) m1 (z k).X (g k).X := fun k =>
      ⟨(h2 _ (hz k)).cX, (h2 _ (hz k)).X, own_new hR fun a ha => hfree k a (.inr ha)⟩
    have hul : ∀ k, MatAt (M.own s.h) m1 (z k).ul (g k).ul := fun k =>
      ⟨(h2 _ (hz k)).cul, (h2 _ (hz k)).ul, own_new hR fun a ha => hfree k a (.inl (.inr ha))⟩
    rw [runMem_bind e1, SM.lift_bind, SM.lift_bind, ez]
    simp only
    refine Out.from ?_ hl1
    refine Out.bind (occMem_out hc hR1 hek) fun s3 s3' r r' hR3 hl3 hr => ?_
    obtain ⟨mu, fn⟩ := r
    obtain ⟨mu', f⟩ := r'
    obtain ⟨hmu, hfn⟩ := hr
    simp only at hmu hfn
    subst hmu
    refine Out.bind (evaluateMem_out hc hn hR3 mu (fun k => (hX k).1) (fun k => ((hX k).mono hl3).2.1)
      (fun {k l} _ => (((hX k).mono hl3).2.2).mono_right (M.C hR3.2.1 l).2.2) hfn
      fun k => (hek k).mono hl3) fun s4 s4' _ _ hR4 hl4 _ => ?_
    have l4 := (memWorld M).trans hl3 hl4
    have l14 := (memWorld M).trans hl1 l4
    rw [SM.pure_apply, SM.pure_apply]
    exact ⟨hR4, (memWorld M).refl _, .ok ⟨⟨fun k => (hX k).mono l4, fun k => (hek k).mono l4,
      fun k => (hp.eta k).mono l14, fun k => (hp.fn k).mono l14, fun k => (hp.hx k).mono l14, rfl⟩,
      fun k => (hul k).mono l4⟩⟩

/-- the run in memory and the run with matrices as values correspond -/
def memSim (M : MirrorsHost mh host) (hc : SameCfg mc c) (hn : ∀ k, 0 < n k) (hb : ∀ k, 0 < b k) :
    Sim (memOps mh mc) (solverOps host c) where
  W := memWorld M
  P0 := PtRel0 M
  P := PtRel M
  D := DirRel M
  weaken h := h.toPtRel0
  P0_mono := PtRel0.mono
  P_mono := PtRel.mono
  D_mono := DirRel.mono
  construct hR := by
    simp only [memOps, solverOps, SM.lift_apply, hc.T]
    refine ⟨hR, (memWorld M).refl _, ?_⟩
    simp only
    split
    · exact .throw _
    · exact .ok trivial
  setup hR := setup_out hc hn hb hR
  restarted hR hp := restarted_out hc hn hb hR hp
  conjugated fr hR hp hd := conjugated_out hc hn hb hR hp hd fr
  geo t hR hp hd := geo_out hc hn hb hR hp hd t
  refresh hR hp := refresh_out hc hn hb hR hp
  gather hR _ := ⟨hR, (memWorld M).refl _, .ok trivial⟩
  hostPrint hR := by
    have h := onHost_out hR .print (M.print hR.1 hR.2.1)
    refine ⟨h.1, h.2.1, ?_⟩
    obtain ⟨-, -, h⟩ := h
    simp only [memOps, solverOps]
    revert h
    generalize (onHost mh.print _).1 = r
    generalize (hostCall _ host.print _).1 = r'
    intro h
    cases h <;> constructor
    trivial
  getF hR := hR.2.2.1
  getS hR := hR.2.2.2

end Nlcg
