import Verif.Spec.KSets
import Verif.Proofs.KMap

/-! Which look-ups of the start and the first iteration succeed. -/

namespace Nlcg
open KMap
variable {β γ δ : Type}

/-- A computation that succeeds if `p` and throws `out_of_range` otherwise, unless `bad`; it does not succeed without `p`. -/
def Asks (bad : Prop) (r : Res γ) (p : Prop) (post : γ → Prop) : Prop :=
  (∀ y, r = .ok y → p ∧ post y) ∧ (¬ bad → p → ∃ y, r = .ok y) ∧ (¬ bad → ¬ p → r = .throw .outOfRange)

variable {bad : Prop}

theorem Asks.ok {y : γ} {post : γ → Prop} (h : post y) : Asks bad (.ok y) True post :=
  ⟨fun _ h' => ⟨trivial, Res.ok.inj h' ▸ h⟩, fun _ _ => ⟨y, rfl⟩, fun _ h => absurd trivial h⟩

theorem Asks.iff {r : Res γ} {p q : Prop} {post : γ → Prop} (h : Asks bad r p post) (e : p ↔ q) : Asks bad r q post :=
  ⟨fun y hy => ⟨e.1 (h.1 y hy).1, (h.1 y hy).2⟩, fun hb hq => h.2.1 hb (e.2 hq), fun hb hq => h.2.2 hb (fun hp => hq (e.1 hp))⟩

theorem Asks.weaken {r : Res γ} {p : Prop} {post post' : γ → Prop} (h : Asks bad r p post) (e : ∀ y, post y → post' y) :
    Asks bad r p post' :=
  ⟨fun y hy => ⟨(h.1 y hy).1, e y (h.1 y hy).2⟩, h.2⟩

/-- first one question, then another -/
theorem Asks.bind {r : Res γ} {f : γ → Res δ} {p q : Prop} {post : γ → Prop} {post' : δ → Prop} (h : Asks bad r p post)
    (hf : p → ∀ y, post y → Asks bad (f y) q post') : Asks bad (r >>= f) (p ∧ q) post' := by
  refine ⟨fun z hz => ?_, fun hb => ?_, fun hb hn => ?_⟩
  · obtain ⟨y, rfl, hy⟩ := Res.bind_eq_ok.1 hz
    obtain ⟨hp, hpost⟩ := h.1 y rfl
    obtain ⟨hq, hz'⟩ := (hf hp y hpost).1 z hy
    exact ⟨⟨hp, hq⟩, hz'⟩
  · rintro ⟨hp, hq⟩
    obtain ⟨y, rfl⟩ := h.2.1 hb hp
    exact (hf hp y (h.1 y rfl).2).2.1 hb hq
  · by_cases hp : p
    · obtain ⟨y, rfl⟩ := h.2.1 hb hp
      exact (hf hp y (h.1 y rfl).2).2.2 hb fun hq => hn ⟨hp, hq⟩
    · rw [h.2.2 hb hp]; rfl

theorem entryAt_asks (k : Key) (m : KMap Key β) : Asks bad (entryAt k m) (k ∈ keys m) fun _ => True := by
  unfold entryAt
  by_cases h : k ∈ keys m
  · obtain ⟨v, hv⟩ := Option.isSome_iff_exists.1 (lookup_isSome_iff.2 h)
    rw [hv]
    exact Asks.iff (Asks.ok trivial) (by simp [h])
  · rw [lookup_eq_none_iff.2 h]
    exact ⟨nofun, fun _ h' => absurd h' h, fun _ _ => rfl⟩

theorem forEntries_asks {f : Key → β → Res γ} {q : Key → Prop} : ∀ {m : KMap Key β},
    (∀ e ∈ m, Asks bad (f e.1 e.2) (q e.1) fun _ => True) →
    Asks bad (forEntries f m) (∀ k ∈ keys m, q k) fun r => keys r = keys m
  | [], _ => Asks.iff (Asks.ok rfl) (by simp [keys])
  | (k, x) :: m, h => by
    rw [forEntries]
    refine Asks.iff (Asks.bind (h (k, x) (by simp)) fun _ y _ => Asks.bind
      (forEntries_asks fun e he => h e (List.mem_cons_of_mem _ he)) fun _ r hr => ?_) (q := ∀ k' ∈ keys ((k, x) :: m), q k')
      (p := q k ∧ (∀ k' ∈ keys m, q k') ∧ True) (by simp [keys])
    exact Asks.ok (by simp only [keys, List.map_cons] at hr ⊢; rw [hr])

variable {g : KNum β}

theorem entropySum_asks (mu : ℝ) (wk : KMap Key ℝ) (en : KMap Key (List ℝ)) :
    Asks bad (entropySum g mu wk en) (∀ k ∈ keys wk, k ∈ keys en) fun _ => True := by
  refine Asks.iff (Asks.bind (forEntries_asks (q := fun k => k ∈ keys en ∧ True) fun e _ =>
    Asks.bind (entryAt_asks e.1 en) fun _ y _ => Asks.ok trivial) fun _ r _ => Asks.ok trivial) (by simp)

theorem deltaSumK_asks (mu : ℝ) (en : KMap Key (List ℝ)) (wk : KMap Key ℝ) :
    Asks bad (deltaSumK g mu en wk) (∀ k ∈ keys wk, k ∈ keys en) fun _ => True := by
  refine Asks.iff (Asks.bind (forEntries_asks (q := fun k => k ∈ keys en ∧ True) fun e _ =>
    Asks.bind (entryAt_asks e.1 en) fun _ y _ => Asks.ok trivial) fun _ r _ => Asks.ok trivial) (by simp)

theorem total_asks {r : Res γ} (h : ¬ bad → ∃ y, r = .ok y) : Asks bad r True fun _ => True :=
  ⟨fun _ _ => ⟨trivial, trivial⟩, fun hb _ => h hb, fun _ h => absurd trivial h⟩

theorem dFdmuSum_asks (hg : ¬ bad → Spec.Total g) (mu : ℝ) (hii en fn : KMap Key (List ℝ)) (wk : KMap Key ℝ) :
    Asks bad (dFdmuSum g mu hii en fn wk) (∀ k ∈ keys hii, k ∈ keys en ∧ k ∈ keys fn ∧ k ∈ keys wk) fun _ => True := by
  refine Asks.iff (Asks.bind (forEntries_asks (q := fun k => k ∈ keys en ∧ k ∈ keys fn ∧ True ∧ k ∈ keys wk ∧ True) fun e _ =>
    Asks.bind (entryAt_asks e.1 en) fun _ y _ => Asks.bind (entryAt_asks e.1 fn) fun _ y' _ =>
    Asks.bind (total_asks (fun hb => (hg hb).dF mu e.2 y y')) fun _ v _ => Asks.bind (entryAt_asks e.1 wk) fun _ w _ => Asks.ok trivial)
    fun _ r _ => Asks.ok trivial) (by simp)

theorem directionsOf_asks (hg : ¬ bad → Spec.Total g) (h : KHost β) (X : KMap Key β) (en fn : KMap Key (List ℝ)) (hx : KMap Key β)
    (mu : ℝ) : Asks bad (directionsOf g h X en fn hx mu)
      ((∀ k ∈ keys h.ek, k ∈ keys en ∧ k ∈ keys fn ∧ k ∈ keys h.wk) ∧ (∀ k ∈ keys h.wk, k ∈ keys en) ∧
        ∀ k ∈ keys X, k ∈ keys en ∧ k ∈ keys fn ∧ k ∈ keys hx ∧ k ∈ keys h.wk) fun r => keys r = keys X := by
  refine Asks.iff (Asks.bind (dFdmuSum_asks hg mu h.ek en fn h.wk) fun _ dF _ =>
    Asks.bind (deltaSumK_asks mu en h.wk) fun _ s _ =>
    Asks.bind (forEntries_asks (q := fun k => k ∈ keys en ∧ k ∈ keys fn ∧ k ∈ keys hx ∧ k ∈ keys h.wk ∧ True) fun e _ =>
      Asks.bind (entryAt_asks e.1 en) fun _ _ _ => Asks.bind (entryAt_asks e.1 fn) fun _ _ _ =>
      Asks.bind (entryAt_asks e.1 hx) fun _ _ _ => Asks.bind (entryAt_asks e.1 h.wk) fun _ _ _ => Asks.ok trivial)
    fun _ b hb => Asks.weaken (Asks.iff (forEntries_asks (q := fun _ => True) fun e _ => total_asks (fun hb => (hg hb).dir _ _ _ _ _ _ _ _))
      (q := True) (by simp)) fun r hr => hr.trans hb) (by simp)

theorem computeKeys_asks (h : KHost β) (X : KMap Key β) (en : KMap Key (List ℝ)) (mu : ℝ) :
    Asks bad (computeKeys g h X en mu) ((∀ k ∈ keys h.C, k ∈ keys X) ∧ ∀ k ∈ keys h.wk, k ∈ keys en) fun _ => True :=
  Asks.bind (forEntries_asks fun e _ => entryAt_asks e.1 X) fun _ _ _ => entropySum_asks mu h.wk en

theorem keys_image (f : β → γ) (m : KMap Key β) : keys (m.map fun e => (e.1, f e.2)) = keys m := by
  simp [keys, Function.comp_def]

theorem startKeys_asks (hg : ¬ bad → Spec.Total g) (h : KHost β) : Asks bad (startKeys g h)
    ((∀ k, k ∈ keys h.ek ↔ k ∈ keys h.wk) ∧ ∀ k ∈ keys h.C, k ∈ keys h.wk ∧ k ∈ keys h.hphi)
    fun r => keys r.2 = keys h.C := by
  refine Asks.iff (p := True ∧ ((∀ k ∈ keys h.C, k ∈ keys h.C) ∧ ∀ k ∈ keys h.wk, k ∈ keys h.ek) ∧
    ((∀ k ∈ keys h.ek, k ∈ keys h.ek ∧ k ∈ keys h.ek ∧ k ∈ keys h.wk) ∧ (∀ k ∈ keys h.wk, k ∈ keys h.ek) ∧
        ∀ k ∈ keys h.C, k ∈ keys h.ek ∧ k ∈ keys h.ek ∧ k ∈ keys h.hphi ∧ k ∈ keys h.wk) ∧ True)
    (Asks.bind (total_asks (fun hb => (hg hb).search h.ek)) fun _ mu _ =>
    Asks.bind (computeKeys_asks h h.C h.ek mu) fun _ _ _ =>
    Asks.bind (post := fun z => keys z = keys h.C) ?_ fun _ z hz => Asks.ok hz) ?_
  · have := directionsOf_asks hg h h.C h.ek (h.ek.map fun e => (e.1, g.occ mu e.2)) h.hphi mu
    rwa [keys_image] at this
  · constructor
    · rintro ⟨-, ⟨-, h1⟩, ⟨h2, -, h3⟩, -⟩
      exact ⟨fun k => ⟨fun hk => (h2 k hk).2.2, h1 k⟩, fun k hk => ⟨(h3 k hk).2.2.2, (h3 k hk).2.2.1⟩⟩
    · rintro ⟨h1, h2⟩
      refine ⟨trivial, ⟨fun _ h => h, fun k hk => (h1 k).2 hk⟩, ⟨fun k hk => ⟨hk, hk, (h1 k).1 hk⟩, fun k hk => (h1 k).2 hk,
        fun k hk => ?_⟩, trivial⟩
      have := h2 k hk
      exact ⟨(h1 k).2 this.1, (h1 k).2 this.1, this.2, this.1⟩

theorem trialKeys_asks (hg : ¬ bad → Spec.Total g) (h : KHost β) (X eta : KMap Key β) (z : KMap Key (ℝ × β × β)) :
    Asks bad (trialKeys g h X eta z) ((∀ k ∈ keys X, k ∈ keys eta ∧ k ∈ keys z) ∧ (∀ k ∈ keys h.C, k ∈ keys X) ∧
      ∀ k ∈ keys h.wk, k ∈ keys X) fun r => keys r.2 = keys X := by
  refine Asks.iff (p := (∀ k ∈ keys X, k ∈ keys eta ∧ k ∈ keys z ∧ True) ∧ True ∧ True ∧
    ((∀ k ∈ keys h.C, k ∈ keys X) ∧ ∀ k ∈ keys h.wk, k ∈ keys X) ∧ True)
    (Asks.bind (forEntries_asks fun e _ => Asks.bind (entryAt_asks e.1 eta) fun _ _ _ =>
      Asks.bind (entryAt_asks e.1 z) fun _ _ _ => Asks.ok trivial) fun _ b hb =>
    Asks.bind (post := fun p => keys p = keys X) (Asks.weaken (Asks.iff (forEntries_asks (q := fun _ => True)
      fun e _ => total_asks (fun hb => (hg hb).step _ _ _ _)) (q := True) (by simp)) fun r hr => hr.trans hb) fun _ p hp =>
    Asks.bind (total_asks (fun hb => (hg hb).search _)) fun _ mu _ => Asks.bind (post := fun _ => True) ?_ fun _ _ _ => Asks.ok hp) (by simp)
  have := computeKeys_asks (bad := bad) (g := g) h (p.map fun e => (e.1, e.2.2.2)) (p.map fun e => (e.1, e.2.1)) mu
  rwa [keys_image, keys_image (fun e : List ℝ × β × β => e.2.2), hp] at this

theorem firstIteration_asks (hg : ¬ bad → Spec.Total g) (h : KHost β) :
    Asks bad (firstIteration g h) (Spec.OneSet h) fun r => keys r = keys h.C := by
  refine Asks.iff (p := ((∀ k, k ∈ keys h.ek ↔ k ∈ keys h.wk) ∧ ∀ k ∈ keys h.C, k ∈ keys h.wk ∧ k ∈ keys h.hphi) ∧
    ((∀ k ∈ keys h.C, k ∈ keys h.ek ∧ k ∈ keys h.C) ∧ (∀ k ∈ keys h.C, k ∈ keys h.C) ∧ ∀ k ∈ keys h.wk, k ∈ keys h.C) ∧
    ((∀ k ∈ keys h.ek, k ∈ keys h.C ∧ k ∈ keys h.fn ∧ k ∈ keys h.wk) ∧ (∀ k ∈ keys h.wk, k ∈ keys h.C) ∧
        ∀ k ∈ keys h.C, k ∈ keys h.C ∧ k ∈ keys h.fn ∧ k ∈ keys h.hphi ∧ k ∈ keys h.wk))
    (Asks.bind (startKeys_asks hg h) fun _ r hr => Asks.bind (post := fun r => keys r.2 = keys h.C) ?_ fun _ r' hr' => ?_) ?_
  · have := trialKeys_asks hg h h.C (h.ek.map fun e => (e.1, g.diag e.2)) r.2
    rwa [keys_image, hr] at this
  · have := directionsOf_asks hg h (r'.2.map fun e => (e.1, e.2.2.2)) (r'.2.map fun e => (e.1, e.2.1)) h.fn h.hphi r'.1
    rwa [keys_image, keys_image (fun e : List ℝ × β × β => e.2.2), hr'] at this
  · constructor
    · rintro ⟨⟨h1, h2⟩, ⟨-, -, h3⟩, h4, -, h5⟩
      exact ⟨h1, fun k => ⟨fun hk => (h2 k hk).1, h3 k⟩, fun k hk => (h2 k (h3 k hk)).2, fun k hk => (h5 k (h3 k hk)).2.1⟩
    · rintro ⟨h1, h2, h3, h4⟩
      have c : ∀ k ∈ keys h.C, k ∈ keys h.wk := fun k hk => (h2 k).1 hk
      have w : ∀ k ∈ keys h.wk, k ∈ keys h.C := fun k hk => (h2 k).2 hk
      have e : ∀ k ∈ keys h.ek, k ∈ keys h.wk := fun k hk => (h1 k).1 hk
      exact ⟨⟨h1, fun k hk => ⟨c k hk, h3 k (c k hk)⟩⟩, ⟨fun k hk => ⟨(h1 k).2 (c k hk), hk⟩, fun _ h => h, w⟩,
        fun k hk => ⟨w k (e k hk), h4 k (e k hk), e k hk⟩, w, fun k hk => ⟨hk, h4 k (c k hk), h3 k (c k hk), c k hk⟩⟩

end Nlcg
