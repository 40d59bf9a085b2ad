import Verif.Spec.OpCalls
import Verif.Proofs.SolverRun

/-! Which calls a run makes. -/

namespace Nlcg
open Matrix Spec

variable {K : ℕ} {n b : Fin K → ℕ} {η β γ : Type}

/-! ## Records of programs -/

/-- what `m` adds to the record when it returns, and that a failure is none of those that the driver handles -/
structure Emits (m : SM (OState η n b) β) (B : β → List (Entry n b) → Prop) : Prop where
  ok : ∀ o r o', m o = (.ok r, o') → ∃ l, B r l ∧ o'.log = o.log ++ l
  fail : ∀ o e o', m o = (e, o') → e.isOk = false → ¬ e.Soft ∧ ∃ r l l', B r l' ∧ CutOf l l' ∧ o'.log = o.log ++ l

theorem CutOf.refl (l : List (Entry n b)) : CutOf l l := .inl (List.prefix_refl _)

theorem CutOf.append {l l' : List (Entry n b)} (h : CutOf l l') (m : List (Entry n b)) : CutOf l (l' ++ m) := by
  rcases h with h | ⟨p, e, h, rfl⟩
  · exact .inl (h.trans (List.prefix_append _ _))
  · exact .inr ⟨p, e, h.trans (List.prefix_append _ _), rfl⟩

theorem CutOf.prepend {l l' : List (Entry n b)} (m : List (Entry n b)) (h : CutOf l l') : CutOf (m ++ l) (m ++ l') := by
  rcases h with h | ⟨p, e, h, rfl⟩
  · exact .inl ((List.prefix_append_right_inj _).2 h)
  · exact .inr ⟨m ++ p, e, by rw [List.append_assoc]; exact (List.prefix_append_right_inj _).2 h, by simp⟩

theorem Res.fail_soft {o : Res β} (h : ¬ o.Soft) : ¬ (o.fail : Res γ).Soft := fun h' => h h'.fail

theorem Emits.mono {m : SM (OState η n b) β} {B C : β → List (Entry n b) → Prop} (h : Emits m B)
    (hBC : ∀ r l, B r l → C r l) : Emits m C := by
  refine ⟨fun o r o' e => ?_, fun o e o' he hf => ?_⟩
  · obtain ⟨l, h1, h2⟩ := h.ok o r o' e
    exact ⟨l, hBC _ _ h1, h2⟩
  · obtain ⟨h0, r, l, l', h1, h2⟩ := h.fail o e o' he hf
    exact ⟨h0, r, l, l', hBC _ _ h1, h2⟩

theorem Emits.bind {m : SM (OState η n b) β} {f : β → SM (OState η n b) γ} {B : β → List (Entry n b) → Prop}
    {C : β → γ → List (Entry n b) → Prop} (hm : Emits m B) (hf : ∀ r, Emits (f r) (C r)) (hC : ∀ r, ∃ r' l, C r r' l) :
    Emits (m >>= f) fun r' l => ∃ r l1 l2, B r l1 ∧ C r r' l2 ∧ l = l1 ++ l2 := by
  have key : ∀ o, (∃ r o1, m o = (.ok r, o1) ∧ (m >>= f) o = f r o1) ∨
      ∃ e o1, m o = (e, o1) ∧ e.isOk = false ∧ (m >>= f) o = (e.fail, o1) := by
    intro o
    rw [SM.bind_apply]
    rcases m o with ⟨r | e | _ | _, o1⟩
    · exact .inl ⟨r, o1, rfl, rfl⟩
    · exact .inr ⟨_, o1, rfl, rfl, rfl⟩
    · exact .inr ⟨_, o1, rfl, rfl, rfl⟩
    · exact .inr ⟨_, o1, rfl, rfl, rfl⟩
  refine ⟨fun o r' o' he => ?_, fun o e o' he hfail => ?_⟩
  · rcases key o with ⟨r, o1, h1, h2⟩ | ⟨e, o1, h1, h2, h3⟩
    · rw [h2] at he
      obtain ⟨l1, b1, g1⟩ := hm.ok o r o1 h1
      obtain ⟨l2, b2, g2⟩ := (hf r).ok o1 r' o' he
      exact ⟨l1 ++ l2, ⟨r, l1, l2, b1, b2, rfl⟩, by rw [g2, g1, List.append_assoc]⟩
    · rw [h3] at he
      cases e <;> simp [Res.fail, Res.isOk] at he h2
  · rcases key o with ⟨r, o1, h1, h2⟩ | ⟨e1, o1, h1, h2, h3⟩
    · rw [h2] at he
      obtain ⟨l1, b1, g1⟩ := hm.ok o r o1 h1
      obtain ⟨s, r', l2, l2', b2, c2, g2⟩ := (hf r).fail o1 e o' he hfail
      exact ⟨s, r', l1 ++ l2, l1 ++ l2', ⟨r, l1, l2', b1, b2, rfl⟩, CutOf.prepend l1 c2, by rw [g2, g1, List.append_assoc]⟩
    · rw [h3] at he
      obtain ⟨rfl, rfl⟩ : e1.fail = e ∧ o1 = o' := by simpa using he
      obtain ⟨s, r, l1, l1', b1, c1, g1⟩ := hm.fail o e1 o1 h1 h2
      obtain ⟨r', l2, b2⟩ := hC r
      exact ⟨Res.fail_soft s, r', l1, l1' ++ l2, ⟨r, l1', l2, b1, b2, rfl⟩, CutOf.append c1 l2, g1⟩

theorem Emits.get_bind {f : OState η n b → SM (OState η n b) γ} {C : γ → List (Entry n b) → Prop}
    (hf : ∀ o, Emits (f o) C) : Emits (SM.get >>= f) C :=
  ⟨fun o r o' h => (hf o).ok o r o' h, fun o e o' h => (hf o).fail o e o' h⟩

theorem emits_pure (r : β) : Emits (pure r : SM (OState η n b) β) fun r' l => r' = r ∧ l = [] := by
  refine ⟨?_, ?_⟩
  · rintro o _ _ ⟨⟩
    exact ⟨[], ⟨rfl, rfl⟩, by simp⟩
  · rintro o _ _ ⟨⟩ h
    cases h

theorem emits_lift [Nonempty β] {r : Res β} (h : r.Soft → r.isOk = true) :
    Emits (SM.lift r : SM (OState η n b) β) fun _ l => l = [] := by
  refine ⟨?_, ?_⟩
  · rintro o x o' h
    obtain ⟨rfl, rfl⟩ : r = .ok x ∧ o = o' := by simpa using h
    exact ⟨[], rfl, by simp⟩
  · rintro o e o' h' hf
    obtain ⟨rfl, rfl⟩ : r = e ∧ o = o' := by simpa using h'
    exact ⟨fun hs => absurd (h hs) (by rw [hf]; simp), Classical.arbitrary β, [], [], rfl, CutOf.refl _, by simp⟩

theorem emits_hostDo [Nonempty β] (c : HostCall n b) (f : η → Option β × η) :
    Emits (hostDo c f) fun _ l => l = [.host c true] := by
  refine ⟨fun o r o' h => ?_, fun o e o' h hf => ?_⟩
  · rw [hostDo, hostCall] at h
    rcases hx : f o.s.h with ⟨_ | x, h'⟩ <;> rw [hx] at h <;> cases h
    exact ⟨_, rfl, rfl⟩
  · rw [hostDo, hostCall] at h
    rcases hx : f o.s.h with ⟨_ | x, h'⟩ <;> rw [hx] at h <;> cases h
    · exact ⟨fun h => h, Classical.arbitrary β, [.host c false], _, rfl, .inr ⟨[], .host c true, by simp, rfl⟩, rfl⟩
    · cases hf

theorem emits_applyS (A : Operators η n b) (k : Fin K) (x : Mat (n k) (b k)) :
    Emits (applyS A k x) fun y l => l = [.S k x (some y)] := by
  refine ⟨fun o r o' h => ?_, fun o e o' h hf => ?_⟩
  · rw [applyS] at h
    rcases hx : A.S k x o.s.h with ⟨_ | y, h'⟩ <;> rw [hx] at h <;> cases h
    exact ⟨_, rfl, rfl⟩
  · rw [applyS] at h
    rcases hx : A.S k x o.s.h with ⟨_ | y, h'⟩ <;> rw [hx] at h <;> cases h
    · exact ⟨fun h => h, 0, [.S k x none], _, rfl, .inr ⟨[], .S k x (some 0), by simp, rfl⟩, rfl⟩
    · cases hf

theorem emits_applyP (A : Operators η n b) (k : Fin K) (x : Mat (n k) (b k)) :
    Emits (applyP A k x) fun y l => l = [.P k x (some y)] := by
  refine ⟨fun o r o' h => ?_, fun o e o' h hf => ?_⟩
  · rw [applyP] at h
    rcases hx : A.P k x o.s.h with ⟨_ | y, h'⟩ <;> rw [hx] at h <;> cases h
    exact ⟨_, rfl, rfl⟩
  · rw [applyP] at h
    rcases hx : A.P k x o.s.h with ⟨_ | y, h'⟩ <;> rw [hx] at h <;> cases h
    · exact ⟨fun h => h, 0, [.P k x none], _, rfl, .inr ⟨[], .P k x (some 0), by simp, rfl⟩, rfl⟩
    · cases hf

theorem emits_forAllM : {J : ℕ} → {β : Fin J → Type} → {f : (j : Fin J) → SM (OState η n b) (β j)} →
    {B : (j : Fin J) → β j → List (Entry n b) → Prop} → (∀ j, Emits (f j) (B j)) → (∀ j, ∃ r l, B j r l) →
    Emits (forAllM f) fun r l => ∃ g : Fin J → List (Entry n b), (∀ j, B j (r j) (g j)) ∧ l = (List.ofFn g).flatten
  | 0, _, _, _, _, _ => (emits_pure _).mono fun r l h => ⟨fun j => j.elim0, fun j => j.elim0, by simp [h.2]⟩
  | J + 1, β, f, B, hf, hB => by
    have ih := emits_forAllM (fun j => hf j.succ) fun j => hB j.succ
    have ne : ∃ (r : (j : Fin J) → β j.succ) (l : List (Entry n b)),
        ∃ g : Fin J → List (Entry n b), (∀ j, B j.succ (r j) (g j)) ∧ l = (List.ofFn g).flatten := by
      choose r l h using fun j : Fin J => hB j.succ
      exact ⟨r, _, l, h, rfl⟩
    refine ((hf 0).bind (fun a => ih.bind (fun r => emits_pure (Fin.cons a r : (j : Fin (J + 1)) → β j))
      fun r => ⟨_, [], rfl, rfl⟩) fun a => ?_).mono ?_
    · obtain ⟨r, l, h⟩ := ne
      exact ⟨_, _, r, l, [], h, ⟨rfl, rfl⟩, rfl⟩
    · rintro r l ⟨a, l1, l2, h1, ⟨r', l3, l4, ⟨g, hg, rfl⟩, ⟨rfl, rfl⟩, rfl⟩, rfl⟩
      refine ⟨Fin.cons l1 g, fun j => ?_, by simp [List.ofFn_succ]⟩
      refine Fin.cases ?_ (fun j => ?_) j
      · exact h1
      · exact hg j

/-! ## The parts of the solver -/

theorem emits_evaluateO (host : Host η n b) (c : Cfg n b) (X : Orbitals n b) (fn en : Bands b) (mu : ℝ) :
    Emits (evaluateO host c X fn en mu) fun _ l => l = told (X, fn, mu) := by
  have last : ∀ e : ℝ, Emits (SM.modify fun st : OState η n b => { st with s := { st.s with
      S := entropyTerm c.t c.T c.mo mu (List.ofFn fun k => (c.wk k, List.ofFn (en k)))
      F := e + entropyTerm c.t c.T c.mo mu (List.ofFn fun k => (c.wk k, List.ofFn (en k))) } })
      fun _ l => l = [] := by
    intro e
    refine ⟨?_, ?_⟩
    · rintro o _ _ ⟨⟩
      exact ⟨[], rfl, by simp⟩
    · rintro o _ _ ⟨⟩ h
      cases h
  have h5 := (emits_hostDo (.energy : HostCall n b) host.energy).bind last fun _ => ⟨(), [], rfl⟩
  have h4 := (emits_hostDo (.setMu mu : HostCall n b) (host.setMu mu)).bind (fun _ => h5)
    fun _ => ⟨(), _, 0, _, _, rfl, rfl, rfl⟩
  have h3 := (emits_hostDo (.compute : HostCall n b) host.compute).bind (fun _ => h4)
    fun _ => ⟨(), _, (), _, _, rfl, ⟨0, _, _, rfl, rfl, rfl⟩, rfl⟩
  have h2 := (emits_hostDo (.setFn fn : HostCall n b) (host.setFn fn)).bind (fun _ => h3)
    fun _ => ⟨(), _, (), _, _, rfl, ⟨(), _, _, rfl, ⟨0, _, _, rfl, rfl, rfl⟩, rfl⟩, rfl⟩
  have h1 := (emits_hostDo (.setC X : HostCall n b) (host.setC X)).bind (fun _ => h2)
    fun _ => ⟨(), _, (), _, _, rfl, ⟨(), _, _, rfl, ⟨(), _, _, rfl, ⟨0, _, _, rfl, rfl, rfl⟩, rfl⟩, rfl⟩, rfl⟩
  refine h1.mono ?_
  rintro _ l ⟨_, l1, l2, rfl, ⟨_, l3, l4, rfl, ⟨_, l5, l6, rfl, ⟨_, l7, l8, rfl, ⟨_, l9, l10, rfl, rfl, rfl⟩, rfl⟩, rfl⟩, rfl⟩, rfl⟩
  rfl

theorem emits_lmultO (A : Operators η n b) (la : Lapack) (k : Fin K) (sx hx : Mat (n k) (b k)) :
    Emits (lmultO A la k sx hx) fun y l => ∃ p q ll, y = sx * ll ∧ l = [.P k sx (some p), .P k hx (some q)] := by
  refine ((emits_applyP A k sx).bind (fun p => (emits_applyP A k hx).bind (fun q => emits_pure _)
    fun q => ⟨_, [], rfl, rfl⟩) fun p => ⟨_, _, 0, _, [], rfl, ⟨rfl, rfl⟩, rfl⟩).mono ?_
  rintro y l ⟨p, l1, l2, rfl, ⟨q, l3, l4, rfl, ⟨rfl, rfl⟩, rfl⟩, rfl⟩
  exact ⟨p, q, _, rfl, rfl⟩

theorem emits_execSpcO (A : Operators η n b) (la : Lapack) (p : DirParams) (dF sumfn : ℝ) (k : Fin K)
    (ki : KIn (n k) (b k)) : Emits (execSpcO A la p dF sumfn k ki) fun _ l => DirectionAt k ki.X l := by
  unfold execSpcO precondgxO
  refine ((emits_applyS A k ki.X).bind (fun sx => (emits_lmultO A la k sx ki.hx).bind
    (fun llm => (emits_applyP A k _).bind (fun dx => emits_pure _) fun dx => ⟨_, [], rfl, rfl⟩)
    fun llm => ⟨_, _, 0, _, [], rfl, ⟨rfl, rfl⟩, rfl⟩) fun sx => ?_).mono ?_
  · exact ⟨_, _, sx * 0, _, _, ⟨0, 0, 0, rfl, rfl⟩, ⟨0, _, [], rfl, ⟨rfl, rfl⟩, rfl⟩, rfl⟩
  · rintro y l ⟨sx, l1, l2, rfl, ⟨llm, l3, l4, ⟨p, q, ll, rfl, rfl⟩, ⟨dx, l5, l6, rfl, ⟨rfl, rfl⟩, rfl⟩, rfl⟩, rfl⟩
    refine ⟨sx, ki.hx, p, q, dx, ll, ?_⟩
    have : addM (addM 0 ki.hx (-1) 0) (sx * ll) 1 = sx * ll - ki.hx := by
      simp only [addM, one_smul, zero_smul, neg_smul, zero_add]
      rw [sub_eq_add_neg, add_comm]
    rw [← this]
    rfl

theorem directionAt_ne (k : Fin K) (x : Mat (n k) (b k)) : ∃ l : List (Entry n b), DirectionAt k x l :=
  ⟨_, 0, 0, 0, 0, 0, 0, rfl⟩

theorem emits_restartedO (host : Host η n b) (A : Operators η n b) (c : Cfg n b) (pt : Point n b) :
    Emits (restartedO host A c pt) fun _ l => Each (fun k => DirectionAt k (pt.X k)) l := by
  unfold restartedO
  refine Emits.get_bind fun o => ?_
  refine ((emits_forAllM (fun k => emits_execSpcO A c.la _ _ _ k _) fun k => ?_).bind (fun r => emits_pure _)
    fun r => ⟨_, [], rfl, rfl⟩).mono ?_
  · obtain ⟨l, h⟩ := directionAt_ne k (pt.X k)
    exact ⟨(⟨0, 0, 0, 0, 0⟩, 0), l, h⟩
  · rintro y l ⟨r, l1, l2, ⟨g, h1, rfl⟩, ⟨rfl, rfl⟩, rfl⟩
    exact ⟨g, h1, by simp⟩

theorem emits_conjugatedO (host : Host η n b) (A : Operators η n b) (c : Cfg n b) (fr : ℝ) (pt : Point n b)
    (dir : Dir n b) : Emits (conjugatedO host A c fr pt dir) fun _ l => Each (fun k => DirectionAt k (pt.X k)) l := by
  unfold conjugatedO
  refine Emits.get_bind fun o => ?_
  have task : ∀ k, Emits (conjTask A c.la (dirParams c pt) (globals (dirParams c pt) (kIn host c pt o.s.h)).1
      (globals (dirParams c pt) (kIn host c pt o.s.h)).2 dir pt.ul k (kIn host c pt o.s.h k))
      fun _ l => DirectionAt k (pt.X k) l := by
    intro k
    refine ((emits_execSpcO A c.la _ _ _ k _).bind (fun r => emits_pure _) fun r => ⟨_, [], rfl, rfl⟩).mono ?_
    rintro y l ⟨r, l1, l2, h1, ⟨rfl, rfl⟩, rfl⟩
    rw [List.append_nil]
    exact h1
  refine ((emits_forAllM task fun k => ?_).bind (fun r => emits_pure _) fun r => ⟨_, [], rfl, rfl⟩).mono ?_
  · obtain ⟨l, h⟩ := directionAt_ne k (pt.X k)
    exact ⟨(⟨0, 0, 0, 0, 0⟩, 0, 0, 0), l, h⟩
  · rintro y l ⟨r, l1, l2, ⟨g, h1, rfl⟩, ⟨rfl, rfl⟩, rfl⟩
    exact ⟨g, h1, by simp⟩

theorem eigh_hard (la : Lapack) {m : ℕ} (M : Mat m m) (h : (la.eigh M).Soft) : (la.eigh M).isOk = true := by
  unfold Lapack.eigh at h ⊢
  simp only at h ⊢
  split at h
  · exact absurd h (fun h => h)
  · rename_i h'
    rw [if_neg h']
    rfl

theorem Res.hard_bind {r : Res β} {f : β → Res γ} (h : r.Soft → r.isOk = true)
    (hf : ∀ x, (f x).Soft → (f x).isOk = true) (hs : (r >>= f).Soft) : (r >>= f).isOk = true := by
  rcases r with q | e | _ | _
  · exact hf q hs
  · exact absurd (h (by cases e <;> exact hs)) (by simp [Res.isOk])
  · exact absurd hs fun h => h
  · exact absurd hs fun h => h

theorem loewdin_hard (la : Lapack) {m l : ℕ} (x sx : Mat m l) (h : (loewdin la x sx).Soft) :
    (loewdin la x sx).isOk = true :=
  Res.hard_bind (eigh_hard la (innerM x sx)) (fun _ _ => rfl) h

theorem loewdin_combination {la : Lapack} {m l : ℕ} {x sx y : Mat m l} (h : loewdin la x sx = .ok y) :
    ∃ R, y = x * R := by
  simp only [loewdin] at h
  rcases hq : la.eigh (innerM x sx) with q | e | _ | _ <;> rw [hq] at h <;> cases h
  exact ⟨_, rfl⟩

theorem emits_lift' [Nonempty β] {r : Res β} {P : β → Prop} (hn : ∃ x, P x) (h : r.Soft → r.isOk = true)
    (hP : ∀ x, r = .ok x → P x) : Emits (SM.lift r : SM (OState η n b) β) fun x l => P x ∧ l = [] := by
  refine ⟨?_, ?_⟩
  · rintro o x o' h
    obtain ⟨rfl, rfl⟩ : r = .ok x ∧ o = o' := by simpa using h
    exact ⟨[], ⟨hP x rfl, rfl⟩, by simp⟩
  · rintro o e o' h' hf
    obtain ⟨rfl, rfl⟩ : r = e ∧ o = o' := by simpa using h'
    obtain ⟨x, hx⟩ := hn
    exact ⟨fun hs => absurd (h hs) (by rw [hf]; simp), x, [], [], ⟨hx, rfl⟩, CutOf.refl _, by simp⟩

theorem emits_geoTask (A : Operators η n b) (la : Lapack) (pt : Point n b) (dir : Dir n b) (t : ℝ) (k : Fin K) :
    Emits (geoTask A la pt dir t k) fun g l => StepAt (fun k => addM (pt.X k) (dir.zx k) (t : ℂ)) k l ∧
      ∃ R, g.X = addM (pt.X k) (dir.zx k) (t : ℂ) * R := by
  refine ((emits_lift (eigh_hard la _)).bind (fun q => (emits_applyS A k _).bind (fun sx =>
    (emits_lift' ⟨_, 0, rfl⟩ (loewdin_hard la (addM (pt.X k) (dir.zx k) (t : ℂ)) sx) fun x hx => loewdin_combination hx).bind
      (fun x2 => emits_pure _) fun x2 => ⟨_, [], rfl, rfl⟩) fun sx => ?_) fun q => ?_).mono ?_
  · exact ⟨_, _, _, _, [], ⟨⟨0, rfl⟩, rfl⟩, ⟨rfl, rfl⟩, rfl⟩
  · exact ⟨_, _, 0, _, _, rfl, ⟨_, _, [], ⟨⟨0, rfl⟩, rfl⟩, ⟨rfl, rfl⟩, rfl⟩, rfl⟩
  · rintro g l ⟨q, l1, l2, rfl, ⟨sx, l3, l4, rfl, ⟨x2, l5, l6, ⟨⟨R, hR⟩, rfl⟩, ⟨rfl, rfl⟩, rfl⟩, rfl⟩, rfl⟩
    refine ⟨⟨sx, rfl⟩, R * q.2, ?_⟩
    simp only [transformM, hR, Matrix.mul_assoc]

theorem occ_hard {c : Cfg n b} (hc : OccHard c) (ek : Bands b) (h : (c.occ ek).Soft) : (c.occ ek).isOk = true := by
  have h1 := hc ek
  generalize c.occ ek = r at h h1 ⊢
  rcases r with q | e | _ | _
  · rfl
  · obtain ⟨a1, a2, a3⟩ := h1 e rfl
    cases e <;> first | exact absurd h fun h => h | contradiction
  · exact absurd h fun h => h
  · exact absurd h fun h => h

/-- what a step with trial orbitals `y` records -/
def StepCalls (y : Orbitals n b) (pt' : Point n b) (l : List (Entry n b)) : Prop :=
  ∃ (R : (k : Fin K) → Mat (b k) (b k)) (f : Bands b) (mu : ℝ) (l1 : List (Entry n b)),
    Each (StepAt y) l1 ∧ (pt'.X = fun k => y k * R k) ∧ l = l1 ++ told (fun k => y k * R k, f, mu)

theorem emits_geoO (host : Host η n b) (A : Operators η n b) {c : Cfg n b} (hc : OccHard c) (pt : Point n b)
    (dir : Dir n b) (t : ℝ) : Emits (geoO host A c pt dir t) (StepCalls fun k => addM (pt.X k) (dir.zx k) (t : ℂ)) := by
  have stepNe : ∀ k : Fin K, ∃ (r : GeoOut (n k) (b k)) (l : List (Entry n b)),
      StepAt (fun k => addM (pt.X k) (dir.zx k) (t : ℂ)) k l ∧ ∃ R, r.X = addM (pt.X k) (dir.zx k) (t : ℂ) * R :=
    fun k => ⟨⟨0, 0, addM (pt.X k) (dir.zx k) (t : ℂ) * 0⟩, _, ⟨0, rfl⟩, 0, rfl⟩
  refine ((emits_forAllM (fun k => emits_geoTask A c.la pt dir t k) stepNe).bind (fun g =>
    (emits_lift (occ_hard hc _)).bind (fun q => (emits_evaluateO host c _ _ _ _).bind (fun u => emits_pure _)
      fun u => ⟨_, [], rfl, rfl⟩) fun q => ⟨_, _, (), _, [], rfl, ⟨rfl, rfl⟩, rfl⟩) fun g => ?_).mono ?_
  · exact ⟨_, _, (0, fun _ _ => 0), _, _, rfl, ⟨(), _, [], rfl, ⟨rfl, rfl⟩, rfl⟩, rfl⟩
  · rintro pt' l ⟨g, l1, l2, ⟨gl, h1, rfl⟩, ⟨q, l3, l4, rfl, ⟨u, l5, l6, rfl, ⟨rfl, rfl⟩, rfl⟩, rfl⟩, rfl⟩
    choose h1 R hR using h1
    have e : (fun k => (g k).X) = fun k => addM (pt.X k) (dir.zx k) (t : ℂ) * R k := funext hR
    refine ⟨R, q.2, q.1, _, ⟨gl, h1, rfl⟩, e, ?_⟩
    rw [← e]
    simp

end Nlcg
