import Verif.Proofs.OpCalls
import Verif.Proofs.HostError
import Verif.Proofs.Simulation

/-! Rules for runs with operators of the host that act. -/

namespace Nlcg
open Matrix Spec

variable {K : ℕ} {n b : Fin K → ℕ} {η β γ : Type}

/-! ## The order of calls -/

/-- the record of a state in good order -/
def Recorded (X : Orbitals n b) (o : OState η n b) : Prop := History o.log (some X)

theorem Spec.History.brokenOff {l : List (Entry n b)} {X : Option (Orbitals n b)} (h : History l X) : BrokenOff l :=
  ⟨l, X, h, CutOf.refl l⟩

theorem keeps_emits {m : SM (OState η n b) β} {B : β → List (Entry n b) → Prop} (hm : Emits m B) {o : OState η n b}
    {X : β → Orbitals n b} {X0 : Orbitals n b}
    (hB : ∀ r l, B r l → History (o.log ++ l) (some (X r))) :
    Keeps (fun s => ∃ X, Recorded X s) (fun s => BrokenOff s.log) (fun r s => Recorded (X r) s) (m o) := by
  rcases hq : m o with ⟨q, o'⟩
  by_cases hok : q.isOk = true
  · cases q <;> first | cases hok | skip
    rename_i r
    obtain ⟨l, h1, h2⟩ := hm.ok o r o' hq
    have := hB r l h1
    rw [← h2] at this
    exact ⟨this.brokenOff, fun _ => ⟨_, this⟩, fun r' h => by cases h; exact this⟩
  · obtain ⟨h0, r, l, l', h1, h2, h3⟩ := hm.fail o q o' hq (by simpa using hok)
    refine ⟨⟨_, _, hB r l' h1, by rw [h3]; exact CutOf.prepend _ h2⟩, fun h => absurd h h0, fun r h => ?_⟩
    rw [show q = .ok r from h] at hok
    exact absurd rfl hok

/-- the calls of an evaluation change the orbitals of the host to those evaluated -/
theorem evaluateO_C {host : Host η n b} (hh : HostOk host) {c : Cfg n b} {X : Orbitals n b} {fn en : Bands b} {mu : ℝ}
    {o o' : OState η n b} (h : evaluateO host c X fn en mu o = (.ok (), o')) : host.C o'.s.h = X := by
  simp only [evaluateO, SM.bind_apply, hostDo, hostCall] at h
  rcases h1 : host.setC X o.s.h with ⟨_ | u1, s1⟩ <;> simp only [h1] at h
  · cases h
  rcases h2 : host.setFn fn s1 with ⟨_ | u2, s2⟩ <;> simp only [h2] at h
  · cases h
  rcases h3 : host.compute s2 with ⟨_ | u3, s3⟩ <;> simp only [h3] at h
  · cases h
  rcases h4 : host.setMu mu s3 with ⟨_ | u4, s4⟩ <;> simp only [h4] at h
  · cases h
  rcases h5 : host.energy s4 with ⟨_ | e, s5⟩ <;> simp only [h5] at h
  · cases h
  cases h
  simp only
  rw [(hh.energy s4 e s5 h5).1.C, (hh.setMu mu s3 s4 h4).1.C, (hh.compute s2 s3 h3).1, (hh.setFn _ s1 s2 h2).2,
    hh.setC X _ s1 h1]

theorem op_setup {host : Host η n b} (hh : HostOk host) (c : Cfg n b) {o : OState η n b} (h0 : o.log = []) :
    Keeps (fun _ => True) (fun s => BrokenOff s.log)
      (fun pt s => (∃ X, Recorded X s) ∧ Recorded pt.X s) (setupO host c o) := by
  rw [setupO, SM.bind_apply]
  have e1 := emits_hostDo (η := η) (.compute : HostCall n b) host.compute
  rcases hq : hostDo (.compute : HostCall n b) host.compute o with ⟨q, o1⟩
  have bad : ∀ (r : Res (Point n b)), BrokenOff o1.log → r.isOk = false →
      Keeps (fun _ => True) (fun s => BrokenOff s.log)
        (fun pt s => (∃ X, Recorded X s) ∧ Recorded pt.X s) (r, o1) := by
    intro r hb hr
    exact ⟨hb, fun _ => trivial, fun x hx => by rw [show r = .ok x from hx] at hr; cases hr⟩
  have cut : q.isOk = false → BrokenOff o1.log := by
    intro hf
    obtain ⟨-, r, l, l', h1, h2, h3⟩ := e1.fail o q o1 hq hf
    refine ⟨_, _, .start, ?_⟩
    rw [h3, h0]
    rw [h1] at h2
    exact h2
  rcases q with u | e | _ | _
  · obtain ⟨l, h1, h2⟩ := e1.ok o u o1 hq
    rw [h0, h1, List.nil_append] at h2
    have hst : History o1.log none := by rw [h2]; exact .start
    simp only
    rw [SM.get_bind, SM.lift_bind]
    rcases c.occ (host.ek o1.s.h) with ⟨mu, f⟩ | e | _ | _
    · simp only
      rw [SM.get_bind, SM.bind_apply]
      have e2 := emits_evaluateO host c (host.C o1.s.h) f (host.ek o1.s.h) mu
      rcases hv : evaluateO host c (host.C o1.s.h) f (host.ek o1.s.h) mu o1 with ⟨q2, o2⟩
      have cut2 : q2.isOk = false → BrokenOff o2.log := by
        intro hf
        obtain ⟨-, r, l, l', h1, h2, h3⟩ := e2.fail o1 q2 o2 hv hf
        refine ⟨_, _, .first _ (host.C o1.s.h) f mu hst, ?_⟩
        rw [h3, ← h1]
        exact CutOf.prepend _ h2
      rcases q2 with u | e | _ | _
      · obtain ⟨l, h3, h4⟩ := e2.ok o1 u o2 hv
        simp only
        rw [SM.get_bind, SM.pure_apply]
        have hr : Recorded (host.C o2.s.h) o2 := by
          rw [Recorded, h4, h3, evaluateO_C hh hv]
          exact .first _ _ f mu hst
        exact ⟨Spec.History.brokenOff hr, fun _ => trivial, fun r h => by cases h; exact ⟨⟨_, hr⟩, hr⟩⟩
      all_goals exact ⟨cut2 rfl, fun _ => trivial, by simp⟩
    all_goals exact bad _ hst.brokenOff rfl
  all_goals exact bad _ (cut rfl) rfl

theorem op_rule {host : Host η n b} (hh : HostOk host) (A : Operators η n b) {c : Cfg n b} (hc : OccHard c) :
    RunRule (opOps host A c) (fun s => s.log = []) (fun s => ∃ X, Recorded X s) (fun s => BrokenOff s.log)
      (fun pt s => Recorded pt.X s) (fun pt s => Recorded pt.X s) (fun _ _ _ => True) where
  weaken := fun s ⟨X, h⟩ => Spec.History.brokenOff h
  construct := fun s h => ⟨⟨_, _, .start, .inl (by
    rw [show ((opOps host A c).construct s).2 = s from rfl, h]; exact List.nil_prefix)⟩, fun _ => h, fun _ _ => trivial⟩
  setup := fun s h => op_setup hh c h
  restarted := by
    intro pt s hI hJ
    have := keeps_emits (emits_restartedO host A c pt) (o := s) (X := fun _ => pt.X) (X0 := pt.X)
      fun r l hl => .direction _ _ _ hJ hl
    exact ⟨this.any, this.soft, fun r h => ⟨this.ok r h, trivial⟩⟩
  conjugated := by
    intro fr pt dir s pt0 sl0 hI hJ hD
    have := keeps_emits (emits_conjugatedO host A c fr pt dir) (o := s) (X := fun _ => pt.X) (X0 := pt.X)
      fun r l hl => .direction _ _ _ hJ hl
    exact ⟨this.any, this.soft, fun r h => ⟨this.ok r h, fun _ => trivial⟩⟩
  geo := by
    rintro pt dir sl t s ⟨X, hX⟩ hD
    refine keeps_emits (emits_geoO host A hc pt dir t) (o := s) (X := fun r => r.X) (X0 := X) ?_
    rintro r l ⟨R, f, mu, l1, h1, h2, rfl⟩
    rw [h2, ← List.append_assoc]
    exact .step _ _ _ _ R f mu hX h1
  refresh := fun r s h hG => ⟨Spec.History.brokenOff hG, fun _ => h, fun r' h' => by
    obtain rfl : _ = r' := by simpa [opOps, refreshO] using h'
    exact hG⟩
  gather := fun pt s h hJ => ⟨Spec.History.brokenOff hJ, fun _ => h, fun _ _ => hJ⟩
  print := by
    intro pt s hI hJ
    refine keeps_emits (emits_hostDo (.print : HostCall n b) host.print) (o := s) (X := fun _ => pt.X) (X0 := pt.X) ?_
    rintro r l rfl
    exact .print _ _ hJ

/-! ## Errors -/

/-- no call has thrown -/
def AllWell (o : OState η n b) : Prop := ∀ e ∈ o.log, ¬ Threw e

/-- the last call has thrown and no other -/
def LastBroke (o : OState η n b) : Prop := ∃ l e, (∀ e' ∈ l, ¬ Threw e') ∧ Threw e ∧ o.log = l ++ [e]

theorem fate_entry {m : SM (OState η n b) β} {o : OState η n b} (h : AllWell o) {e : Entry n b}
    (hl : (m o).2.log = o.log ++ [e]) (he : Threw e → (m o).1 = .throw .runtimeError) :
    Fate AllWell LastBroke .runtimeError (m o).1 (m o).2 := by
  by_cases ht : Threw e
  · exact .inr ⟨he ht, o.log, e, h, ht, hl⟩
  · refine .inl fun e' he' => ?_
    rw [hl] at he'
    rcases List.mem_append.1 he' with he' | he'
    · exact h e' he'
    · rw [List.mem_singleton.1 he']; exact ht

theorem fate_hostDo (c : HostCall n b) (f : η → Option β × η) {o : OState η n b} (h : AllWell o) :
    Fate AllWell LastBroke .runtimeError (hostDo c f o).1 (hostDo c f o).2 := by
  refine fate_entry h rfl fun ht => ?_
  simp only [hostDo, hostCall]
  rcases hq : f o.s.h with ⟨_ | r, h'⟩
  · rfl
  · rw [hq] at ht; cases ht

theorem fate_applyS (A : Operators η n b) (k : Fin K) (x : Mat (n k) (b k)) {o : OState η n b} (h : AllWell o) :
    Fate AllWell LastBroke .runtimeError (applyS A k x o).1 (applyS A k x o).2 := by
  refine fate_entry h rfl fun ht => ?_
  simp only [applyS]
  rw [show (A.S k x o.s.h).1 = none from ht]

theorem fate_applyP (A : Operators η n b) (k : Fin K) (x : Mat (n k) (b k)) {o : OState η n b} (h : AllWell o) :
    Fate AllWell LastBroke .runtimeError (applyP A k x o).1 (applyP A k x o).2 := by
  refine fate_entry h rfl fun ht => ?_
  simp only [applyP]
  rw [show (A.P k x o.s.h).1 = none from ht]

theorem fate_forAllM {σ : Type} {C B : σ → Prop} {e : Exc} : {J : ℕ} → {β : Fin J → Type} → {f : (j : Fin J) → SM σ (β j)} →
    (∀ j s, C s → Fate C B e (f j s).1 (f j s).2) → ∀ s, C s → Fate C B e (forAllM f s).1 (forAllM f s).2
  | 0, _, _, _ => fun s h => .inl h
  | J + 1, β, f, hf => fun s h => by
    rw [forAllM]
    refine fate_bind (hf 0 s h) fun r s1 h1 => ?_
    exact fate_bind (fate_forAllM (fun j => hf j.succ) s1 h1) fun r s2 h2 => .inl h2

theorem fate_evaluateO (host : Host η n b) (c : Cfg n b) (X : Orbitals n b) (fn en : Bands b) (mu : ℝ)
    {o : OState η n b} (h : AllWell o) :
    Fate AllWell LastBroke .runtimeError (evaluateO host c X fn en mu o).1 (evaluateO host c X fn en mu o).2 := by
  rw [evaluateO]
  refine fate_bind (fate_hostDo _ _ h) fun _ s1 h1 => ?_
  refine fate_bind (fate_hostDo _ _ h1) fun _ s2 h2 => ?_
  refine fate_bind (fate_hostDo _ _ h2) fun _ s3 h3 => ?_
  refine fate_bind (fate_hostDo _ _ h3) fun _ s4 h4 => ?_
  exact fate_bind (fate_hostDo _ _ h4) fun _ s5 h5 => .inl h5

theorem fate_execSpcO (A : Operators η n b) (la : Lapack) (p : DirParams) (dF sumfn : ℝ) (k : Fin K)
    (ki : KIn (n k) (b k)) {o : OState η n b} (h : AllWell o) :
    Fate AllWell LastBroke .runtimeError (execSpcO A la p dF sumfn k ki o).1 (execSpcO A la p dF sumfn k ki o).2 := by
  rw [execSpcO]
  refine fate_bind (fate_applyS A k _ h) fun _ s1 h1 => ?_
  refine fate_bind ?_ fun _ s2 h2 => ?_
  · rw [lmultO]
    refine fate_bind (fate_applyP A k _ h1) fun _ s2 h2 => ?_
    exact fate_bind (fate_applyP A k _ h2) fun _ s2 h2 => .inl h2
  · exact fate_bind (fate_applyP A k _ h2) fun _ s2 h2 => .inl h2

theorem op_fate (host : Host η n b) (A : Operators η n b) (c : Cfg n b) :
    FateRule (opOps host A c) AllWell LastBroke .runtimeError where
  construct := fun s h => .inl h
  setup := fun s h => by
    show Fate _ _ _ (setupO host c s).1 (setupO host c s).2
    rw [setupO]
    refine fate_bind (fate_hostDo _ _ h) fun _ s1 h1 => ?_
    refine fate_bind (fate_same rfl h1) fun _ s2 h2 => ?_
    refine fate_bind (fate_same rfl h2) fun q s3 h3 => ?_
    refine fate_bind (fate_same rfl h3) fun _ s4 h4 => ?_
    refine fate_bind (fate_evaluateO host c _ _ _ _ h4) fun _ s5 h5 => ?_
    exact fate_bind (fate_same rfl h5) fun _ s6 h6 => .inl h6
  restarted := fun p s h => by
    show Fate _ _ _ (restartedO host A c p s).1 (restartedO host A c p s).2
    rw [restartedO]
    refine fate_bind (fate_same rfl h) fun _ s1 h1 => ?_
    exact fate_bind (fate_forAllM (fun k s hs => fate_execSpcO A _ _ _ _ k _ hs) s1 h1) fun _ s2 h2 => .inl h2
  conjugated := fun fr p d s h => by
    show Fate _ _ _ (conjugatedO host A c fr p d s).1 (conjugatedO host A c fr p d s).2
    rw [conjugatedO]
    refine fate_bind (fate_same rfl h) fun _ s1 h1 => ?_
    refine fate_bind (fate_forAllM (fun k s hs => ?_) s1 h1) fun _ s2 h2 => .inl h2
    exact fate_bind (fate_execSpcO A _ _ _ _ k _ hs) fun _ s2 h2 => .inl h2
  geo := fun p d t s h => by
    show Fate _ _ _ (geoO host A c p d t s).1 (geoO host A c p d t s).2
    rw [geoO]
    refine fate_bind (fate_forAllM (fun k s hs => ?_) s h) fun _ s1 h1 => ?_
    · refine fate_bind (fate_same rfl hs) fun _ s1 h1 => ?_
      refine fate_bind (fate_applyS A k _ h1) fun _ s2 h2 => ?_
      exact fate_bind (fate_same rfl h2) fun _ s3 h3 => .inl h3
    · refine fate_bind (fate_same rfl h1) fun q s2 h2 => ?_
      exact fate_bind (fate_evaluateO host c _ _ _ _ h2) fun _ s3 h3 => .inl h3
  refresh := fun p s h => .inl h
  gather := fun p s h => .inl h
  print := fun s h => fate_hostDo _ _ h
  step := by decide
  slope := by decide
  descent := by decide

end Nlcg
