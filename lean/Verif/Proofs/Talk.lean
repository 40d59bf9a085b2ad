import Verif.Spec.Talk
import Verif.Proofs.RunRule
import Verif.Proofs.OpCalls

/-! How many collective operations a rank calls. -/

namespace Nlcg
open Arith Matrix Spec

/-! ## The driver -/

section driver
variable {α σ ρ δ : Type} [Arith α]

theorem rounds_append (l l' : List (Ev α)) : rounds (l ++ l') = rounds l + rounds l' := by simp [rounds]

/-- `e` evaluations of eight rounds and `c` further rounds lie between `s` and `s'` -/
def Spent (len en : σ → ℕ) (s s' : σ) (c : ℕ) : Prop := ∃ e, en s' = en s + e ∧ len s' = len s + 8 * e + c

/-- at most that, and perhaps an evaluation that was not finished -/
def Within (len en : σ → ℕ) (s s' : σ) (c : ℕ) : Prop := ∃ e, en s' = en s + e ∧ len s' ≤ len s + 8 * e + c + 8

variable {len en : σ → ℕ}

theorem Spent.trans {s s' s'' : σ} {c c' : ℕ} (h : Spent len en s s' c) (h' : Spent len en s' s'' c') :
    Spent len en s s'' (c + c') := by
  obtain ⟨e, a, b⟩ := h
  obtain ⟨e', a', b'⟩ := h'
  exact ⟨e + e', by omega, by omega⟩

theorem Spent.within {s s' s'' : σ} {c c' : ℕ} (h : Spent len en s s' c) (h' : Within len en s' s'' c') :
    Within len en s s'' (c + c') := by
  obtain ⟨e, a, b⟩ := h
  obtain ⟨e', a', b'⟩ := h'
  exact ⟨e + e', by omega, by omega⟩

theorem Spent.weaken {s s' : σ} {c c' : ℕ} (h : Spent len en s s' c) (hc : c ≤ c') : Within len en s s' c' := by
  obtain ⟨e, a, b⟩ := h
  exact ⟨e, a, by omega⟩

theorem Within.mono {s s' : σ} {c c' : ℕ} (h : Within len en s s' c) (hc : c ≤ c') : Within len en s s' c' := by
  obtain ⟨e, a, b⟩ := h
  exact ⟨e, a, by omega⟩

theorem spent_refl (s : σ) : Spent len en s s 0 := ⟨0, rfl, rfl⟩

/-- an operation of cost `c`: paid in full when it returns, and it throws nothing that the solver catches -/
structure Costs {β : Type} (len en : σ → ℕ) (c : ℕ) (s : σ) (q : Res β × σ) : Prop where
  any : Within len en s q.2 c
  soft : q.1.Soft → q.1.isOk = true ∧ Spent len en s q.2 c

structure Talks (ops : Ops α σ ρ δ) (len en : σ → ℕ) : Prop where
  construct : ∀ s, Costs len en 0 s (ops.construct s)
  setup : ∀ s, Costs len en 1 s (ops.setup s)
  restarted : ∀ pt s, Costs len en 3 s (ops.restarted pt s)
  conjugated : ∀ fr pt dir s, Costs len en 4 s (ops.conjugated fr pt dir s)
  geo : ∀ pt dir t s, Costs len en 0 s (ops.geo pt dir t s)
  refresh : ∀ r s, Costs len en 0 s (ops.refresh r s)
  gather : ∀ pt s, Costs len en 2 s (ops.gather pt s)
  hostPrint : ∀ s, Costs len en 1 s (ops.hostPrint s)

theorem Costs.ok {β : Type} {c : ℕ} {s s' : σ} {q : Res β × σ} {x : β} (h : Costs len en c s q) (e : q = (.ok x, s')) :
    Spent len en s s' c := by
  subst e; exact (h.soft trivial).2

theorem Costs.of {β : Type} {c : ℕ} {s s' : σ} {q : Res β × σ} {o : Res β} (h : Costs len en c s q) (e : q = (o, s')) :
    Within len en s s' c := by
  subst e; exact h.any

theorem Costs.hard {β γ : Type} {c : ℕ} {s s' : σ} {q : Res β × σ} {o : Res β} (h : Costs len en c s q) (e : q = (o, s'))
    (hf : o.isOk = false) : ¬ (o.fail : Res γ).Soft := by
  subst e
  intro hs
  have := (h.soft hs.fail).1
  rw [hf] at this
  cases this

variable {ops : Ops α σ ρ δ} {prm : NlcgParams α} {fuel rank : ℕ}

/-- rounds for the band data in step `i` -/
def tenth (i : ℕ) : ℕ := if i % 10 = 0 then 2 else 0

theorem Talks.json (h : Talks ops len en) {i : ℕ} {slope : α} {pt : ρ} {w : NState α σ} {o : Res Unit}
    {s' : σ} {file' : List (JsonRec α)} (hj : JsonRun ops rank i slope pt w o s' file') :
    Costs len en (tenth i) w.s (o, s') := by
  obtain ⟨h1, -⟩ := hj
  rw [tenth]
  split at h1
  · rw [if_pos (by assumption), h1]; exact h.gather pt w.s
  · rw [if_neg (by assumption)]
    cases h1
    exact ⟨(spent_refl _).weaken le_rfl, fun _ => ⟨rfl, spent_refl _⟩⟩

theorem Talks.search (h : Talks ops len en) {pt : ρ} {dir : δ} {p : LSParams α} {slope : α}
    {st st' : LSState α σ} {o : Res ρ}
    (hl : lineSearch { G := ops.geo pt dir, getF := ops.getF } p fuel slope st = some (o, st')) :
    Within len en st.s st'.s 0 ∧ (o.Soft → Spent len en st.s st'.s 0) := by
  have := wp_lineSearch (env := { G := ops.geo pt dir, getF := ops.getF }) (I := fun s => Spent len en st.s s 0)
    (E := fun s => Within len en st.s s 0) (P := fun _ _ => True)
    (fun _ h => h.weaken le_rfl)
    (fun t s hs => ⟨hs.within (h.geo pt dir t s).any, fun hq => hs.trans ((h.geo pt dir t s).soft hq).2, fun _ _ => trivial⟩)
    p fuel slope st (spent_refl _) _ _ hl
  exact ⟨this.any, this.soft⟩

theorem Talks.dir (h : Talks ops len en) {i : ℕ} {v : Vars α ρ δ} {r : ρ} {st : LSState α σ}
    {o : Res (Vars α ρ δ)} {dirs : List (Ev α)} {s' : σ} {force' : Bool}
    (hd : DirRun ops prm i v r st o dirs s' force') :
    Within len en st.s s' 7 ∧ (o.Soft → rounds dirs ≤ 7 ∧ Spent len en st.s s' (rounds dirs)) := by
  cases hd with
  | refresh o s4 g1 g2 =>
    exact ⟨((h.refresh _ _).of g1).mono (by omega), fun hs => absurd hs ((h.refresh _ _).hard g1 g2)⟩
  | ub pt s4 g1 => exact ⟨((h.refresh _ _).of g1).mono (by omega), fun hs => absurd hs fun h => h⟩
  | steepestFail pt s4 o s5 g1 g2 g3 g4 g5 =>
    exact ⟨(((h.refresh _ _).ok g1).within ((h.restarted _ _).of g4)).mono (by omega),
      fun hs => absurd hs ((h.restarted _ _).hard g4 g5)⟩
  | steepest pt s4 sl dir s5 g1 g2 g3 g4 =>
    have := ((h.refresh _ _).ok g1).trans ((h.restarted _ _).ok g4)
    exact ⟨this.weaken (by omega), fun _ => ⟨by simp [rounds, roundsOf], this⟩⟩
  | conjugateFail pt s4 o s5 g1 g2 g3 g4 g5 g6 =>
    exact ⟨(((h.refresh _ _).ok g1).within ((h.conjugated _ _ _ _).of g5)).mono (by omega),
      fun hs => absurd hs ((h.conjugated _ _ _ _).hard g5 g6)⟩
  | conjugate pt s4 fr sl dir s5 g1 g2 g3 g4 g5 g6 =>
    have := ((h.refresh _ _).ok g1).trans ((h.conjugated _ _ _ _).ok g5)
    exact ⟨this.weaken (by omega), fun _ => ⟨by simp [rounds, roundsOf], this⟩⟩
  | rejectedFail pt s4 fr c dir s5 o s6 g1 g2 g3 g4 g5 g6 g7 g8 =>
    exact ⟨((((h.refresh _ _).ok g1).trans ((h.conjugated _ _ _ _).ok g5)).within ((h.restarted _ _).of g7)).mono
      (by omega), fun hs => absurd hs ((h.restarted _ _).hard g7 g8)⟩
  | rejected pt s4 fr c dir s5 sl dir6 s6 g1 g2 g3 g4 g5 g6 g7 =>
    have := (((h.refresh _ _).ok g1).trans ((h.conjugated _ _ _ _).ok g5)).trans ((h.restarted _ _).ok g7)
    exact ⟨this.weaken (by omega), fun _ => ⟨by simp [rounds, roundsOf], this⟩⟩

theorem Talks.body (h : Talks ops len en) {i : ℕ} {v : Vars α ρ δ} {w w' : NState α σ}
    {o : Res (Vars α ρ δ)} (hb : BodyRun ops prm fuel rank i v w o w') :
    Within len en w.s w'.s (tenth i + 8) ∧
      (o.Soft → ∃ tr, w'.trace = w.trace ++ tr ∧ rounds tr ≤ tenth i + 8 ∧ Spent len en w.s w'.s (rounds tr)) := by
  cases hb with
  | json o s1 file' g1 g2 =>
    exact ⟨((h.json g1).of rfl).mono (by omega), fun hs => absurd hs ((h.json g1).hard rfl g2)⟩
  | hostPrint s1 s2 file' o g1 g2 g3 =>
    exact ⟨(((h.json g1).ok rfl).within ((h.hostPrint _).of g2)).mono (by omega),
      fun hs => absurd hs ((h.hostPrint _).hard g2 g3)⟩
  | search s1 s2 file' o st tr g1 g2 g3 g4 g5 g6 =>
    have a := ((h.json g1).ok rfl).trans ((h.hostPrint _).ok g2)
    obtain ⟨b1, b2⟩ := h.search g3
    refine ⟨(a.within b1).mono (by omega), fun hs => ⟨_, List.append_assoc _ _ _, ?_⟩⟩
    have hs' : o.Soft := hs.fail
    have ht : rounds tr = 0 := by
      rcases o with x | e | _ | _
      · cases g4
      · rw [g5 e rfl]; rfl
      · exact absurd hs' fun h => h
      · exact absurd hs' fun h => h
    have e : rounds ([.report i (ops.getF s1) (ops.getS s1) v.slope] ++ tr) = tenth i + 1 + 0 := by
      rw [rounds_append, ht]
      simp [rounds, roundsOf, tenth]
      omega
    rw [e]
    exact ⟨by omega, a.trans (b2 hs')⟩
  | searched s1 s2 file' r st o dirs s' force' g1 g2 g3 g4 =>
    have a := (((h.json g1).ok rfl).trans ((h.hostPrint _).ok g2)).trans ((h.search g3).2 trivial)
    obtain ⟨b1, b2⟩ := h.dir g4
    refine ⟨(a.within b1).mono (by omega), fun hs => ⟨_, List.append_assoc _ _ _, ?_⟩⟩
    have e : rounds ([.report i (ops.getF s1) (ops.getS s1) v.slope] ++
        ([.search i w.force, .found i st.forceRestart] ++ dirs)) = tenth i + 1 + 0 + rounds dirs := by
      rw [rounds_append, rounds_append]
      simp [rounds, roundsOf, tenth]
      omega
    rw [e]
    exact ⟨by have := (b2 hs).1; omega, a.trans (b2 hs).2⟩

/-- number of multiples of ten from `i` to `i + n - 1`, twice -/
def tenths (i n : ℕ) : ℕ := 2 * ((i + n + 9) / 10 - (i + 9) / 10)

theorem tenths_succ (i n : ℕ) : tenths i (n + 1) = tenth i + tenths (i + 1) n := by
  simp only [tenths, tenth]
  split <;> omega

theorem Talks.loop (h : Talks ops len en) {n i : ℕ} {v : Vars α ρ δ} {w w' : NState α σ}
    {o : Res (Info α)} (hl : LoopRun ops prm fuel rank n i v w o w') :
    Within len en w.s w'.s (tenths i n + 8 * n) ∧
      (o.isOk = true → ∃ tr, w'.trace = w.trace ++ tr ∧ Spent len en w.s w'.s (rounds tr)) := by
  have no : ∀ {β γ : Type} (o : Res β), (o.fail : Res γ).isOk = true → False := by
    intro β γ o; cases o <;> simp [Res.fail, Res.isOk]
  induction hl with
  | limit i v w => exact ⟨(spent_refl _).weaken (by omega), fun _ => ⟨[], by simp, spent_refl _⟩⟩
  | success n i v w s1 s2 file' _ g1 g2 =>
    have a := ((h.json g1).ok rfl).trans ((h.hostPrint _).ok g2)
    rw [tenths_succ]
    refine ⟨a.weaken (by omega), fun _ => ⟨_, rfl, ?_⟩⟩
    convert a using 1
    simp [rounds, roundsOf, tenth]
    omega
  | successJson n i v w o s1 file' _ g1 g2 =>
    rw [tenths_succ]
    exact ⟨((h.json g1).of rfl).mono (by omega), fun hs => (no _ hs).elim⟩
  | successPrint n i v w s1 file' o s2 _ g1 g2 g3 =>
    rw [tenths_succ]
    exact ⟨(((h.json g1).ok rfl).within ((h.hostPrint _).of g2)).mono (by omega),
      fun hs => (no _ hs).elim⟩
  | step n i v w v' w1 o w' _ g1 _ ih =>
    obtain ⟨a1, a2⟩ := h.body g1
    obtain ⟨tr, ht, hle, hsp⟩ := a2 trivial
    obtain ⟨b1, b2⟩ := ih
    have hsp' : Spent len en w.s w1.s (rounds tr) := hsp
    rw [tenths_succ]
    refine ⟨(hsp'.within b1).mono (by omega), fun hs => ?_⟩
    obtain ⟨tr', ht', hsp''⟩ := b2 hs
    refine ⟨.start i v.slope :: tr ++ tr', by rw [ht', ht]; simp [started], ?_⟩
    rw [rounds_append]
    have e : rounds (.start i v.slope :: tr) = rounds tr := by simp [rounds, roundsOf]
    rw [e]
    exact hsp'.trans hsp''
  | caught n i v w e w1 _ g1 g2 =>
    obtain ⟨a1, a2⟩ := h.body g1
    rw [tenths_succ]
    refine ⟨Within.mono (c := tenth i + 8) a1 (by omega), fun _ => ?_⟩
    obtain ⟨tr, ht, -, hsp⟩ := a2 (by rcases g2 with rfl | rfl <;> trivial)
    have hsp' : Spent len en w.s w1.s (rounds tr) := hsp
    refine ⟨.start i v.slope :: tr, by rw [ht]; simp [started], ?_⟩
    simpa [rounds, roundsOf] using hsp'
  | uncaught n i v w o w1 _ g1 g2 g3 =>
    rw [tenths_succ]
    exact ⟨Within.mono (c := tenth i + 8) (h.body g1).1 (by omega), fun hs => (no _ hs).elim⟩

theorem Talks.run (h : Talks ops len en) {w w' : NState α σ} {o : Res (Info α)}
    (hr : nlcg ops prm fuel rank w = some (o, w')) :
    Within len en w.s w'.s (4 + tenths 0 prm.maxiter.toNat + 8 * prm.maxiter.toNat) ∧
      (o.isOk = true → Spent len en w.s w'.s (4 + rounds w'.trace)) := by
  have no : ∀ {β γ : Type} (o : Res β), (o.fail : Res γ).isOk = true → False := by
    intro β γ o; cases o <;> simp [Res.fail, Res.isOk]
  cases nlcg_run ops prm fuel rank w _ _ hr with
  | construct o s1 h1 => exact ⟨((h.construct _).of h1).mono (by omega), fun hs => (no _ hs).elim⟩
  | setup s1 o s2 h1 h2 =>
    exact ⟨(((h.construct _).ok h1).within ((h.setup _).of h2)).mono (by omega), fun hs => (no _ hs).elim⟩
  | restarted s1 pt s2 o s3 h1 h2 h3 =>
    exact ⟨((((h.construct _).ok h1).trans ((h.setup _).ok h2)).within ((h.restarted _ _).of h3)).mono (by omega),
      fun hs => (no _ hs).elim⟩
  | loop s1 pt s2 slope dir s3 o w' h1 h2 h3 h4 =>
    have a := (((h.construct _).ok h1).trans ((h.setup _).ok h2)).trans ((h.restarted _ _).ok h3)
    obtain ⟨b1, b2⟩ := h.loop h4
    refine ⟨(a.within b1).mono (by omega), fun hs => ?_⟩
    obtain ⟨tr, ht, hsp⟩ := b2 hs
    rw [ht]
    exact a.trans hsp

end driver

/-! ## The operations of a rank -/

variable {K R : ℕ} {own : Fin K → Fin R} {n b : Fin K → ℕ} {r : Fin R} {β γ : Type}

/-- When `m` returns it has called `a` operations, `e` of them for an energy; when it fails, at most that, and not with
an exception that the solver catches. -/
structure Calls (a e : ℕ) (m : SM (RState own n b r) β) : Prop where
  any : ∀ s, energyRounds s.log ≤ energyRounds (m s).2.log ∧ (m s).2.log.length ≤ s.log.length + a
  soft : ∀ s, (m s).1.Soft → (m s).1.isOk = true ∧ energyRounds (m s).2.log = energyRounds s.log + e ∧
    (m s).2.log.length = s.log.length + a

theorem Calls.bind {a e a' e' : ℕ} {m : SM (RState own n b r) β} {f : β → SM (RState own n b r) γ} (h : Calls a e m)
    (hf : ∀ x, Calls a' e' (f x)) : Calls (a + a') (e + e') (m >>= f) := by
  have key : ∀ s, (energyRounds s.log ≤ energyRounds ((m >>= f) s).2.log ∧
      ((m >>= f) s).2.log.length ≤ s.log.length + (a + a')) ∧ (((m >>= f) s).1.Soft → ((m >>= f) s).1.isOk = true ∧
      energyRounds ((m >>= f) s).2.log = energyRounds s.log + (e + e') ∧
      ((m >>= f) s).2.log.length = s.log.length + (a + a')) := by
    intro s
    have h1 := h.any s
    have h2 := h.soft s
    rw [SM.bind_apply]
    rcases hm : m s with ⟨x | x | _ | _, s1⟩ <;> rw [hm] at h1 h2 <;> simp only at h1 h2 ⊢
    · have h3 := (hf x).any s1
      have h4 := (hf x).soft s1
      have h5 := (h2 trivial).2
      refine ⟨by omega, fun hs => ?_⟩
      obtain ⟨g1, g2, g3⟩ := h4 hs
      exact ⟨g1, by omega, by omega⟩
    · refine ⟨by omega, fun hs => ?_⟩
      have : (Res.throw x : Res β).Soft := by cases x <;> exact hs
      exact absurd (h2 this).1 (by simp [Res.isOk])
    · exact ⟨by omega, fun hs => absurd hs fun h => h⟩
    · exact ⟨by omega, fun hs => absurd hs fun h => h⟩
  exact ⟨fun s => (key s).1, fun s => (key s).2⟩

theorem calls_pure (x : β) : Calls 0 0 (pure x : SM (RState own n b r) β) :=
  ⟨fun _ => ⟨le_rfl, le_rfl⟩, fun _ _ => ⟨rfl, rfl, rfl⟩⟩

theorem calls_get : Calls 0 0 (SM.get : SM (RState own n b r) _) :=
  ⟨fun _ => ⟨le_rfl, le_rfl⟩, fun _ _ => ⟨rfl, rfl, rfl⟩⟩

theorem calls_modify {f : RState own n b r → RState own n b r} (h : ∀ s, (f s).log = s.log) :
    Calls 0 0 (SM.modify f : SM (RState own n b r) _) := by
  refine ⟨fun s => ?_, fun s _ => ?_⟩ <;> show _ ∧ _ <;> simp [SM.modify, h, Res.isOk]

theorem calls_lift {x : Res β} (h : x.Soft → x.isOk = true) : Calls 0 0 (SM.lift x : SM (RState own n b r) β) :=
  ⟨fun _ => ⟨le_rfl, le_rfl⟩, fun _ hs => ⟨h hs, rfl, rfl⟩⟩

theorem Calls.costs {a e : ℕ} {m : SM (RState own n b r) β} (h : Calls (8 * e + a) e m) (he : e ≤ 1)
    (s : RState own n b r) :
    Costs (fun s => s.log.length) (fun s => energyRounds s.log) a s (m s) where
  any := by
    obtain ⟨h1, h2⟩ := h.any s
    exact ⟨_, (Nat.add_sub_cancel' h1).symm, by dsimp only; omega⟩
  soft hs := by
    obtain ⟨h0, h1, h2⟩ := h.soft s hs
    exact ⟨h0, e, h1, by dsimp only; omega⟩

theorem calls_mismatch (a e : ℕ) : Calls a e (mismatch : SM (RState own n b r) β) :=
  ⟨fun _ => ⟨le_rfl, Nat.le_add_right _ _⟩, fun _ hs => absurd hs fun h => h⟩

theorem calls_coll (ω : ℕ → Reply own n b r) (q : Req own n b r) :
    Calls 1 (match q with | .energy => 1 | _ => 0) (coll ω q) := by
  have h : ∀ s : RState own n b r, energyRounds (coll ω q s).2.log
      = energyRounds s.log + (match q with | .energy => 1 | _ => 0) := by
    intro s
    cases q <;> simp [coll, energyRounds]
  refine ⟨fun s => ⟨?_, ?_⟩, fun s _ => ⟨rfl, h s, ?_⟩⟩
  · rw [h]; omega
  · simp [coll]
  · simp [coll]

theorem calls_throw (e : Exc) (h : ¬ (Res.throw e : Res β).Soft) :
    Calls 0 0 (SM.lift (.throw e) : SM (RState own n b r) β) := calls_lift fun hs => absurd hs h

theorem calls_hostR (ω : ℕ → Reply own n b r) (q : Req own n b r) (hq : ∀ h : q = .energy, False) :
    Calls 1 0 (hostR ω q) := by
  have h1 : Calls 1 0 (coll ω q) := by
    have := calls_coll ω q
    cases q <;> first | exact this | exact (hq rfl).elim
  refine (h1.bind (a' := 0) (e' := 0) fun x => ?_)
  rcases x with ⟨_ | _, v⟩ | _ | _ | _ | _
  · exact Calls.bind (a := 0) (e := 0) (a' := 0) (e' := 0) (m := SM.modify fun s => { s with view := v })
      (f := fun _ => SM.lift (.throw .runtimeError)) (calls_modify fun _ => rfl) fun _ => calls_throw _ fun h => h
  · exact calls_modify fun _ => rfl
  all_goals exact calls_mismatch _ _

theorem calls_energyR (ω : ℕ → Reply own n b r) : Calls 1 1 (energyR ω) := by
  refine ((calls_coll ω .energy).bind (a' := 0) (e' := 0) fun x => ?_)
  rcases x with _ | ⟨_ | x, v⟩ | _ | _ | _
  · exact calls_mismatch _ _
  · exact Calls.bind (a := 0) (e := 0) (a' := 0) (e' := 0) (m := SM.modify fun s => { s with view := v })
      (f := fun _ => SM.lift (.throw .runtimeError)) (calls_modify fun _ => rfl) fun _ => calls_throw _ fun h => h
  · exact Calls.bind (a := 0) (e := 0) (a' := 0) (e' := 0) (m := SM.modify fun s => { s with view := v })
      (f := fun _ => pure x) (calls_modify fun _ => rfl) fun _ => calls_pure _
  all_goals exact calls_mismatch _ _

theorem calls_reduceR (ω : ℕ → Reply own n b r) (x : ℝ) : Calls 1 0 (reduceR ω x) := by
  refine ((calls_coll ω (.reduce x)).bind (a' := 0) (e' := 0) fun x => ?_)
  cases x
  case real y => exact calls_pure _
  all_goals exact calls_mismatch _ _

theorem calls_gatherR (ω : ℕ → Reply own n b r) (x : LBands own b r) : Calls 1 0 (gatherR ω x) := by
  refine ((calls_coll ω (.gather x)).bind (a' := 0) (e' := 0) fun x => ?_)
  cases x
  case bands y => exact calls_pure _
  all_goals exact calls_mismatch _ _

theorem calls_gatherWR (ω : ℕ → Reply own n b r) (x : Mine own r → ℝ) : Calls 1 0 (gatherWR ω x) := by
  refine ((calls_coll ω (.gatherW x)).bind (a' := 0) (e' := 0) fun x => ?_)
  cases x
  case weights y => exact calls_pure _
  all_goals exact calls_mismatch _ _

variable {c : LCfg own n b r}

theorem search_hard (hc : SearchHard c) (w : Fin K → ℝ) (e : Bands b) (h : (c.occ w e).Soft) :
    (c.occ w e).isOk = true := by
  have h1 := hc w e
  generalize c.occ w e = r at h h1 ⊢
  rcases r with q | e | _ | _
  · rfl
  · obtain ⟨a1, a2, a3⟩ := h1 e rfl
    cases e <;> first | exact absurd h fun h => h | contradiction
  · exact absurd h fun h => h
  · exact absurd h fun h => h

theorem calls_occR (ω : ℕ → Reply own n b r) (hc : SearchHard c) (ek : LBands own b r) : Calls 2 0 (occR ω c ek) :=
  (calls_gatherR ω ek).bind (a' := 1) (e' := 0) fun e => (calls_gatherWR ω c.wk).bind (a' := 0) (e' := 0) fun w =>
    (calls_lift (search_hard hc w e)).bind (a' := 0) (e' := 0) fun _ => calls_pure _

theorem calls_evaluateR (ω : ℕ → Reply own n b r) (X : LOrb own n b r) (fn en : LBands own b r) (mu : ℝ) :
    Calls 6 1 (evaluateR ω c X fn en mu) :=
  (calls_hostR ω _ (by simp)).bind (a' := 5) (e' := 1) fun _ => (calls_hostR ω _ (by simp)).bind (a' := 4) (e' := 1)
    fun _ => (calls_hostR ω _ (by simp)).bind (a' := 3) (e' := 1) fun _ => (calls_hostR ω _ (by simp)).bind (a' := 2)
      (e' := 1) fun _ => (calls_energyR ω).bind (a' := 1) (e' := 0) fun _ => (calls_reduceR ω _).bind (a' := 0) (e' := 0)
        fun _ => calls_modify fun _ => rfl

theorem geodesic_hard {la : Lapack} {N B : ℕ} (X : Mat N B) (eta : Mat B B) (zx : Mat N B) (zeta : Mat B B) (S : Mat N N)
    (t : ℝ) (h : (geodesicUs la X eta zx zeta S t).Soft) : (geodesicUs la X eta zx zeta S t).isOk = true :=
  Res.hard_bind (eigh_hard la _) (fun _ => Res.hard_bind (Res.hard_bind (loewdin_hard la _ _) fun _ _ => rfl)
    fun _ _ => rfl) h

theorem forAllK_hard : {J : ℕ} → {β : Fin J → Type} → {f : (j : Fin J) → Res (β j)} →
    (∀ j, (f j).Soft → (f j).isOk = true) → (forAllK f).Soft → (forAllK f).isOk = true
  | 0, _, _, _, _ => rfl
  | _ + 1, _, _, h, hs => Res.hard_bind (h 0) (fun _ => Res.hard_bind (forAllK_hard fun j => h j.succ) fun _ _ => rfl) hs

theorem forMine_hard {β : Mine own r → Type} {f : (k : Mine own r) → Res (β k)}
    (h : ∀ k, (f k).Soft → (f k).isOk = true) (hs : (forMine f).Soft) : (forMine f).isOk = true := by
  refine Res.hard_bind (forAllK_hard fun k hk => ?_) (fun _ _ => rfl) hs
  split at hk
  · next hr =>
    rw [dif_pos hr]
    exact Res.hard_bind (h ⟨k, hr⟩) (fun _ _ => rfl) hk
  · next hr => rw [dif_neg hr]; rfl

theorem rank_talks (ω : ℕ → Reply own n b r) (hc : SearchHard c) :
    Talks (rankOps ω c) (fun s => s.log.length) (fun s => energyRounds s.log) where
  construct := (calls_lift (by split <;> simp [Res.Soft, Res.isOk])).costs (e := 0) (by omega)
  setup := by
    refine Calls.costs (e := 1) ?_ le_rfl
    exact (calls_hostR ω _ (by simp)).bind (a' := 8) (e' := 1) fun _ => calls_get.bind (a' := 8) (e' := 1) fun _ =>
      (calls_occR ω hc _).bind (a' := 6) (e' := 1) fun _ => calls_get.bind (a' := 6) (e' := 1) fun _ =>
        (calls_evaluateR ω _ _ _ _).bind (a' := 0) (e' := 0) fun _ => calls_get.bind (a' := 0) (e' := 0) fun _ =>
          calls_pure _
  restarted pt := by
    refine Calls.costs (e := 0) ?_ (by omega)
    exact calls_get.bind (a' := 3) (e' := 0) fun _ => (calls_reduceR ω _).bind (a' := 2) (e' := 0) fun _ =>
      (calls_reduceR ω _).bind (a' := 1) (e' := 0) fun _ => (calls_reduceR ω _).bind (a' := 0) (e' := 0) fun _ =>
        calls_pure _
  conjugated fr pt dir := by
    refine Calls.costs (e := 0) ?_ (by omega)
    exact calls_get.bind (a' := 4) (e' := 0) fun _ => (calls_reduceR ω _).bind (a' := 3) (e' := 0) fun _ =>
      (calls_reduceR ω _).bind (a' := 2) (e' := 0) fun _ => (calls_reduceR ω _).bind (a' := 1) (e' := 0) fun _ =>
        (calls_reduceR ω _).bind (a' := 0) (e' := 0) fun _ => calls_pure _
  geo pt dir t := by
    refine Calls.costs (e := 1) ?_ le_rfl
    exact (calls_lift (forMine_hard fun k => geodesic_hard _ _ _ _ _ _)).bind (a' := 8) (e' := 1) fun _ =>
      (calls_occR ω hc _).bind (a' := 6) (e' := 1) fun _ => (calls_evaluateR ω _ _ _ _).bind (a' := 0) (e' := 0)
        fun _ => calls_pure _
  refresh r := (calls_get.bind (a' := 0) (e' := 0) fun _ => calls_pure _).costs (e := 0) (by omega)
  gather pt := by
    refine Calls.costs (e := 0) ?_ (by omega)
    exact (calls_gatherR ω _).bind (a' := 1) (e' := 0) fun _ => (calls_gatherR ω _).bind (a' := 0) (e' := 0) fun _ =>
      calls_pure _
  hostPrint := (calls_hostR ω _ (by simp)).costs (e := 0) (by omega)

end Nlcg
