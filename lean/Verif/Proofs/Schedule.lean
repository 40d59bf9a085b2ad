import Verif.Proofs.Causal
import Verif.Props.Spmd
import Mathlib.Algebra.Order.Group.Nat

/-! Facts about schedules. -/

namespace Nlcg
open Spec

variable {K R : ℕ} {own : Fin K → Fin R} {n b : Fin K → ℕ} {η : Type}

/-- the answer is determined by the state of the host and the calls -/
theorem Spec.Answer.det {host : Host η n b} (r0 : Fin R) {h h1 h2 : η} {q q' : (r : Fin R) → Req own n b r}
    {a a' : (r : Fin R) → Reply own n b r} (x : Answer host h q a h1) (y : Answer host h q' a' h2) (e : q = q') :
    a = a' ∧ h1 = h2 := by
  cases x <;> cases y
  all_goals try (exfalso; have nm := congrArg Req.name (congrFun e r0); simp only [Req.name, reduceCtorEq] at nm; done)
  case setC.setC X X' =>
    have : X = X' := by
      funext k
      have := congrFun e (own k)
      simp only [Req.setC.injEq] at this
      exact congrFun this ⟨k, rfl⟩
    subst this
    exact ⟨rfl, rfl⟩
  case setFn.setFn X X' =>
    have : X = X' := by
      funext k
      have := congrFun e (own k)
      simp only [Req.setFn.injEq] at this
      exact congrFun this ⟨k, rfl⟩
    subst this
    exact ⟨rfl, rfl⟩
  case setMu.setMu X X' =>
    have := congrFun e r0
    simp only [Req.setMu.injEq] at this
    subst this
    exact ⟨rfl, rfl⟩
  case reduce.reduce X X' =>
    have : X = X' := by
      funext r
      have := congrFun e r
      simpa only [Req.reduce.injEq] using this
    subst this
    exact ⟨rfl, rfl⟩
  case gather.gather X X' =>
    have : X = X' := by
      funext k
      have := congrFun e (own k)
      simp only [Req.gather.injEq] at this
      exact congrFun this ⟨k, rfl⟩
    subst this
    exact ⟨rfl, rfl⟩
  case gatherW.gatherW X X' =>
    have : X = X' := by
      funext k
      have := congrFun e (own k)
      simp only [Req.gatherW.injEq] at this
      exact congrFun this ⟨k, rfl⟩
    subst this
    exact ⟨rfl, rfl⟩
  all_goals exact ⟨rfl, rfl⟩

/-- transcripts in lockstep, by number -/
theorem Spec.Lockstep.numbered {host : Host η n b} {h h' : η} {L : (r : Fin R) → Transcript own n b r}
    (l : Lockstep host h L h') : ∃ (N : ℕ) (H : ℕ → η), (∀ r, (L r).length = N) ∧ H 0 = h ∧ H N = h' ∧
      ∀ d < N, ∃ q a, Answer host (H d) q a (H (d + 1)) ∧ ∀ r, (L r)[d]? = some (q r, a r) := by
  induction l with
  | nil h => exact ⟨0, fun _ => h, fun _ => rfl, rfl, rfl, fun d hd => absurd hd (Nat.not_lt_zero d)⟩
  | @step h h1 h2 L q a ans _ ih =>
    obtain ⟨N, H, h3, h4, h5, h6⟩ := ih
    refine ⟨N + 1, fun d => match d with | 0 => h | d + 1 => H d, fun r => by simp [h3 r], rfl, h5, fun d hd => ?_⟩
    cases d with
    | zero => exact ⟨q, a, by simp only [h4]; exact ans, fun r => rfl⟩
    | succ d =>
      obtain ⟨q', a', k1, k2⟩ := h6 d (by omega)
      exact ⟨q', a', k1, fun r => by simpa using k2 r⟩

section
variable {r : Fin R} {c : LCfg own n b r} {prm : NlcgParams ℝ} {fuel : ℕ} {w : NState ℝ (RState own n b r)}

theorem extends_agree {ω ω' : ℕ → Reply own n b r} {got : List (Reply own n b r)} (h : Extends ω got)
    (h' : Extends ω' got) : ∀ j < got.length, ω j = ω' j := fun j hj => by rw [h j hj, h' j hj]

/-- the next call is determined by the replies -/
theorem asks_unique (hw : w.s.log = []) {got : List (Reply own n b r)} {q q' : Req own n b r}
    (h : Asks (fun ω => rankRun ω c prm fuel w) got q) (h' : Asks (fun ω => rankRun ω c prm fuel w) got q') :
    q = q' := by
  obtain ⟨ω, e, o, v, h1, h2⟩ := h
  obtain ⟨ω', e', o', v', h1', h2'⟩ := h'
  rcases rank_causal (extends_agree e e') c prm fuel w (by simp [hw]) h1 h1' with ⟨-, h3⟩ | ⟨-, -, -, h3⟩
  · rw [List.getElem?_eq_none h3] at h2
    simp at h2
  · simp only at h3
    rw [h2, h2'] at h3
    exact Option.some.inj h3

/-- a rank that ends calls nothing -/
theorem ends_not_asks (hw : w.s.log = []) {got : List (Reply own n b r)} {o : Res (Info ℝ)}
    {v : NState ℝ (RState own n b r)} (h : Ends (fun ω => rankRun ω c prm fuel w) got o v) (q : Req own n b r) :
    ¬ Asks (fun ω => rankRun ω c prm fuel w) got q := by
  rintro ⟨ω', e', o', v', h1', h2'⟩
  obtain ⟨ω, e, h1, h2⟩ := h
  rcases rank_causal (extends_agree e e') c prm fuel w (by simp [hw]) h1 h1' with ⟨h3, h4⟩ | ⟨h3, -⟩
  · cases h3
    rw [List.getElem?_eq_none h4] at h2'
    simp at h2'
  · simp only at h3
    omega

/-- the end is determined by the replies -/
theorem ends_unique (hw : w.s.log = []) {got : List (Reply own n b r)} {o o' : Res (Info ℝ)}
    {v v' : NState ℝ (RState own n b r)} (h : Ends (fun ω => rankRun ω c prm fuel w) got o v)
    (h' : Ends (fun ω => rankRun ω c prm fuel w) got o' v') : o = o' ∧ v = v' := by
  obtain ⟨ω, e, h1, h2⟩ := h
  obtain ⟨ω', e', h1', h2'⟩ := h'
  rcases rank_causal (extends_agree e e') c prm fuel w (by simp [hw]) h1 h1' with ⟨h3, h4⟩ | ⟨h3, -⟩
  · cases h3
    exact ⟨rfl, rfl⟩
  · simp only at h3
    omega

end

/-- a stream that starts with the replies of a transcript -/
def streamOf {r : Fin R} (L : Transcript own n b r) : ℕ → Reply own n b r := fun i =>
  ((L[i]?).map Prod.snd).elim (.real 0) id

theorem streamOf_provides {r : Fin R} (L : Transcript own n b r) : Provides (streamOf L) L := fun i h => by
  simp [streamOf, List.getElem?_eq_getElem h]

theorem streamOf_extends {r : Fin R} (L : Transcript own n b r) (d : ℕ) :
    Extends (streamOf L) ((L.take d).map Prod.snd) := fun i h => by
  simp only [List.length_map, List.length_take] at h
  rw [streamOf_provides L i (by omega)]
  simp

/-- the number of ranks that wait -/
def Spec.System.waiting (S : System own n b η) : ℕ := (Finset.univ.filter fun r => (S.posted r).isSome).card

theorem waiting_call (S : System own n b η) (r : Fin R) (q : Req own n b r) (h : S.posted r = none) :
    System.waiting { S with posted := Function.update S.posted r (some q) } = S.waiting + 1 := by
  unfold System.waiting
  have : (Finset.univ.filter fun s => ((Function.update S.posted r (some q)) s).isSome)
      = insert r (Finset.univ.filter fun s => (S.posted s).isSome) := by
    ext s
    by_cases hs : s = r
    · subst hs; simp
    · simp [hs]
  simp only
  rw [this, Finset.card_insert_of_notMem (by simp [h])]

theorem waiting_le (S : System own n b η) : S.waiting ≤ R := by
  unfold System.waiting
  exact (Finset.card_le_univ _).trans (by simp)

theorem waiting_all (S : System own n b η) (h : ∀ r, (S.posted r).isSome) : S.waiting = R := by
  unfold System.waiting
  rw [Finset.filter_true_of_mem fun r _ => h r]
  simp

theorem waiting_none (S : System own n b η) (h : ∀ r, S.posted r = none) : S.waiting = 0 := by
  unfold System.waiting
  rw [Finset.card_eq_zero]
  simp [h]

/-- the ranks that call again after their transcripts -/
noncomputable def stuckRanks (p : (r : Fin R) → Process own n b r) (L : (r : Fin R) → Transcript own n b r) :
    Finset (Fin R) := by
  classical
  exact Finset.univ.filter fun r => ∃ q, Asks (p r) ((L r).map Prod.snd) q

theorem mem_stuckRanks {p : (r : Fin R) → Process own n b r} {L : (r : Fin R) → Transcript own n b r} {r : Fin R} :
    r ∈ stuckRanks p L ↔ ∃ q, Asks (p r) ((L r).map Prod.snd) q := by
  classical
  simp [stuckRanks]

/-- Processes that go together through the transcripts `L`, after which at least one of them ends and the others end or
call once more. -/
theorem schedule_core {host : Host η n b} {p : (r : Fin R) → Process own n b r}
    (det1 : ∀ r got q q', Asks (p r) got q → Asks (p r) got q' → q = q')
    (det2 : ∀ r got o v q, Ends (p r) got o v → ¬ Asks (p r) got q) {N : ℕ} {L : (r : Fin R) → Transcript own n b r}
    {H : ℕ → η} (hN : ∀ r, (L r).length = N)
    (hans : ∀ d < N, ∃ q a, Answer host (H d) q a (H (d + 1)) ∧ ∀ r, (L r)[d]? = some (q r, a r))
    (asks : ∀ r d, d < N → ∀ q a, (L r)[d]? = some (q, a) → Asks (p r) (((L r).take d).map Prod.snd) q)
    (fin : ∀ r, (∃ o v, Ends (p r) ((L r).map Prod.snd) o v) ∨ ∃ q, Asks (p r) ((L r).map Prod.snd) q)
    (r0 : Fin R) (hr0 : ∃ o v, Ends (p r0) ((L r0).map Prod.snd) o v) (k : ℕ) (S : System own n b η)
    (hS : Reaches host p (System.fresh (H 0)) k S) :
    (k < N * (R + 1) + (stuckRanks p L).card ∧ ∃ S', Step host p S S') ∨
    (k = N * (R + 1) + (stuckRanks p L).card ∧ (¬ ∃ S', Step host p S S') ∧ S.h = H N ∧ S.got = L ∧
      ∀ r, (S.posted r = none ∧ ∃ o v, Ends (p r) (S.replies r) o v) ∨
        ∃ q, S.posted r = some q ∧ Asks (p r) (S.replies r) q) := by
  have inv : ∃ d ≤ N, S.h = H d ∧ (∀ r, S.got r = (L r).take d) ∧
      (∀ r q, S.posted r = some q → Asks (p r) (((L r).take d).map Prod.snd) q) ∧ k = d * (R + 1) + S.waiting := by
    induction hS with
    | start => exact ⟨0, Nat.zero_le _, rfl, fun r => rfl, fun r q hq => by simp [System.fresh] at hq, by
        rw [waiting_none _ fun _ => rfl]; simp⟩
    | @step k S U hS st ih =>
      obtain ⟨d, hd, i1, i2, i3, i4⟩ := ih
      cases st with
      | call r q hp hq =>
        rw [System.replies, i2 r] at hq
        refine ⟨d, hd, i1, i2, fun s q' hs => ?_, by rw [waiting_call S r q hp]; omega⟩
        by_cases hsr : s = r
        · subst hsr
          simp only [Function.update_self, Option.some.injEq] at hs
          subst hs
          exact hq
        · simp only [Function.update_of_ne hsr] at hs
          exact i3 s q' hs
      | answer q a h' hp ans =>
        have hlt : d < N := by
          rcases hd.lt_or_eq with hd | hd
          · exact hd
          · exfalso
            obtain ⟨o, v, he⟩ := hr0
            have := i3 r0 _ (hp r0)
            rw [hd, ← hN r0, List.take_length] at this
            exact det2 r0 _ o v _ he this
        obtain ⟨q0, a0, ans0, hq0⟩ := hans d hlt
        have hqq : q = q0 := by
          funext r
          exact det1 r _ _ _ (i3 r _ (hp r)) (asks r d hlt _ _ (hq0 r))
        rw [i1] at ans
        obtain ⟨e1, e2⟩ := ans.det r0 ans0 hqq
        refine ⟨d + 1, hlt, e2, fun r => ?_, fun r q' hs => by simp at hs, ?_⟩
        · simp only
          rw [i2 r, hqq, e1, List.take_succ, hq0 r]
          rfl
        · rw [waiting_none _ fun _ => rfl, i4, waiting_all S fun r => by rw [hp r]; rfl]
          ring
  obtain ⟨d, hd, i1, i2, i3, i4⟩ := inv
  rcases hd.lt_or_eq with hlt | heq
  · left
    constructor
    · have := waiting_le S
      calc k = d * (R + 1) + S.waiting := i4
        _ < (d + 1) * (R + 1) := by rw [Nat.add_mul]; omega
        _ ≤ N * (R + 1) := Nat.mul_le_mul_right _ hlt
        _ ≤ _ := Nat.le_add_right _ _
    · obtain ⟨q0, a0, ans0, hq0⟩ := hans d hlt
      by_cases hall : ∀ r, (S.posted r).isSome
      · refine ⟨_, .answer q0 a0 (H (d + 1)) (fun r => ?_) (by rw [i1]; exact ans0)⟩
        obtain ⟨q, hq⟩ := Option.isSome_iff_exists.1 (hall r)
        rw [hq, det1 r _ _ _ (i3 r q hq) (asks r d hlt _ _ (hq0 r))]
      · push Not at hall
        obtain ⟨r, hr'⟩ := hall
        have hn : S.posted r = none := by simpa using hr'
        refine ⟨_, .call r (q0 r) hn ?_⟩
        rw [System.replies, i2 r]
        exact asks r d hlt _ _ (hq0 r)
  · have hgot : ∀ r, S.got r = L r := fun r => by rw [i2 r, heq, ← hN r, List.take_length]
    have hposted : ∀ r q, S.posted r = some q → Asks (p r) ((L r).map Prod.snd) q := fun r q hq => by
      have := i3 r q hq
      rwa [heq, ← hN r, List.take_length] at this
    have hsub : (Finset.univ.filter fun r => (S.posted r).isSome) ⊆ stuckRanks p L := fun r hr => by
      obtain ⟨q, hq⟩ := Option.isSome_iff_exists.1 (Finset.mem_filter.1 hr).2
      exact mem_stuckRanks.2 ⟨q, hposted r q hq⟩
    by_cases hfull : (Finset.univ.filter fun r => (S.posted r).isSome) = stuckRanks p L
    · right
      have hcard : S.waiting = (stuckRanks p L).card := by rw [← hfull]; rfl
      have hwait : ∀ r, S.posted r = none → ¬ ∃ q, Asks (p r) ((L r).map Prod.snd) q := fun r hn hq => by
        have := mem_stuckRanks.2 hq
        rw [← hfull, Finset.mem_filter, hn] at this
        simp at this
      refine ⟨by rw [i4, heq, hcard], ?_, by rw [i1, heq], funext hgot, fun r => ?_⟩
      · rintro ⟨S', st⟩
        cases st with
        | call r q hp hq =>
          rw [System.replies, hgot r] at hq
          exact hwait r hp ⟨q, hq⟩
        | answer q a h' hp ans =>
          obtain ⟨o, v, he⟩ := hr0
          exact det2 r0 _ o v _ he (hposted r0 _ (hp r0))
      · rw [System.replies, hgot r]
        cases hq : S.posted r with
        | none =>
          left
          exact ⟨rfl, (fin r).resolve_right (hwait r hq)⟩
        | some q => exact .inr ⟨q, rfl, hposted r q hq⟩
    · left
      have hlt : S.waiting < (stuckRanks p L).card := Finset.card_lt_card (hsub.ssubset_of_ne hfull)
      refine ⟨by rw [i4, heq]; omega, ?_⟩
      obtain ⟨r, hr1, hr2⟩ := Finset.exists_of_ssubset (hsub.ssubset_of_ne hfull)
      obtain ⟨q, hq⟩ := mem_stuckRanks.1 hr1
      have hn : S.posted r = none := by
        simpa using hr2
      refine ⟨_, .call r q hn ?_⟩
      rw [System.replies, hgot r]
      exact hq

end Nlcg
