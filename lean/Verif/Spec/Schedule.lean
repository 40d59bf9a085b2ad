import Verif.Spec.Spmd

/-!
The ranks of a parallel run as processes. A rank computes on its own until it calls a collective operation or ends.
It gets an answer only when all ranks have called. Which rank computes when is left open: that is the schedule.
-/

namespace Nlcg.Spec
open Nlcg

variable {K R : ℕ} {own : Fin K → Fin R} {n b : Fin K → ℕ} {η : Type}

/-- what a rank does with the replies it gets: how it ends, if it does -/
abbrev Process (own : Fin K → Fin R) (n b : Fin K → ℕ) (r : Fin R) :=
  (ℕ → Reply own n b r) → Option (Res (Info ℝ) × NState ℝ (RState own n b r))

/-- the stream starts with these replies -/
def Extends {r : Fin R} (ω : ℕ → Reply own n b r) (got : List (Reply own n b r)) : Prop :=
  ∀ (i : ℕ) (h : i < got.length), ω i = got[i]

/-- after these replies the rank calls `q` -/
def Asks {r : Fin R} (p : Process own n b r) (got : List (Reply own n b r)) (q : Req own n b r) : Prop :=
  ∃ ω, Extends ω got ∧ ∃ o v, p ω = some (o, v) ∧ (v.s.log[got.length]?).map Prod.fst = some q

/-- after these replies the rank ends without another call -/
def Ends {r : Fin R} (p : Process own n b r) (got : List (Reply own n b r)) (o : Res (Info ℝ))
    (v : NState ℝ (RState own n b r)) : Prop :=
  ∃ ω, Extends ω got ∧ p ω = some (o, v) ∧ v.s.log.length = got.length

/-- all ranks and the host -/
structure System (own : Fin K → Fin R) (n b : Fin K → ℕ) (η : Type) where
  h : η
  /-- requests and replies so far -/
  got : (r : Fin R) → Transcript own n b r
  /-- the call in which the rank waits -/
  posted : (r : Fin R) → Option (Req own n b r)

/-- the replies a rank has got -/
def System.replies (S : System own n b η) (r : Fin R) : List (Reply own n b r) := (S.got r).map Prod.snd

/-- one step of one rank, or the answer to all ranks -/
inductive Step (host : Host η n b) (p : (r : Fin R) → Process own n b r) : System own n b η → System own n b η → Prop
  | call {S : System own n b η} (r : Fin R) (q : Req own n b r) : S.posted r = none → Asks (p r) (S.replies r) q →
      Step host p S { S with posted := Function.update S.posted r (some q) }
  | answer {S : System own n b η} (q : (r : Fin R) → Req own n b r) (a : (r : Fin R) → Reply own n b r) (h' : η) :
      (∀ r, S.posted r = some (q r)) → Answer host S.h q a h' →
      Step host p S { h := h', got := fun r => S.got r ++ [(q r, a r)], posted := fun _ => none }

/-- what a schedule can lead to in `k` steps -/
inductive Reaches (host : Host η n b) (p : (r : Fin R) → Process own n b r) (S : System own n b η) :
    ℕ → System own n b η → Prop
  | start : Reaches host p S 0 S
  | step {k : ℕ} {T U : System own n b η} : Reaches host p S k T → Step host p T U → Reaches host p S (k + 1) U

/-- nothing has been called -/
def System.fresh (h : η) : System own n b η := { h := h, got := fun _ => [], posted := fun _ => none }

end Nlcg.Spec
