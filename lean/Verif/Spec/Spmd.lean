import Verif.Model.Spmd

/-!
# Specification vocabulary: ranks that run together

What the MPI library and the host answer when all ranks have called the same operation. The host is
one parallel program: its state is shared by all ranks, each rank sees its own k-points, and a call
returns or throws on all ranks. Ranks that call different operations get no answer: they wait for
ever.
-/

namespace Nlcg.Spec

variable {K R : ℕ} {own : Fin K → Fin R} {n b : Fin K → ℕ} {η : Type}

/-- the part of the host's data that rank `r` can read -/
def view (own : Fin K → Fin R) (host : Host η n b) (h : η) (r : Fin R) : View own n b r :=
  { C := fun k => host.C h k, hphi := fun k => host.hphi h k, fn := fun k => host.fn h k,
    ek := fun k => host.ek h k }

/-- `Answer host h q a h'`: all ranks have called, rank `r` with request `q r`; it gets the reply
`a r`; the host goes from `h` to `h'`. -/
inductive Answer (host : Host η n b) : η → ((r : Fin R) → Req own n b r) →
    ((r : Fin R) → Reply own n b r) → η → Prop
  | setC (X : Orbitals n b) (h : η) : Answer host h (fun _ => .setC fun k => X k)
      (fun r => .host (host.setC X h).1.isSome (view own host (host.setC X h).2 r)) (host.setC X h).2
  | setFn (f : Bands b) (h : η) : Answer host h (fun _ => .setFn fun k => f k)
      (fun r => .host (host.setFn f h).1.isSome (view own host (host.setFn f h).2 r)) (host.setFn f h).2
  | compute (h : η) : Answer host h (fun _ => .compute)
      (fun r => .host (host.compute h).1.isSome (view own host (host.compute h).2 r)) (host.compute h).2
  | setMu (mu : ℝ) (h : η) : Answer host h (fun _ => .setMu mu)
      (fun r => .host (host.setMu mu h).1.isSome (view own host (host.setMu mu h).2 r)) (host.setMu mu h).2
  | energy (h : η) : Answer host h (fun _ => .energy)
      (fun r => .energy (host.energy h).1 (view own host (host.energy h).2 r)) (host.energy h).2
  | print (h : η) : Answer host h (fun _ => .print)
      (fun r => .host (host.print h).1.isSome (view own host (host.print h).2 r)) (host.print h).2
  /-- every rank gets the sum of all contributions -/
  | reduce (x : Fin R → ℝ) (h : η) : Answer host h (fun r => .reduce (x r))
      (fun _ => .real (∑ r, x r)) h
  /-- every rank gets the data of all ranks -/
  | gather (e : Bands b) (h : η) : Answer host h (fun _ => .gather fun k => e k) (fun _ => .bands e) h
  | gatherW (w : Fin K → ℝ) (h : η) : Answer host h (fun _ => .gatherW fun k => w k)
      (fun _ => .weights w) h

/-- requests and replies of one rank, oldest first -/
abbrev Transcript (own : Fin K → Fin R) (n b : Fin K → ℕ) (r : Fin R) :=
  List (Req own n b r × Reply own n b r)

/-- The transcripts of all ranks have been produced in lockstep: every operation was called by all
ranks and answered. -/
inductive Lockstep (host : Host η n b) : η → ((r : Fin R) → Transcript own n b r) → η → Prop
  | nil (h : η) : Lockstep host h (fun _ => []) h
  | step {h h1 h2 : η} {L : (r : Fin R) → Transcript own n b r} {q : (r : Fin R) → Req own n b r}
      {a : (r : Fin R) → Reply own n b r} :
      Answer host h q a h1 → Lockstep host h1 L h2 →
      Lockstep host h (fun r => (q r, a r) :: L r) h2

/-- the data of rank `r` -/
def localCfg (own : Fin K → Fin R) (c : Cfg n b) (occ : (Fin K → ℝ) → Bands b → Res (ℝ × Bands b))
    (r : Fin R) : LCfg own n b r :=
  { la := c.la, t := c.t, T := c.T, kappa := c.kappa, mo := c.mo, wk := fun k => c.wk k,
    S := fun k => c.S k, P := fun k => c.P k, occ := occ, junk := fun k => c.junk k }

end Nlcg.Spec
