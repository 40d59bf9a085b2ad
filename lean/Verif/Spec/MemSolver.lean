import Verif.Model.MemSolver
import Verif.Spec.MemAlgo

/-! What it means that a host with buffers in memory behaves like a host with matrices as values. -/

namespace Nlcg.Spec

variable {K : ℕ} {n b : Fin K → ℕ} {η ξ : Type}

/-- A call of the host is answered in the same way, the new states correspond by `Rep`, and the host is
polite: memory in use that does not belong to it (`own`) is neither changed nor taken over. Its own
buffers may be overwritten, moved, enlarged or given back. -/
structure Answers {β : Type} (own : η → Set ℕ) (Rep : η → Mem ℂ → ξ → Prop) (h : η) (m : Mem ℂ)
    (r : Option β × η × Mem ℂ) (r' : Option β × ξ) : Prop where
  answer : r.1 = r'.1
  rep : Rep r.2.1 r.2.2 r'.2
  fin : Finite r.2.2
  keep : ∀ a x, a ∉ own h → m a = some x → a ∉ own r.2.1 ∧ r.2.2 a = some x

/-- The host `mh`, with its buffers in memory, behaves like the host `host`: `Rep h m x` says that its
private state `h` and memory `m` stand for the state `x`, which depends on the memory of the host only. -/
structure MirrorsHost (mh : MHost η b) (host : Host ξ n b) where
  own : η → Set ℕ
  Rep : η → Mem ℂ → ξ → Prop
  rep_mem : ∀ {h m m' x}, Rep h m x → (∀ a ∈ own h, m' a = m a) → Rep h m' x
  used : ∀ {h m x}, Rep h m x → ∀ a ∈ own h, ∃ v, m a = some v
  /-- the buffers handed out -/
  C : ∀ {h m x}, Rep h m x → ∀ k, ColMajor (mh.C h k) ∧ Holds m (mh.C h k) (host.C x k) ∧ cells (mh.C h k) ⊆ own h
  C_apart : ∀ {h m x}, Rep h m x → ∀ {k l}, k ≠ l → Disjoint (cells (mh.C h k)) (cells (mh.C h l))
  hphi : ∀ {h m x}, Rep h m x → ∀ k, ColMajor (mh.hphi h k) ∧ Holds m (mh.hphi h k) (host.hphi x k) ∧
    cells (mh.hphi h k) ⊆ own h
  fn : ∀ {h m x}, Rep h m x → ∀ k, HoldsReal m (mh.fn h k) (host.fn x k) ∧ vecCells (mh.fn h k) (b k) ⊆ own h
  ek : ∀ {h m x}, Rep h m x → ∀ k, HoldsReal m (mh.ek h k) (host.ek x k) ∧ vecCells (mh.ek h k) (b k) ⊆ own h
  /-- writing new orbitals into the buffers, and nothing else -/
  setC : ∀ {h m m' x} (X : Orbitals n b), Rep h m x → (∀ k, Holds m' (mh.C h k) (X k)) →
    SameOutside {a | ∃ k, a ∈ cells (mh.C h k)} m m' → ∃ x', host.setC X x = (some (), x') ∧ Rep h m' x'
  /-- calls -/
  compute : ∀ {h m x}, Finite m → Rep h m x → Answers own Rep h m (mh.compute h m) (host.compute x)
  setFn : ∀ {h m x} f, Finite m → Rep h m x → Answers own Rep h m (mh.setFn f h m) (host.setFn f x)
  setMu : ∀ {h m x} mu, Finite m → Rep h m x → Answers own Rep h m (mh.setMu mu h m) (host.setMu mu x)
  energy : ∀ {h m x}, Finite m → Rep h m x → Answers own Rep h m (mh.energy h m) (host.energy x)
  print : ∀ {h m x}, Finite m → Rep h m x → Answers own Rep h m (mh.print h m) (host.print x)

/-- the parameters of the two runs are the same; operators and LAPACK in memory do what those on matrices
do -/
structure SameCfg (mc : MCfg b) (c : Cfg n b) : Prop where
  env : EnvOk mc.E c.la
  t : mc.t = c.t
  T : mc.T = c.T
  kappa : mc.kappa = c.kappa
  mo : mc.mo = c.mo
  wk : mc.wk = c.wk
  occ : mc.occ = c.occ
  S : ∀ k, Applies (mc.S k) (c.S k)
  P : ∀ k, Applies (mc.P k) (c.P k)

/-! ## What is in memory during a run -/

/-- a matrix in memory that does not belong to the host -/
def MatAt {r c : ℕ} (O : Set ℕ) (m : Mem ℂ) (v : MView) (A : Mat r c) : Prop :=
  ColMajor v ∧ Holds m v A ∧ Disjoint (cells v) O

/-- a vector in memory that does not belong to the host -/
def VecAt {n : ℕ} (O : Set ℕ) (m : Mem ℂ) (w : ℕ) (x : Fin n → ℝ) : Prop :=
  HoldsReal m w x ∧ Disjoint (vecCells w n) O

variable {mh : MHost η b} {host : Host ξ n b}

/-- corresponding points, apart from `ul`, which is not initialised at the start -/
structure PtRel0 (M : MirrorsHost mh host) (s : MState η) (p : PtMem K) (q : Point n b) : Prop where
  X : ∀ k, MatAt (M.own s.h) s.mem (p.X k) (q.X k)
  ek : ∀ k, VecAt (M.own s.h) s.mem (p.ek k) (q.ek k)
  eta : ∀ k, MatAt (M.own s.h) s.mem (p.eta k) (q.eta k)
  fn : ∀ k, VecAt (M.own s.h) s.mem (p.fn k) (q.fn k)
  hx : ∀ k, MatAt (M.own s.h) s.mem (p.hx k) (q.hx k)
  mu : p.mu = q.mu

/-- corresponding points -/
structure PtRel (M : MirrorsHost mh host) (s : MState η) (p : PtMem K) (q : Point n b) : Prop extends
    PtRel0 M s p q where
  ul : ∀ k, MatAt (M.own s.h) s.mem (p.ul k) (q.ul k)

/-- corresponding directions -/
structure DirRel (M : MirrorsHost mh host) (s : MState η) (d : DirMem K) (e : Dir n b) : Prop where
  zx : ∀ k, MatAt (M.own s.h) s.mem (d.zx k) (e.zx k)
  zeta : ∀ k, MatAt (M.own s.h) s.mem (d.zeta k) (e.zeta k)

/-- what can be observed of a run: its outcome, the step log, the record, the flag and the history -/
def observed {β τ : Type} (r : Res β × NState ℝ τ) :
    Res β × List (JsonRec ℝ) × Info ℝ × Bool × List (Ev ℝ) :=
  (r.1, r.2.file, r.2.info, r.2.force, r.2.trace)

/-- The two runs start with corresponding hosts, the same step log and the same flag; nothing is said about
the uninitialised members. -/
structure SameStart (M : MirrorsHost mh host) (w : NState ℝ (MState η)) (w' : NState ℝ (SState ξ n b)) : Prop where
  fin : Finite w.s.mem
  rep : M.Rep w.s.h w.s.mem w'.s.h
  file : w.file = w'.file
  info : w.info = w'.info
  force : w.force = w'.force
  trace : w.trace = w'.trace

end Nlcg.Spec
