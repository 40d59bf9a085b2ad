import Verif.Model.MemAlgo
import Verif.Spec.Gpu

/-! What it means that a program on memory computes a function on matrices. -/

namespace Nlcg.Spec
open Matrix

/-- only finitely many addresses are in use -/
def Finite (m : Mem ℂ) : Prop := {a | m a ≠ none}.Finite

/-- the allocator hands out memory that is not in use -/
def Heap.Ok (h : Heap) : Prop := ∀ m n, Finite m → Free m (h.place m n) n

/-- memory holds the real vector `x` at address `a` -/
def HoldsReal {n : ℕ} (m : Mem ℂ) (a : ℕ) (x : Fin n → ℝ) : Prop := HoldsVec m a fun i => (x i : ℂ)

/-- The LAPACK routines of `lib` do in memory what those of `la` do with matrices, whether they succeed or
not: same return code, the results are stored into the arguments, and nothing else changes. -/
structure Implements (lib : HostLib ℂ) (la : Lapack) : Prop where
  heevd : ∀ (n : ℕ) (v : MView) (w : ℕ) (m : Mem ℂ) (A : Mat n n), ColMajor v → Holds m v A →
    (∀ a ∈ vecCells w n, ∃ x, m a = some x) → Disjoint (cells v) (vecCells w n) →
    (lib.zheevd n v.data v.s1 w m).2 = (la.heevd A).2 ∧
    Holds (lib.zheevd n v.data v.s1 w m).1 v (la.heevd A).1.2 ∧
    HoldsReal (lib.zheevd n v.data v.s1 w m).1 w (la.heevd A).1.1 ∧
    SameOutside (cells v ∪ vecCells w n) m (lib.zheevd n v.data v.s1 w m).1
  potrf : ∀ (n : ℕ) (v : MView) (m : Mem ℂ) (A : Mat n n), ColMajor v → Holds m v A →
    Holds (lib.zpotrf n v.data v.s1 m).1 v (la.potrf A).1 ∧
    SameOutside (cells v) m (lib.zpotrf n v.data v.s1 m).1
  potrs : ∀ (n k : ℕ) (vA vB : MView) (m : Mem ℂ) (A : Mat n n) (B : Mat n k), ColMajor vA → ColMajor vB →
    Holds m vA A → Holds m vB B → Disjoint (cells vA) (cells vB) →
    Holds (lib.zpotrs n k vA.data vA.s1 vB.data vB.s1 m).1 vB (la.potrs A B).1 ∧
    SameOutside (cells vB) m (lib.zpotrs n k vA.data vA.s1 vB.data vB.s1 m).1

/-- The operator of the host multiplies with `S`: the product is stored into the first argument, which may
hold anything before, and nothing else changes. -/
def Applies {N : ℕ} (op : HostOp) (S : Mat N N) : Prop :=
  ∀ (B : ℕ) (y x : MView) (m : Mem ℂ) (X : Mat N B), ColMajor y → ColMajor x → y.rows = N → y.cols = B →
    Holds m x X → Accessible m y → Disjoint (cells x) (cells y) → Computes (op y x) m y (S * X)

/-- everything the programs rely on -/
structure EnvOk (E : HostEnv) (la : Lapack) : Prop where
  heap : Heap.Ok E.heap
  lapack : Implements E.lib la

/-- The program `p`, started in memory `m`, has the outcome `r`. If `r` is a value, the result stands for
it as told by `Q`; its memory `own` was free before; nothing else has changed, in particular no argument
and no other object, and nothing else is in use. If `r` is an exception, it is thrown and memory is as it
was. -/
def Refines {β γ : Type} (p : MemM ℂ β) (m : Mem ℂ) (r : Res γ) (own : β → Set ℕ)
    (Q : Mem ℂ → β → γ → Prop) : Prop :=
  match r with
  | .ok y => ∃ x m', p m = (.ok x, m') ∧ Q m' x y ∧ (∀ a ∈ own x, m a = none) ∧ SameOutside (own x) m m'
  | .throw e => p m = (.throw e, m)
  | .ub => False
  | .abort => False

/-- the result is a new matrix, stored by columns -/
def NewMat {r c : ℕ} (p : MemM ℂ MView) (m : Mem ℂ) (A : Res (Mat r c)) : Prop :=
  Refines p m A cells fun m' v A => ColMajor v ∧ Holds m' v A

/-- the arguments of a direction in memory -/
structure HoldsK {N B : ℕ} (m : Mem ℂ) (k : KMem) (i : KIn N B) : Prop where
  cX : ColMajor k.X
  X : Holds m k.X i.X
  chx : ColMajor k.hx
  hx : Holds m k.hx i.hx
  e : HoldsReal m k.e i.e
  f : HoldsReal m k.f i.f
  S : Applies k.S i.S
  P : Applies k.P i.P

/-- the result of a step in memory: its three parts do not overlap -/
structure HoldsGeo {N B : ℕ} (m : Mem ℂ) (g : GeoMem) (o : GeoOut N B) : Prop where
  ek : HoldsReal m g.ek o.ek
  cul : ColMajor g.ul
  ul : Holds m g.ul o.ul
  cX : ColMajor g.X
  X : Holds m g.X o.X
  ek_ul : Disjoint (vecCells g.ek B) (cells g.ul)
  ek_X : Disjoint (vecCells g.ek B) (cells g.X)
  ul_X : Disjoint (cells g.ul) (cells g.X)

/-- the result of a direction without history in memory: its two matrices do not overlap -/
structure HoldsRestart {N B : ℕ} (m : Mem ℂ) (r : RestartMem) (o : KOut N B) : Prop where
  fr : r.fr = o.fr
  cdx : ColMajor r.dx
  dx : Holds m r.dx o.dx
  cdeta : ColMajor r.deta
  deta : Holds m r.deta o.deta
  apart : Disjoint (cells r.dx) (cells r.deta)

/-- the result of a direction with history in memory: the preconditioned gradient `o` and the transported
old direction `z`, with its slope; the four matrices do not overlap -/
structure HoldsConj {N B : ℕ} (m : Mem ℂ) (r : ConjMem) (o : KOut N B × (ℝ × Mat N B × Mat B B)) : Prop where
  fr : r.fr = o.1.fr
  slope : r.slope = o.2.1
  cdx : ColMajor r.dx
  dx : Holds m r.dx o.1.dx
  cdeta : ColMajor r.deta
  deta : Holds m r.deta o.1.deta
  czx : ColMajor r.zx
  zx : Holds m r.zx o.2.2.1
  czeta : ColMajor r.zeta
  zeta : Holds m r.zeta o.2.2.2
  dx_deta : Disjoint (cells r.dx) (cells r.deta)
  dx_zx : Disjoint (cells r.dx) (cells r.zx)
  dx_zeta : Disjoint (cells r.dx) (cells r.zeta)
  deta_zx : Disjoint (cells r.deta) (cells r.zx)
  deta_zeta : Disjoint (cells r.deta) (cells r.zeta)
  zx_zeta : Disjoint (cells r.zx) (cells r.zeta)

/-- the memory of the results of all k-points -/
def allCells {K : ℕ} {β : Type} (own : β → Set ℕ) (xs : List (Fin K × β)) : Set ℕ :=
  {a | ∃ kx ∈ xs, a ∈ own kx.2}

/-- one result per k-point, no two of them overlapping -/
structure OnePerK {K : ℕ} {β : Type} (own : β → Set ℕ) (xs : List (Fin K × β)) : Prop where
  keys : (xs.map Prod.fst).Perm (List.finRange K)
  apart : xs.Pairwise fun x y => Disjoint (own x.2) (own y.2)

end Nlcg.Spec
