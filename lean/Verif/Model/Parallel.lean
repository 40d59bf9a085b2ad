import Verif.Model.MemAlgo

/-!
# Parallel loops, access by access

`Kokkos::parallel_for` and `#pragma omp parallel for` execute the iterations of a loop on several threads. Here an
iteration is the sequence of its loads and stores, and the accesses of different iterations may be interleaved in
any way. Chunks of iterations executed by one thread, as Kokkos and OpenMP form them, are special cases.

The iterations below are those of the loops of `Model/Memory.lean` and `Model/MemAlgo.lean`, where an iteration is
executed as a whole, and of the loops over memory that occur elsewhere in the library.
-/

namespace Nlcg

/-- one iteration: what it does next, given what it has read so far -/
inductive Iter (α : Type) where
  | done
  | load (a : ℕ) (k : α → Iter α)
  | store (a : ℕ) (v : α) (k : Iter α)

section
variable {α : Type}

/-- one iteration after another, on the same thread -/
def Iter.seq : Iter α → Iter α → Iter α
  | .done, q => q
  | .load a k, q => .load a fun v => (k v).seq q
  | .store a v k, q => .store a v (k.seq q)

/-- an inner sequential loop -/
def Iter.loop {ι : Type} : List ι → (ι → Iter α) → Iter α
  | [], _ => .done
  | x :: l, f => (f x).seq (Iter.loop l f)

/-- the iteration executed without interruption -/
def Iter.run : Iter α → MemM α Unit
  | .done => pure ()
  | .load a k => do let v ← Nlcg.load a; (k v).run
  | .store a v k => do Nlcg.store a v; k.run

/-- memory and, for every iteration, what it still has to do -/
structure PState (ι α : Type) where
  todo : ι → Iter α
  mem : Mem α

/-- Some iteration `i` of the loop executes its next access. An access to an address that does not exist is no
step: it is undefined. -/
inductive PStep {ι : Type} [DecidableEq ι] (l : List ι) : PState ι α → PState ι α → Prop
  | load {s : PState ι α} {i : ι} {a : ℕ} {k : α → Iter α} {v : α} (hi : i ∈ l) (ht : s.todo i = .load a k)
      (hv : s.mem a = some v) : PStep l s ⟨fun j => if j = i then k v else s.todo j, s.mem⟩
  | store {s : PState ι α} {i : ι} {a : ℕ} {v u : α} {k : Iter α} (hi : i ∈ l) (ht : s.todo i = .store a v k)
      (hu : s.mem a = some u) :
      PStep l s ⟨fun j => if j = i then k else s.todo j, fun x => if x = a then some v else s.mem x⟩

/-- `n` accesses have taken place -/
inductive PSteps {ι : Type} [DecidableEq ι] (l : List ι) : ℕ → PState ι α → PState ι α → Prop
  | refl (s : PState ι α) : PSteps l 0 s s
  | step {n : ℕ} {s t u : PState ι α} : PSteps l n s t → PStep l t u → PSteps l (n + 1) s u

/-! ## The iterations of the loops -/

section
variable [Add α] [Mul α]

/-- `scale(dst, src, alpha, beta)`, `_add`: `src/la/lapack.hpp:127-137,164-168,221-229` -/
def axpbyIter [Zero α] [DecidableEq α] (dst src : MView) (alpha beta : α) (p : ℕ × ℕ) : Iter α :=
  if beta = 0 then
    .load (src.addr p.1 p.2) fun s => .store (dst.addr p.1 p.2) (alpha * s) .done
  else
    .load (dst.addr p.1 p.2) fun d => .load (src.addr p.1 p.2) fun s =>
      .store (dst.addr p.1 p.2) (d * beta + alpha * s) .done

/-- `scale(dst, src, x, alpha, beta)`, `src/la/lapack.hpp:89-99` -/
def scaleColsIter [Zero α] [DecidableEq α] (dst src : MView) (x : ℕ) (alpha beta : α) (p : ℕ × ℕ) : Iter α :=
  if beta = 0 then
    .load (x + p.2) fun xj => .load (src.addr p.1 p.2) fun s =>
      .store (dst.addr p.1 p.2) (alpha * xj * s) .done
  else
    .load (dst.addr p.1 p.2) fun d => .load (x + p.2) fun xj => .load (src.addr p.1 p.2) fun s =>
      .store (dst.addr p.1 p.2) (d * beta + alpha * xj * s) .done

/-- `geam` without MKL: one column, `src/la/cblas.hpp:382-389` -/
def geamIter (m : ℕ) (alpha : α) (A lda : ℕ) (beta : α) (B ldb C ldc : ℕ) (j : ℕ) : Iter α :=
  Iter.loop (List.range m) fun i =>
    .load (A + (i + lda * j)) fun x => .load (B + (i + ldb * j)) fun y =>
      .store (C + (i + ldc * j)) (alpha * x + beta * y) .done

/-- the preconditioner of Teter et al. for one k-point, `src/preconditioner.hpp:36-40` -/
def teterIter (dst src : MView) (entries : ℕ) (p : ℕ × ℕ) : Iter α :=
  .load (entries + p.1) fun e => .load (src.addr p.1 p.2) fun s => .store (dst.addr p.1 p.2) (e * s) .done

end

/-- `diag(X)`, `src/la/lapack.hpp:33-35` -/
def diagIter (X : MView) (d : ℕ) (i : ℕ) : Iter α := .load (X.addr i i) fun x => .store (d + i) x .done

/-- `make_diag`, `src/la/lapack.hpp:59-61` -/
def makeDiagIter (x : ℕ) (out : MView) (i : ℕ) : Iter α := .load (x + i) fun v => .store (out.addr i i) v .done

/-- filling with NaN in debug builds, `src/la/utils.hpp:126-128,147-150` -/
def fillIter (dst : MView) (nan : α) (p : ℕ × ℕ) : Iter α := .store (dst.addr p.1 p.2) nan .done

/-- an element of a vector is replaced by a function of itself: `loewdin_aux`, `src/la/lapack.hpp:357-360,368-371`;
`x(i) = x(i) * kT` of the inverse smearing, `src/smearing.hpp:641-642,654-655` -/
def mapIter (f : α → α) (w : ℕ) (i : ℕ) : Iter α := .load (w + i) fun x => .store (w + i) (f x) .done

/-- an element of a new vector is a function of an element of a vector: the entries of the Teter preconditioner,
`src/preconditioner.hpp:82-89` -/
def mapToIter (f : α → α) (w r : ℕ) (i : ℕ) : Iter α := .load (w + i) fun x => .store (r + i) (f x) .done

end

noncomputable section

/-- the diagonal of `delta_eta`, `src/pseudo_hamiltonian/grad_eta.hpp:108-110` -/
def deltaEtaIter (kappa : ℝ) (d : MView) (ek : ℕ) (i : ℕ) : Iter ℂ :=
  .load (d.addr i i) fun x => .load (ek + i) fun e =>
    .store (d.addr i i) (x - ((kappa * e.re : ℝ) : ℂ)) .done

/-- "gEta (1)", `src/pseudo_hamiltonian/grad_eta.hpp:152-156` -/
def gEtaIter1 (sf : SmearFns ℝ) (kT : ℝ) (g hij : MView) (mu wk : ℝ) (ek : ℕ) (mo : ℝ) (i : ℕ) : Iter ℂ :=
  .load (ek + i) fun e => .load (hij.addr i i) fun h =>
    .store (g.addr i i) (((-1 / kT : ℝ) : ℂ) * (h - ((wk * e.re : ℝ) : ℂ)) *
      (sf.delta ((e.re - mu) / kT) mo : ℂ)) .done

/-- "gEta (2)", `src/pseudo_hamiltonian/grad_eta.hpp:161-166` -/
def gEtaIter2 (sf : SmearFns ℝ) (kT : ℝ) (g : MView) (mu wk : ℝ) (ek : ℕ) (dmu dF mo : ℝ) (i : ℕ) : Iter ℂ :=
  .load (ek + i) fun e => .load (g.addr i i) fun x =>
    .store (g.addr i i) (x + ((wk * sf.delta ((e.re - mu) / kT) mo / dmu * (dF / kT) : ℝ) : ℂ)) .done

/-- "gEta(3)", `src/pseudo_hamiltonian/grad_eta.hpp:169-186` -/
def gEtaIter3 (g hij : MView) (ek fn : ℕ) (p : ℕ × ℕ) : Iter ℂ :=
  if p.1 = p.2 then .done
  else .load (ek + p.2) fun ej => .load (ek + p.1) fun ei =>
    if |ej.re - ei.re| < 1 / 10 ^ 10 then .done
    else .load (fn + p.2) fun fj => .load (fn + p.1) fun fi => .load (g.addr p.1 p.2) fun x =>
      .load (hij.addr p.1 p.2) fun h =>
        .store (g.addr p.1 p.2) (x + (((fj.re - fi.re) / (ej.re - ei.re) : ℝ) : ℂ) * h) .done

/-- sums along rows of `innerh_tr`, `src/la/lapack.hpp:276-281,313-318` -/
def rowSumIter (X Y : MView) (tmp : ℕ) (i : ℕ) : Iter ℂ :=
  Iter.loop (List.range X.cols) fun j =>
    .load (tmp + i) fun s => .load (X.addr i j) fun x => .load (Y.addr i j) fun y =>
      .store (tmp + i) (s + x * star y) .done

end
end Nlcg
