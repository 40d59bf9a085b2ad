import Verif.Proofs.MemAlgoRef
import Verif.Props.Descent
import Verif.Props.Geodesic

/-!
# C74: steps and directions in memory compute the formulas and leave their arguments alone

`EnvOk E la` (`Spec/MemAlgo`): the allocator of `E` hands out free memory and LAPACK in memory does what
`la` does with matrices. Nothing is assumed about where new memory lies, what it contains, in which order
parallel iterations run, or in which order the k-points are worked on. Arguments may share memory.
The formulas on the right are the functions on matrices that `C15`-`C21` and `C46` are about.
-/

namespace Nlcg
open Matrix Spec

variable {E : HostEnv} {la : Lapack} {m : Mem ℂ}

/-- **C74.** Orthogonalisation yields a new matrix, equal to the formula. No argument changes, and no
other memory remains in use; if the eigensolver fails, its exception leaves memory as it was. -/
theorem C74_orthogonalise (hE : EnvOk E la) (hm : Finite m) {N B : ℕ} (hN : 0 < N) (hB : 0 < B)
    {vX vSX : MView} {X SX : Mat N B} (cX : ColMajor vX) (cSX : ColMajor vSX) (hX : Holds m vX X)
    (hSX : Holds m vSX SX) : NewMat (loewdinMem E vX vSX) m (loewdin la X SX) :=
  loewdinMem_ok hE hm hN hB cX cSX hX hSX

/-- **C74.** The same for a step: the new orbitals, the rotation and the eigenvalues are three new
objects that do not overlap. -/
theorem C74_step (hE : EnvOk E la) (hm : Finite m) {N B : ℕ} (hN : 0 < N) (hB : 0 < B)
    {x eta zx zeta : MView} {X ZX : Mat N B} {ETA ZETA : Mat B B} {op : HostOp} {S : Mat N N}
    (hop : Applies op S) (cx : ColMajor x) (czx : ColMajor zx) (czeta : ColMajor zeta) (hx : Holds m x X)
    (heta : Holds m eta ETA) (hzx : Holds m zx ZX) (hzeta : Holds m zeta ZETA) (t : ℝ) :
    Refines (geodesicMem E x eta zx zeta op t) m (geodesicUs la X ETA ZX ZETA S t)
      (fun g => vecCells g.ek B ∪ cells g.ul ∪ cells g.X) HoldsGeo :=
  geodesicMem_ok hE hm hN hB hop cx czx czeta hx heta hzx hzeta t

/-- **C74.** In particular a step that is repeated from the same point, as the line search does, starts
from the same point again: the arguments are still there. -/
theorem C74_step_repeatable (hE : EnvOk E la) (hm : Finite m) {N B : ℕ} (hN : 0 < N) (hB : 0 < B)
    {x eta zx zeta : MView} {X ZX : Mat N B} {ETA ZETA : Mat B B} {op : HostOp} {S : Mat N N}
    (hop : Applies op S) (cx : ColMajor x) (czx : ColMajor zx) (czeta : ColMajor zeta) (hx : Holds m x X)
    (heta : Holds m eta ETA) (hzx : Holds m zx ZX) (hzeta : Holds m zeta ZETA) (t : ℝ) :
    let m' := (geodesicMem E x eta zx zeta op t m).2
    Finite m' ∧ Holds m' x X ∧ Holds m' eta ETA ∧ Holds m' zx ZX ∧ Holds m' zeta ZETA := by
  have h := geodesicMem_ok hE hm hN hB hop cx czx czeta hx heta hzx hzeta t
  cases hr : geodesicUs la X ETA ZX ZETA S t with
  | ok o =>
    rw [hr] at h
    obtain ⟨g, m', e, _, f, s⟩ := h
    have x1 := Ext.new hm f s (((vecCells_finite _ _).union (cells_finite _)).union (cells_finite _))
    rw [e]
    exact ⟨x1.fin, hx.ext0 x1, heta.ext0 x1, hzx.ext0 x1, hzeta.ext0 x1⟩
  | throw e =>
    rw [hr] at h
    replace h : geodesicMem E x eta zx zeta op t m = (.throw e, m) := h
    rw [h]
    exact ⟨hm, hx, heta, hzx, hzeta⟩
  | ub => rw [hr] at h; exact h.elim
  | abort => rw [hr] at h; exact h.elim

open scoped ComplexOrder in
/-- **C74.** With a LAPACK that keeps its contract the orbitals in memory after a step are orthonormal. -/
theorem C74_step_orthonormal (hE : EnvOk E la) (hla : LapackOk la) (ht : EighTotal la) (hm : Finite m)
    {N B : ℕ} (hN : 0 < N) (hB : 0 < B) {x eta zx zeta : MView} {X ZX : Mat N B} {ETA ZETA : Mat B B}
    {op : HostOp} {S : Mat N N} (hS : S.PosSemidef) (hop : Applies op S) (cx : ColMajor x)
    (czx : ColMajor zx) (czeta : ColMajor zeta) (hx : Holds m x X) (heta : Holds m eta ETA)
    (hzx : Holds m zx ZX) (hzeta : Holds m zeta ZETA) (ho : SOrtho S X) (hz : Tangent S X ZX)
    (he : ETA.IsHermitian) (hze : ZETA.IsHermitian) (t : ℝ) :
    ∃ (g : GeoMem) (m' : Mem ℂ) (Y : Mat N B), geodesicMem E x eta zx zeta op t m = (.ok g, m') ∧ Holds m' g.X Y ∧ SOrtho S Y := by
  obtain ⟨o, h⟩ := C19_step_defined ht hS ho hz he hze t
  have hs := geodesicMem_ok hE hm hN hB hop cx czx czeta hx heta hzx hzeta t
  rw [h] at hs
  obtain ⟨g, m', e, q, _⟩ := hs
  exact ⟨g, m', o.X, e, q.X, C19_step_orthonormal hla hS ho hz he hze t h⟩

/-- **C74.** A step for all k-points, tasks in any order: one result each, at the formula of its k-point, and
no two results overlap. If a task fails, the exception is passed on and the results of the others are given
back. -/
theorem C74_steps (hE : EnvOk E la) (hm : Finite m) {K : ℕ} {n b : Fin K → ℕ} (hn : ∀ k, 0 < n k)
    (hb : ∀ k, 0 < b k) {x eta zx zeta : Fin K → MView} {X ZX : (k : Fin K) → Mat (n k) (b k)}
    {ETA ZETA : (k : Fin K) → Mat (b k) (b k)} {op : Fin K → HostOp} {S : (k : Fin K) → Mat (n k) (n k)}
    (hop : ∀ k, Applies (op k) (S k)) (cx : ∀ k, ColMajor (x k)) (czx : ∀ k, ColMajor (zx k))
    (czeta : ∀ k, ColMajor (zeta k)) (hx : ∀ k, Holds m (x k) (X k)) (heta : ∀ k, Holds m (eta k) (ETA k))
    (hzx : ∀ k, Holds m (zx k) (ZX k)) (hzeta : ∀ k, Holds m (zeta k) (ZETA k)) (t : ℝ) :
    Refines (geodesicAllMem E x eta zx zeta op t) m
      (forAllK fun k => geodesicUs la (X k) (ETA k) (ZX k) (ZETA k) (S k) t)
      (allCells fun g : GeoMem => vecCells g.ek g.ul.cols ∪ cells g.ul ∪ cells g.X) fun m' xs o =>
        OnePerK (fun g : GeoMem => vecCells g.ek g.ul.cols ∪ cells g.ul ∪ cells g.X) xs ∧
        ∀ kg ∈ xs, HoldsGeo m' kg.2 (o kg.1) :=
  geodesicAllMem_refines hE hm hn hb hop cx czx czeta hx heta hzx hzeta t

/-- **C74.** The direction without history: slope and direction are those of the formulas, in new memory
that is all that remains in use. -/
theorem C74_restart (hE : EnvOk E la) (hm : Finite m) {K : ℕ} {n b : Fin K → ℕ} (hn : ∀ k, 0 < n k)
    (hb : ∀ k, 0 < b k) {ks : Fin K → KMem} {i : (k : Fin K) → KIn (n k) (b k)}
    (hk : ∀ k, HoldsK m (ks k) (i k)) (p : DirParams) :
    ∃ r m', restartedMem E p (globals p i).1 (globals p i).2 ks (fun k => (i k).wk) m = (.ok r, m') ∧
      r.fr = (restarted la p i).1 ∧ OnePerK (fun x : RestartMem => cells x.dx ∪ cells x.deta) r.dir ∧
      (∀ kr ∈ r.dir, ColMajor kr.2.dx ∧ Holds m' kr.2.dx ((restarted la p i).2.zx kr.1) ∧
        ColMajor kr.2.deta ∧ Holds m' kr.2.deta ((restarted la p i).2.zeta kr.1) ∧
        Disjoint (cells kr.2.dx) (cells kr.2.deta)) ∧
      (∀ a ∈ allCells (fun x : RestartMem => cells x.dx ∪ cells x.deta) r.dir, m a = none) ∧
      SameOutside (allCells (fun x : RestartMem => cells x.dx ∪ cells x.deta) r.dir) m m' := by
  obtain ⟨r, m', e, h1, h2, h3, h4⟩ := restartedMem_ok hE hm hn hb hk p
  exact ⟨r, m', e, h1, h2, fun kr h => ⟨(h3 kr h).cdx, (h3 kr h).dx, (h3 kr h).cdeta, (h3 kr h).deta,
    (h3 kr h).apart⟩, h4⟩

/-- **C74.** The direction with history: slope, measure of the gradient and direction are those of the
formulas. The old direction is an argument like the others: it is not overwritten. -/
theorem C74_conjugate (hE : EnvOk E la) (hm : Finite m) {K : ℕ} {n b : Fin K → ℕ} (hn : ∀ k, 0 < n k)
    (hb : ∀ k, 0 < b k) {ks : Fin K → KMem} {i : (k : Fin K) → KIn (n k) (b k)}
    (hk : ∀ k, HoldsK m (ks k) (i k)) (p : DirParams) (frOld : ℝ) {zxp zetap ul : Fin K → MView}
    {old : Dir n b} {UL : (k : Fin K) → Mat (b k) (b k)} (czxp : ∀ k, ColMajor (zxp k))
    (czetap : ∀ k, ColMajor (zetap k)) (cul : ∀ k, ColMajor (ul k)) (hzxp : ∀ k, Holds m (zxp k) (old.zx k))
    (hzetap : ∀ k, Holds m (zetap k) (old.zeta k)) (hul : ∀ k, Holds m (ul k) (UL k)) :
    ∃ r m', conjugatedMem E p (globals p i).1 (globals p i).2 frOld ks (fun k => (i k).wk) zxp zetap ul m =
        (.ok r, m') ∧
      r.fr = (conjugated la p frOld i old UL).1 ∧ r.slope = (conjugated la p frOld i old UL).2.1 ∧
      OnePerK (fun x : ConjMem => cells x.zx ∪ cells x.zeta) r.dir ∧
      (∀ kr ∈ r.dir, ColMajor kr.2.zx ∧ Holds m' kr.2.zx ((conjugated la p frOld i old UL).2.2.zx kr.1) ∧
        ColMajor kr.2.zeta ∧ Holds m' kr.2.zeta ((conjugated la p frOld i old UL).2.2.zeta kr.1) ∧
        Disjoint (cells kr.2.zx) (cells kr.2.zeta)) ∧
      (∀ a ∈ allCells (fun x : ConjMem => cells x.zx ∪ cells x.zeta) r.dir, m a = none) ∧
      SameOutside (allCells (fun x : ConjMem => cells x.zx ∪ cells x.zeta) r.dir) m m' :=
  conjugatedMem_ok hE hm hn hb hk p frOld czxp czetap cul hzxp hzetap hul

/-! Everything assumed above is possible: for every LAPACK there is an environment, and for all matrices
there is memory that holds them. -/

/-- a scalar view is no view: default value for the construction of memory -/
instance : Inhabited MView := ⟨⟨0, 0, 0, 1, 1, true⟩⟩

instance : Inhabited KMem := ⟨⟨default, default, 0, 0, fun _ _ => pure (), fun _ _ => pure ()⟩⟩

theorem memory_for_directions {K : ℕ} {n b : Fin K → ℕ} (hn : ∀ k, 0 < n k) (hb : ∀ k, 0 < b k)
    (i : (k : Fin K) → KIn (n k) (b k)) (old : Dir n b) (UL : (k : Fin K) → Mat (b k) (b k)) :
    ∃ (m : Mem ℂ) (ks : Fin K → KMem) (zxp zetap ul : Fin K → MView), Finite m ∧
      (∀ k, HoldsK m (ks k) (i k)) ∧ (∀ k, ColMajor (zxp k) ∧ Holds m (zxp k) (old.zx k)) ∧
      (∀ k, ColMajor (zetap k) ∧ Holds m (zetap k) (old.zeta k)) ∧
      (∀ k, ColMajor (ul k) ∧ Holds m (ul k) (UL k)) := by
  obtain ⟨ks, m1, x1, h1⟩ := put_all (P := fun m k x => HoldsK m x (i k)) (fun _ _ _ _ e h => h.ext0 e)
    (fun m k hm => put_k hm (hn k) (hb k) (i k)) empty_finite
  obtain ⟨zxp, m2, x2, h2⟩ := put_all (P := fun m k x => ColMajor x ∧ Holds m x (old.zx k))
    (fun _ _ _ _ e h => ⟨h.1, h.2.ext0 e⟩) (fun m k hm => put_mat hm (hn k) (old.zx k)) x1.fin
  obtain ⟨zetap, m3, x3, h3⟩ := put_all (P := fun m k x => ColMajor x ∧ Holds m x (old.zeta k))
    (fun _ _ _ _ e h => ⟨h.1, h.2.ext0 e⟩) (fun m k hm => put_mat hm (hb k) (old.zeta k)) x2.fin
  obtain ⟨ul, m4, x4, h4⟩ := put_all (P := fun m k x => ColMajor x ∧ Holds m x (UL k))
    (fun _ _ _ _ e h => ⟨h.1, h.2.ext0 e⟩) (fun m k hm => put_mat hm (hb k) (UL k)) x3.fin
  exact ⟨m4, ks, zxp, zetap, ul, x4.fin, fun k => (((h1 k).ext0 x2).ext0 x3).ext0 x4,
    fun k => ⟨(h2 k).1, ((h2 k).2.ext0 x3).ext0 x4⟩, fun k => ⟨(h3 k).1, (h3 k).2.ext0 x4⟩, h4⟩

example (sch : Sched) : EnvOk (memEnv refLapack sch) refLapack ∧
    ∃ (m : Mem ℂ) (ks : Fin 2 → KMem) (zxp zetap ul : Fin 2 → MView), Finite m ∧
      (∀ k, HoldsK m (ks k) exK) ∧ (∀ k, ColMajor (zxp k) ∧ Holds m (zxp k) exK.hx) ∧
      (∀ k, ColMajor (zetap k) ∧ Holds m (zetap k) (2 : Mat 1 1)) ∧
      (∀ k, ColMajor (ul k) ∧ Holds m (ul k) (1 : Mat 1 1)) :=
  ⟨memEnv_ok _ _, memory_for_directions (n := fun _ : Fin 2 => 2) (b := fun _ => 1) (by simp) (by simp)
    (fun _ => exK) ⟨fun _ => exK.hx, fun _ => 2⟩ (fun _ => 1)⟩

/-- the same point, moved along a direction -/
example (sch : Sched) : EnvOk (memEnv refLapack sch) refLapack ∧ LapackOk refLapack ∧ EighTotal refLapack ∧
    SOrtho exK.S exK.X ∧ Tangent exK.S exK.X (!![0; 3] : Mat 2 1) ∧ Applies (mulOp exK.S) exK.S ∧
    ∃ (m : Mem ℂ) (x zx eta zeta : MView), Finite m ∧ ColMajor x ∧ ColMajor zx ∧ ColMajor zeta ∧
      Holds m x exK.X ∧ Holds m zx (!![0; 3] : Mat 2 1) ∧ Holds m eta (5 : Mat 1 1) ∧
      Holds m zeta (2 : Mat 1 1) := by
  refine ⟨memEnv_ok _ _, refLapack_ok, refLapack_total, exK_physical.ortho, ?_, mulOp_applies _, ?_⟩
  · ext i j; fin_cases i; fin_cases j; simp [exK, mul_apply]
  · obtain ⟨x, m1, x1, c1, h1⟩ := put_mat empty_finite two_pos exK.X
    obtain ⟨zx, m2, x2, c2, h2⟩ := put_mat x1.fin two_pos (!![0; 3] : Mat 2 1)
    obtain ⟨eta, m3, x3, c3, h3⟩ := put_mat x2.fin one_pos (5 : Mat 1 1)
    obtain ⟨zeta, m4, x4, c4, h4⟩ := put_mat x3.fin one_pos (2 : Mat 1 1)
    exact ⟨m4, x, zx, eta, zeta, x4.fin, c1, c2, c4, ((h1.ext0 x2).ext0 x3).ext0 x4, (h2.ext0 x3).ext0 x4,
      h3.ext0 x4, h4⟩

/-! ## A remark on `transform_alloc` -/

/-- three numbers in memory -/
def exNarrow : Mem ℂ := fun a => if a < 3 then some 1 else none

/-- **C74, remark.** The product of a matrix with a wider one is stored beyond the end of the result,
which has the size of the first factor: the library only ever calls it with square second factors. -/
theorem C74_wide_product_out_of_bounds : Free exNarrow 3 2 ∧
    Holds exNarrow ⟨0, 1, 1, 1, 1, true⟩ (!![1] : Mat 1 1) ∧
    Holds exNarrow ⟨1, 1, 2, 1, 1, true⟩ (!![1, 1] : Mat 1 2) ∧
    ∀ lib garbage sch, (transformNew ⟨lib, ⟨fun _ _ => 3, garbage⟩, sch⟩ ⟨0, 1, 1, 1, 1, true⟩
      ⟨1, 1, 2, 1, 1, true⟩ exNarrow).1 = .ub := by
  refine ⟨?_, ⟨rfl, rfl, ?_⟩, ⟨rfl, rfl, ?_⟩, ?_⟩
  · intro a h1 h2
    rw [exNarrow, if_neg (by omega)]
  · intro i j; fin_cases i; fin_cases j; simp [exNarrow]
  · intro i j; fin_cases i; fin_cases j <;> simp [exNarrow]
  · intro lib garbage sch
    have hi : indexPairs 1 2 = [(0, 0), (0, 1)] := by decide
    simp [transformNew, HostEnv.zeros, SM.get, SM.bind_apply, allocate, transformK, gemm, hi, forEach, sumM,
      opElem, load, store, exNarrow, SM.pure_apply]

end Nlcg
