import Verif.Model.Gpu
import Verif.Model.Descent
import Verif.Model.Geodesic
import Mathlib.Data.List.FinRange

/-!
# Steps and directions of one k-point, in memory

`src/la/lapack.hpp`, `src/geodesic.hpp`, `src/mvp2/mvp2.hpp`, `src/mvp2/descent_direction_impl.hpp`,
`src/mvp2/descent_direction.hpp`, `src/pseudo_hamiltonian/grad_eta.hpp` for the host memory space: every
matrix is a view of memory, a copy of a matrix object refers to the same memory, new matrices come from
an allocator and may hold anything, and several operations store into their arguments. `Model/LinAlg`,
`Model/Descent` and `Model/Geodesic` have the same functions on matrices as values.

Real numbers are stored as scalars with imaginary part 0. `create_mirror_view_and_copy(memspc, x)` is
`x` itself here (same memory space). Memory is unbounded: allocation does not fail.
-/

namespace Nlcg
noncomputable section

/-- Where the next allocation goes, and what memory holds that was not initialised. -/
structure Heap where
  place : Mem ℂ → ℕ → ℕ
  garbage : ℕ → ℂ

/-- what the algorithms need from outside: LAPACK, allocator, order of parallel iterations -/
structure HostEnv where
  lib : HostLib ℂ
  heap : Heap
  sch : Sched

/-- an operator of the host: `op.apply(key, vY, vX)` with output and input; the pair of key and operator
is one argument here, `src/operator.hpp:48-79` -/
abbrev HostOp := MView → MView → MemM ℂ Unit

/-- a new contiguous matrix filled with 0: `to_layout_left_t<M>(map)`, `zeros_like`,
`src/la/dvector.hpp:135-197`, `src/la/utils.hpp:75-82` -/
def HostEnv.zeros (E : HostEnv) (rows cols : ℕ) (loc : Bool) : MemM ℂ MView := do
  let m ← SM.get
  let b := E.heap.place m (rows * cols)
  allocate b (rows * cols) fun _ => 0
  pure ⟨b, rows, cols, 1, rows, loc⟩

/-- `empty_like`: a new contiguous matrix which is not initialised, `src/la/utils.hpp:133-156` -/
def HostEnv.empty (E : HostEnv) (rows cols : ℕ) (loc : Bool) : MemM ℂ MView := do
  let m ← SM.get
  let b := E.heap.place m (rows * cols)
  allocate b (rows * cols) E.heap.garbage
  pure ⟨b, rows, cols, 1, rows, loc⟩

/-- `Kokkos::View<T*>(label, n)`: a new vector filled with 0 -/
def HostEnv.vec (E : HostEnv) (n : ℕ) : MemM ℂ ℕ := do
  let m ← SM.get
  let b := E.heap.place m n
  allocate b n fun _ => 0
  pure b

open Classical in
/-- The end of a function: memory obtained in it that does not belong to the result is given back, also
when it is left by an exception. This stands for the reference counts of `Kokkos::View`, which are not
modelled. -/
def withScope {β : Type} (own : β → Set ℕ) (p : MemM ℂ β) : MemM ℂ β := fun m =>
  match p m with
  | (.ok x, m') => (.ok x, fun a => if m a = none ∧ a ∉ own x then none else m' a)
  | (r, m') => (r, fun a => if m a = none then none else m' a)

/-- the memory of a matrix -/
def MView.mem (v : MView) : Set ℕ := {a | ∃ i j, i < v.rows ∧ j < v.cols ∧ a = v.addr i j}

/-- the memory of a vector -/
def vecMem (w n : ℕ) : Set ℕ := {a | w ≤ a ∧ a < w + n}

/-! ## Building blocks -/

/-- `inner_()(A, B, alpha)`, `src/la/lapack.hpp:232-248` -/
def innerNew (E : HostEnv) (A B : MView) (alpha : ℂ) : MemM ℂ MView := do
  let C ← E.zeros A.cols B.cols A.isLocal
  innerK C A B alpha 0
  pure C

/-- `transform_alloc(A, B)`: the result gets the sizes of `A`, `src/la/lapack.hpp:429-440` -/
def transformNew (E : HostEnv) (A B : MView) : MemM ℂ MView := do
  let C ← E.zeros A.rows A.cols A.isLocal
  transformK C 0 1 A B
  pure C

/-- `applicator::operator()`, `src/operator.hpp:66-75` -/
def applyOp (E : HostEnv) (op : HostOp) (X : MView) : MemM ℂ MView := do
  let Y ← E.empty X.rows X.cols X.isLocal
  op Y X
  pure Y

/-- `empty_like` followed by `deep_copy` -/
def copyNew (E : HostEnv) (like X : MView) : MemM ℂ MView := do
  let Y ← E.empty like.rows like.cols like.isLocal
  deepCopyK E.sch Y X
  pure Y

/-- `loewdin_aux(w)`, `src/la/lapack.hpp:364-372` -/
def loewdinAuxK (w n : ℕ) : MemM ℂ Unit := forEach (List.range n) fun i => do
  let x ← load (w + i)
  store (w + i) ((1 / √x.re : ℝ) : ℂ)

/-- `loewdin(X, SX)`, `src/la/lapack.hpp:400-425`; `M` is overwritten -/
def loewdinMem (E : HostEnv) (X SX : MView) : MemM ℂ MView := withScope MView.mem do
  let M ← innerNew E X SX 1
  let w ← E.vec X.cols
  let U ← E.empty M.rows M.cols M.isLocal
  eighHost E.lib E.sch U w M
  loewdinAuxK w X.cols
  scaleColsK E.sch M U w 1 0
  let R ← E.zeros U.rows U.cols U.isLocal
  outerK R M U 1 0
  let Y ← E.zeros X.rows X.cols X.isLocal
  transformK Y 0 1 X R
  pure Y

/-! ## Moving along a direction -/

/-- `local::advance_eta`, `src/geodesic.hpp:11-32` -/
def advanceEtaMem (E : HostEnv) (t : ℝ) (eta deta : MView) : MemM ℂ MView := do
  let etaNext ← copyNew E deta eta
  addK E.sch etaNext deta (t : ℂ) 1
  pure etaNext

/-- `local::eigvals_and_vectors`, `src/geodesic.hpp:51-64` -/
def eigvalsMem (E : HostEnv) (eta : MView) : MemM ℂ (ℕ × MView) := do
  let Ul ← E.empty eta.rows eta.cols eta.isLocal
  let ek ← E.vec Ul.cols
  eighHost E.lib E.sch Ul ek eta
  pure (ek, Ul)

/-- `local::advance_x` (ultra-soft): `x_next` is first the moved orbitals, then refers to the
orthogonalised ones, `src/geodesic.hpp:86-99` -/
def advanceXMem (E : HostEnv) (t : ℝ) (x dx ul : MView) (S : HostOp) : MemM ℂ MView :=
  withScope MView.mem do
    let xNext ← copyNew E x x
    addK E.sch xNext dx (t : ℂ) 1
    let sx ← applyOp E S xNext
    let xNext ← loewdinMem E xNext sx
    transformNew E xNext ul

/-- result of a step: eigenvalues, eigenvectors, orbitals -/
structure GeoMem where
  ek : ℕ
  ul : MView
  X : MView

/-- the memory of the result of a step -/
def GeoMem.mem (g : GeoMem) : Set ℕ := vecMem g.ek g.ul.cols ∪ g.ul.mem ∪ g.X.mem

/-- `impl::geodesic_us`, `src/geodesic.hpp:152-170` -/
def geodesicMem (E : HostEnv) (X eta zx zeta : MView) (S : HostOp) (t : ℝ) :
    MemM ℂ GeoMem := withScope GeoMem.mem do
  let etaNext ← advanceEtaMem E t eta zeta
  let ekUl ← eigvalsMem E etaNext
  let xNext ← advanceXMem E t X zx ekUl.2 S
  pure ⟨ekUl.1, ekUl.2, xNext⟩

/-! ## Directions -/

/-- `local::lmult`: `xkx` and `xkhx` are overwritten by the solver, `ll` is another name of `xkhx`,
`src/mvp2/mvp2.hpp:12-32` -/
def lmultMem (E : HostEnv) (sx hx : MView) (P : HostOp) : MemM ℂ MView := withScope MView.mem do
  let psx ← applyOp E P sx
  let xkx ← innerNew E sx psx 1
  let phx ← applyOp E P hx
  let xkhx ← innerNew E sx phx 1
  solveSymHost E.lib xkx xkhx
  transformNew E sx xkhx

/-- `local::gradx`, `src/mvp2/mvp2.hpp:34-45` -/
def gradxMem (E : HostEnv) (x hx : MView) (fn : ℕ) (xll : MView) (wk : ℝ) : MemM ℂ MView := do
  let gx ← E.empty x.rows x.cols x.isLocal
  scaleColsK E.sch gx hx fn (wk : ℂ) 0
  addK E.sch gx xll (-(wk : ℂ)) 1
  pure gx

/-- `local::precondgx_us`, `src/mvp2/mvp2.hpp:66-82` -/
def precondgxMem (E : HostEnv) (x hx : MView) (P : HostOp) (xll : MView) : MemM ℂ MView :=
  withScope MView.mem do
    let dx ← E.zeros x.rows x.cols x.isLocal
    addK E.sch dx hx (-1) 0
    addK E.sch dx xll 1 1
    applyOp E P dx

/-- the loop over the diagonal in `_delta_eta::operator()`, `src/pseudo_hamiltonian/grad_eta.hpp:108-110` -/
def deltaEtaLoop (E : HostEnv) (kappa : ℝ) (d : MView) (ek n : ℕ) : MemM ℂ Unit :=
  forEach (E.sch.order (List.range n)) fun i => do
    let x ← load (d.addr i i)
    let e ← load (ek + i)
    store (d.addr i i) (x - ((kappa * e.re : ℝ) : ℂ))

/-- `_delta_eta::operator()`, `src/pseudo_hamiltonian/grad_eta.hpp:90-113` -/
def deltaEtaMem (E : HostEnv) (kappa : ℝ) (hij : MView) (ek n : ℕ) (wk : ℝ) :
    MemM ℂ MView := do
  let d ← E.empty hij.rows hij.cols hij.isLocal
  scaleK E.sch d hij ((kappa / wk : ℝ) : ℂ) 0
  deltaEtaLoop E kappa d ek n
  pure d

/-- the loop "gEta (1)", `src/pseudo_hamiltonian/grad_eta.hpp:149-153` -/
def gEtaLoop1 (E : HostEnv) (sf : SmearFns ℝ) (kT : ℝ) (g hij : MView) (n : ℕ) (mu wk : ℝ) (ek : ℕ) (mo : ℝ) :
    MemM ℂ Unit :=
  forEach (E.sch.order (List.range n)) fun i => do
    let e ← load (ek + i)
    let delta := sf.delta ((e.re - mu) / kT) mo
    let h ← load (hij.addr i i)
    store (g.addr i i) (((-1 / kT : ℝ) : ℂ) * (h - ((wk * e.re : ℝ) : ℂ)) * (delta : ℂ))

/-- the loop "gEta (2)" and its condition, `src/pseudo_hamiltonian/grad_eta.hpp:155-164` -/
def gEtaLoop2 (E : HostEnv) (sf : SmearFns ℝ) (kT : ℝ) (g : MView) (n : ℕ) (mu wk : ℝ) (ek : ℕ)
    (dmu dF mo : ℝ) : MemM ℂ Unit :=
  if |dmu| < 1 / 10 ^ 12 then pure ()
  else
    forEach (E.sch.order (List.range n)) fun i => do
      let e ← load (ek + i)
      let delta := sf.delta ((e.re - mu) / kT) mo
      let x ← load (g.addr i i)
      store (g.addr i i) (x + ((wk * delta / dmu * (dF / kT) : ℝ) : ℂ))

/-- the loop "gEta(3)", `src/pseudo_hamiltonian/grad_eta.hpp:166-184` -/
def gEtaLoop3 (E : HostEnv) (g hij : MView) (n : ℕ) (ek fn : ℕ) : MemM ℂ Unit :=
  forEach (E.sch.order (indexPairs n n)) fun p =>
    if p.1 = p.2 then pure ()
    else do
      let ej ← load (ek + p.2)
      let ei ← load (ek + p.1)
      if |ej.re - ei.re| < 1 / 10 ^ 10 then pure ()
      else do
        let fj ← load (fn + p.2)
        let fi ← load (fn + p.1)
        let x ← load (g.addr p.1 p.2)
        let h ← load (hij.addr p.1 p.2)
        store (g.addr p.1 p.2) (x + (((fj.re - fi.re) / (ej.re - ei.re) : ℝ) : ℂ) * h)

/-- `GradEta::g_eta`: two loops over the diagonal and one over all elements, adding up in a new matrix,
`src/pseudo_hamiltonian/grad_eta.hpp:132-187` -/
def gEtaMem (E : HostEnv) (sf : SmearFns ℝ) (T : ℝ) (hij : MView) (mu wk : ℝ) (ek fn : ℕ)
    (dmu dF mo : ℝ) : MemM ℂ MView := do
  let g ← E.zeros hij.rows hij.cols hij.isLocal
  gEtaLoop1 E sf (kB * T) g hij hij.rows mu wk ek mo
  gEtaLoop2 E sf (kB * T) g hij.rows mu wk ek dmu dF mo
  gEtaLoop3 E g hij hij.rows ek fn
  pure g

/-- the loop over the rows in `innerh_tr`, `src/la/lapack.hpp:313-318` -/
def rowSums (E : HostEnv) (X Y : MView) (tmp : ℕ) : MemM ℂ Unit :=
  forEach (E.sch.order (List.range X.rows)) fun i =>
    forEach (List.range X.cols) fun j => do
      let s ← load (tmp + i)
      let x ← load (X.addr i j)
      let y ← load (Y.addr i j)
      store (tmp + i) (s + x * star y)

/-- `innerh_tr()(X, Y)`: sums of the rows in a new vector, then their sum, `src/la/lapack.hpp:291-324` -/
def innerhTrMem (E : HostEnv) (X Y : MView) : MemM ℂ ℂ := withScope (fun _ => ∅) do
  let tmp ← E.vec X.rows
  rowSums E X Y tmp
  sumM X.rows fun i => load (tmp + i)

/-- `local::rotateeta`, `src/mvp2/mvp2.hpp:94-102` -/
def rotateetaMem (E : HostEnv) (eta u : MView) : MemM ℂ MView := withScope MView.mem do
  let etau ← transformNew E eta u
  innerNew E u etau 1

/-- `local::conjugatex` (ultra-soft): `zxp` is overwritten, `src/mvp2/mvp2.hpp:153-170` -/
def conjugatexMem (E : HostEnv) (zxp sx : MView) : MemM ℂ Unit := withScope (fun _ => ∅) do
  let sxzxp ← innerNew E sx zxp 1
  let sx2 ← innerNew E sx sx 1
  solveSymHost E.lib sx2 sxzxp
  let corr ← transformNew E sx sxzxp
  addK E.sch zxp corr (-1) 1

/-- arguments of a direction: `X`, `HX`, pseudo-energies, occupations, operators -/
structure KMem where
  X : MView
  hx : MView
  e : ℕ
  f : ℕ
  S : HostOp
  P : HostOp

/-- what `exec_spc` has in its hands after the common part, `src/mvp2/descent_direction_impl.hpp:124-148` -/
structure SpcMem where
  sx : MView
  gx : MView
  dx : MView
  geta : MView
  deta : MView
  fr : ℝ

/-- the common part of both `exec_spc`, `src/mvp2/descent_direction_impl.hpp:124-148`, `183-199`; `llm` and
`hij` are not used afterwards and given back here already -/
def spcMem (E : HostEnv) (p : DirParams) (dF sumfn : ℝ) (k : KMem) (wk : ℝ) :
    MemM ℂ SpcMem := withScope (fun s => s.sx.mem ∪ s.gx.mem ∪ s.dx.mem ∪ s.geta.mem ∪ s.deta.mem) do
  let sx ← applyOp E k.S k.X
  let llm ← lmultMem E sx k.hx k.P
  let gx ← gradxMem E sx k.hx k.f llm wk
  let dx ← precondgxMem E sx k.hx k.P llm
  let hij ← innerNew E k.X k.hx (wk : ℂ)
  let geta ← gEtaMem E (smearFns p.t) p.T hij p.mu wk k.e k.f sumfn dF p.mo
  let deta ← deltaEtaMem E p.kappa hij k.e hij.rows wk
  let a ← innerhTrMem E gx dx
  let b ← innerhTrMem E geta deta
  pure ⟨sx, gx, dx, geta, deta, 2 * a.re + b.re⟩

/-- result of `exec_spc` without old direction -/
structure RestartMem where
  fr : ℝ
  dx : MView
  deta : MView

/-- `exec_spc` (restart), `src/mvp2/descent_direction_impl.hpp:183-201` -/
def restartMem (E : HostEnv) (p : DirParams) (dF sumfn : ℝ) (k : KMem) (wk : ℝ) :
    MemM ℂ RestartMem := withScope (fun r => r.dx.mem ∪ r.deta.mem) do
  let s ← spcMem E p dF sumfn k wk
  pure ⟨s.fr, s.dx, s.deta⟩

/-- result of `exec_spc` with an old direction -/
structure ConjMem where
  fr : ℝ
  dx : MView
  deta : MView
  zx : MView
  zeta : MView
  slope : ℝ

/-- `exec_conjugate`: the rotated old direction is a new matrix, which is then overwritten,
`src/mvp2/descent_direction_impl.hpp:160-177` -/
def execConjugateMem (E : HostEnv) (sx zxp zetap ul gx geta : MView) :
    MemM ℂ (ℝ × MView × MView) := do
  let zx ← transformNew E zxp ul
  let zeta ← rotateetaMem E zetap ul
  conjugatexMem E zx sx
  let a ← innerhTrMem E zx gx
  let b ← innerhTrMem E zeta geta
  pure (2 * a.re + b.re, zx, zeta)

/-- `exec_spc` with an old direction, `src/mvp2/descent_direction_impl.hpp:124-156` -/
def conjMem (E : HostEnv) (p : DirParams) (dF sumfn : ℝ) (k : KMem) (wk : ℝ)
    (zxp zetap ul : MView) : MemM ℂ ConjMem :=
  withScope (fun r => r.dx.mem ∪ r.deta.mem ∪ r.zx.mem ∪ r.zeta.mem) do
    let s ← spcMem E p dF sumfn k wk
    let z ← execConjugateMem E s.sx zxp zetap ul s.gx s.geta
    pure ⟨s.fr, s.dx, s.deta, z.2.1, z.2.2, z.1⟩

/-- the last step of `conjugated` for one k-point, in place: `Z <- gamma Z + Delta`,
`src/mvp2/descent_direction.hpp:124-138` -/
def combineMem (E : HostEnv) (gamma : ℝ) (r : ConjMem) : MemM ℂ Unit := do
  addK E.sch r.zx r.dx 1 (gamma : ℂ)
  addK E.sch r.zeta r.deta 1 (gamma : ℂ)

/-! ## All k-points -/

/-- The tasks of `tapply_async` and their collection by `eval_threaded`: one task per k-point, in any
order, each result filed under its k-point. Tasks are not interleaved with each other.
`src/la/mvector.hpp` (see `Model/Mvector` for the containers) -/
def runTasks {K : ℕ} {β : Type} : List (Fin K) → (Fin K → MemM ℂ β) → MemM ℂ (List (Fin K × β))
  | [], _ => pure []
  | k :: l, f => do
    let r ← f k
    let rest ← runTasks l f
    pure ((k, r) :: rest)

/-- what `conjugated` returns: `fr`, slope, and the direction of each k-point -/
structure ConjAllMem (K : ℕ) where
  fr : ℝ
  slope : ℝ
  dir : List (Fin K × ConjMem)

/-- the memory of the new direction -/
def ConjAllMem.mem {K : ℕ} (r : ConjAllMem K) : Set ℕ := {a | ∃ kr ∈ r.dir, a ∈ kr.2.zx.mem ∪ kr.2.zeta.mem}

/-- `descent_direction::conjugated`, `src/mvp2/descent_direction.hpp:69-144`, one rank; the two global
numbers `dF`, `sumfn` are arguments -/
def conjugatedMem (E : HostEnv) (p : DirParams) (dF sumfn frOld : ℝ) {K : ℕ} (ks : Fin K → KMem)
    (wk : Fin K → ℝ) (zxp zetap ul : Fin K → MView) : MemM ℂ (ConjAllMem K) := withScope ConjAllMem.mem do
  let res ← runTasks (E.sch.order (List.finRange K)) fun k =>
    conjMem E p dF sumfn (ks k) (wk k) (zxp k) (zetap k) (ul k)
  let fr := (res.map fun kr => kr.2.fr).sum
  let gamma := fr / frOld
  let slopeZp := (res.map fun kr => kr.2.slope).sum
  forEach (E.sch.order res) fun kr => combineMem E gamma kr.2
  pure ⟨fr, fr + gamma * slopeZp, res⟩

/-- what `restarted` returns -/
structure RestartAllMem (K : ℕ) where
  fr : ℝ
  dir : List (Fin K × RestartMem)

/-- `descent_direction::restarted`, `src/mvp2/descent_direction.hpp:146-183`, one rank -/
def restartedMem (E : HostEnv) (p : DirParams) (dF sumfn : ℝ) {K : ℕ} (ks : Fin K → KMem)
    (wk : Fin K → ℝ) : MemM ℂ (RestartAllMem K) := do
  let res ← runTasks (E.sch.order (List.finRange K)) fun k => restartMem E p dF sumfn (ks k) (wk k)
  pure ⟨(res.map fun kr => kr.2.fr).sum, res⟩

/-- the memory of the results of a step of all k-points -/
def geoAllMem {K : ℕ} (xs : List (Fin K × GeoMem)) : Set ℕ := {a | ∃ kg ∈ xs, a ∈ kg.2.mem}

/-- The step of all k-points, `geodesic`, `src/geodesic.hpp:209-225`. If a task throws, the results of the
others are given back. -/
def geodesicAllMem (E : HostEnv) {K : ℕ} (X eta zx zeta : Fin K → MView) (S : Fin K → HostOp) (t : ℝ) :
    MemM ℂ (List (Fin K × GeoMem)) := withScope geoAllMem do
  runTasks (E.sch.order (List.finRange K)) fun k => geodesicMem E (X k) (eta k) (zx k) (zeta k) (S k) t

end
end Nlcg
