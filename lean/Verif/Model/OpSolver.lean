import Verif.Model.Solver

/-!
# The solver with operators of the host that act

As `Model/Solver.lean`, but the overlap operator and the preconditioner are calls into the host code, too
(`OverlapBase::apply`, `UltrasoftPrecondBase::apply`, `include/interface.hpp`): they need not be linear, may change the
state of the host and may throw. All calls are recorded in `log`, in the order in which they are made, with the answers
of the operators. The program never reads the record.
-/

namespace Nlcg
open Matrix

variable {K : ℕ} {n b : Fin K → ℕ} {η : Type}

/-- `OverlapBase`, `UltrasoftPrecondBase`: application to a matrix of the k-point `k`, `none` if it throws -/
structure Operators (η : Type) (n b : Fin K → ℕ) where
  S : (k : Fin K) → Mat (n k) (b k) → η → Option (Mat (n k) (b k)) × η
  P : (k : Fin K) → Mat (n k) (b k) → η → Option (Mat (n k) (b k)) × η

/-- recorded calls: those of `EnergyBase`, returned or not, and applications of the operators with the answer -/
inductive Entry (n b : Fin K → ℕ) where
  | host (c : HostCall n b) (returned : Bool)
  | S (k : Fin K) (A : Mat (n k) (b k)) (answer : Option (Mat (n k) (b k)))
  | P (k : Fin K) (A : Mat (n k) (b k)) (answer : Option (Mat (n k) (b k)))

structure OState (η : Type) (n b : Fin K → ℕ) where
  s : SState η n b
  log : List (Entry n b)

/-- a call of `EnergyBase` -/
def hostDo {β : Type} (c : HostCall n b) (f : η → Option β × η) : SM (OState η n b) β := fun o =>
  ((hostCall c f o.s).1, { s := (hostCall c f o.s).2, log := o.log ++ [.host c (f o.s.h).1.isSome] })

/-- `applicator::operator()` of the overlap operator, `src/operator.hpp:64-72`, `src/overlap.hpp` -/
def applyS (A : Operators η n b) (k : Fin K) (x : Mat (n k) (b k)) : SM (OState η n b) (Mat (n k) (b k)) := fun o =>
  ((match (A.S k x o.s.h).1 with | some y => .ok y | none => .throw .runtimeError),
   { s := { o.s with h := (A.S k x o.s.h).2 }, log := o.log ++ [.S k x (A.S k x o.s.h).1] })

/-- `applicator::operator()` of the preconditioner, `src/operator.hpp:64-72`, `src/ultrasoft_precond.hpp` -/
def applyP (A : Operators η n b) (k : Fin K) (x : Mat (n k) (b k)) : SM (OState η n b) (Mat (n k) (b k)) := fun o =>
  ((match (A.P k x o.s.h).1 with | some y => .ok y | none => .throw .runtimeError),
   { s := { o.s with h := (A.P k x o.s.h).2 }, log := o.log ++ [.P k x (A.P k x o.s.h).1] })

/-- `eval_threaded` of one task per k-point, `src/la/mvector.hpp:426-436`: the tasks are deferred (`tapply_async`,
`src/la/utils.hpp:234-250`) and run one after the other in the order of the keys, each of them once -/
def forAllM {σ : Type} : {K : ℕ} → {β : Fin K → Type} → ((k : Fin K) → SM σ (β k)) → SM σ ((k : Fin K) → β k)
  | 0, _, _ => pure fun k => k.elim0
  | _ + 1, _, f => do
    let a ← f 0
    let r ← forAllM fun k => f k.succ
    pure (Fin.cons a r)

/-- `FreeEnergy::compute(X, fn, en, mu)`, `src/free_energy.hpp:60-101` -/
noncomputable def evaluateO (host : Host η n b) (c : Cfg n b) (X : Orbitals n b) (fn en : Bands b) (mu : ℝ) :
    SM (OState η n b) Unit := do
  hostDo (.setC X) (host.setC X)
  hostDo (.setFn fn) (host.setFn fn)
  hostDo .compute host.compute
  hostDo (.setMu mu) (host.setMu mu)
  let etot ← hostDo .energy host.energy
  let s := entropyTerm c.t c.T c.mo mu (List.ofFn fun k => (c.wk k, List.ofFn (en k)))
  SM.modify fun st => { st with s := { st.s with S := s, F := etot + s } }

/-- `src/nlcglib.cpp:249`, `271-283`, `295` -/
noncomputable def setupO (host : Host η n b) (c : Cfg n b) : SM (OState η n b) (Point n b) := do
  hostDo .compute host.compute
  let o ← SM.get
  let ek := host.ek o.s.h
  let (mu, fn) ← SM.lift (c.occ ek)
  let o ← SM.get
  let X0 := host.C o.s.h
  evaluateO host c X0 fn ek mu
  let o ← SM.get
  pure { X := host.C o.s.h, ek := ek, ul := c.junk, eta := fun k => makeDiag (ek k), fn := fn,
         hx := host.hphi o.s.h, mu := mu }

/-- `local::lmult`, `src/mvp2/mvp2.hpp:12-32` -/
def lmultO (A : Operators η n b) (la : Lapack) (k : Fin K) (sx hx : Mat (n k) (b k)) :
    SM (OState η n b) (Mat (n k) (b k)) := do
  let psx ← applyP A k sx
  let phx ← applyP A k hx
  pure (transformM sx (la.solve (innerM sx psx) (innerM sx phx)))

/-- `local::precondgx_us`, `src/mvp2/mvp2.hpp:66-82` -/
def precondgxO (A : Operators η n b) (k : Fin K) (hx xll : Mat (n k) (b k)) : SM (OState η n b) (Mat (n k) (b k)) :=
  applyP A k (addM (addM 0 hx (-1) 0) xll 1)

/-- `descent_direction_impl::exec_spc`, `src/mvp2/descent_direction_impl.hpp:124-148`, `183-201`; also returns `S X`. The
matrices `S` and `P` in `ki` are not used. -/
noncomputable def execSpcO (A : Operators η n b) (la : Lapack) (p : DirParams) (dF sumfn : ℝ) (k : Fin K)
    (ki : KIn (n k) (b k)) : SM (OState η n b) (KOut (n k) (b k) × Mat (n k) (b k)) := do
  let sx ← applyS A k ki.X
  let llm ← lmultO A la k sx ki.hx
  let gx := gradx ki.hx ki.f llm ki.wk
  let dx ← precondgxO A k ki.hx llm
  let hij := innerM ki.X ki.hx (ki.wk : ℂ)
  let geta := gEta (smearFns p.t) p.T hij p.mu ki.wk ki.e ki.f sumfn dF p.mo
  let deta := deltaEta p.kappa hij ki.e ki.wk
  let frx := 2 * (innerhTr gx dx).re
  let freta := (innerhTr geta deta).re
  pure ({ fr := frx + freta, gx := gx, geta := geta, dx := dx, deta := deta }, sx)

/-- `dd.restarted(...)`, `src/mvp2/descent_direction.hpp:146-183` -/
noncomputable def restartedO (host : Host η n b) (A : Operators η n b) (c : Cfg n b) (pt : Point n b) :
    SM (OState η n b) (ℝ × Dir n b) := do
  let o ← SM.get
  let ks := kIn host c pt o.s.h
  let p := dirParams c pt
  let r ← forAllM fun k => execSpcO A c.la p (globals p ks).1 (globals p ks).2 k (ks k)
  pure (∑ k, (r k).1.fr, { zx := fun k => (r k).1.dx, zeta := fun k => (r k).1.deta })

/-- one task of `dd.conjugated`: `exec_spc`, then `exec_conjugate`, `src/mvp2/descent_direction_impl.hpp:124-177` -/
noncomputable def conjTask (A : Operators η n b) (la : Lapack) (p : DirParams) (dF sumfn : ℝ) (old : Dir n b)
    (ul : (k : Fin K) → Mat (b k) (b k)) (k : Fin K) (ki : KIn (n k) (b k)) :
    SM (OState η n b) (KOut (n k) (b k) × ℝ × Mat (n k) (b k) × Mat (b k) (b k)) := do
  let (q, sx) ← execSpcO A la p dF sumfn k ki
  pure (q, execConjugate la sx (old.zx k) (old.zeta k) (ul k) q.gx q.geta)

/-- `dd.conjugated(...)`, `src/mvp2/descent_direction.hpp:69-144` -/
noncomputable def conjugatedO (host : Host η n b) (A : Operators η n b) (c : Cfg n b) (fr : ℝ) (pt : Point n b)
    (dir : Dir n b) : SM (OState η n b) (ℝ × ℝ × Dir n b) := do
  let o ← SM.get
  let ks := kIn host c pt o.s.h
  let p := dirParams c pt
  let r ← forAllM fun k => conjTask A c.la p (globals p ks).1 (globals p ks).2 dir pt.ul k (ks k)
  let fr' := ∑ k, (r k).1.fr
  let gamma := fr' / fr
  let slope := fr' + gamma * ∑ k, (r k).2.1
  pure (fr', slope, { zx := fun k => addM (r k).2.2.1 (r k).1.dx 1 (gamma : ℂ)
                      zeta := fun k => addM (r k).2.2.2 (r k).1.deta 1 (gamma : ℂ) })

/-- one task of `geodesic`: `impl::geodesic_us`, `src/geodesic.hpp:152-170`, with `advance_x`, `86-99` -/
noncomputable def geoTask (A : Operators η n b) (la : Lapack) (pt : Point n b) (dir : Dir n b) (t : ℝ) (k : Fin K) :
    SM (OState η n b) (GeoOut (n k) (b k)) := do
  let (ek, ul) ← SM.lift (la.eigh (advanceEta t (pt.eta k) (dir.zeta k)))
  let x1 := addM (pt.X k) (dir.zx k) (t : ℂ)
  let sx ← applyS A k x1
  let x2 ← SM.lift (loewdin la x1 sx)
  pure { ek := ek, ul := ul, X := transformM x2 ul }

/-- the lambda `g`, `src/nlcglib.cpp:345-355` -/
noncomputable def geoO (host : Host η n b) (A : Operators η n b) (c : Cfg n b) (pt : Point n b) (dir : Dir n b) (t : ℝ) :
    SM (OState η n b) (Point n b) := do
  let g ← forAllM fun k => geoTask A c.la pt dir t k
  let ek : Bands b := fun k => (g k).ek
  let (mu, fn) ← SM.lift (c.occ ek)
  evaluateO host c (fun k => (g k).X) fn ek mu
  pure { pt with X := fun k => (g k).X, ek := ek, ul := fun k => (g k).ul, mu := mu }

/-- `src/nlcglib.cpp:384-391` -/
def refreshO (host : Host η n b) (pt : Point n b) : SM (OState η n b) (Point n b) := do
  let o ← SM.get
  pure { pt with eta := fun k => makeDiag (pt.ek k), fn := host.fn o.s.h, hx := host.hphi o.s.h }

/-- as `solverOps` -/
noncomputable def opOps (host : Host η n b) (A : Operators η n b) (c : Cfg n b) :
    Ops ℝ (OState η n b) (Point n b) (Dir n b) where
  construct := SM.lift (if c.T = 0 then .throw .runtimeError else .ok ())
  setup := setupO host c
  restarted := restartedO host A c
  conjugated := conjugatedO host A c
  geo := geoO host A c
  refresh := refreshO host
  gather := fun _ => SM.lift (.ok ())
  hostPrint := hostDo .print host.print
  getF := fun o => o.s.F
  getS := fun o => o.s.S

/-- `nlcg_us`; the matrices `c.S` and `c.P` are not used -/
noncomputable def solveO (host : Host η n b) (A : Operators η n b) (c : Cfg n b) (prm : NlcgParams ℝ) (fuel rank : ℕ) :
    FM (NState ℝ (OState η n b)) (Info ℝ) :=
  nlcg (opOps host A c) prm fuel rank

end Nlcg
