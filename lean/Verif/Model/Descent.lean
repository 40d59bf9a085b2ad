import Verif.Model.LinAlg
import Verif.Model.GradEta

/-!
# Search directions

`src/mvp2/mvp2.hpp`, `src/mvp2/descent_direction_impl.hpp`, `src/mvp2/descent_direction.hpp`. The
overlap operator and the preconditioner of a k-point are matrices `S`, `P`: the host applies them
column by column and linearly (contract of `OverlapBase::apply`, `UltrasoftPrecondBase::apply`).
Copies between memory spaces are the identity. k-points of all ranks: `k : Fin K`; the sums over
the k-point communicator are sums over all `k` (`C38`).
-/

namespace Nlcg
open Matrix

/-- what the direction of one k-point is computed from: `X`, `H X`, pseudo-energies, occupations,
overlap, preconditioner, weight; `hii` are the host's band energies (`free_energy.get_ek()`) -/
structure KIn (N B : ℕ) where
  X : Mat N B
  hx : Mat N B
  e : Fin B → ℝ
  f : Fin B → ℝ
  hii : Fin B → ℝ
  S : Mat N N
  P : Mat N N
  wk : ℝ

variable {N B : ℕ}

/-- `local::lmult`, `src/mvp2/mvp2.hpp:12-32` -/
def lmult (la : Lapack) (sx hx : Mat N B) (P : Mat N N) : Mat N B :=
  let xkx := innerM sx (P * sx)
  let xkhx := innerM sx (P * hx)
  let ll := la.solve xkx xkhx
  transformM sx ll

/-- `local::gradx`, `src/mvp2/mvp2.hpp:34-45` -/
def gradx (hx : Mat N B) (fn : Fin B → ℝ) (xll : Mat N B) (wk : ℝ) : Mat N B :=
  addM (scaleCols hx fn wk) xll (-(wk : ℂ))

/-- `local::precondgx_us`, `src/mvp2/mvp2.hpp:66-82` -/
def precondgxUs (hx : Mat N B) (P : Mat N N) (xll : Mat N B) : Mat N B :=
  let d0 := addM 0 hx (-1) 0
  let d1 := addM d0 xll 1
  P * d1

/-- `local::rotatex`, `src/mvp2/mvp2.hpp:85-92` -/
def rotatex (x : Mat N B) (u : Mat B B) : Mat N B := transformM x u

/-- `local::rotateeta`, `src/mvp2/mvp2.hpp:94-102` -/
def rotateeta (eta u : Mat B B) : Mat B B := innerM u (transformM eta u)

/-- `local::conjugatex` (ultra-soft), `src/mvp2/mvp2.hpp:153-170` -/
def conjugatex (la : Lapack) (zxp sx : Mat N B) : Mat N B :=
  let sxzxp := innerM sx zxp
  let sx2 := innerM sx sx
  let ll := la.solve sx2 sxzxp
  let corr := transformM sx ll
  addM zxp corr (-1) 1

/-- smearing, temperature, `kappa`, occupancy, chemical potential -/
structure DirParams where
  t : SmearType
  T : ℝ
  kappa : ℝ
  mo : ℝ
  mu : ℝ

/-- result of `exec_spc` for one k-point; the two gradients are kept for the statements -/
structure KOut (N B : ℕ) where
  fr : ℝ
  gx : Mat N B
  geta : Mat B B
  dx : Mat N B
  deta : Mat B B

/-- `descent_direction_impl::exec_spc` (restart), `src/mvp2/descent_direction_impl.hpp:183-201`, and
the first part of the other overload, `124-148` -/
noncomputable def execSpc (la : Lapack) (p : DirParams) (dF sumfn : ℝ) (k : KIn N B) : KOut N B :=
  let sx := k.S * k.X
  let llm := lmult la sx k.hx k.P
  let gx := gradx k.hx k.f llm k.wk
  let dx := precondgxUs k.hx k.P llm
  let hij := innerM k.X k.hx (k.wk : ℂ)
  let geta := gEta (smearFns p.t) p.T hij p.mu k.wk k.e k.f sumfn dF p.mo
  let deta := deltaEta p.kappa hij k.e k.wk
  let frx := 2 * (innerhTr gx dx).re
  let freta := (innerhTr geta deta).re
  { fr := frx + freta, gx := gx, geta := geta, dx := dx, deta := deta }

/-- `exec_conjugate`, `src/mvp2/descent_direction_impl.hpp:160-177`: slope of the transported old
direction, and that direction -/
def execConjugate (la : Lapack) (sx zxp : Mat N B) (zetap ul : Mat B B) (gx : Mat N B)
    (geta : Mat B B) : ℝ × Mat N B × Mat B B :=
  let zxtmp := rotatex zxp ul
  let zeta := rotateeta zetap ul
  let zx := conjugatex la zxtmp sx
  let slopeX := 2 * (innerhTr zx gx).re
  let slopeEta := (innerhTr zeta geta).re
  (slopeX + slopeEta, zx, zeta)

variable {K : ℕ} {n b : Fin K → ℕ}

/-- a search direction: orbital part and pseudo-Hamiltonian part for every k-point -/
structure Dir (n b : Fin K → ℕ) where
  zx : (k : Fin K) → Mat (n k) (b k)
  zeta : (k : Fin K) → Mat (b k) (b k)

/-- the two global numbers, `src/mvp2/descent_direction.hpp:98-100`, `167-169` -/
noncomputable def globals (p : DirParams) (ks : (k : Fin K) → KIn (n k) (b k)) : ℝ × ℝ :=
  (dFdmu (smearFns p.t) (fun k => (ks k).hii) (fun k => (ks k).e) (fun k => (ks k).wk) p.mu p.T p.mo,
   dmuDeta (smearFns p.t) (fun k => (ks k).e) (fun k => (ks k).wk) p.mu p.T p.mo)

/-- results of all k-points -/
noncomputable def execAll (la : Lapack) (p : DirParams) (ks : (k : Fin K) → KIn (n k) (b k))
    (k : Fin K) : KOut (n k) (b k) :=
  execSpc la p (globals p ks).1 (globals p ks).2 (ks k)

/-- `descent_direction::restarted`, `src/mvp2/descent_direction.hpp:146-183` -/
noncomputable def restarted (la : Lapack) (p : DirParams) (ks : (k : Fin K) → KIn (n k) (b k)) :
    ℝ × Dir n b :=
  (∑ k, (execAll la p ks k).fr,
   { zx := fun k => (execAll la p ks k).dx, zeta := fun k => (execAll la p ks k).deta })

/-- the transported old direction of k-point `k` -/
noncomputable def conjAll (la : Lapack) (p : DirParams) (ks : (k : Fin K) → KIn (n k) (b k))
    (old : Dir n b) (ul : (k : Fin K) → Mat (b k) (b k)) (k : Fin K) :
    ℝ × Mat (n k) (b k) × Mat (b k) (b k) :=
  execConjugate la ((ks k).S * (ks k).X) (old.zx k) (old.zeta k) (ul k) (execAll la p ks k).gx
    (execAll la p ks k).geta

/-- `descent_direction::conjugated`, `src/mvp2/descent_direction.hpp:69-144`: `fr`, slope and new
direction -/
noncomputable def conjugated (la : Lapack) (p : DirParams) (frOld : ℝ)
    (ks : (k : Fin K) → KIn (n k) (b k)) (old : Dir n b) (ul : (k : Fin K) → Mat (b k) (b k)) :
    ℝ × ℝ × Dir n b :=
  let fr := ∑ k, (execAll la p ks k).fr
  let gamma := fr / frOld
  let slopeZp := ∑ k, (conjAll la p ks old ul k).1
  let slope := fr + gamma * slopeZp
  (fr, slope,
   { zx := fun k => addM (conjAll la p ks old ul k).2.1 (execAll la p ks k).dx 1 (gamma : ℂ)
     zeta := fun k => addM (conjAll la p ks old ul k).2.2 (execAll la p ks k).deta 1 (gamma : ℂ) })

end Nlcg
