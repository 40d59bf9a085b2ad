import Verif.Model.ChemPot
import Verif.Model.Mpi

/-!
# Occupations of a distributed set of k-points

`src/smearing.hpp:53-72` and `347-544`. The four functions of a smearing are parameters
here (`SmearFns`); `Model/Smearing.lean` supplies the real ones. Copies between memory spaces
are the identity.
-/

namespace Nlcg
open Arith
variable {α : Type} [Arith α]

/-- The static functions of a smearing class, each called with `(x, mo)`,
`src/smearing.hpp:74-110`. -/
structure SmearFns (α : Type) where
  fn : α → α → α
  delta : α → α → α
  dxdelta : α → α → α
  entropy : α → α → α

/-- `physical_constants::kb`, `src/constants.hpp`. -/
def kB : ℚ := 316681156340226 / 10 ^ 20

/-- `sum_func::call`, `src/smearing.hpp:53-72`: the serial reduction adds from index 0 upwards. -/
def sumFunc (func : α → α → α) (ek : List α) (mu T mo : α) : α :=
  let kT := lit kB *ᶠ T
  ek.foldl (fun v e => v +ᶠ func ((lit (-1) *ᶠ (e -ᶠ mu)) /ᶠ kT) mo) (lit 0)

/-- `x[key]` on the gathered energies: a missing key gives a default (empty) view. -/
def energiesAt (xAll : KMap Key (List α)) (k : Key) : List α :=
  match KMap.lookup k xAll with
  | some es => es
  | none => []

/-- the loop `for (auto& wki : wk) sum += g(wki.second) * sum_func(x[key], mu, T, occ)`,
`src/smearing.hpp:366-374`, `432-470`; `g` rescales the weight. -/
def kSum (g : α → α) (func : α → α → α) (xAll : KMap Key (List α)) (wkAll : KMap Key α)
    (T occ mu : α) : α :=
  wkAll.foldl (fun s e => s +ᶠ (g e.2 *ᶠ sumFunc func (energiesAt xAll e.1) mu T occ)) (lit 0)

/-- the local part: `out(i) = fn((mu - ek(i)) / kT, occ)`, `src/smearing.hpp:380-393`. -/
def occupy (sf : SmearFns α) (mu kT occ : α) (x : KMap Key (List α)) : KMap Key (List α) :=
  x.map fun e => (e.1, e.2.map fun ei => sf.fn ((mu -ᶠ ei) /ᶠ kT) occ)

/-- the bracketing search of `occupation_from_mvector` on gathered data,
`src/smearing.hpp:364-377`. -/
def chemPotGathered (sf : SmearFns α) (T occ ne tol : α) (xAll : KMap Key (List α))
    (wkAll : KMap Key α) : Res α :=
  findChemPotRun (fun mu => ne -ᶠ kSum id sf.fn xAll wkAll T occ mu) (lit 0) tol

/-- the search of `occupation_from_mvector_newton` on gathered data, `src/smearing.hpp:430-490`.
`gauss` is `gauss_smearing`. -/
def chemPotGatheredNewton (gauss sf : SmearFns α) (T occ ne tol : α) (xAll : KMap Key (List α))
    (wkAll : KMap Key α) : Res α :=
  let kT := lit kB *ᶠ T
  chemPotNewton (fun mu => ne -ᶠ kSum id gauss.fn xAll wkAll T occ mu)
    (fun mu => kSum id sf.fn xAll wkAll T occ mu)
    (fun mu => kSum (· /ᶠ kT) sf.delta xAll wkAll T occ mu)
    (fun mu => kSum (· /ᶠ (kT *ᶠ kT)) sf.dxdelta xAll wkAll T occ mu) ne tol

/-- per-rank tail: occupations of the local k-points if a chemical potential was found -/
def finishRank (sf : SmearFns α) (kT occ : α) (x : KMap Key (List α)) (r : Res α) :
    Res (α × KMap Key (List α)) := do
  let mu ← r
  pure (mu, occupy sf mu kT occ x)

/-- per rank: gathered maps, then the search `search`, then the local occupations -/
def occupationWith (search : KMap Key (List α) → KMap Key α → Res α) (sf : SmearFns α)
    (kT occ : α) : List (KMap Key (List α)) → List (KMap Key (List α)) → List (KMap Key α) →
    List (Res (α × KMap Key (List α)))
  | x :: xs, xAll :: xAlls, wAll :: wAlls =>
    finishRank sf kT occ x (search xAll wAll) :: occupationWith search sf kT occ xs xAlls wAlls
  | _, _, _ => []

/-- Data needed on every rank. -/
structure OccParams (α : Type) where
  T : α
  occ : α
  ne : α
  tol : α

/-- `occupation_from_mvector1` run by all ranks of the k-point communicator,
`src/smearing.hpp:527-544` with `347-409` and `412-524`. `xs`, `wks`: local band energies and
weights of each rank. `useNewton` is `!skip_newton && non_monotonous`. The result is one outcome
per rank (`Res.ub`/`abort` outside: the gathers misbehave). -/
def occupationFromMvector [Inhabited α] (ndebug useNewton : Bool) (gauss sf : SmearFns α)
    (p : OccParams α) (xs : List (KMap Key (List α))) (wks : List (KMap Key α)) :
    Res (List (Res (α × KMap Key (List α)))) := do
  let xAlls ← allgatherView ndebug xs
  let wAlls ← allgatherScalar wks
  let kT := lit kB *ᶠ p.T
  let search := if useNewton then chemPotGatheredNewton gauss sf p.T p.occ p.ne p.tol
    else chemPotGathered sf p.T p.occ p.ne p.tol
  pure (occupationWith search sf kT p.occ xs xAlls wAlls)

end Nlcg
