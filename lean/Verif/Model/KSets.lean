import Verif.Model.KMap
import Verif.Model.Basic
import Mathlib.Data.Real.Basic

/-!
# The k-points of the host's data

The solver asks the host for weights, band energies, occupations, orbitals and `H X`, each with its own list of k-points,
and combines them with `tapply` and `operator[]` (`src/la/mvector.hpp`, `src/la/utils.hpp`). Here the start of a run and its
first iteration are followed on one rank with these containers; what is computed from the entries is left open (`KNum`).
-/

namespace Nlcg
variable {β γ δ : Type}

/-- what the host lists on this rank, `include/interface.hpp:70-117`; the lists of k-points are taken to be the same
whenever they are asked for -/
structure KHost (β : Type) where
  wk : KMap Key ℝ
  ek : KMap Key (List ℝ)
  fn : KMap Key (List ℝ)
  C : KMap Key β
  hphi : KMap Key β

/-- The numerical part: the chemical potential (found together with the other ranks), occupations and entropy of a k-point,
its contribution to `dF/dmu` and to the sum of the smeared deltas, its search direction (`descent_direction_impl`), the
diagonal matrix of its band energies, its step along the path. -/
structure KNum (β : Type) where
  search : KMap Key (List ℝ) → Res ℝ
  occ : ℝ → List ℝ → List ℝ
  entropy : ℝ → List ℝ → ℝ
  dF : ℝ → List ℝ → List ℝ → List ℝ → Res ℝ
  deltas : ℝ → List ℝ → ℝ
  dir : ℝ → ℝ → ℝ → β → List ℝ → List ℝ → β → ℝ → Res (ℝ × β × β)
  diag : List ℝ → β
  step : β → β → β → β → Res (List ℝ × β × β)

/-- `data_.at(key)` and `operator[]` of a constant container, `src/la/mvector.hpp:48-61` -/
def entryAt (k : Key) (m : KMap Key β) : Res β :=
  match KMap.lookup k m with
  | some v => .ok v
  | none => .throw .outOfRange

/-- a loop over the entries of a container that builds another one under the same keys -/
def forEntries (f : Key → β → Res γ) : KMap Key β → Res (KMap Key γ)
  | [] => .ok []
  | (k, x) :: m => do
    let y ← f k x
    let r ← forEntries f m
    pure ((k, y) :: r)

/-- `sum(wk * tapply(entropy, en))`, `src/smearing.hpp:664-743`, `src/la/mvector.hpp:470-492`: the keys are those of `wk` -/
def entropySum (g : KNum β) (mu : ℝ) (wk : KMap Key ℝ) (en : KMap Key (List ℝ)) : Res ℝ := do
  let terms ← forEntries (fun k w => do
    let e ← entryAt k en
    pure (w * g.entropy mu e)) wk
  pure (terms.foldl (fun s t => s + t.2) 0)

/-- `GradEtaHelper::dFdmu` on this rank, `src/pseudo_hamiltonian/grad_eta.hpp:28-48`: the keys are those of the host's band
energies -/
def dFdmuSum (g : KNum β) (mu : ℝ) (hii en fn : KMap Key (List ℝ)) (wk : KMap Key ℝ) : Res ℝ := do
  let terms ← forEntries (fun k h => do
    let e ← entryAt k en
    let f ← entryAt k fn
    let v ← g.dF mu h e f
    let w ← entryAt k wk
    pure (v * w)) hii
  pure (terms.foldl (fun s t => s + t.2) 0)

/-- `GradEtaHelper::dmu_deta` on this rank, `src/pseudo_hamiltonian/grad_eta.hpp:59-82`: the keys are those of `wk` -/
def deltaSumK (g : KNum β) (mu : ℝ) (en : KMap Key (List ℝ)) (wk : KMap Key ℝ) : Res ℝ := do
  let terms ← forEntries (fun k w => do
    let e ← entryAt k en
    pure (g.deltas mu e * w)) wk
  pure (terms.foldl (fun s t => s + t.2) 0)

/-- `dd.restarted(...)` on this rank, `src/mvp2/descent_direction.hpp:155-183`: `tapply_async` first binds the arguments of all
k-points of `X` (operators are not looked up), then `eval_threaded` calls. The result holds slope and directions. -/
def directionsOf (g : KNum β) (h : KHost β) (X : KMap Key β) (en fn : KMap Key (List ℝ)) (hx : KMap Key β) (mu : ℝ) :
    Res (KMap Key (ℝ × β × β)) := do
  let dF ← dFdmuSum g mu h.ek en fn h.wk
  let sumfn ← deltaSumK g mu en h.wk
  let bound ← forEntries (fun k x => do
    let e ← entryAt k en
    let f ← entryAt k fn
    let hxk ← entryAt k hx
    let w ← entryAt k h.wk
    pure (x, e, f, hxk, w)) X
  forEntries (fun _ a => g.dir mu dF sumfn a.1 a.2.1 a.2.2.1 a.2.2.2.1 a.2.2.2.2) bound

/-- `FreeEnergy::compute(X, fn, en, mu)`, `src/free_energy.hpp:60-101`: the orbitals are copied into those the host lists -/
def computeKeys (g : KNum β) (h : KHost β) (X : KMap Key β) (en : KMap Key (List ℝ)) (mu : ℝ) : Res ℝ := do
  let _ ← forEntries (fun k _ => entryAt k X) h.C
  entropySum g mu h.wk en

/-- the start of `nlcg_us` up to the loop, `src/nlcglib.cpp:271-301`, on one rank -/
def startKeys (g : KNum β) (h : KHost β) : Res (ℝ × KMap Key (ℝ × β × β)) := do
  let mu ← g.search h.ek
  let fn := h.ek.map fun e => (e.1, g.occ mu e.2)
  let _ ← computeKeys g h h.C h.ek mu
  let z ← directionsOf g h h.C h.ek fn h.hphi mu
  pure (mu, z)

/-- a trial point: the lambda `g`, `src/nlcglib.cpp:345-355`, with `geodesic`, `src/geodesic.hpp:205-228` -/
def trialKeys (g : KNum β) (h : KHost β) (X : KMap Key β) (eta : KMap Key β) (z : KMap Key (ℝ × β × β)) :
    Res (ℝ × KMap Key (List ℝ × β × β)) := do
  let bound ← forEntries (fun k x => do
    let e ← entryAt k eta
    let zk ← entryAt k z
    pure (x, e, zk)) X
  let p ← forEntries (fun _ a => g.step a.1 a.2.1 a.2.2.2.1 a.2.2.2.2) bound
  let ek := p.map fun e => (e.1, e.2.1)
  let Xn := p.map fun e => (e.1, e.2.2.2)
  let mu ← g.search ek
  let _ ← computeKeys g h Xn ek mu
  pure (mu, p)

/-- the start and the first iteration, with a line search that takes its first trial point, `src/nlcglib.cpp:271-403` -/
def firstIteration (g : KNum β) (h : KHost β) : Res (KMap Key (ℝ × β × β)) := do
  let (_, z) ← startKeys g h
  let eta := h.ek.map fun e => (e.1, g.diag e.2)
  let (mu, p) ← trialKeys g h h.C eta z
  let ek := p.map fun e => (e.1, e.2.1)
  let X := p.map fun e => (e.1, e.2.2.2)
  directionsOf g h X ek h.fn h.hphi mu

end Nlcg
