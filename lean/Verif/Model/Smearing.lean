import Verif.Model.Occupation
import Mathlib.MeasureTheory.Integral.IntervalIntegral.Basic
import Mathlib.Analysis.SpecialFunctions.Log.Basic
import Mathlib.Analysis.SpecialFunctions.Exp
import Mathlib.Analysis.SpecialFunctions.Trigonometric.Basic

/-!
# Smearing functions

`src/smearing.hpp:117-315`, in exact real arithmetic, with every hard cut-off of the code.
`std::exp`, `std::log`, `std::sqrt`, `std::erf`, `std::erfc` are the mathematical functions and
`constants::pi` is `π` (in the code a literal rounded to double).
-/

namespace Nlcg
open Real

/-- `std::erf`. Mathlib has no error function; this is its definition. -/
noncomputable def erf (x : ℝ) : ℝ := 2 / √π * ∫ t in (0 : ℝ)..x, exp (-t ^ 2)

/-- `std::erfc` -/
noncomputable def erfc (x : ℝ) : ℝ := 1 - erf x

/-- `fermi_dirac::fn`, `src/smearing.hpp:119-128` -/
noncomputable def fdFn (x mo : ℝ) : ℝ :=
  if x < -35 then 0 else if x > 40 then mo else mo - mo / (1 + exp x)

/-- `fermi_dirac::delta`, `src/smearing.hpp:130-140` -/
noncomputable def fdDelta (x mo : ℝ) : ℝ :=
  if |x| > 35 then 0
  else
    let denom := exp (-x / 2) + exp (x / 2)
    mo / (denom * denom)

/-- `fermi_dirac::dxdelta`, `src/smearing.hpp:142-149` -/
noncomputable def fdDxdelta (x mo : ℝ) : ℝ :=
  if |x| > 40 then 0 else -mo * (exp x * (exp x - 1)) / (1 + exp x) ^ 3

/-- `fermi_dirac::entropy`, `src/smearing.hpp:152-159` -/
noncomputable def fdEntropy (x mo : ℝ) : ℝ :=
  if |x| > 40 then 0 else mo * (log (1 + exp x) - exp x * x / (1 + exp x))

/-- `gaussian_spline::fn`, `src/smearing.hpp:165-175` -/
noncomputable def gsFn (x mo : ℝ) : ℝ :=
  if x > 8 then mo else if x < -8 then 0
  else if x ≤ 0 then mo / 2 * exp (x * (√2 - x)) else mo * (1 - 0.5 * exp (-x * (√2 + x)))

/-- `gaussian_spline::delta`, `src/smearing.hpp:177-186` -/
noncomputable def gsDelta (x mo : ℝ) : ℝ :=
  if |x| > 7 then 0
  else if x ≤ 0 then mo * 0.5 * exp ((√2 - x) * x) * (√2 - 2 * x)
  else mo * 0.5 * exp (-x * (√2 + x)) * (√2 + 2 * x)

/-- `gaussian_spline::entropy`, `src/smearing.hpp:188-202`; `mo` is not used -/
noncomputable def gsEntropy (x _mo : ℝ) : ℝ :=
  if |x| > 7 then 0
  else if x > 0 then
    0.25 * (2 * exp (-x * (√2 + x)) * x + exp 0.5 * √π * erfc (1 / √2 + x))
  else 0.25 * (-2 * exp (x * (√2 - x)) * x + exp 0.5 * √π * erfc (1 / √2 - x))

/-- `gaussian_spline::dxdelta`, `src/smearing.hpp:204-215` -/
noncomputable def gsDxdelta (x mo : ℝ) : ℝ :=
  if x > 8 ∨ x < -8 then 0
  else if x ≤ 0 then -2 * mo * exp ((√2 - x) * x) * (√2 - x)
  else -2 * mo * exp (-x * (√2 + x)) * x * (√2 + x)

/-- `cold_smearing::fn`, `src/smearing.hpp:221-229` -/
noncomputable def coldFn (x mo : ℝ) : ℝ :=
  if x > 8 then mo else if x < -8 then 0
  else mo * (exp (-0.5 + (√2 - x) * x) / √2 / √π + 0.5 * erfc (1 / √2 - x))

/-- `cold_smearing::delta`, `src/smearing.hpp:231-240` -/
noncomputable def coldDelta (x mo : ℝ) : ℝ :=
  if x < -8 then 0 else if x > 10 then 0
  else
    let z := x - 1 / √2
    mo * exp (-z * z) * (2 - √2 * x) / √π

/-- `cold_smearing::dxdelta`, `src/smearing.hpp:242-250` -/
noncomputable def coldDxdelta (x mo : ℝ) : ℝ :=
  if x < -8 then 0 else if x > 10 then 0
  else
    let z := x - 1 / √2
    mo * exp (-z * z) * (√2 - 6 * x + 2 * √2 * x * x) / √π

/-- `cold_smearing::entropy`, `src/smearing.hpp:252-260` -/
noncomputable def coldEntropy (x mo : ℝ) : ℝ :=
  if x < -8 then 0 else if x > 10 then 0
  else
    let z := x - 1 / √2
    mo * exp (-z * z) * (1 - √2 * x) / 2 / √π

/-- `methfessel_paxton_smearing::fn`, `src/smearing.hpp:266-271` -/
noncomputable def mpFn (x mo : ℝ) : ℝ :=
  let x2 := x * x
  mo / 2 * (1 + exp (-x2) * x / √π + erf x)

/-- `methfessel_paxton_smearing::delta`, `src/smearing.hpp:273-278` -/
noncomputable def mpDelta (x mo : ℝ) : ℝ :=
  let x2 := x * x
  mo * exp (-x2) * (1 + 0.25 * (2 - 4 * x2)) / √π

/-- `methfessel_paxton_smearing::dxdelta`, `src/smearing.hpp:280-284` -/
noncomputable def mpDxdelta (x mo : ℝ) : ℝ := mo * exp (-x * x) * (2 * x * x - 5) / √π

/-- `methfessel_paxton_smearing::entropy`, `src/smearing.hpp:286-291` -/
noncomputable def mpEntropy (x mo : ℝ) : ℝ :=
  let x2 := x * x
  mo * exp (-x2) * (1 - 2 * x2) / 4 / √π

/-- `gauss_smearing::fn`, `src/smearing.hpp:296-299` -/
noncomputable def gaussFn (x mo : ℝ) : ℝ := mo / 2 * (1 + erf x)

/-- `gauss_smearing::delta`, `src/smearing.hpp:301-304` -/
noncomputable def gaussDelta (x mo : ℝ) : ℝ := mo * exp (-x * x) / √π

/-- `gauss_smearing::entropy`, `src/smearing.hpp:306-309` -/
noncomputable def gaussEntropy (x mo : ℝ) : ℝ := mo / 2 * exp (-x * x) / √π

/-- `gauss_smearing::dxdelta`, `src/smearing.hpp:311-314` -/
noncomputable def gaussDxdelta (x mo : ℝ) : ℝ := -2 * mo * exp (-x * x) * x / √π

/-- `enum class smearing_type`, `include/interface.hpp` -/
inductive SmearType where
  | fermiDirac
  | gaussianSpline
  | gauss
  | methfesselPaxton
  | cold
  deriving DecidableEq, Repr

/-- the class selected by `smearing<smearing_t>`, `src/smearing.hpp:317-345` -/
noncomputable def smearFns : SmearType → SmearFns ℝ
  | .fermiDirac => { fn := fdFn, delta := fdDelta, dxdelta := fdDxdelta, entropy := fdEntropy }
  | .gaussianSpline => { fn := gsFn, delta := gsDelta, dxdelta := gsDxdelta, entropy := gsEntropy }
  | .gauss => { fn := gaussFn, delta := gaussDelta, dxdelta := gaussDxdelta, entropy := gaussEntropy }
  | .methfesselPaxton => { fn := mpFn, delta := mpDelta, dxdelta := mpDxdelta, entropy := mpEntropy }
  | .cold => { fn := coldFn, delta := coldDelta, dxdelta := coldDxdelta, entropy := coldEntropy }

/-- tag `non_monotonous`, `src/smearing.hpp:112-114`, `219`, `264` -/
def SmearType.nonMonotonous : SmearType → Bool
  | .methfesselPaxton | .cold => true
  | _ => false

/-- `Smearing::entropy`, `src/smearing.hpp:676-740`, all ranks together: minus the weighted sum of
`sum_entropy` over all k-points (each a list of band energies with its weight). The reduction over
ranks is `C38`. -/
noncomputable def smearingEntropy (t : SmearType) (T occ mu : ℝ) (ks : List (ℝ × List ℝ)) : ℝ :=
  -1 * (ks.map fun k => k.1 * sumFunc (smearFns t).entropy k.2 mu T occ).sum

/-- the entropy part of `FreeEnergy::compute`, `src/free_energy.hpp:95-99`: `kb * T * S` -/
noncomputable def entropyTerm (t : SmearType) (T occ mu : ℝ) (ks : List (ℝ × List ℝ)) : ℝ :=
  kB * T * smearingEntropy t T occ mu ks

end Nlcg
