import Verif.Model.Float
import Verif.Model.Smearing

/-!
# Smearing functions in the arithmetic of the platform

The functions of `Model/Smearing.lean` once more, operation by operation as in `src/smearing.hpp:117-315`, for any
arithmetic with the functions of `<cmath>`. Over the reals they are those of `Model/Smearing.lean`
(`smearFl_real` in `Proofs/SmearFloat.lean`).
-/

namespace Nlcg
open Arith

variable {α : Type} [Libm α]

/-- `fermi_dirac::fn`, `src/smearing.hpp:119-128` -/
def fdFnF (x mo : α) : α :=
  if x <ᶠ lit (-35) then lit 0
  else if lit 40 <ᶠ x then mo
  else mo -ᶠ mo /ᶠ (lit 1 +ᶠ Libm.exp x)

/-- `fermi_dirac::delta`, `src/smearing.hpp:130-140` -/
def fdDeltaF (x mo : α) : α :=
  if lit 35 <ᶠ Arith.abs x then lit 0
  else
    let denom := Libm.exp (Arith.neg x /ᶠ lit 2) +ᶠ Libm.exp (x /ᶠ lit 2)
    mo /ᶠ (denom *ᶠ denom)

/-- `fermi_dirac::dxdelta`, `src/smearing.hpp:142-149` -/
def fdDxdeltaF (x mo : α) : α :=
  if lit 40 <ᶠ Arith.abs x then lit 0
  else
    let expx := Libm.exp x
    Arith.neg mo *ᶠ (expx *ᶠ (expx -ᶠ lit 1)) /ᶠ Libm.cube (lit 1 +ᶠ expx)

/-- `fermi_dirac::entropy`, `src/smearing.hpp:152-159` -/
def fdEntropyF (x mo : α) : α :=
  if lit 40 <ᶠ Arith.abs x then lit 0
  else
    let expx := Libm.exp x
    mo *ᶠ (Libm.log (lit 1 +ᶠ expx) -ᶠ expx *ᶠ x /ᶠ (lit 1 +ᶠ expx))

/-- `gaussian_spline::fn`, `src/smearing.hpp:165-175` -/
def gsFnF (x mo : α) : α :=
  if lit 8 <ᶠ x then mo
  else if x <ᶠ lit (-8) then lit 0
  else
    let sq2 := Libm.sqrt (lit 2)
    if x ≤ᶠ lit 0 then mo /ᶠ lit 2 *ᶠ Libm.exp (x *ᶠ (sq2 -ᶠ x))
    else mo *ᶠ (lit 1 -ᶠ lit (1 / 2) *ᶠ Libm.exp (Arith.neg x *ᶠ (sq2 +ᶠ x)))

/-- `gaussian_spline::delta`, `src/smearing.hpp:177-186` -/
def gsDeltaF (x mo : α) : α :=
  if lit 7 <ᶠ Arith.abs x then lit 0
  else
    let sqrt2 := Libm.sqrt (lit 2)
    if x ≤ᶠ lit 0 then mo *ᶠ lit (1 / 2) *ᶠ Libm.exp ((sqrt2 -ᶠ x) *ᶠ x) *ᶠ (sqrt2 -ᶠ lit 2 *ᶠ x)
    else mo *ᶠ lit (1 / 2) *ᶠ Libm.exp (Arith.neg x *ᶠ (sqrt2 +ᶠ x)) *ᶠ (sqrt2 +ᶠ lit 2 *ᶠ x)

/-- `gaussian_spline::entropy`, `src/smearing.hpp:188-202` -/
def gsEntropyF (x _mo : α) : α :=
  if lit 7 <ᶠ Arith.abs x then lit 0
  else
    let sqrtpi := Libm.sqrt (Libm.pi : α)
    let sqrt2 := Libm.sqrt (lit 2)
    let sqrte := Libm.exp (lit (1 / 2))
    if lit 0 <ᶠ x then
      lit (1 / 4) *ᶠ (lit 2 *ᶠ Libm.exp (Arith.neg x *ᶠ (sqrt2 +ᶠ x)) *ᶠ x
        +ᶠ sqrte *ᶠ sqrtpi *ᶠ Libm.erfc (lit 1 /ᶠ sqrt2 +ᶠ x))
    else
      lit (1 / 4) *ᶠ (lit (-2) *ᶠ Libm.exp (x *ᶠ (sqrt2 -ᶠ x)) *ᶠ x
        +ᶠ sqrte *ᶠ sqrtpi *ᶠ Libm.erfc (lit 1 /ᶠ sqrt2 -ᶠ x))

/-- `gaussian_spline::dxdelta`, `src/smearing.hpp:204-215` -/
def gsDxdeltaF (x mo : α) : α :=
  let sqrt2 := Libm.sqrt (lit 2)
  if (lit 8 <ᶠ x || x <ᶠ lit (-8)) then lit 0
  else if x ≤ᶠ lit 0 then lit (-2) *ᶠ mo *ᶠ Libm.exp ((sqrt2 -ᶠ x) *ᶠ x) *ᶠ (sqrt2 -ᶠ x)
  else lit (-2) *ᶠ mo *ᶠ Libm.exp (Arith.neg x *ᶠ (sqrt2 +ᶠ x)) *ᶠ x *ᶠ (sqrt2 +ᶠ x)

/-- `cold_smearing::fn`, `src/smearing.hpp:221-229` -/
def coldFnF (x mo : α) : α :=
  if lit 8 <ᶠ x then mo
  else if x <ᶠ lit (-8) then lit 0
  else
    let sqrtpi := Libm.sqrt (Libm.pi : α)
    let sqrt2 := Libm.sqrt (lit 2)
    mo *ᶠ (Libm.exp (lit (-1 / 2) +ᶠ (sqrt2 -ᶠ x) *ᶠ x) /ᶠ sqrt2 /ᶠ sqrtpi
      +ᶠ lit (1 / 2) *ᶠ Libm.erfc (lit 1 /ᶠ sqrt2 -ᶠ x))

/-- `cold_smearing::delta`, `src/smearing.hpp:231-240` -/
def coldDeltaF (x mo : α) : α :=
  if x <ᶠ lit (-8) then lit 0
  else if lit 10 <ᶠ x then lit 0
  else
    let sqrtpi := Libm.sqrt (Libm.pi : α)
    let sqrt2 := Libm.sqrt (lit 2)
    let z := x -ᶠ lit 1 /ᶠ sqrt2
    mo *ᶠ Libm.exp (Arith.neg z *ᶠ z) *ᶠ (lit 2 -ᶠ sqrt2 *ᶠ x) /ᶠ sqrtpi

/-- `cold_smearing::dxdelta`, `src/smearing.hpp:242-250` -/
def coldDxdeltaF (x mo : α) : α :=
  if x <ᶠ lit (-8) then lit 0
  else if lit 10 <ᶠ x then lit 0
  else
    let sqrt2 := Libm.sqrt (lit 2)
    let z := x -ᶠ lit 1 /ᶠ sqrt2
    mo *ᶠ Libm.exp (Arith.neg z *ᶠ z) *ᶠ (sqrt2 -ᶠ lit 6 *ᶠ x +ᶠ lit 2 *ᶠ sqrt2 *ᶠ x *ᶠ x)
      /ᶠ Libm.sqrt (Libm.pi : α)

/-- `cold_smearing::entropy`, `src/smearing.hpp:252-260` -/
def coldEntropyF (x mo : α) : α :=
  if x <ᶠ lit (-8) then lit 0
  else if lit 10 <ᶠ x then lit 0
  else
    let sqrtpi := Libm.sqrt (Libm.pi : α)
    let sqrt2 := Libm.sqrt (lit 2)
    let z := x -ᶠ lit 1 /ᶠ sqrt2
    mo *ᶠ Libm.exp (Arith.neg z *ᶠ z) *ᶠ (lit 1 -ᶠ sqrt2 *ᶠ x) /ᶠ lit 2 /ᶠ sqrtpi

/-- `methfessel_paxton_smearing::fn`, `src/smearing.hpp:266-271` -/
def mpFnF (x mo : α) : α :=
  let x2 := x *ᶠ x
  let sqrtpi := Libm.sqrt (Libm.pi : α)
  mo /ᶠ lit 2 *ᶠ (lit 1 +ᶠ Libm.exp (Arith.neg x2) *ᶠ x /ᶠ sqrtpi +ᶠ Libm.erf x)

/-- `methfessel_paxton_smearing::delta`, `src/smearing.hpp:273-278` -/
def mpDeltaF (x mo : α) : α :=
  let x2 := x *ᶠ x
  let sqrtpi := Libm.sqrt (Libm.pi : α)
  mo *ᶠ Libm.exp (Arith.neg x2) *ᶠ (lit 1 +ᶠ lit (1 / 4) *ᶠ (lit 2 -ᶠ lit 4 *ᶠ x2)) /ᶠ sqrtpi

/-- `methfessel_paxton_smearing::dxdelta`, `src/smearing.hpp:280-284` -/
def mpDxdeltaF (x mo : α) : α :=
  let sqrtpi := Libm.sqrt (Libm.pi : α)
  mo *ᶠ Libm.exp (Arith.neg x *ᶠ x) *ᶠ (lit 2 *ᶠ x *ᶠ x -ᶠ lit 5) /ᶠ sqrtpi

/-- `methfessel_paxton_smearing::entropy`, `src/smearing.hpp:286-291` -/
def mpEntropyF (x mo : α) : α :=
  let x2 := x *ᶠ x
  let sqrtpi := Libm.sqrt (Libm.pi : α)
  mo *ᶠ Libm.exp (Arith.neg x2) *ᶠ (lit 1 -ᶠ lit 2 *ᶠ x2) /ᶠ lit 4 /ᶠ sqrtpi

/-- `gauss_smearing::fn`, `src/smearing.hpp:296-299` -/
def gaussFnF (x mo : α) : α := mo /ᶠ lit 2 *ᶠ (lit 1 +ᶠ Libm.erf x)

/-- `gauss_smearing::delta`, `src/smearing.hpp:301-304` -/
def gaussDeltaF (x mo : α) : α := mo *ᶠ Libm.exp (Arith.neg x *ᶠ x) /ᶠ Libm.sqrt (Libm.pi : α)

/-- `gauss_smearing::entropy`, `src/smearing.hpp:306-309` -/
def gaussEntropyF (x mo : α) : α :=
  mo /ᶠ lit 2 *ᶠ Libm.exp (Arith.neg x *ᶠ x) /ᶠ Libm.sqrt (Libm.pi : α)

/-- `gauss_smearing::dxdelta`, `src/smearing.hpp:311-314` -/
def gaussDxdeltaF (x mo : α) : α :=
  lit (-2) *ᶠ mo *ᶠ Libm.exp (Arith.neg x *ᶠ x) *ᶠ x /ᶠ Libm.sqrt (Libm.pi : α)

/-- the class selected by `smearing<smearing_t>`, `src/smearing.hpp:317-345` -/
def smearFl : SmearType → SmearFns α
  | .fermiDirac => { fn := fdFnF, delta := fdDeltaF, dxdelta := fdDxdeltaF, entropy := fdEntropyF }
  | .gaussianSpline => { fn := gsFnF, delta := gsDeltaF, dxdelta := gsDxdeltaF, entropy := gsEntropyF }
  | .gauss => { fn := gaussFnF, delta := gaussDeltaF, dxdelta := gaussDxdeltaF, entropy := gaussEntropyF }
  | .methfesselPaxton => { fn := mpFnF, delta := mpDeltaF, dxdelta := mpDxdeltaF, entropy := mpEntropyF }
  | .cold => { fn := coldFnF, delta := coldDeltaF, dxdelta := coldDxdeltaF, entropy := coldEntropyF }

/-- exact arithmetic with the mathematical functions -/
noncomputable instance instLibmReal : Libm ℝ where
  toArith := instArithReal
  exp := Real.exp
  log := Real.log
  sqrt := Real.sqrt
  erf := erf
  erfc := erfc
  cube x := x ^ 3
  pi := Real.pi

end Nlcg
