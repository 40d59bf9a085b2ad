import Verif.Model.Driver
import Verif.Model.Reduce

/-!
# The slope in the arithmetic of the machine

The part of the slope that depends on the weights of the k-points, with operations that obey no laws.
`Model/Descent.lean` has all of it in exact arithmetic.
-/

namespace Nlcg
open Arith
variable {α : Type} [Arith α]

/-- `Kokkos::complex<double>`: real and imaginary part -/
abbrev Cx (α : Type) := α × α

/-- `double * complex`, as in `scale`, `src/la/lapack.hpp:153-172` -/
def Cx.scale (r : α) (z : Cx α) : Cx α := (r *ᶠ z.1, r *ᶠ z.2)

/-- `complex - double` -/
def Cx.subReal (z : Cx α) (r : α) : Cx α := (z.1 -ᶠ r, z.2)

def Cx.add (a b : Cx α) : Cx α := (a.1 +ᶠ b.1, a.2 +ᶠ b.2)

/-- `x * conj(y)` -/
def Cx.mulConj (x y : Cx α) : Cx α :=
  (x.1 *ᶠ y.1 -ᶠ x.2 *ᶠ Arith.neg y.2, x.1 *ᶠ Arith.neg y.2 +ᶠ x.2 *ᶠ y.1)

/-- `inner_()(x, hx, wk)`, `src/mvp2/descent_direction_impl.hpp:139`, `190` with `src/la/lapack.hpp`: `gemm`
with `alpha = wk`, `beta = 0`. The inner products themselves are a parameter. -/
def hijW {n : ℕ} (wk : α) (ip : Fin n → Fin n → Cx α) : Fin n → Fin n → Cx α := fun i j => Cx.scale wk (ip i j)

/-- `_delta_eta::operator()`, `src/pseudo_hamiltonian/grad_eta.hpp:90-113` -/
def deltaEtaA {n : ℕ} (kappa : α) (hij : Fin n → Fin n → Cx α) (ek : Fin n → α) (wk : α) : Fin n → Fin n → Cx α :=
  fun i j =>
    let v := Cx.scale (kappa /ᶠ wk) (hij i j)
    if i = j then Cx.subReal v (kappa *ᶠ ek i) else v

/-- `innerh_tr`, `src/la/lapack.hpp:292-327`: along the rows, then over the rows (`Kokkos::Serial`). On a device
the second sum may have another order, see `Order`; only its presence matters below. -/
def innerhTrA {n m : ℕ} (x y : Fin n → Fin m → Cx α) : Cx α :=
  (List.finRange n).foldl (fun s i => Cx.add s
    ((List.finRange m).foldl (fun t j => Cx.add t (Cx.mulConj (x i j) (y i j))) (lit 0, lit 0))) (lit 0, lit 0)

/-- what `exec_spc` has for one k-point when it forms `fr`: the weight, the inner products `<X|HX>`, the energies
`ek`, the gradient `g_eta`, and `fr_x`, `src/mvp2/descent_direction_impl.hpp:135-146` -/
structure KPoint (α : Type) where
  nbands : ℕ
  wk : α
  ip : Fin nbands → Fin nbands → Cx α
  ek : Fin nbands → α
  gEta : Fin nbands → Fin nbands → Cx α
  frX : α

/-- `fr = fr_x + innerh_tr()(g_eta, delta_eta).real()`, `src/mvp2/descent_direction_impl.hpp:144-148`, `194-198` -/
def KPoint.fr (kappa : α) (k : KPoint α) : α :=
  k.frX +ᶠ (innerhTrA k.gEta (deltaEtaA kappa (hijW k.wk k.ip) k.ek k.wk)).1

/-- `sum(fr, commk)`, `src/mvp2/descent_direction.hpp:110`, `178` with `src/la/mvector.hpp:470-485`: `ranks` lists
the k-points of each rank, `o` is the order in which MPI adds up the ranks -/
def frTotal (kappa : α) (o : Order) (ranks : List (List (KPoint α))) : Res α :=
  @Order.reduce α ⟨Arith.add⟩ (ranks.map fun ks => ks.foldl (fun s k => s +ᶠ k.fr kappa) (lit 0)) o

/-- `gamma = fr / fr_old`, `slope = fr + gamma * slope_zp`, `src/mvp2/descent_direction.hpp:112`, `127` -/
def cgSlope (fr frOld slopeZp : α) : α := fr +ᶠ (fr /ᶠ frOld) *ᶠ slopeZp

end Nlcg
