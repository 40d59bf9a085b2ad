import Verif.Model.Entry
import Verif.Props.Solver

/-!
# Entry points (`C53`)
-/

namespace Nlcg

/-- the numeric arguments of an entry point, by name -/
structure Spec.Args where
  temperature : ℝ
  tolerance : ℝ
  kappa : ℝ
  tau : ℝ
  maxiter : ℤ
  restart : ℤ

/-- position of a smearing in `enum class smearing_type`, `include/interface.hpp:25-32` -/
def Spec.code : SmearType → ℤ
  | .fermiDirac => 0
  | .gaussianSpline => 1
  | .gauss => 2
  | .methfesselPaxton => 3
  | .cold => 4

/-- call with the arguments at the positions the header declares, `include/nlcglib.hpp:48-94`:
smearing, temperature, tolerance, kappa, tau, iteration limit, restart period -/
def Spec.call {ρ : Type} (f : ℤ → ℝ → ℝ → ℝ → ℝ → ℤ → ℤ → ρ) (smearing : ℤ) (a : Spec.Args) : ρ :=
  f smearing a.temperature a.tolerance a.kappa a.tau a.maxiter a.restart

section
variable {K : ℕ} {n b : Fin K → ℕ} {η : Type} (host : Host η n b) (c : Cfg n b)
  (occ : SmearType → ℝ → Bands b → Res (ℝ × Bands b)) (fuel rank : ℕ)
  (fail : FM (NState ℝ (SState η n b)) (Info ℝ)) (a : Spec.Args)

/-- the solver, run with these arguments by name -/
noncomputable def Spec.solverWith (t : SmearType) : FM (NState ℝ (SState η n b)) (Info ℝ) :=
  solve host { la := c.la, mo := c.mo, wk := c.wk, S := c.S, P := c.P, junk := c.junk,
               t := t, T := a.temperature, kappa := a.kappa, occ := occ t a.temperature }
    { maxiter := a.maxiter, tol := a.tolerance, tau := a.tau, restart := a.restart } fuel rank

/-- **C53**: `nlcg_us_cpu` runs the solver with each argument where it belongs -/
theorem C53_cpu (t : SmearType) :
    Spec.call (nlcgUsCpu fail (nlcgUs host c occ fuel rank)) (Spec.code t) a =
      Spec.solverWith host c occ fuel rank a t := by
  cases t <;> rfl

/-- **C53**: `nlcg_us_device_cpu` does the same as `nlcg_us_cpu` -/
theorem C53_device_cpu (smearing : ℤ) :
    Spec.call (nlcgUsDeviceCpu fail (nlcgUs host c occ fuel rank)) smearing a =
      Spec.call (nlcgUsCpu fail (nlcgUs host c occ fuel rank)) smearing a := rfl
end

section
variable {ρ : Type} (fail : ρ) (a : Spec.Args)

/-- the solver for GPU memory (not modelled), called with the arguments at the positions `nlcg_us` declares,
`src/nlcglib.cpp:213-226` -/
def Spec.instanceWith (device : Instance ρ) (t : SmearType) : ρ :=
  device t a.temperature a.maxiter a.tolerance a.kappa a.tau a.restart

/-- **C53**: with GPU support, `nlcg_us_device` runs its solver with each argument where it belongs -/
theorem C53_device (device : Instance ρ) (t : SmearType) :
    Spec.call (nlcgUsDevice fail (.gpu device)) (Spec.code t) a = Spec.instanceWith a device t := by
  cases t <;> rfl

/-- **C53**: `nlcg_us_cpu_device` does the same as `nlcg_us_device` -/
theorem C53_cpu_device (build : Build ρ) (smearing : ℤ) :
    Spec.call (nlcgUsCpuDevice fail build) smearing a = Spec.call (nlcgUsDevice fail build) smearing a := rfl

/-- **C53**: an integer that is no smearing is refused by all entry points -/
theorem C53_invalid (host : Instance ρ) (build : Build ρ) {smearing : ℤ} (h : ∀ t, smearing ≠ Spec.code t) :
    Spec.call (nlcgUsCpu fail host) smearing a = fail ∧
    Spec.call (nlcgUsDeviceCpu fail host) smearing a = fail ∧
    Spec.call (nlcgUsDevice fail build) smearing a = fail ∧
    Spec.call (nlcgUsCpuDevice fail build) smearing a = fail := by
  have key : ∀ i : Instance ρ, dispatch fail i smearing a.temperature a.tolerance a.kappa a.tau a.maxiter
      a.restart = fail := by
    intro i
    have h0 : smearing ≠ 0 := h .fermiDirac
    have h1 : smearing ≠ 1 := h .gaussianSpline
    have h2 : smearing ≠ 2 := h .gauss
    have h3 : smearing ≠ 3 := h .methfesselPaxton
    have h4 : smearing ≠ 4 := h .cold
    rw [dispatch, if_neg h0, if_neg h1, if_neg h2, if_neg h3, if_neg h4]
  have hd : Spec.call (nlcgUsDevice fail build) smearing a = fail := by
    cases build with
    | cpuOnly => rfl
    | gpu device => exact key device
  exact ⟨key host, key host, hd, hd⟩

/-- **C53**: without GPU support the device entry points fail for every argument -/
theorem C53_no_gpu (smearing : ℤ) : Spec.call (nlcgUsDevice fail .cpuOnly) smearing a = fail ∧
    Spec.call (nlcgUsCpuDevice fail .cpuOnly) smearing a = fail := ⟨rfl, rfl⟩

/-- **C53**: the norm-conserving entry points fail for every argument -/
theorem C53_norm_conserving (v : Mvp2) (smearing : ℤ) : Spec.call (nlcgMvp2 fail v) smearing a = fail := rfl

end

/-- the five codes are the integers 0 to 4; 5 and -1 are none -/
example : (∀ t, (5 : ℤ) ≠ Spec.code t) ∧ (∀ t, (-1 : ℤ) ≠ Spec.code t) := by
  constructor <;> intro t <;> cases t <;> decide

/-- an observer that returns all its arguments sees six different numbers at six different places -/
example : Spec.call (nlcgUsCpu none fun t T maxiter tol kappa tau restart =>
      some (t, T, maxiter, tol, kappa, tau, restart)) 4
      { temperature := 300, tolerance := 0.1, kappa := 0.3, tau := 0.5, maxiter := 7, restart := 9 } =
    some (.cold, 300, 7, 0.1, 0.3, 0.5, 9) := rfl

end Nlcg
