import Verif.Model.Solver

/-!
# Entry points

`src/nlcglib.cpp:445-656`.
-/

namespace Nlcg

variable {K : ℕ} {n b : Fin K → ℕ} {η : Type}

/-- `nlcg_us<HostSpace, smearing_t>(energy_base, us_precond_base, overlap_base, T, maxiter, tol, kappa, tau,
restart)`: arguments in this order. `c` carries the rest (overlap, preconditioner, LAPACK, ...) and a
function that gives `Smearing::fn` for a kind of smearing and a temperature. `src/nlcglib.cpp:213-226` -/
noncomputable def nlcgUs (host : Host η n b) (c : Cfg n b) (occ : SmearType → ℝ → Bands b → Res (ℝ × Bands b))
    (fuel rank : ℕ) (t : SmearType) (T : ℝ) (maxiter : ℤ) (tol kappa tau : ℝ) (restart : ℤ) :
    FM (NState ℝ (SState η n b)) (Info ℝ) :=
  solve host { c with t := t, T := T, kappa := kappa, occ := occ t T }
    { maxiter := maxiter, tol := tol, tau := tau, restart := restart } fuel rank

/-- the solver instantiated for a memory space: arguments `T, maxiter, tol, kappa, tau, restart` -/
abbrev Instance (ρ : Type) := SmearType → ℝ → ℤ → ℝ → ℝ → ℝ → ℤ → ρ

/-- `switch (smearing)`; an `enum class` variable may hold any integer. `src/nlcglib.cpp:457-485` -/
def dispatch {ρ : Type} (fail : ρ) (nlcg_us : Instance ρ) (smearing : ℤ) (temp tol kappa tau : ℝ)
    (maxiter restart : ℤ) : ρ :=
  if smearing = 0 then nlcg_us .fermiDirac temp maxiter tol kappa tau restart
  else if smearing = 1 then nlcg_us .gaussianSpline temp maxiter tol kappa tau restart
  else if smearing = 2 then nlcg_us .gauss temp maxiter tol kappa tau restart
  else if smearing = 3 then nlcg_us .methfesselPaxton temp maxiter tol kappa tau restart
  else if smearing = 4 then nlcg_us .cold temp maxiter tol kappa tau restart
  else fail

/-- how the library was compiled: the solver for GPU memory is not modelled, it is a parameter -/
inductive Build (ρ : Type)
  | cpuOnly
  | gpu (device : Instance ρ)

/-- `nlcg_us_cpu`, `src/nlcglib.cpp:445-486` -/
def nlcgUsCpu {ρ : Type} (fail : ρ) (host : Instance ρ) (smearing : ℤ) (temp tol kappa tau : ℝ)
    (maxiter restart : ℤ) : ρ :=
  dispatch fail host smearing temp tol kappa tau maxiter restart

/-- `nlcg_us_device`, `src/nlcglib.cpp:488-567` -/
def nlcgUsDevice {ρ : Type} (fail : ρ) (build : Build ρ) (smearing : ℤ) (temp tol kappa tau : ℝ)
    (maxiter restart : ℤ) : ρ :=
  match build with
  | .gpu device => dispatch fail device smearing temp tol kappa tau maxiter restart
  | .cpuOnly => fail

/-- `nlcg_us_device_cpu`, `src/nlcglib.cpp:620-637` -/
def nlcgUsDeviceCpu {ρ : Type} (fail : ρ) (host : Instance ρ) (smear : ℤ) (T tol kappa tau : ℝ)
    (maxiter restart : ℤ) : ρ :=
  nlcgUsCpu fail host smear T tol kappa tau maxiter restart

/-- `nlcg_us_cpu_device`, `src/nlcglib.cpp:639-656` -/
def nlcgUsCpuDevice {ρ : Type} (fail : ρ) (build : Build ρ) (smear : ℤ) (T tol kappa tau : ℝ)
    (maxiter restart : ℤ) : ρ :=
  nlcgUsDevice fail build smear T tol kappa tau maxiter restart

/-- the four norm-conserving entry points: `throw`, `src/nlcglib.cpp:569-618` -/
inductive Mvp2 | cpu | device | cpuDevice | deviceCpu

def nlcgMvp2 {ρ : Type} (fail : ρ) (_ : Mvp2) (_smearing : ℤ) (_temp _tol _kappa _tau : ℝ)
    (_maxiter _restart : ℤ) : ρ := fail

end Nlcg
