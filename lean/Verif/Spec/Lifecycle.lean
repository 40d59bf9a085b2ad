import Verif.Model.Lifecycle

/-! Orderly histories of a process that uses the library. -/

namespace Nlcg.Spec

/-- an action that needs a running Kokkos -/
def Uses (a : Action) : Prop := a = .solve ∨ a = .hostUse

/-- `initialize`, calls of the solver and uses of Kokkos, `finalize` -/
def Session (l : List Action) : Prop := ∃ u, (∀ a ∈ u, Uses a) ∧ l = .start :: u ++ [.stop]

/-- The library is used only between `initialize` and `finalize`, which alternate. -/
def LibraryOrderly (l : List Action) : Prop :=
  ∀ p a q, l = p ++ a :: q →
    (a = .solve ∨ a = .stop → p.count .start = p.count .stop + 1) ∧
    (a = .start → p.count .start = p.count .stop)

/-- The host uses Kokkos only between its own calls of `Kokkos::initialize` and `Kokkos::finalize`, each made at most once. -/
def HostOrderly (l : List Action) : Prop :=
  ∀ p a q, l = p ++ a :: q →
    (a = .hostUse ∨ a = .hostFinalize → p.count .hostInitialize = 1 ∧ p.count .hostFinalize = 0) ∧
    (a = .hostInitialize → p.count .hostInitialize = 0)

/-- All that goes well with a Kokkos that tolerates nothing: Kokkos is started once, by the library or by the host, and
stopped at most once, and what uses it comes in between. If the library stops it and MAGMA is used, then the library also
started it. -/
def StrictlyFine (magma : Bool) (l : List Action) : Prop :=
  l = [] ∨ ∃ start u stop, (start = .start ∨ start = .hostInitialize) ∧ (∀ a ∈ u, Uses a) ∧
    (stop = [] ∨ stop = [.hostFinalize] ∨ stop = [.stop] ∧ (magma = true → start = .start)) ∧
    l = start :: u ++ stop

/-- a version of Kokkos that tolerates nothing -/
def strict : KokkosRules := ⟨false, false, false⟩

end Nlcg.Spec
