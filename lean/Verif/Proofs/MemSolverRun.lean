import Verif.Proofs.MemSolver
import Verif.Proofs.SearchOcc

/-! No operation of the solver on matrices has undefined behaviour unless the search for the chemical
potential has. -/

namespace Nlcg
open Spec

theorem Res.bind_ne_ub {β γ : Type} {x : Res β} {f : β → Res γ} (hx : x ≠ .ub) (hf : ∀ a, f a ≠ .ub) :
    (x >>= f) ≠ .ub := by
  cases x with
  | ok a => exact hf a
  | ub => exact absurd rfl hx
  | throw e => intro h; cases h
  | abort => intro h; cases h

theorem SM.bind_ne_ub {σ β γ : Type} {m : SM σ β} {f : β → SM σ γ} (hm : ∀ s, (m s).1 ≠ .ub)
    (hf : ∀ x s, (f x s).1 ≠ .ub) (s : σ) : ((m >>= f) s).1 ≠ .ub := by
  rw [SM.bind_apply]
  have := hm s
  rcases hq : m s with ⟨_ | e | _ | _, s'⟩ <;> rw [hq] at this
  · exact hf _ _
  all_goals simpa using this

variable {K : ℕ} {n b : Fin K → ℕ} {η : Type}

theorem hostCall_ne_ub {β : Type} (call : HostCall n b) (f : η → Option β × η) (s : SState η n b) :
    (hostCall call f s).1 ≠ .ub := by
  rw [hostCall]
  rcases f s.h with ⟨_ | r, h'⟩ <;> simp

theorem evaluate_ne_ub (host : Host η n b) (c : Cfg n b) (X : Orbitals n b) (fn en : Bands b) (mu : ℝ)
    (s : SState η n b) : (evaluate host c X fn en mu s).1 ≠ .ub := by
  rw [evaluate]
  refine SM.bind_ne_ub (hostCall_ne_ub _ _) (fun _ => ?_) s
  refine SM.bind_ne_ub (hostCall_ne_ub _ _) (fun _ => ?_)
  refine SM.bind_ne_ub (hostCall_ne_ub _ _) (fun _ => ?_)
  refine SM.bind_ne_ub (hostCall_ne_ub _ _) (fun _ => ?_)
  refine SM.bind_ne_ub (hostCall_ne_ub _ _) (fun _ s => ?_)
  simp

theorem forAllK_ne_ub : {K : ℕ} → {β : Fin K → Type} → {f : (k : Fin K) → Res (β k)} →
    (∀ k, f k ≠ .ub) → forAllK f ≠ .ub
  | 0, _, _, _ => by simp [forAllK]
  | K + 1, β, f, h => by
    rw [forAllK]
    exact Res.bind_ne_ub (h 0) fun a => Res.bind_ne_ub (forAllK_ne_ub fun k => h k.succ) fun r => by simp

theorem eigh_ne_ub (la : Lapack) {n : ℕ} (A : Mat n n) : la.eigh A ≠ .ub := by
  rw [Lapack.eigh]
  split <;> simp

theorem geodesicUs_ne_ub {N B : ℕ} (la : Lapack) (X : Mat N B) (eta : Mat B B) (zx : Mat N B)
    (zeta : Mat B B) (S : Mat N N) (t : ℝ) : geodesicUs la X eta zx zeta S t ≠ .ub := by
  rw [geodesicUs]
  refine Res.bind_ne_ub (eigh_ne_ub _ _) fun q => ?_
  refine Res.bind_ne_ub ?_ fun r => by simp
  rw [advanceX]
  refine Res.bind_ne_ub ?_ fun r => by simp
  rw [loewdin]
  exact Res.bind_ne_ub (eigh_ne_ub _ _) fun q => by simp

theorem solver_defined (host : Host η n b) (c : Cfg n b) (ho : ∀ ek, c.occ ek ≠ .ub) :
    (solverOps host c).Defined where
  construct := fun s => by
    show (if c.T = 0 then _ else _) ≠ _
    split <;> simp
  setup := fun s => by
    show (solverSetup host c s).1 ≠ .ub
    rw [solverSetup]
    refine SM.bind_ne_ub (hostCall_ne_ub _ _) (fun _ => ?_) s
    refine SM.bind_ne_ub (fun s => by simp [SM.get]) (fun s => ?_)
    refine SM.bind_ne_ub (fun _ => ho _) (fun q => ?_)
    refine SM.bind_ne_ub (fun s => by simp [SM.get]) (fun s => ?_)
    refine SM.bind_ne_ub (evaluate_ne_ub _ _ _ _ _ _) (fun _ => ?_)
    refine SM.bind_ne_ub (fun s => by simp [SM.get]) (fun s s' => ?_)
    simp
  restarted := fun pt s => by simp [solverOps, solverRestarted]
  conjugated := fun fr pt dir s => by simp [solverOps, solverConjugated]
  geo := fun pt dir t s => by
    show (solverGeo host c pt dir t s).1 ≠ .ub
    rw [solverGeo]
    refine SM.bind_ne_ub (fun _ => forAllK_ne_ub fun k => geodesicUs_ne_ub _ _ _ _ _ _ _) (fun g => ?_) s
    refine SM.bind_ne_ub (fun _ => ho _) (fun q => ?_)
    refine SM.bind_ne_ub (evaluate_ne_ub _ _ _ _ _ _) (fun _ s => ?_)
    simp
  refresh := fun pt s => by simp [solverOps, solverRefresh]
  gather := fun pt s => by simp [solverOps, SM.lift]
  hostPrint := fun s => hostCall_ne_ub _ _ _

end Nlcg
