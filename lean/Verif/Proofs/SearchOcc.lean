import Verif.Proofs.Solver
import Verif.Proofs.Occupation
import Verif.Proofs.DriverInv

/-! The search for the chemical potential, as used by the composed solver. -/

namespace Nlcg
open Matrix Spec Arith

variable {K : ℕ} {b : Fin K → ℕ}

/-- the k-points of the solver, all on one rank -/
def oneRank (key : Fin K → Key) (wk : Fin K → ℝ) (ek : Bands b) : Spec.Dist ℝ :=
  [List.ofFn fun k => { key := key k, weight := wk k, energies := List.ofFn (ek k) }]

theorem oneRank_proper {key : Fin K → Key} (hk : Function.Injective key) (wk : Fin K → ℝ)
    (ek : Bands b) : (oneRank key wk ek).Proper := by
  rw [Dist.Proper, oneRank, List.flatten_cons, List.flatten_nil, List.append_nil, List.map_ofFn]
  exact List.nodup_ofFn.2 hk

theorem searchOcc_global (useNewton : Bool) (t : SmearType) (p : OccParams ℝ) (key : Fin K → Key)
    (wk : Fin K → ℝ) (ek : Bands b) :
    searchOcc useNewton t p key wk ek = (do
      let mu ← globalSearch useNewton (smearFns .gauss) (smearFns t) p (oneRank key wk ek)
      pure (mu, occs t p.T p.occ ek mu)) := by
  have h1 : (oneRank key wk ek).energies.flatten = List.ofFn fun k => (key k, List.ofFn (ek k)) := by
    simp [oneRank, Dist.energies, List.map_ofFn, Function.comp_def]
  have h2 : (oneRank key wk ek).weights.flatten = List.ofFn fun k => (key k, wk k) := by
    simp [oneRank, Dist.weights, List.map_ofFn, Function.comp_def]
  rw [searchOcc, globalSearch, h1, h2]
  rfl

theorem searchOcc_ok {useNewton : Bool} {t : SmearType} {p : OccParams ℝ} {key : Fin K → Key}
    {wk : Fin K → ℝ} {ek : Bands b} {mu : ℝ} {f : Bands b}
    (h : searchOcc useNewton t p key wk ek = .ok (mu, f)) :
    globalSearch useNewton (smearFns .gauss) (smearFns t) p (oneRank key wk ek) = .ok mu ∧
    f = occs t p.T p.occ ek mu := by
  rw [searchOcc_global, Res.bind_eq_ok] at h
  obtain ⟨m, h1, h2⟩ := h
  cases h2
  exact ⟨h1, rfl⟩

/-- on every rank of every distribution the code computes the same chemical potential and the
occupations of `searchOcc` -/
theorem searchOcc_distributed (ndebug useNewton : Bool) (t : SmearType) (p : OccParams ℝ)
    (key : Fin K → Key) (wk : Fin K → ℝ) (ek : Bands b) (d : Spec.Dist ℝ) (hd : d.Proper)
    (hsame : d.Same (oneRank key wk ek)) (hne : ndebug = true ∨ ∀ r ∈ d, ∀ q ∈ r, q.energies ≠ [])
    (mu : ℝ) (f : Bands b) (h : searchOcc useNewton t p key wk ek = .ok (mu, f)) :
    occupationFromMvector ndebug useNewton (smearFns .gauss) (smearFns t) p d.energies d.weights
      = .ok (d.energies.map fun x => .ok (mu, occupy (smearFns t) mu (lit kB *ᶠ p.T) p.occ x)) := by
  rw [occupation_eq ndebug useNewton _ _ p d hd hne, globalSearch_same useNewton _ _ p hd hsame,
    (searchOcc_ok h).1]
  rfl

theorem kSum_oneRank (g : ℝ → ℝ) (func : ℝ → ℝ → ℝ) {key : Fin K → Key} (hk : Function.Injective key)
    (wk : Fin K → ℝ) (ek : Bands b) (T occ mu : ℝ) :
    kSum g func (KMap.ofRange (oneRank key wk ek).energies.flatten)
      (KMap.ofRange (oneRank key wk ek).weights.flatten) T occ mu
      = ∑ k, g (wk k) * ((List.ofFn (ek k)).map fun e => func ((mu - e) / ((kB : ℚ) * T)) occ).sum := by
  rw [kSum_dist _ _ _ (oneRank_proper hk wk ek)]
  simp only [oneRank, List.flatten_cons, List.flatten_nil, List.append_nil, List.map_ofFn,
    List.sum_ofFn, Function.comp_def]

theorem kSum_perm (g : ℝ → ℝ) (func : ℝ → ℝ → ℝ) {key : Fin K → Key} (hk : Function.Injective key)
    (wk : Fin K → ℝ) (ek ek' : Bands b) (hp : ∀ k, (List.ofFn (ek' k)).Perm (List.ofFn (ek k)))
    (T occ : ℝ) :
    kSum g func (KMap.ofRange (oneRank key wk ek').energies.flatten)
      (KMap.ofRange (oneRank key wk ek').weights.flatten) T occ
    = kSum g func (KMap.ofRange (oneRank key wk ek).energies.flatten)
      (KMap.ofRange (oneRank key wk ek).weights.flatten) T occ := by
  funext mu
  rw [kSum_oneRank g func hk, kSum_oneRank g func hk]
  exact Finset.sum_congr rfl fun k _ => congrArg _ ((hp k).map _).sum_eq

/-- the order of the bands does not matter -/
theorem globalSearch_perm (useNewton : Bool) (sg sf : SmearFns ℝ) (p : OccParams ℝ)
    {key : Fin K → Key} (hk : Function.Injective key) (wk : Fin K → ℝ) (ek ek' : Bands b)
    (hp : ∀ k, (List.ofFn (ek' k)).Perm (List.ofFn (ek k))) :
    globalSearch useNewton sg sf p (oneRank key wk ek')
      = globalSearch useNewton sg sf p (oneRank key wk ek) := by
  have h := fun g func => kSum_perm g func hk wk ek ek' hp p.T p.occ
  have h' : ∀ g func mu, kSum g func (KMap.ofRange (oneRank key wk ek').energies.flatten)
      (KMap.ofRange (oneRank key wk ek').weights.flatten) p.T p.occ mu
    = kSum g func (KMap.ofRange (oneRank key wk ek).energies.flatten)
      (KMap.ofRange (oneRank key wk ek).weights.flatten) p.T p.occ mu := fun g func mu =>
    congrFun (h g func) mu
  cases useNewton <;>
    simp only [globalSearch, chemPotGathered, chemPotGatheredNewton, h', if_true, if_false, Bool.false_eq_true]

/-- the search never throws what the driver catches -/
theorem findChemPotRun_clean {α : Type} [Arith α] (f : α → α) (mu0 tol : α) :
    (findChemPotRun f mu0 tol).Clean := by
  rw [findChemPotRun, findChemPot]
  rcases whileFuel (cpGuard f tol) (cpBody f) (cpNmax + 1) (cpInit mu0) with _ | st
  · simp [Res.Clean]
  · simp only [Option.map_some, cpFinish]
    split <;> simp [Res.Clean]

theorem newtonRun_clean {α : Type} [Arith α] (N dN ddN : α → α) (mu0 ne tol : α) (m : ℕ) :
    (newtonRun N dN ddN mu0 ne tol m).Clean := by
  have hb : ∀ st r, newtonBody N dN ddN ne tol m st = .inl r → r.Clean := by
    intro st r
    simp only [newtonBody]
    intro h
    split at h
    · cases h; simp [Res.Clean]
    · split at h
      · split at h <;> · cases h; simp [Res.Clean]
      · split at h
        · cases h; simp [Res.Clean]
        · cases h
  have hl : ∀ n st k q, newtonLoop N dN ddN ne tol m n st k = some q → q.1.Clean := by
    intro n
    induction n with
    | zero => intro st k q h; simp [newtonLoop] at h
    | succ n ih =>
      intro st k q h
      rw [newtonLoop] at h
      split at h
      · next r hr => cases h; exact hb st r hr
      · exact ih _ _ _ h
  rw [newtonRun, newton]
  split
  · next r hr => exact hl _ _ _ _ hr
  · simp [Res.Clean]

theorem Res.clean_bind {β γ : Type} {r : Res β} {f : β → Res γ} (hr : r.Clean) (hf : ∀ x, (f x).Clean) :
    (r >>= f).Clean := by
  cases r with
  | ok x => exact hf x
  | throw e => exact ⟨by have := hr.1; simp_all [Res.Clean], by have := hr.2; simp_all⟩
  | ub => exact ⟨by simp, by simp⟩
  | abort => exact ⟨by simp, by simp⟩

theorem searchOcc_clean (useNewton : Bool) (t : SmearType) (p : OccParams ℝ) (key : Fin K → Key)
    (wk : Fin K → ℝ) (ek : Bands b) : (searchOcc useNewton t p key wk ek).Clean := by
  rw [searchOcc]
  refine Res.clean_bind ?_ fun mu => by simp [Res.Clean]
  cases useNewton
  · exact findChemPotRun_clean _ _ _
  · refine Res.clean_bind (findChemPotRun_clean _ _ _) fun mu0 => ?_
    split
    · exact findChemPotRun_clean _ _ _
    · exact newtonRun_clean _ _ _ _ _ _ _

theorem SM.clean_bind {σ β γ : Type} {m : SM σ β} {f : β → SM σ γ} (hm : ∀ s, (m s).1.Clean)
    (hf : ∀ x s, (f x s).1.Clean) (s : σ) : ((m >>= f) s).1.Clean := by
  rw [SM.bind_apply]
  have := hm s
  rcases hq : m s with ⟨_ | e | _ | _, s'⟩ <;> rw [hq] at this
  · exact hf _ _
  all_goals simpa [Res.Clean] using this

section ops
variable {n : Fin K → ℕ} {η : Type}

theorem hostCall_clean {β : Type} (call : HostCall n b) (f : η → Option β × η) (s : SState η n b) :
    (hostCall call f s).1.Clean := by
  rw [hostCall]
  rcases f s.h with ⟨_ | r, h'⟩ <;> simp [Res.Clean]

theorem evaluate_clean (host : Host η n b) (c : Cfg n b) (X : Orbitals n b) (fn en : Bands b) (mu : ℝ)
    (s : SState η n b) : (evaluate host c X fn en mu s).1.Clean := by
  rw [evaluate]
  refine SM.clean_bind (hostCall_clean _ _) (fun _ => ?_) s
  refine SM.clean_bind (hostCall_clean _ _) (fun _ => ?_)
  refine SM.clean_bind (hostCall_clean _ _) (fun _ => ?_)
  refine SM.clean_bind (hostCall_clean _ _) (fun _ => ?_)
  refine SM.clean_bind (hostCall_clean _ _) (fun _ s => ?_)
  simp [Res.Clean]

theorem forAllK_clean : {K : ℕ} → {β : Fin K → Type} → {f : (k : Fin K) → Res (β k)} →
    (∀ k, (f k).Clean) → (forAllK f).Clean
  | 0, _, _, _ => by simp [forAllK, Res.Clean]
  | K + 1, β, f, h => by
    rw [forAllK]
    refine Res.clean_bind (h 0) fun a => Res.clean_bind (forAllK_clean fun k => h k.succ) fun r => ?_
    simp [Res.Clean]

theorem eigh_clean (la : Lapack) {n : ℕ} (A : Mat n n) : (la.eigh A).Clean := by
  rw [Lapack.eigh]
  split <;> simp [Res.Clean]

theorem geodesicUs_clean {N B : ℕ} (la : Lapack) (X : Mat N B) (eta : Mat B B) (zx : Mat N B)
    (zeta : Mat B B) (S : Mat N N) (t : ℝ) : (geodesicUs la X eta zx zeta S t).Clean := by
  rw [geodesicUs]
  refine Res.clean_bind (eigh_clean _ _) fun q => ?_
  refine Res.clean_bind ?_ fun r => by simp [Res.Clean]
  rw [advanceX]
  refine Res.clean_bind ?_ fun r => by simp [Res.Clean]
  rw [loewdin]
  exact Res.clean_bind (eigh_clean _ _) fun q => by simp [Res.Clean]

/-- no operation of the solver throws what the driver catches -/
theorem solver_clean (host : Host η n b) (c : Cfg n b) (ho : ∀ ek, (c.occ ek).Clean) :
    (solverOps host c).Clean where
  construct := fun s => by
    show Res.Clean (if c.T = 0 then _ else _)
    split <;> simp [Res.Clean]
  setup := fun s => by
    show (solverSetup host c s).1.Clean
    rw [solverSetup]
    refine SM.clean_bind (hostCall_clean _ _) (fun _ => ?_) s
    refine SM.clean_bind (fun s => by simp [SM.get, Res.Clean]) (fun s => ?_)
    refine SM.clean_bind (fun _ => ho _) (fun q => ?_)
    refine SM.clean_bind (fun s => by simp [SM.get, Res.Clean]) (fun s => ?_)
    refine SM.clean_bind (evaluate_clean _ _ _ _ _ _) (fun _ => ?_)
    refine SM.clean_bind (fun s => by simp [SM.get, Res.Clean]) (fun s s' => ?_)
    simp [Res.Clean]
  restarted := fun pt s => by simp [solverOps, solverRestarted, Res.Clean]
  conjugated := fun fr pt dir s => by simp [solverOps, solverConjugated, Res.Clean]
  geo := fun pt dir t s => by
    show (solverGeo host c pt dir t s).1.Clean
    rw [solverGeo]
    refine SM.clean_bind (fun _ => forAllK_clean fun k => geodesicUs_clean _ _ _ _ _ _ _) (fun g => ?_) s
    refine SM.clean_bind (fun _ => ho _) (fun q => ?_)
    refine SM.clean_bind (evaluate_clean _ _ _ _ _ _) (fun _ s => ?_)
    simp [Res.Clean]
  refresh := fun pt s => by simp [solverOps, solverRefresh, Res.Clean]
  gather := fun pt s => by simp [solverOps, Res.Clean]
  hostPrint := fun s => hostCall_clean _ _ _

/-- print-outs leave the free energy alone -/
theorem solver_quiet (host : Host η n b) (c : Cfg n b) : (solverOps host c).Quiet where
  gatherF := fun _ _ => rfl
  gatherS := fun _ _ => rfl
  printF := fun s => by
    show (hostCall .print host.print s).2.F = s.F
    rw [hostCall]; rcases host.print s.h with ⟨_ | r, h'⟩ <;> rfl
  printS := fun s => by
    show (hostCall .print host.print s).2.S = s.S
    rw [hostCall]; rcases host.print s.h with ⟨_ | r, h'⟩ <;> rfl

end ops
end Nlcg
