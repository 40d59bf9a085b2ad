import Verif.Proofs.Talk
import Verif.Proofs.OpSim
import Verif.Props.Spmd

/-!
# C134: how often the ranks have to wait for each other

`Spec/Talk.lean` says what is counted.
-/

namespace Nlcg
open Matrix Spec
open scoped ComplexOrder

variable {K R : ℕ} {own : Fin K → Fin R} {n b : Fin K → ℕ} {r : Fin R} {η : Type}

/-- **C134.** In a run that returns, a rank calls eight collective operations per energy, four more at the start, and
those of `rounds` for the events of the run: nothing else, whatever the replies are. -/
theorem C134_rounds {ω : ℕ → Reply own n b r} {c : LCfg own n b r} (hc : SearchHard c) {prm : NlcgParams ℝ} {fuel : ℕ}
    {w w' : NState ℝ (RState own n b r)} {info : Info ℝ} (h : rankRun ω c prm fuel w = some (.ok info, w'))
    (h0 : w.s.log = []) :
    w'.s.log.length = 8 * energyRounds w'.s.log + 4 + rounds w'.trace := by
  obtain ⟨e, h1, h2⟩ := ((rank_talks ω hc).run h).2 rfl
  simp only [h0, energyRounds, List.countP_nil, List.length_nil] at h1 h2 ⊢
  omega

/-- **C134.** However a run ends, a rank calls at most eight collective operations per energy and twelve more, eight per
iteration and two per ten iterations: the number of k-points, bands, plane waves and ranks has no influence. -/
theorem C134_bound {ω : ℕ → Reply own n b r} {c : LCfg own n b r} (hc : SearchHard c) {prm : NlcgParams ℝ} {fuel : ℕ}
    {w w' : NState ℝ (RState own n b r)} {o : Res (Info ℝ)} (h : rankRun ω c prm fuel w = some (o, w'))
    (h0 : w.s.log = []) :
    w'.s.log.length ≤ 8 * energyRounds w'.s.log + 12 + 8 * prm.maxiter.toNat + 2 * ((prm.maxiter.toNat + 9) / 10) := by
  obtain ⟨e, h1, h2⟩ := ((rank_talks ω hc).run h).1
  simp only [h0, energyRounds, List.countP_nil, List.length_nil, tenths] at h1 h2 ⊢
  omega

/-- the ranks of a run ask equally often for the energy -/
theorem Spec.Lockstep.same_energies {host : Host η n b} {h h' : η} {L : (r : Fin R) → Transcript own n b r}
    (hl : Lockstep host h L h') (r r' : Fin R) : energyRounds (L r) = energyRounds (L r') := by
  induction hl with
  | nil => rfl
  | step ha _ ih =>
    simp only [energyRounds, List.countP_cons] at ih ⊢
    rw [ih]
    cases ha <;> rfl

/-- **C134.** A run of all ranks that returns: all of them have called the same number of operations, that of the
formula. -/
theorem C134_all_ranks (host : Host η n b) (c : Cfg n b)
    (occ : (Fin K → ℝ) → Bands b → Res (ℝ × Bands b)) (hocc : ∀ e, c.occ e = occ c.wk e)
    (hard : ∀ w e x, occ w e = .throw x → x ≠ .slopeError ∧ x ≠ .stepError ∧ x ≠ .descentError)
    (htot : ∀ {m : ℕ} (A : Mat m m), (c.la.heevd A).2 = 0) (prm : NlcgParams ℝ) (fuel : ℕ)
    (w w' : NState ℝ (SState η n b)) (info : Info ℝ) (h : solve host c prm fuel 0 w = some (.ok info, w')) :
    ∃ (E : ℕ) (L : (r : Fin R) → Transcript own n b r), Lockstep host w.s.h L w'.s.h ∧
      ∀ r, energyRounds (L r) = E ∧ (L r).length = 8 * E + 4 + rounds w'.trace := by
  obtain ⟨L, hl, hr⟩ := C41_lockstep (own := own) host c occ hocc htot prm fuel w w' _ h
  have key : ∀ r, (L r).length = 8 * energyRounds (L r) + 4 + rounds w'.trace := fun r => by
    obtain ⟨v, e, hv, -, -, -, -, ht, -⟩ := hr r (fun i => if h : i < (L r).length then ((L r)[i]).2 else .real 0)
      fun i h => dif_pos h
    have := C134_rounds (c := localCfg own c occ r) hard e rfl
    rwa [hv, ht] at this
  rcases isEmpty_or_nonempty (Fin R) with he | ⟨⟨r0⟩⟩
  · exact ⟨0, L, hl, fun r => he.elim r⟩
  · exact ⟨energyRounds (L r0), L, hl, fun r => ⟨hl.same_energies r r0, by rw [key r, hl.same_energies r r0]⟩⟩

/-! ## The assumptions can be met -/

/-- the searches of the library throw none of the exceptions that the solver uses internally -/
theorem search_is_hard (useNewton : Bool) (t : SmearType) (p : OccParams ℝ) (key : Fin K → Key) (c : LCfg own n b r)
    (h : ∀ w e, c.occ w e = searchOcc useNewton t p key w e) : SearchHard c := by
  intro w e x hx
  rw [h] at hx
  exact searchOcc_foreign useNewton t p key w e x hx

/-- two ranks with a k-point each: a run that returns, and the number of operations of both -/
example (prm : NlcgParams ℝ) (htol : 0 < prm.tol) (htau : prm.tau < 1) (hr : prm.restart ≠ 0) : ∃ fuel info w' E,
    solve duoHost duoCfg prm fuel 0 duoStart = some (.ok info, w') ∧
    ∃ L : (r : Fin 2) → Transcript (id : Fin 2 → Fin 2) duoN duoB r, Lockstep duoHost duoStart.s.h L w'.s.h ∧
      (L 0).length = 8 * E + 4 + rounds w'.trace ∧ (L 1).length = 8 * E + 4 + rounds w'.trace := by
  obtain ⟨N, o, w', hq⟩ := duo_ends prm htol
  have hset : Setting duoHost duoCfg :=
    { host := linearHost_ok _ (fun k => (demoH_psd 0).isHermitian) _
      lapack := steadyLapack_ok
      overlap := fun _ => PosSemidef.one
      prec := fun _ => PosDef.one
      weights := fun _ => by norm_num [duoCfg]
      occ := by rintro ek mu f ⟨⟩; rfl }
  have hst : SStart duoHost duoCfg duoStart.s := by
    refine ⟨rfl, fun k => ?_⟩
    show (!![(1 : ℂ); 0])ᴴ * ((1 : Mat 2 2) * !![(1 : ℂ); 0]) = 1
    ext i j; fin_cases i; fin_cases j; simp [mul_apply]
  obtain ⟨info, rfl⟩ := C66_returns_normally hset
    ⟨fun _ => ⟨_, rfl⟩, fun _ _ => ⟨_, rfl⟩, fun _ _ => ⟨_, rfl⟩, fun _ _ => ⟨_, rfl⟩, fun _ => ⟨_, _, rfl⟩,
      fun _ => ⟨_, rfl⟩⟩ (fun _ _ => rfl) (fun _ => ⟨_, _, rfl⟩) (by norm_num [duoCfg]) htau hr hst hq
  obtain ⟨E, L, hl, hL⟩ := C134_all_ranks (own := (id : Fin 2 → Fin 2)) duoHost duoCfg
    (fun _ ek => .ok (0, occs .gauss 300 2 ek 0)) (fun _ => rfl) (fun _ _ _ h => by cases h) (fun _ => rfl) prm N duoStart
    w' info hq
  exact ⟨N, info, w', E, hq, L, hl, (hL 0).2, (hL 1).2⟩

/-- what ten iterations with conjugated directions cost: ten reports, the band data of step 0, a steepest descent in step
0 and nine conjugated directions -/
example : rounds (List.flatten (List.ofFn fun i : Fin 10 =>
    ([.report i 0 0 (-1), if i = 0 then .steepest 0 (-1) else .conjugate i (-1)] : List (Ev ℚ)))) = 10 + 2 + 3 + 36 := by
  decide +kernel

end Nlcg
