import Verif.Spec.FullRecord
import Verif.Proofs.Reports
import Verif.Proofs.LinearHost

/-!
# Proofs about whole step records
-/

namespace Nlcg
open Matrix Spec Arith

variable {K : ℕ} {n b : Fin K → ℕ} {η : Type}

/-! ## The instrumented run is the run -/

section follow
variable {τ γ β β' : Type}

/-- forgetting the records gives `m` -/
structure Covering (m' : FM (τ × γ) β) (m : FM τ β) : Prop where
  same : ∀ w l, (m' (w, l)).map (fun x => (x.1, x.2.1)) = m w

theorem Covering.besides (m : FM τ β) : Covering (γ := γ) (Nlcg.besides m) m := by
  refine ⟨fun w l => ?_⟩
  rw [Nlcg.besides]
  rcases m w with _ | ⟨r, w'⟩ <;> rfl

theorem Covering.pure (r : β) : Covering (γ := γ) (Pure.pure r : FM (τ × γ) β) (Pure.pure r) :=
  ⟨fun _ _ => rfl⟩

theorem Covering.throw (e : Exc) : Covering (γ := γ) (FM.throw e : FM (τ × γ) β) (FM.throw e) :=
  ⟨fun _ _ => rfl⟩

theorem Covering.get_bind {g : τ × γ → FM (τ × γ) β} {g' : τ → FM τ β}
    (h : ∀ w l, Covering (g (w, l)) (g' w)) : Covering (FM.get >>= g) (FM.get >>= g') :=
  ⟨fun w l => (h w l).same w l⟩

theorem Covering.modify {f' : τ × γ → τ × γ} {f : τ → τ} (h : ∀ w l, (f' (w, l)).1 = f w) :
    Covering (FM.modify f') (FM.modify f) :=
  ⟨fun w l => by simp [h]⟩

theorem Covering.bind {m' : FM (τ × γ) β} {m : FM τ β} {f' : β → FM (τ × γ) β'} {f : β → FM τ β'}
    (h : Covering m' m) (hf : ∀ r, Covering (f' r) (f r)) : Covering (m' >>= f') (m >>= f) := by
  refine ⟨fun w l => ?_⟩
  have hw := h.same w l
  rw [FM.bind_apply, FM.bind_apply, ← hw]
  rcases m' (w, l) with _ | ⟨_ | _ | _ | _, w1, l1⟩
  · rfl
  · exact (hf _).same w1 l1
  all_goals rfl

theorem Covering.attempt {m' : FM (τ × γ) β} {m : FM τ β} (h : Covering m' m) :
    Covering (FM.attempt m') (FM.attempt m) := by
  refine ⟨fun w l => ?_⟩
  have hw := h.same w l
  unfold FM.attempt
  rw [← hw]
  rcases m' (w, l) with _ | ⟨_ | _ | _ | _, w1, l1⟩ <;> rfl

theorem Covering.after {m0 : FM (τ × γ) Unit} {m' : FM (τ × γ) β} {m : FM τ β}
    (h0 : ∀ w l, ∃ l', m0 (w, l) = some (.ok (), (w, l'))) (h : Covering m' m) :
    Covering (m0 >>= fun _ => m') m := by
  refine ⟨fun w l => ?_⟩
  obtain ⟨l', hl⟩ := h0 w l
  rw [FM.bind_apply, hl]
  exact h.same w l'

end follow

theorem writeRec_apply (host : Host η n b) (rank i : ℕ) (v : Vars ℝ (Point n b) (Dir n b))
    (w : NState ℝ (SState η n b)) (l : List (StepRec b)) :
    writeRec host rank i v (w, l) =
      some (.ok (), (w, if rank = 0 then l ++ [stepRec host i v.slope v.pt w.s] else l)) := rfl

theorem cgLoopRec_covers (host : Host η n b) (c : Cfg n b) (prm : NlcgParams ℝ) (fuel rank : ℕ) :
    ∀ (m i : ℕ) (v : Vars ℝ (Point n b) (Dir n b)), Covering (cgLoopRec host c prm fuel rank m i v)
      (cgLoop (solverOps host c) prm fuel rank m i v)
  | 0, _, _ => .get_bind fun _ _ => .pure _
  | m + 1, i, v => by
    refine Covering.bind (.besides _) fun _ => ?_
    split
    · exact .after (fun w l => ⟨_, writeRec_apply ..⟩) (.besides _)
    · refine Covering.bind (.attempt (.after (fun w l => ⟨_, writeRec_apply ..⟩) (.besides _))) fun r => ?_
      rcases r with e | v'
      · cases e
        case descentError => exact .get_bind fun _ _ => .pure _
        case slopeError => exact .get_bind fun _ _ => .pure _
        all_goals exact .throw _
      · exact cgLoopRec_covers host c prm fuel rank m (i + 1) v'

theorem solveRec_covers (host : Host η n b) (c : Cfg n b) (prm : NlcgParams ℝ) (fuel rank : ℕ) :
    Covering (solveRec host c prm fuel rank) (solve host c prm fuel rank) := by
  rw [solveRec, solve, nlcg]
  refine Covering.bind (.modify fun _ _ => rfl) fun _ => ?_
  refine Covering.bind (.besides _) fun _ => ?_
  refine Covering.bind (.modify fun _ _ => rfl) fun _ => ?_
  refine Covering.bind (.besides _) fun pt => ?_
  refine Covering.bind (.besides _) fun sd => ?_
  refine Covering.bind (.modify fun _ _ => rfl) fun _ => ?_
  exact cgLoopRec_covers ..

/-! ## The energy the host tells when a record is made -/

/-- the total energy is still the one in the free energy -/
def Told (host : Host η n b) (s : SState η n b) : Prop :=
  ∃ E, (host.energy s.h).1 = some E ∧ s.F = E + s.S

theorem evaluate_told {host : Host η n b} {c : Cfg n b} (hr : Rereads host) {X : Orbitals n b}
    {fn en : Bands b} {mu : ℝ} {s s' : SState η n b}
    (h : evaluate host c X fn en mu s = (.ok (), s')) : Told host s' := by
  rw [evaluate, hostCall_bind] at h
  rcases h1 : host.setC X s.h with ⟨_ | u1, s1⟩
  · rw [h1] at h; cases h
  simp only [h1] at h
  rw [hostCall_bind] at h
  simp only at h
  rcases h2 : host.setFn fn s1 with ⟨_ | u2, s2⟩
  · rw [h2] at h; cases h
  simp only [h2] at h
  rw [hostCall_bind] at h
  simp only at h
  rcases h3 : host.compute s2 with ⟨_ | u3, s3⟩
  · rw [h3] at h; cases h
  simp only [h3] at h
  rw [hostCall_bind] at h
  simp only at h
  rcases h4 : host.setMu mu s3 with ⟨_ | u4, s4⟩
  · rw [h4] at h; cases h
  simp only [h4] at h
  rw [hostCall_bind] at h
  simp only at h
  rcases h5 : host.energy s4 with ⟨_ | e, s5⟩
  · rw [h5] at h; cases h
  simp only [h5] at h
  cases h
  exact ⟨e, hr.again _ _ _ h5, rfl⟩

/-- what is known of an iterate when its record is made -/
def RecAt (host : Host η n b) (c : Cfg n b) (pt : Point n b) (s : SState η n b) : Prop :=
  (SAt host c pt s ∧ EnergyAt host c pt.X pt.ek pt.mu s) ∧ Told host s

theorem solver_told_rule {host : Host η n b} {c : Cfg n b} (hs : Setting host c) (hd : Rereads host) :
    RunRule (solverOps host c) (SStart host c) (SInv host c) (SEnd c) (RecAt host c)
      (fun r s => (Occ host c r.X r.ek r.mu s ∧ EnergyAt host c r.X r.ek r.mu s) ∧ Told host s) (SDir c) := by
  have hr := solver_energy_rule hs
  refine ⟨hr.weaken, hr.construct, fun s h => ?_, fun pt s hI hJ => ?_, fun fr pt dir s pt0 sl0 hI hJ hD => ?_,
    fun pt dir sl t s hI hD => ?_, fun r s hI hG => ?_, fun pt s hI hJ => ?_, fun pt s hI hJ => ?_⟩
  · have a := hr.setup s h
    refine ⟨a.any, a.soft, fun pt hp => ?_⟩
    obtain ⟨x, y⟩ := a.ok pt hp
    refine ⟨x, y, ?_⟩
    change (solverSetup host c s).1 = _ at hp
    change Told host (solverSetup host c s).2
    rw [solverSetup, hostCall_bind] at hp ⊢
    rcases hc : host.compute s.h with ⟨_ | u, s1⟩
    · rw [hc] at hp; cases hp
    simp only [hc] at hp ⊢
    rw [SM.get_bind, SM.lift_bind] at hp ⊢
    simp only at hp ⊢
    rcases hocc : c.occ (host.ek s1) with ⟨mu, f⟩ | e | _ | _
    · simp only [hocc] at hp ⊢
      rw [SM.get_bind, SM.bind_apply] at hp ⊢
      simp only at hp ⊢
      rcases he : evaluate host c (host.C s1) f (host.ek s1) mu
        { s with h := s1, calls := s.calls ++ [.compute] } with ⟨_ | e | _ | _, s'⟩
      · rw [he] at hp
        exact evaluate_told hd he
      all_goals rw [he] at hp; cases hp
    all_goals rw [hocc] at hp; cases hp
  · have a := (hr.restarted pt s hI hJ.1).and (P' := fun _ s' => Told host s') fun q hq _ => hJ.2
    exact ⟨a.any, a.soft, fun r hr' => ⟨⟨(a.ok r hr').1.1, (a.ok r hr').2⟩, (a.ok r hr').1.2⟩⟩
  · have a := (hr.conjugated fr pt dir s pt0 sl0 hI hJ.1 hD).and (P' := fun _ s' => Told host s') fun q hq _ => hJ.2
    exact ⟨a.any, a.soft, fun r hr' => ⟨⟨(a.ok r hr').1.1, (a.ok r hr').2⟩, (a.ok r hr').1.2⟩⟩
  · refine (hr.geo pt dir sl t s hI hD).and fun r hq _ => ?_
    change (solverGeo host c pt dir t s).1 = _ at hq
    change Told host (solverGeo host c pt dir t s).2
    rw [solverGeo, SM.lift_bind] at hq ⊢
    rcases hg : forAllK (fun k =>
      geodesicUs c.la (pt.X k) (pt.eta k) (dir.zx k) (dir.zeta k) (c.S k) t) with g | e | _ | _
    · simp only [hg] at hq ⊢
      rw [SM.lift_bind] at hq ⊢
      rcases hocc : c.occ (fun k => (g k).ek) with ⟨mu, f⟩ | e | _ | _
      · simp only [hocc] at hq ⊢
        rw [SM.bind_apply] at hq ⊢
        rcases he : evaluate host c (fun k => (g k).X) f (fun k => (g k).ek) mu s with ⟨_ | e | _ | _, s'⟩
        · rw [he] at hq
          exact evaluate_told hd he
        all_goals rw [he] at hq; cases hq
      all_goals rw [hocc] at hq; cases hq
    all_goals rw [hg] at hq; cases hq
  · refine (hr.refresh r s hI hG.1).and ?_
    rintro pt ⟨⟩ -
    exact hG.2
  · exact (hr.gather pt s hI hJ.1).and fun _ _ _ => hJ.2
  · refine (hr.print pt s hI hJ.1).and fun _ hq _ => ?_
    change (hostCall .print host.print s).1 = _ at hq
    show Told host (hostCall .print host.print s).2
    rw [hostCall] at hq ⊢
    rcases hp : host.print s.h with ⟨_ | u, s1⟩
    · rw [hp] at hq; cases hq
    · simp only
      obtain ⟨E, h1, h2⟩ := hJ.2
      exact ⟨E, (hd.print _ _ hp).trans h1, h2⟩

/-! ## Records are made at iterates -/

/-- the part of a record that the driver keeps -/
def StepRec.short (r : StepRec b) : JsonRec ℝ :=
  { step := r.step, F := r.F, entropy := r.entropy, slope := r.slope, bands := r.bands.isSome }

/-- made at an iterate at which `J` holds -/
def MadeAt (host : Host η n b) (J : Point n b → SState η n b → Prop) (r : StepRec b) : Prop :=
  ∃ i slope pt s, J pt s ∧ r = stepRec host i slope pt s

theorem json_short {host : Host η n b} {c : Cfg n b} {rank i : ℕ} {v : Vars ℝ (Point n b) (Dir n b)}
    {w : NState ℝ (SState η n b)} {o : Res Unit} {s' : SState η n b} {file' : List (JsonRec ℝ)}
    (h : JsonRun (solverOps host c) rank i v.slope v.pt w o s' file') :
    file' = w.file ++ (if rank = 0 then [(stepRec host i v.slope v.pt w.s).short] else []) := by
  obtain ⟨h1, h2⟩ := h
  have ho : o = .ok () := by
    split at h1
    · exact (Prod.mk.inj h1).1
    · exact (Prod.mk.inj h1).1
  subst ho
  rw [h2]
  split
  · simp only [StepRec.short, stepRec]
    congr 2
    by_cases hi : i % 10 = 0 <;> simp [hi] <;> exact ⟨rfl, rfl⟩
  · simp

theorem body_short {host : Host η n b} {c : Cfg n b} {prm : NlcgParams ℝ} {fuel rank i : ℕ}
    {v : Vars ℝ (Point n b) (Dir n b)} {w w' : NState ℝ (SState η n b)}
    {o : Res (Vars ℝ (Point n b) (Dir n b))}
    (h : BodyRun (solverOps host c) prm fuel rank i v w o w') :
    w'.file = w.file ++ (if rank = 0 then [(stepRec host i v.slope v.pt w.s).short] else []) := by
  cases h with
  | json o s1 file' h1 h2 => exact json_short h1
  | hostPrint s1 s2 file' o h1 h2 h3 => exact json_short h1
  | search s1 s2 file' o st tr h1 h2 h3 h4 h5 h6 => exact json_short h1
  | searched s1 s2 file' r st o dirs s' force' h1 h2 h3 h4 => exact json_short h1

theorem success_short {host : Host η n b} {c : Cfg n b} {prm : NlcgParams ℝ} {fuel rank m i : ℕ}
    {v : Vars ℝ (Point n b) (Dir n b)} {w w' : NState ℝ (SState η n b)} {o : Res (Info ℝ)}
    (hs : (Arith.abs v.slope <ᶠ prm.tol) = true)
    (h : LoopRun (solverOps host c) prm fuel rank (m + 1) i v w o w') :
    w'.file = w.file ++ (if rank = 0 then [(stepRec host i v.slope v.pt w.s).short] else []) := by
  cases h with
  | success _ _ _ _ s1 s2 file' h1 h2 h3 => exact json_short h2
  | successJson _ _ _ _ o s1 file' h1 h2 h3 => exact json_short h2
  | successPrint _ _ _ _ s1 file' o s2 h1 h2 h3 h4 => exact json_short h2
  | step _ _ _ _ v' w1 o w' h1 => rw [hs] at h1; cases h1
  | caught _ _ _ _ e w1 h1 => rw [hs] at h1; cases h1
  | uncaught _ _ _ _ o w1 h1 => rw [hs] at h1; cases h1

theorem besides_inv {τ γ β : Type} {m : FM τ β} {w w' : τ} {l l' : γ} {o : Res β}
    (h : besides m (w, l) = some (o, (w', l'))) : m w = some (o, w') ∧ l' = l := by
  rw [besides] at h
  rcases hm : m w with _ | ⟨r, w1⟩
  · rw [hm] at h; cases h
  · rw [hm] at h; cases h; exact ⟨rfl, rfl⟩

theorem cgLoopRec_made {host : Host η n b} {c : Cfg n b} {J G : Point n b → SState η n b → Prop}
    {I0 I E : SState η n b → Prop} {D : Point n b → Dir n b → ℝ → Prop}
    (hr : RunRule (solverOps host c) I0 I E J G D) {prm : NlcgParams ℝ} {fuel rank : ℕ} :
    ∀ (m i : ℕ) (v : Vars ℝ (Point n b) (Dir n b)) (w w' : NState ℝ (SState η n b)) (l l' : List (StepRec b))
      (o : Res (Info ℝ)), cgLoopRec host c prm fuel rank m i v (w, l) = some (o, (w', l')) →
      I w.s → J v.pt w.s → D v.pt v.dir v.slope →
      ∃ a, l' = l ++ a ∧ (∀ r ∈ a, MadeAt host J r) ∧
        w'.file = w.file ++ (if rank = 0 then a.map StepRec.short else [])
  | 0, i, v, w, w', l, l', o, h, hI, hJ, hD => by
    cases h
    exact ⟨[], by simp, by simp, by simp⟩
  | m + 1, i, v, w, w', l, l', o, h, hI, hJ, hD => by
    set a1 : List (StepRec b) := if rank = 0 then [stepRec host i v.slope v.pt w.s] else [] with ha1
    have hl1 : (if rank = 0 then l ++ [stepRec host i v.slope v.pt w.s] else l) = l ++ a1 := by
      rw [ha1]; split <;> simp
    have hm1 : ∀ r ∈ a1, MadeAt host J r := by
      intro r hr'
      rw [ha1] at hr'
      split at hr'
      · rw [List.mem_singleton] at hr'
        exact ⟨i, v.slope, v.pt, w.s, hJ, hr'⟩
      · simp at hr'
    have hs1 : (if rank = 0 then [(stepRec host i v.slope v.pt w.s).short] else []) =
        if rank = 0 then a1.map StepRec.short else [] := by
      rw [ha1]; split <;> simp
    have hw : (started i v.slope w).s = w.s := rfl
    rw [cgLoopRec, FM.bind_apply] at h
    have he : besides (emit (.start i v.slope)) (w, l) = some (.ok (), (started i v.slope w, l)) := rfl
    rw [he] at h
    simp only at h
    split at h
    · next hsl =>
      rw [FM.bind_apply, writeRec_apply, hw, hl1] at h
      simp only at h
      obtain ⟨h1, rfl⟩ := besides_inv h
      have h2 := cgSuccess_run (solverOps host c) prm fuel rank m i v w hsl _ _ h1
      exact ⟨a1, rfl, hm1, by rw [success_short hsl h2, hs1]⟩
    · next hsl =>
      rw [FM.bind_apply, FM.attempt, FM.bind_apply, writeRec_apply, hw, hl1] at h
      simp only at h
      rcases hb : besides (cgBody (solverOps host c) prm fuel rank i v) (started i v.slope w, l ++ a1) with
        _ | ⟨r, w1, l1⟩
      · rw [hb] at h; cases h
      obtain ⟨h1, hl⟩ := besides_inv hb
      subst hl
      have h2 := cgBody_run (solverOps host c) prm fuel rank i v _ _ _ h1
      have hf := body_short h2
      have hP := hr.body h2 hI hJ hD
      rw [hw, hs1] at hf
      change w1.file = w.file ++ _ at hf
      rw [hb] at h
      rcases r with v' | e | _ | _
      · simp only at h
        obtain ⟨hc, hd⟩ := hP.ok v' rfl
        obtain ⟨a, ha, hm, hfl⟩ := cgLoopRec_made hr m (i + 1) v' w1 w' _ l' o h (hP.soft trivial) hc hd
        refine ⟨a1 ++ a, by rw [ha, List.append_assoc], fun r hr' => ?_, ?_⟩
        · rcases List.mem_append.1 hr' with hr' | hr'
          · exact hm1 r hr'
          · exact hm r hr'
        · rw [hfl, hf]
          split <;> simp
      · cases e <;> (cases h; exact ⟨a1, rfl, hm1, hf⟩)
      · cases h; exact ⟨a1, rfl, hm1, hf⟩
      · cases h; exact ⟨a1, rfl, hm1, hf⟩

theorem solveRec_made {host : Host η n b} {c : Cfg n b} {J G : Point n b → SState η n b → Prop}
    {I0 I E : SState η n b → Prop} {D : Point n b → Dir n b → ℝ → Prop}
    (hr : RunRule (solverOps host c) I0 I E J G D) {prm : NlcgParams ℝ} {fuel rank : ℕ}
    {w w' : NState ℝ (SState η n b)} {l l' : List (StepRec b)} {o : Res (Info ℝ)}
    (h : solveRec host c prm fuel rank (w, l) = some (o, (w', l')))
    (h0 : I0 w.s) (hT : c.T ≠ 0) :
    (∀ r ∈ l', MadeAt host J r) ∧ w'.file = if rank = 0 then l'.map StepRec.short else [] := by
  rw [solveRec, FM.bind_apply] at h
  simp only [FM.modify_apply] at h
  rw [FM.bind_apply] at h
  have hc : (solverOps host c).construct w.s = (.ok (), w.s) := by
    show SM.lift (if c.T = 0 then .throw .runtimeError else .ok ()) w.s = _
    rw [if_neg hT]; rfl
  have hc' : besides (liftOp (solverOps host c).construct)
      (({ w with info := { vals := none, converged := false }, trace := [] } : NState ℝ (SState η n b)), l) =
      some (.ok (), ({ w with info := { vals := none, converged := false }, trace := [] }, l)) := by
    simp only [besides, liftOp, hc]
  have hI0 := (hr.construct w.s h0).of_eq hc
  rw [hc'] at h
  simp only at h
  rw [FM.bind_apply] at h
  simp only [FM.modify_apply] at h
  rw [FM.bind_apply] at h
  rcases hs : (solverOps host c).setup w.s with ⟨q, s1⟩
  have hS := (hr.setup w.s h0).of_eq hs
  simp only [besides, liftOp, hs] at h
  rcases q with pt | e | _ | _
  · simp only at h
    rw [FM.bind_apply] at h
    obtain ⟨hI, hJ⟩ := hS.ok pt rfl
    rcases hd : (solverOps host c).restarted pt s1 with ⟨q, s2⟩
    have hR := (hr.restarted pt s1 hI hJ).of_eq hd
    simp only [besides, liftOp, hd] at h
    rcases q with ⟨slope, dir⟩ | e | _ | _
    · simp only at h
      rw [FM.bind_apply] at h
      simp only [FM.modify_apply] at h
      obtain ⟨hJ2, hD⟩ := hR.ok _ rfl
      obtain ⟨a, ha, hm, hf⟩ := cgLoopRec_made hr _ _ _ _ _ _ _ _ h (hR.soft trivial) hJ2 hD
      rw [List.nil_append] at ha
      subst ha
      exact ⟨hm, by rw [hf]; simp⟩
    all_goals cases h; simp
  all_goals cases h; simp

end Nlcg
