import Verif.Spec.FixedOcc
import Verif.Proofs.Physical

/-! With `kappa = 0` the pseudo-Hamiltonian does not move. -/

namespace Nlcg
open Matrix Spec ComplexOrder Arith

variable {K : ℕ} {n b : Fin K → ℕ} {η : Type} {host : Host η n b} {c : Cfg n b} {ek0 : Bands b}

theorem Spec.Reordered.refl (x : Bands b) : Reordered x x := fun _ => List.Perm.refl _

theorem Spec.Reordered.trans {x y z : Bands b} (h : Reordered x y) (h' : Reordered y z) : Reordered x z :=
  fun k => (h k).trans (h' k)

theorem deltaEta_zero {m : ℕ} (hij : Mat m m) (ek : Fin m → ℝ) (wk : ℝ) : deltaEta 0 hij ek wk = 0 := by
  ext i j
  simp [deltaEta]

theorem deltaEta_kappa {m : ℕ} (kappa : ℝ) (hij : Mat m m) (ek : Fin m → ℝ) (wk : ℝ) :
    deltaEta kappa hij ek wk = (kappa : ℂ) • deltaEta 1 hij ek wk := by
  ext i j
  simp only [deltaEta, Matrix.smul_apply, smul_eq_mul]
  split
  · push_cast; ring
  · push_cast; ring

theorem innerhTr_smul {m l : ℕ} (A B : Mat m l) (r : ℝ) :
    (innerhTr A ((r : ℂ) • B)).re = r * (innerhTr A B).re := by
  simp only [innerhTr, Matrix.smul_apply, smul_eq_mul, star_mul', Complex.star_def, Complex.conj_ofReal,
    Complex.re_sum, Finset.mul_sum]
  refine Finset.sum_congr rfl fun i _ => Finset.sum_congr rfl fun j _ => ?_
  simp only [Complex.mul_re, Complex.mul_im, Complex.ofReal_re, Complex.ofReal_im]
  ring

/-- eigenvalues of a pseudo-Hamiltonian that did not move -/
theorem still_levels (hla : LapackOk c.la) {N B : ℕ} {X zx : Mat N B} {ek : Fin B → ℝ} {S : Mat N N} {t : ℝ}
    {o : GeoOut N B} (h : geodesicUs c.la X (makeDiag ek) zx 0 S t = .ok o) :
    (List.ofFn o.ek).Perm (List.ofFn ek) := by
  rw [geodesicUs, Res.bind_eq_ok] at h
  obtain ⟨⟨w, U⟩, h1, h2⟩ := h
  simp only at h2
  rw [Res.bind_eq_ok] at h2
  obtain ⟨x, -, h3⟩ := h2
  cases h3
  have e : advanceEta t (makeDiag ek) (0 : Mat B B) = makeDiag ek := by simp [advanceEta, addM]
  rw [e] at h1
  obtain ⟨hu, ha⟩ := hla.eigh (makeDiag_hermitian ek) h1
  exact rotate_perm ha hu

/-- what was handed to the host belongs to reordered levels -/
structure StillCalls (c : Cfg n b) (ek0 : Bands b) (s : SState η n b) : Prop where
  fn : ∀ f, HostCall.setFn f ∈ s.calls → ∃ ek mu, Reordered ek ek0 ∧ c.occ ek = .ok (mu, f)
  mu : ∀ m, HostCall.setMu m ∈ s.calls → ∃ ek f, Reordered ek ek0 ∧ c.occ ek = .ok (m, f)

/-- and the entropy too -/
structure Still (c : Cfg n b) (ek0 : Bands b) (s : SState η n b) : Prop extends StillCalls c ek0 s where
  entropy : ∃ ek mu f, Reordered ek ek0 ∧ c.occ ek = .ok (mu, f) ∧
    s.S = entropyTerm c.t c.T c.mo mu (List.ofFn fun k => (c.wk k, List.ofFn (ek k)))

theorem evaluate_entropy {X : Orbitals n b} {fn en : Bands b} {mu : ℝ} {s s' : SState η n b}
    (h : evaluate host c X fn en mu s = (.ok (), s')) :
    s'.S = entropyTerm c.t c.T c.mo mu (List.ofFn fun k => (c.wk k, List.ofFn (en k))) := by
  rw [evaluate, hostCall_bind] at h
  rcases h1 : host.setC X s.h with ⟨_ | u1, s1⟩
  · rw [h1] at h; cases h
  simp only [h1] at h
  rw [hostCall_bind] at h
  simp only at h
  rcases h2 : host.setFn fn s1 with ⟨_ | u2, s2⟩
  · rw [h2] at h; cases h
  simp only [h2] at h
  rw [hostCall_bind] at h
  simp only at h
  rcases h3 : host.compute s2 with ⟨_ | u3, s3⟩
  · rw [h3] at h; cases h
  simp only [h3] at h
  rw [hostCall_bind] at h
  simp only at h
  rcases h4 : host.setMu mu s3 with ⟨_ | u4, s4⟩
  · rw [h4] at h; cases h
  simp only [h4] at h
  rw [hostCall_bind] at h
  simp only at h
  rcases h5 : host.energy s4 with ⟨_ | e, s5⟩
  · rw [h5] at h; cases h
  simp only [h5] at h
  cases h
  rfl

theorem StillCalls.evaluate {X : Orbitals n b} {f ek : Bands b} {mu : ℝ} {s : SState η n b}
    (h : StillCalls c ek0 s) (hr : Reordered ek ek0) (ho : c.occ ek = .ok (mu, f)) :
    Keeps (Still c ek0) (StillCalls c ek0) (fun _ _ => True) (evaluate host c X f ek mu s) := by
  have key : ∀ (s' : SState η n b) (cs : List (HostCall n b)), s'.calls = s.calls ++ cs →
      (∀ x ∈ cs, x ∈ evaluation (X, f, mu)) → StillCalls c ek0 s' := by
    intro s' cs e hcs
    refine ⟨fun g hg => ?_, fun m hm => ?_⟩
    · rw [e] at hg
      rcases List.mem_append.1 hg with hg | hg
      · exact h.fn g hg
      · have := hcs _ hg
        simp only [evaluation, List.mem_cons, reduceCtorEq, HostCall.setFn.injEq, List.not_mem_nil, or_false,
          false_or] at this
        subst this
        exact ⟨ek, mu, hr, ho⟩
    · rw [e] at hm
      rcases List.mem_append.1 hm with hm | hm
      · exact h.mu m hm
      · have := hcs _ hm
        simp only [evaluation, List.mem_cons, reduceCtorEq, HostCall.setMu.injEq, List.not_mem_nil, or_false,
          false_or] at this
        subst this
        exact ⟨ek, f, hr, ho⟩
  rcases evaluate_calls host c X f ek mu s with ⟨s', cs, e1, e2, e3⟩ | ⟨s', e1, e2⟩
  · rw [e1]
    exact ⟨key s' cs e2 fun x hx => e3.subset hx, by rintro ⟨⟩, by simp⟩
  · have hs := key s' _ e2 fun x hx => hx
    have hS := evaluate_entropy e1
    rw [e1]
    exact ⟨hs, fun _ => ⟨hs, ek, mu, f, hr, ho, hS⟩, fun _ _ => trivial⟩

theorem keeps_still {β : Type} {P : β → SState η n b → Prop} {s : SState η n b} (h : Still c ek0 s) (r : Res β)
    (hP : ∀ x, r = .ok x → P x s) : Keeps (Still c ek0) (StillCalls c ek0) P (r, s) :=
  ⟨h.toStillCalls, fun _ => h, hP⟩

/-- a point whose pseudo-Hamiltonian is diagonal with the levels of the start -/
def StillPt (ek0 : Bands b) (pt : Point n b) : Prop := (∀ k, pt.eta k = makeDiag (pt.ek k)) ∧ Reordered pt.ek ek0

theorem still_rule (hla : LapackOk c.la) (hk : c.kappa = 0) :
    RunRule (solverOps host c) (fun s => s.calls = [] ∧ host.ek (host.compute s.h).2 = ek0) (Still c ek0)
      (StillCalls c ek0) (fun pt _ => StillPt ek0 pt) (fun pt _ => Reordered pt.ek ek0)
      (fun pt dir _ => StillPt ek0 pt ∧ ∀ k, dir.zeta k = 0) where
  weaken := fun s h => h.toStillCalls
  construct := fun s h => ⟨⟨by intro f hf; simp [solverOps, h.1] at hf, by intro f hf; simp [solverOps, h.1] at hf⟩,
    fun _ => h, fun _ _ => trivial⟩
  setup := by
    intro s h1
    show Keeps _ _ _ (solverSetup host c s)
    rw [solverSetup, hostCall_bind, h1.1]
    have hend : ∀ (h : η) (F S : ℝ), StillCalls c ek0 { h := h, F := F, S := S, calls := [HostCall.compute (n := n) (b := b)] } := by
      intro h F S; exact ⟨by intro f hf; simp at hf, by intro f hf; simp at hf⟩
    have h2 := h1.2
    rcases hc : host.compute s.h with ⟨_ | u, s1⟩
    · exact ⟨hend _ _ _, fun _ => trivial, by simp⟩
    rw [hc] at h2
    simp only at h2
    simp only [List.nil_append]
    rw [SM.get_bind, SM.lift_bind]
    simp only [h2]
    rcases hocc : c.occ ek0 with ⟨mu, f⟩ | e | _ | _
    · simp only
      rw [SM.get_bind, SM.bind_apply]
      have ha := (hend s1 s.F s.S).evaluate (host := host) (X := host.C s1) (Reordered.refl ek0) hocc
      generalize evaluate host c (host.C s1) f ek0 mu _ = q at ha ⊢
      rcases q with ⟨_ | e | _ | _, s2⟩
      · simp only
        rw [SM.get_bind, SM.pure_apply]
        refine ⟨ha.any, fun _ => trivial, fun r hr => ?_⟩
        cases hr
        exact ⟨ha.soft trivial, fun k => rfl, Reordered.refl _⟩
      all_goals exact ⟨ha.any, fun _ => trivial, by simp⟩
    all_goals exact ⟨hend _ _ _, fun _ => trivial, by simp⟩
  restarted := by
    intro pt s h hJ
    refine keeps_still h _ fun q hq => ?_
    cases hq
    refine ⟨hJ, hJ, fun k => ?_⟩
    show deltaEta c.kappa _ _ _ = 0
    rw [hk, deltaEta_zero]
  conjugated := by
    intro fr pt dir s pt0 sl0 h hJ hD
    refine keeps_still h _ fun q hq => ?_
    cases hq
    refine ⟨hJ, fun _ => ⟨hJ, fun k => ?_⟩⟩
    show addM (rotateeta (dir.zeta k) (pt.ul k)) (deltaEta c.kappa _ _ _) 1 _ = 0
    rw [hk, deltaEta_zero, hD.2 k]
    simp [addM, rotateeta, innerM, transformM]
  geo := by
    intro pt dir sl t s hI hD
    show Keeps _ _ _ (solverGeo host c pt dir t s)
    rw [solverGeo, SM.lift_bind]
    rcases hg : forAllK (fun k =>
      geodesicUs c.la (pt.X k) (pt.eta k) (dir.zx k) (dir.zeta k) (c.S k) t) with g | e | _ | _
    · have hr : Reordered (fun k => (g k).ek) ek0 := by
        have : Reordered (fun k => (g k).ek) pt.ek := fun k => by
          have hgk := forAllK_ok hg k
          rw [hD.2 k, hD.1.1 k] at hgk
          exact still_levels hla hgk
        exact this.trans hD.1.2
      simp only
      rw [SM.lift_bind]
      rcases hocc : c.occ (fun k => (g k).ek) with ⟨mu, f⟩ | e | _ | _
      · simp only
        rw [SM.bind_apply]
        have ha := hI.toStillCalls.evaluate (host := host) (X := fun k => (g k).X) hr hocc
        generalize evaluate host c (fun k => (g k).X) f (fun k => (g k).ek) mu s = q at ha ⊢
        rcases q with ⟨_ | e | _ | _, s2⟩
        · exact keeps_still (ha.soft trivial) _ fun x hx => by cases hx; exact hr
        all_goals exact Post.fail ha rfl
      all_goals exact keeps_still hI _ (by simp)
    all_goals exact keeps_still hI _ (by simp)
  refresh := by
    intro r s h hG
    refine keeps_still h _ fun q hq => ?_
    cases hq
    exact ⟨fun k => rfl, hG⟩
  gather := fun pt s h hJ => keeps_still h _ fun _ _ => hJ
  print := by
    intro pt s hI hJ
    show Keeps _ _ _ (hostCall .print host.print s)
    rw [hostCall]
    have : ∀ h : η, Still c ek0 { s with h := h, calls := s.calls ++ [HostCall.print] } := by
      intro h
      refine ⟨⟨fun f hf => ?_, fun f hf => ?_⟩, hI.entropy⟩
      · simp only [List.mem_append, List.mem_singleton, reduceCtorEq, or_false] at hf
        exact hI.fn f hf
      · simp only [List.mem_append, List.mem_singleton, reduceCtorEq, or_false] at hf
        exact hI.mu f hf
    rcases hc : host.print s.h with ⟨_ | u, s1⟩ <;> exact keeps_still (this _) _ fun _ _ => hJ

theorem reordered_entropy {ek : Bands b} (h : Reordered ek ek0) (t : SmearType) (T mo mu : ℝ) (wk : Fin K → ℝ) :
    entropyTerm t T mo mu (List.ofFn fun k => (wk k, List.ofFn (ek k)))
      = entropyTerm t T mo mu (List.ofFn fun k => (wk k, List.ofFn (ek0 k))) := by
  rw [entropyTerm_ofFn, entropyTerm_ofFn]
  refine congrArg _ (Finset.sum_congr rfl fun k _ => congrArg _ ?_)
  have := ((h k).map fun x => (smearFns t).entropy ((mu - x) / (kB * T)) mo).sum_eq
  simpa [List.map_ofFn, List.sum_ofFn, Function.comp_def] using this

theorem reordered_occs {ek : Bands b} (h : Reordered ek ek0) (t : SmearType) (T mo mu : ℝ) :
    Reordered (occs t T mo ek mu) (occs t T mo ek0 mu) := by
  intro k
  have := (h k).map fun x => (smearFns t).fn ((mu - x) / (kB * T)) mo
  rw [List.map_ofFn, List.map_ofFn] at this
  exact this

end Nlcg
