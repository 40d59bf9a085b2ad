import Verif.Spec.WellPosed
import Verif.Proofs.OpSim
import Verif.Proofs.RunCongr
import Verif.Proofs.Solver

/-! All questions to LAPACK in a run are well-posed. -/

namespace Nlcg
open Matrix Spec ComplexOrder

section
variable {la la' : Lapack} (hl : SameAnswers la la') {N B : ℕ}
include hl

theorem solve_same {m l : ℕ} {A : Mat m m} (hA : A.PosDef) (C : Mat m l) : la'.solve A C = la.solve A C := by
  rw [Lapack.solve, Lapack.solve]
  rw [hl.potrf A hA, hl.potrs A C hA]

theorem eigh_same {m : ℕ} {A : Mat m m} (hA : A.IsHermitian) : la'.eigh A = la.eigh A := by
  rw [Lapack.eigh, Lapack.eigh, hl.heevd A hA]

theorem lmult_same {sx hx : Mat N B} {P : Mat N N} (hP : P.PosDef) (hs : Function.Injective sx.mulVec) :
    lmult la' sx hx P = lmult la sx hx P := by
  have hpd : (innerM sx (P * sx)).PosDef := by
    rw [innerM_one, ← Matrix.mul_assoc]; exact hP.conjTranspose_mul_mul_same hs
  rw [lmult, lmult]
  rw [solve_same hl hpd]

theorem execSpc_same (p : DirParams) (dF sumfn : ℝ) (k : KIn N B) (hP : k.P.PosDef)
    (hs : Function.Injective (k.S * k.X).mulVec) : execSpc la' p dF sumfn k = execSpc la p dF sumfn k := by
  rw [execSpc, execSpc]
  simp only [lmult_same hl hP hs]

theorem execConjugate_same {sx zxp : Mat N B} (zetap ul : Mat B B) (gx : Mat N B) (geta : Mat B B)
    (hs : Function.Injective sx.mulVec) :
    execConjugate la' sx zxp zetap ul gx geta = execConjugate la sx zxp zetap ul gx geta := by
  have hpd : (innerM sx sx).PosDef := by
    rw [innerM_one]; exact PosDef.conjTranspose_mul_self sx hs
  rw [execConjugate, execConjugate]
  simp only [conjugatex]
  rw [solve_same hl hpd]

theorem loewdin_same {X SX : Mat N B} (hA : (Xᴴ * SX).IsHermitian) : loewdin la' X SX = loewdin la X SX := by
  rw [loewdin, loewdin]
  simp only [innerM_one]
  rw [eigh_same hl hA]

theorem geodesicUs_same {S : Mat N N} (hS : S.PosSemidef) {X zx : Mat N B} {eta zeta : Mat B B} (ho : SOrtho S X)
    (hz : Tangent S X zx) (he : eta.IsHermitian) (hze : zeta.IsHermitian) (t : ℝ) :
    geodesicUs la' X eta zx zeta S t = geodesicUs la X eta zx zeta S t := by
  have h2 := (moved_posDef hS ho hz t).isHermitian
  rw [← addM_one] at h2
  rw [geodesicUs, geodesicUs]
  simp only [advanceX]
  rw [eigh_same hl (A := advanceEta t eta zeta) (addM_hermitian he hze t 1), loewdin_same hl h2]

end

variable {K : ℕ} {n b : Fin K → ℕ} {η : Type} {host : Host η n b} {c : Cfg n b}

/-- another LAPACK -/
def Cfg.withLapack (c : Cfg n b) (la : Lapack) : Cfg n b := { c with la := la }

theorem SAt.injective {pt : Point n b} {s : SState η n b} (h : SAt host c pt s) (k : Fin K) :
    Function.Injective ((kIn host c pt s.h k).S * (kIn host c pt s.h k).X).mulVec :=
  sx_injective (h.at_.2.1 k)

theorem lapack_run (hs : Setting host c) {la' : Lapack} (hl : SameAnswers c.la la') (prm : NlcgParams ℝ) (fuel rank : ℕ)
    (w : NState ℝ (SState η n b)) (h0 : SStart host c w.s) :
    solve host c prm fuel rank w = solve host (c.withLapack la') prm fuel rank w := by
  have key : ∀ {pt : Point n b} {s : SState η n b}, SAt host c pt s →
      execAll la' (dirParams c pt) (kIn host c pt s.h) = execAll c.la (dirParams c pt) (kIn host c pt s.h) := by
    intro pt s hJ
    funext k
    exact execSpc_same hl _ _ _ _ (hs.prec k) (hJ.injective k)
  refine (solver_rule hs).congr_ops (geo' := solverGeo host (c.withLapack la'))
    (setup' := solverSetup host (c.withLapack la')) (restarted' := solverRestarted host (c.withLapack la'))
    (conjugated' := solverConjugated host (c.withLapack la')) (refresh' := solverRefresh host)
    ?_ ?_ ?_ (fun _ _ _ _ => rfl) (fun _ _ => rfl) prm fuel rank w h0
  · intro pt dir sl t s _ hD
    show solverGeo host c pt dir t s = _
    rw [solverGeo, solverGeo]
    have : (fun k => geodesicUs la' (pt.X k) (pt.eta k) (dir.zx k) (dir.zeta k) (c.S k) t)
        = fun k => geodesicUs c.la (pt.X k) (pt.eta k) (dir.zx k) (dir.zeta k) (c.S k) t := by
      funext k
      exact geodesicUs_same hl (hs.overlap k) (hD.ortho k) (hD.tangent k) (by rw [hD.eta]; exact makeDiag_hermitian _)
        (hD.herm k) t
    simp only [Cfg.withLapack]
    rw [this]
    rfl
  · intro pt s _ hJ
    show solverRestarted host c pt s = solverRestarted host (c.withLapack la') pt s
    show (Res.ok (restarted c.la (dirParams c pt) (kIn host c pt s.h)), s)
      = (Res.ok (restarted la' (dirParams c pt) (kIn host c pt s.h)), s)
    rw [restarted, restarted, key hJ]
  · intro fr pt dir s _ hJ
    show (Res.ok (conjugated c.la (dirParams c pt) fr (kIn host c pt s.h) dir pt.ul), s)
      = (Res.ok (conjugated la' (dirParams c pt) fr (kIn host c pt s.h) dir pt.ul), s)
    have hc : conjAll la' (dirParams c pt) (kIn host c pt s.h) dir pt.ul
        = conjAll c.la (dirParams c pt) (kIn host c pt s.h) dir pt.ul := by
      funext k
      rw [conjAll, conjAll, key hJ]
      exact execConjugate_same hl _ _ _ _ (hJ.injective k)
    rw [conjugated, conjugated, key hJ, hc]

/-! ## Overlaps -/

variable {S : (k : Fin K) → Mat (n k) (n k)} {A : Operators η n b} {β : Type}

theorem SafeOverlaps.nil : SafeOverlaps (b := b) S [] := by
  intro k A a h
  cases h

theorem SafeOverlaps.append {l l' : List (Entry n b)} (h : SafeOverlaps S l) (h' : SafeOverlaps S l') :
    SafeOverlaps S (l ++ l') := by
  intro k A a hm
  rcases List.mem_append.1 hm with hm | hm
  · exact h k A a hm
  · exact h' k A a hm

theorem SafeOverlaps.cut {l l' : List (Entry n b)} (h : SafeOverlaps S l') (hc : CutOf l l') : SafeOverlaps S l := by
  rcases hc with hc | ⟨p, e, hc, rfl⟩
  · exact fun k A a hm => h k A a (hc.mem hm)
  · intro k A a hm
    rcases List.mem_append.1 hm with hm | hm
    · exact h k A a (hc.mem (List.mem_append.2 (.inl hm)))
    · rw [List.mem_singleton] at hm
      rcases e with c | ⟨k', A', a'⟩ | ⟨k', A', a'⟩
      · cases hm
      · cases hm
        exact h _ _ a' (hc.mem (List.mem_append.2 (.inr (List.mem_singleton.2 rfl))))
      · cases hm

theorem told_safe (p : Evaluated n b) : SafeOverlaps S (told p) := by
  intro k A a hm
  rw [told, List.mem_map] at hm
  obtain ⟨x, -, hx⟩ := hm
  cases hx

theorem each_safe {B : Fin K → List (Entry n b) → Prop} {l : List (Entry n b)} (h : Each B l)
    (hB : ∀ k l, B k l → SafeOverlaps S l) : SafeOverlaps S l := by
  obtain ⟨f, h1, rfl⟩ := h
  intro k A a hm
  rw [List.mem_flatten] at hm
  obtain ⟨l, hl, hm⟩ := hm
  obtain ⟨j, rfl⟩ := List.mem_ofFn.1 hl
  exact hB j _ (h1 j) k A a hm

/-- a part of the program that makes no unsafe application -/
theorem Emits.safe {m : SM (OState η n b) β} {B : β → List (Entry n b) → Prop} (hm : Emits m B)
    (hB : ∀ r l, B r l → SafeOverlaps S l) {o : OState η n b} (h : SafeOverlaps S o.log) : SafeOverlaps S (m o).2.log := by
  rcases hq : m o with ⟨q, o'⟩
  by_cases hok : q.isOk = true
  · rcases q with r | e | _ | _ <;> try cases hok
    obtain ⟨l, h1, h2⟩ := hm.ok o r o' hq
    simp only
    rw [h2]
    exact SafeOverlaps.append h (hB r l h1)
  · obtain ⟨h0, r, l, l', h1, h2, h3⟩ := hm.fail o q o' hq (by simpa using hok)
    simp only
    rw [h3]
    exact SafeOverlaps.append h (SafeOverlaps.cut (hB r l' h1) h2)

theorem keeps_safe {I E : SState η n b → Prop} {P : β → SState η n b → Prop} {x : Res β × OState η n b}
    {y : Res β × SState η n b} (ho : OpOut x y) (h : Keeps I E P y) (hx : SafeOverlaps S x.2.log) :
    Keeps (fun o => I o.s ∧ SafeOverlaps S o.log) (fun o => SafeOverlaps S o.log) (fun r o => P r o.s) x := by
  rw [OpOut] at ho
  subst ho
  exact ⟨hx, fun hs => ⟨h.soft hs, hx⟩, fun r hr => h.ok r hr⟩

theorem sortho_safe {N B : ℕ} {S : Mat N N} {X : Mat N B} (h : SOrtho S X) : (Xᴴ * (S * X) - 1).PosSemidef := by
  rw [h, sub_self]; exact PosSemidef.zero

theorem moved_safe {N B : ℕ} {S : Mat N N} (hS : S.PosSemidef) {X zx : Mat N B} (ho : SOrtho S X) (hz : Tangent S X zx)
    (t : ℝ) : ((addM X zx (t : ℂ))ᴴ * (S * addM X zx (t : ℂ)) - 1).PosSemidef := by
  rw [addM_one, moved_overlap hS.isHermitian ho hz, add_sub_cancel_left, ← Matrix.mul_assoc]
  exact (hS.conjTranspose_mul_mul_same zx).smul (Complex.zero_le_real.2 (sq_nonneg t))

theorem safe_rule (hs : Setting host c) (hA : Multiply A c) (hc : OccHard c) :
    RunRule (opOps host A c) (fun o => SStart host c o.s ∧ SafeOverlaps c.S o.log)
      (fun o => SInv host c o.s ∧ SafeOverlaps c.S o.log) (fun o => SafeOverlaps c.S o.log)
      (fun pt o => SAt host c pt o.s) (fun r o => Occ host c r.X r.ek r.mu o.s) (SDir c) := by
  have hr := solver_rule hs
  have ev := fun X f e mu => emits_evaluateO (η := η) host c X f e mu
  refine ⟨fun o h => h.2, fun o h => ?_, fun o h => ?_, fun pt o hI hJ => ?_, fun fr pt dir o pt0 sl0 hI hJ hD => ?_,
    fun pt dir sl t o hI hD => ?_, fun r o hI hG => ?_, fun pt o hI hJ => ?_, fun pt o hI hJ => ?_⟩
  · exact ⟨h.2, fun _ => h, fun _ _ => trivial⟩
  · have hx : SafeOverlaps c.S (setupO host c o).2.log := by
      rw [setupO, SM.bind_apply]
      have e1 := (emits_hostDo (η := η) (.compute : HostCall n b) host.compute).safe (S := c.S) (o := o) (by
        rintro r l rfl k A a hm
        simp at hm) h.2
      rcases hq : hostDo (.compute : HostCall n b) host.compute o with ⟨q, o1⟩
      rw [hq] at e1
      rcases q with u | e | _ | _
      · simp only
        rw [SM.get_bind, SM.lift_bind]
        rcases c.occ (host.ek o1.s.h) with ⟨mu, f⟩ | e | _ | _
        · simp only
          rw [SM.get_bind, SM.bind_apply]
          have e2 := (ev (host.C o1.s.h) f (host.ek o1.s.h) mu).safe (S := c.S) (o := o1)
            (by rintro r l rfl; exact told_safe _) e1
          rcases hv : evaluateO host c (host.C o1.s.h) f (host.ek o1.s.h) mu o1 with ⟨q2, o2⟩
          rw [hv] at e2
          rcases q2 with u | e | _ | _ <;> exact e2
        all_goals exact e1
      all_goals exact e1
    have := keeps_safe (opSetup host c o) (hr.setup o.s h.1) hx
    exact ⟨this.any, fun _ => trivial, fun pt hp => ⟨⟨(this.ok pt hp).1, hx⟩, (this.ok pt hp).2⟩⟩
  · refine keeps_safe (opRestarted host hA pt o) (hr.restarted pt o.s hI.1 hJ) ?_
    refine (emits_restartedO host A c pt).safe (fun r l hl => each_safe hl ?_) hI.2
    rintro k l ⟨sx, hx, p, q, r, ll, rfl⟩ k' A' a hm
    simp at hm
    obtain ⟨rfl, h1, -⟩ := hm
    cases h1
    exact sortho_safe (hJ.at_.2.1 k')
  · refine keeps_safe (opConjugated host hA fr pt dir o) (hr.conjugated fr pt dir o.s pt0 sl0 hI.1 hJ hD) ?_
    refine (emits_conjugatedO host A c fr pt dir).safe (fun r l hl => each_safe hl ?_) hI.2
    rintro k l ⟨sx, hx, p, q, r, ll, rfl⟩ k' A' a hm
    simp at hm
    obtain ⟨rfl, h1, -⟩ := hm
    cases h1
    exact sortho_safe (hJ.at_.2.1 k')
  · refine keeps_safe (opGeo host hA pt dir t o) (hr.geo pt dir sl t o.s hI.1 hD) ?_
    refine (emits_geoO host A hc pt dir t).safe ?_ hI.2
    rintro r l ⟨R, f, mu, l1, h1, h2, rfl⟩
    refine SafeOverlaps.append (each_safe h1 ?_) (told_safe _)
    rintro k l ⟨sy, rfl⟩ k' A' a hm
    simp at hm
    obtain ⟨rfl, h1, -⟩ := hm
    cases h1
    exact moved_safe (hs.overlap k') (hD.ortho k') (hD.tangent k') t
  · exact keeps_safe (I := SInv host c) (E := SEnd c) (x := refreshO host r o) rfl (hr.refresh r o.s hI.1 hG) hI.2
  · exact ⟨hI.2, fun _ => hI, fun _ _ => hJ⟩
  · refine keeps_safe (I := SInv host c) (E := SEnd c) (x := hostDo .print host.print o) rfl (hr.print pt o.s hI.1 hJ) ?_
    refine (emits_hostDo (η := η) (.print : HostCall n b) host.print).safe (S := c.S) ?_ hI.2
    rintro r l rfl k A a hm
    simp at hm

end Nlcg
