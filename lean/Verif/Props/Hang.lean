import Verif.Proofs.Hang
import Verif.Props.Schedule
import Verif.Props.Residual

/-!
# C68 for whole runs: what happens if the eigensolver fails on some rank

`c.steady` has an eigensolver that never reports a failure. The run with it says how far the ranks get together.
-/

namespace Nlcg
open Matrix Spec
open scoped ComplexOrder

variable {K R : ℕ} {own : Fin K → Fin R} {n b : Fin K → ℕ} {η : Type}

/-- a rank that calls what another rank would call as a gather calls a gather -/
theorem gather_together {host : Host η n b} {h h' : η} {q : (r : Fin R) → Req own n b r}
    {a : (r : Fin R) → Reply own n b r} (ans : Answer host h q a h') {r s : Fin R} {e : LBands own b r}
    (hq : q r = .gather e) : ∃ e', q s = .gather e' := by
  cases ans
  case gather => exact ⟨_, rfl⟩
  all_goals cases hq

/-- **C68.** Whatever the eigensolver does: every schedule of the ranks can be continued until it has made
`N (R + 1) + m` steps, and no further. Then either all ranks have ended with the same result, or at least one rank has
ended with an exception, and every other rank has done so too, or waits for ever in a gather, with the same number of
answered calls. With a working eigensolver all ranks would call a gather at this point. -/
theorem C68_whole_run (hR : 0 < R) (host : Host η n b) (c : Cfg n b)
    (occ : (Fin K → ℝ) → Bands b → Res (ℝ × Bands b)) (hocc : ∀ e, c.occ e = occ c.wk e) (prm : NlcgParams ℝ)
    (fuel : ℕ) (w w' : NState ℝ (SState η n b)) (o : Res (Info ℝ))
    (h : solve host c.steady prm fuel 0 w = some (o, w')) :
    ∃ (N m : ℕ) (L : (r : Fin R) → Transcript own n b r), (∀ r, (L r).length = N) ∧
      ∀ k S, Reaches host (rankProcess own host c occ prm fuel w) (System.fresh w.s.h) k S →
        (k < N * (R + 1) + m ∧ ∃ S', Step host (rankProcess own host c occ prm fuel w) S S') ∨
        (k = N * (R + 1) + m ∧ (¬ ∃ S', Step host (rankProcess own host c occ prm fuel w) S S') ∧ S.got = L ∧
          ((∀ r, S.posted r = none ∧ ∃ v, Ends (rankProcess own host c occ prm fuel w r) (S.replies r) o v ∧
              v.info = w'.info ∧ v.trace = w'.trace) ∨
           ((∃ r v, S.posted r = none ∧
              Ends (rankProcess own host c occ prm fuel w r) (S.replies r) (.throw .runtimeError) v) ∧
            ∀ r, (∃ e, Asks (rankProcess own host c.steady occ prm fuel w r) (S.replies r) (.gather e)) ∧
              ((S.posted r = none ∧
                ∃ v, Ends (rankProcess own host c occ prm fuel w r) (S.replies r) (.throw .runtimeError) v) ∨
               ∃ e, S.posted r = some (.gather e))))) := by
  obtain ⟨L, hl, hr⟩ := C41_lockstep (own := own) host c.steady occ hocc (fun _ => rfl) prm fuel w w' o h
  obtain ⟨N, H, hN, H0, HN, hans⟩ := hl.numbered
  -- how each rank ends, if it gets the answers of the other run
  have fate : ∀ r, ∃ u v, rankProcess own host c occ prm fuel w r (streamOf (L r)) = some (u, v) ∧ v.s.log <+: L r ∧
      ((u = o ∧ v.s.log = L r ∧ v.info = w'.info ∧ v.trace = w'.trace) ∨ (u = .throw .runtimeError ∧ ∃ e a, v.s.log ++ [(.gather e, a)] <+: L r)) := by
    intro r
    obtain ⟨v, e, hv, -, -, -, hv1, hv2, -⟩ := hr r _ (streamOf_provides (L r))
    rcases rank_hang (streamOf (L r)) (localCfg own c occ r) prm fuel _ v o e with h1 | ⟨v', g, a, h1, h2⟩
    · exact ⟨o, v, h1, by rw [hv], .inl ⟨rfl, hv, hv1, hv2⟩⟩
    · rw [hv] at h2
      exact ⟨_, v', h1, (List.prefix_append _ _).trans h2, .inr ⟨rfl, g, a, h2⟩⟩
  choose u v hrun hpre hfate using fate
  obtain ⟨r0, -, hmin⟩ := Finset.exists_min_image Finset.univ (fun r => (v r).s.log.length) ⟨⟨0, hR⟩, Finset.mem_univ _⟩
  set D := (v r0).s.log.length with hD
  have hmin' : ∀ r, D ≤ (v r).s.log.length := fun r => hmin r (Finset.mem_univ r)
  have hDN : D ≤ N := by rw [← hN r0]; exact (hpre r0).length_le
  have hlog : ∀ r d, d < (v r).s.log.length → (v r).s.log[d]? = (L r)[d]? := fun r d hd => by
    obtain ⟨t, ht⟩ := hpre r
    rw [← ht, List.getElem?_append_left hd]
  have asks : ∀ r d, d < (v r).s.log.length → ∀ q a, (L r)[d]? = some (q, a) →
      Asks (rankProcess own host c occ prm fuel w r) (((L r).take d).map Prod.snd) q := by
    intro r d hd q a hq
    refine ⟨_, streamOf_extends (L r) d, u r, v r, hrun r, ?_⟩
    have hlen : (((L r).take d).map Prod.snd).length = d := by
      have := (hpre r).length_le
      simp; omega
    rw [hlen, hlog r d hd, hq]
    rfl
  have ends : ∀ r, (v r).s.log.length = D →
      Ends (rankProcess own host c occ prm fuel w r) (((L r).take D).map Prod.snd) (u r) (v r) := by
    intro r hd
    refine ⟨_, streamOf_extends (L r) D, hrun r, ?_⟩
    have := (hpre r).length_le
    simp; omega
  -- a rank that goes on
  have go : ∀ r, D < (v r).s.log.length → ∃ q, (∃ e, q = .gather e) ∧
      Asks (rankProcess own host c occ prm fuel w r) (((L r).take D).map Prod.snd) q := by
    intro r hd
    have hlt : D < N := by have := (hpre r).length_le; rw [hN r] at this; omega
    obtain ⟨q, a, ans, hq⟩ := hans D hlt
    refine ⟨q r, ?_, asks r D hd _ _ (hq r)⟩
    rcases hfate r0 with ⟨-, h1, -⟩ | ⟨-, e, a', t, ht⟩
    · rw [hD, h1, hN r0] at hlt
      omega
    · have h2 : (L r0)[D]? = some (.gather e, a') := by
        rw [← ht, List.append_assoc, List.getElem?_append_right (by omega)]
        simp [hD]
      rw [hq r0] at h2
      simp only [Option.some.injEq, Prod.mk.injEq] at h2
      exact gather_together ans h2.1
  refine ⟨D, (stuckRanks (rankProcess own host c occ prm fuel w) fun r => (L r).take D).card, fun r => (L r).take D,
    fun r => by simp [hN r, hDN], fun k S hS => ?_⟩
  rw [← H0] at hS
  have key := schedule_core (fun r got => (C131_determined host c occ prm fuel w r got).1)
    (fun r got => (C131_determined host c occ prm fuel w r got).2.1) (N := D) (L := fun r => (L r).take D) (H := H)
    (fun r => by simp [hN r, hDN])
    (fun d hd => by
      obtain ⟨q, a, h1, h2⟩ := hans d (hd.trans_le hDN)
      exact ⟨q, a, h1, fun r => by rw [List.getElem?_take_of_lt hd]; exact h2 r⟩)
    (fun r d hd q a hq => by
      rw [List.getElem?_take_of_lt hd] at hq
      rw [List.take_take, min_eq_left hd.le]
      exact asks r d (hd.trans_le (hmin' r)) q a hq)
    (fun r => by
      rcases (hmin' r).lt_or_eq with h1 | h1
      · obtain ⟨q, -, hq⟩ := go r h1
        exact .inr ⟨q, hq⟩
      · exact .inl ⟨_, _, ends r h1.symm⟩)
    r0 ⟨_, _, ends r0 rfl⟩ k S hS
  rcases key with h1 | ⟨h1, h2, -, h4, h5⟩
  · exact .inl h1
  · refine .inr ⟨h1, h2, h4, ?_⟩
    have hrep : ∀ r, S.replies r = ((L r).take D).map Prod.snd := fun r => by rw [System.replies, h4]
    have done : ∀ r, (v r).s.log.length = D → S.posted r = none := fun r hd => by
      rcases h5 r with ⟨h6, -⟩ | ⟨q, -, h6⟩
      · exact h6
      · rw [hrep] at h6
        exact absurd h6 ((C131_determined host c occ prm fuel w r _).2.1 _ _ q (ends r hd))
    rcases hfate r0 with ⟨hu, h6, -⟩ | ⟨hu, e, a, h6⟩
    · left
      have hDN' : D = N := by rw [hD, h6, hN r0]
      have all : ∀ r, (v r).s.log.length = D := fun r => by
        have h7 := (hpre r).length_le
        rw [hN r] at h7
        have h8 := hmin' r
        omega
      intro r
      refine ⟨done r (all r), v r, ?_⟩
      rw [hrep]
      have h7 := ends r (all r)
      rcases hfate r with ⟨hu', -, h8⟩ | ⟨-, e, a, h8⟩
      · rw [hu'] at h7
        exact ⟨h7, h8⟩
      · have h9 := h8.length_le
        rw [hN r] at h9
        simp [all r] at h9
        omega
    · right
      refine ⟨⟨r0, v r0, done r0 rfl, ?_⟩, fun r => ?_⟩
      · rw [hrep, ← hu]
        exact ends r0 rfl
      · have hlt : D < N := by
          have := h6.length_le
          rw [hN r0] at this
          simp at this
          omega
        have steadyAsks : ∃ e, Asks (rankProcess own host c.steady occ prm fuel w r) (S.replies r) (.gather e) := by
          obtain ⟨q, a', ans, hq⟩ := hans D hlt
          obtain ⟨e', he'⟩ : ∃ e', q r = .gather e' := by
            obtain ⟨t, ht⟩ := h6
            have h2 : (L r0)[D]? = some (.gather e, a) := by
              rw [← ht, List.append_assoc, List.getElem?_append_right (by omega)]
              simp [hD]
            rw [hq r0] at h2
            simp only [Option.some.injEq, Prod.mk.injEq] at h2
            exact gather_together ans h2.1
          obtain ⟨v1, e1, hv1, -⟩ := hr r _ (streamOf_provides (L r))
          refine ⟨e', _, by rw [hrep]; exact streamOf_extends (L r) D, o, v1, e1, ?_⟩
          have hlen : (S.replies r).length = D := by
            rw [hrep]
            simp [hN r, hDN]
          rw [hlen, hv1, hq r, he']
          rfl
        refine ⟨steadyAsks, ?_⟩
        rcases (hmin' r).lt_or_eq with h7 | h7
        · right
          obtain ⟨q, ⟨e', rfl⟩, hq⟩ := go r h7
          rcases h5 r with ⟨-, o', v', h8⟩ | ⟨q', h8, h9⟩
          · rw [hrep] at h8
            exact absurd hq ((C131_determined host c occ prm fuel w r _).2.1 _ _ _ h8)
          · rw [hrep] at h9
            refine ⟨e', ?_⟩
            rw [h8, (C131_determined host c occ prm fuel w r _).1 _ _ h9 hq]
        · left
          refine ⟨done r h7.symm, v r, ?_⟩
          rw [hrep]
          have h8 := ends r h7.symm
          rcases hfate r with ⟨-, h9, -⟩ | ⟨hu', -⟩
          · rw [h9, hN r] at h7
            omega
          · rwa [hu'] at h8

/-- **C68 (refuted for whole runs).** A rank whose eigensolver works does not end if another rank has failed: it waits
for ever. -/
theorem C68_not_ended (hR : 0 < R) (host : Host η n b) (c : Cfg n b)
    (occ : (Fin K → ℝ) → Bands b → Res (ℝ × Bands b)) (hocc : ∀ e, c.occ e = occ c.wk e) (prm : NlcgParams ℝ)
    (fuel : ℕ) (w w' : NState ℝ (SState η n b)) (o : Res (Info ℝ))
    (h : solve host c.steady prm fuel 0 w = some (o, w')) (good bad : Fin R)
    (hgood : ∀ k, own k = good → ∀ A : Mat (b k) (b k), (c.la.heevd A).2 = 0)
    (hbad : ∀ got v, v.trace = w'.trace → ¬ Ends (rankProcess own host c occ prm fuel w bad) got o v) :
    ∃ N, ∀ k S, Reaches host (rankProcess own host c occ prm fuel w) (System.fresh w.s.h) k S →
      (k < N ∧ ∃ S', Step host (rankProcess own host c occ prm fuel w) S S') ∨
      (k = N ∧ (¬ ∃ S', Step host (rankProcess own host c occ prm fuel w) S S') ∧
        (∃ r v, S.posted r = none ∧
          Ends (rankProcess own host c occ prm fuel w r) (S.replies r) (.throw .runtimeError) v) ∧
        ∃ e, S.posted good = some (.gather e)) := by
  have same : rankProcess own host c occ prm fuel w good = rankProcess own host c.steady occ prm fuel w good := by
    funext ω
    have hg : geoR ω (localCfg own c occ good) = geoR ω (localCfg own c occ good).steady := by
      funext pt dir t
      have : (forMine fun k : Mine own good => geodesicUs (localCfg own c occ good).la (pt.X k) (pt.eta k) (dir.zx k)
          (dir.zeta k) ((localCfg own c occ good).S k) t) = forMine fun k : Mine own good =>
          geodesicUs (localCfg own c occ good).steady.la (pt.X k) (pt.eta k) (dir.zx k) (dir.zeta k)
            ((localCfg own c occ good).steady.S k) t := by
        congr 1
        funext k
        have he : ∀ A : Mat (b k) (b k), c.la.eigh A = c.la.steady.eigh A := fun A => by
          simp [Lapack.eigh, Lapack.steady, hgood k k.2 A]
        show geodesicUs c.la _ _ _ _ _ _ = geodesicUs c.la.steady _ _ _ _ _ _
        simp only [geodesicUs, advanceX, loewdin, he]
        rfl
      rw [geoR, geoR, this]
      rfl
    have ho : rankOps ω (localCfg own c occ good) = rankOps ω (localCfg own c occ good).steady := by
      unfold rankOps
      rw [hg]
      rfl
    show nlcg (rankOps ω _) prm fuel good _ = nlcg (rankOps ω _) prm fuel good _
    rw [ho]
    rfl
  obtain ⟨N, m, L, -, key⟩ := C68_whole_run (own := own) hR host c occ hocc prm fuel w w' o h
  refine ⟨N * (R + 1) + m, fun k S hS => ?_⟩
  rcases key k S hS with h1 | ⟨h1, h2, -, h4 | ⟨h4, h5⟩⟩
  · exact .inl h1
  · obtain ⟨-, v, hv, -, ht⟩ := h4 bad
    exact absurd hv (hbad _ v ht)
  · refine .inr ⟨h1, h2, h4, ?_⟩
    obtain ⟨⟨e, he⟩, h6 | h6⟩ := h5 good
    · obtain ⟨-, v, hv⟩ := h6
      rw [← same] at he
      exact absurd he ((C131_determined host c occ prm fuel w good _).2.1 _ _ _ hv)
    · exact h6

/-! ## The assumptions can be met -/

/-- `C68_whole_run` with the two ranks of `duoCfg`, whose eigensolver works, and with one that always fails -/
example (prm : NlcgParams ℝ) (htol : 0 < prm.tol) : (∃ fuel o w', solve duoHost duoCfg.steady prm fuel 0 duoStart
    = some (o, w')) ∧ ∃ fuel o w', solve duoHost
      ({ duoCfg with la := { steadyLapack with heevd := fun A => ((refEigh A).1, 1) } } : Cfg duoN duoB).steady prm fuel 0
      duoStart = some (o, w') :=
  ⟨duo_ends prm htol, duo_ends prm htol⟩

/-! ## A run that hangs -/

abbrev mixN : Fin 2 → ℕ := fun _ => 2
abbrev mixB : Fin 2 → ℕ := fun k => k.val + 1

/-- an eigensolver that fails for matrices of two rows -/
noncomputable def mixLapack : Lapack :=
  { potrf := refLapack.potrf, potrs := refLapack.potrs, heevd := fun {m} A => ((refEigh A).1, if m = 2 then 1 else 0) }

noncomputable def mixHost : Host (LState mixN mixB) mixN mixB := linearHost (fun _ => demoH 0) fun _ => 1 / 2

noncomputable def mixOcc : (Fin 2 → ℝ) → Bands mixB → Res (ℝ × Bands mixB) :=
  fun _ ek => .ok (1, occs .fermiDirac 300 2 ek 1)

/-- two k-points, the first with one band, the second with two -/
noncomputable def mixCfg : Cfg mixN mixB :=
  { la := mixLapack, t := .fermiDirac, T := 300, kappa := 3 / 10, mo := 2, wk := fun _ => 1 / 2,
    S := fun _ => 1, P := fun _ => 1, occ := fun ek => .ok (1, occs .fermiDirac 300 2 ek 1), junk := fun _ => 0 }

noncomputable def mixX : Orbitals mixN mixB := fun _ => Matrix.of fun i j => if i.val = j.val then 1 else 0

noncomputable def mixStart : NState ℝ (SState (LState mixN mixB) mixN mixB) :=
  { s := { h := { C := mixX, hphi := fun _ => 0, fn := fun _ _ => 0, ek := fun _ _ => 0, mu := 0 },
           F := 0, S := 0, calls := [] },
    file := [], info := { vals := none, converged := false }, force := false, trace := [] }

theorem mixX_ortho (k : Fin 2) : SOrtho (1 : Mat 2 2) (mixX k) := by
  show (mixX k)ᴴ * (1 * mixX k) = 1
  ext i j
  rw [Matrix.one_mul, mul_apply, Fin.sum_univ_two]
  fin_cases k
  · fin_cases i; fin_cases j; simp [mixX]
  · fin_cases i <;> fin_cases j <;> simp [mixX, mixB]

theorem mix_setting : Setting mixHost mixCfg.steady where
  host := linearHost_ok _ (fun k => (demoH_psd 0).isHermitian) _
  lapack := { chol := refLapack_ok.chol, solve := refLapack_ok.solve
              eigen := fun A hA _ => refLapack_ok.eigen A hA (refLapack_total A hA) }
  overlap := fun _ => PosSemidef.one
  prec := fun _ => PosDef.one
  weights := fun _ => by norm_num [mixCfg, Cfg.steady]
  occ := by rintro ek mu f ⟨⟩; rfl

theorem mix_start : SStart mixHost mixCfg.steady mixStart.s := ⟨rfl, mixX_ortho⟩

/-- with a working eigensolver the run returns -/
theorem mix_returns (prm : NlcgParams ℝ) (htol : 0 < prm.tol) (htau : prm.tau < 1) (hr : prm.restart ≠ 0) :
    ∃ fuel info w', solve mixHost mixCfg.steady prm fuel 0 mixStart = some (.ok info, w') := by
  have hen : EnergyOf mixHost mixCfg.steady (linearEnergy (fun _ => demoH 0) fun _ => 1 / 2) :=
    linearHost_energy (fun _ => demoH 0) mixCfg.steady (by rintro ek ek' mu mu' f f' - ⟨⟩ ⟨⟩; rfl)
  obtain ⟨N, hN⟩ := C30_run_ends_solver (w := mixStart) (prm := prm) mix_setting hen mix_start
    (by norm_num [mixCfg, Cfg.steady]) 0 (fun X f h => by
      obtain ⟨-, e, mu, rfl⟩ := h
      refine linearEnergy_nonneg _ (fun _ => demoH_psd 0) _ (fun _ => by norm_num) X _ fun k i => ?_
      exact (C06_occupation_bounds .fermiDirac (by simp [Monotonic]) _ 2 (by norm_num)).1) htol
  rcases hq : solve mixHost mixCfg.steady prm N 0 mixStart with _ | ⟨o, w'⟩
  · exact absurd hq (hN N (le_refl _) 0)
  · obtain ⟨info, rfl⟩ := C66_returns_normally mix_setting
      ⟨fun _ => ⟨_, rfl⟩, fun _ _ => ⟨_, rfl⟩, fun _ _ => ⟨_, rfl⟩, fun _ _ => ⟨_, rfl⟩, fun _ => ⟨_, _, rfl⟩,
        fun _ => ⟨_, rfl⟩⟩ (fun _ _ => rfl) (fun e => ⟨_, _, rfl⟩) (by norm_num [mixCfg, Cfg.steady]) htau hr
      mix_start hq
    exact ⟨N, info, w', hq⟩

/-- the first slope is not zero -/
theorem mix_slope : ∃ pt s2 sl dir s3, (solverOps mixHost mixCfg.steady).setup mixStart.s = (.ok pt, s2) ∧
    (solverOps mixHost mixCfg.steady).restarted pt s2 = (.ok (sl, dir), s3) ∧ sl < 0 := by
  let ek : Bands mixB := fun k i => (((mixX k)ᴴ * (demoH 0 * mixX k)) i i).re
  let pt : Point mixN mixB :=
    { X := mixX, ek := ek, ul := fun _ => 0, eta := fun k => makeDiag (ek k), fn := occs .fermiDirac 300 2 ek 1,
      hx := fun k => demoH 0 * mixX k, mu := 1 }
  have hset : ∃ s2, (solverOps mixHost mixCfg.steady).setup mixStart.s = (.ok pt, s2) ∧ mixHost.ek s2.h = ek :=
    ⟨_, rfl, rfl⟩
  obtain ⟨s2, h1, h2⟩ := hset
  refine ⟨pt, s2, _, _, s2, h1, rfl, ?_⟩
  have herm : (demoH 0).IsHermitian := (demoH_psd 0).isHermitian
  obtain ⟨L, c, x, y, z, e, hx, hy, hz, hx', -, -⟩ := restarted_parts mix_setting.lapack (dirParams mixCfg.steady pt)
    trivial (by norm_num [dirParams, mixCfg, Cfg.steady]) (by norm_num [dirParams, mixCfg, Cfg.steady])
    (by norm_num [dirParams, mixCfg, Cfg.steady]) 1 (kIn mixHost mixCfg.steady pt s2.h) (fun _ => demoH 0)
    (fun k => ⟨herm, rfl, fun i => by
        simp only [kIn, h2]
        have hm : ((mixX k)ᴴ * (demoH 0 * mixX k)).IsHermitian := by
          rw [← Matrix.mul_assoc]
          exact isHermitian_conjTranspose_mul_mul _ herm
        exact hm.coe_re_apply_self i, mixX_ortho k, PosDef.one, by norm_num [kIn, mixCfg, Cfg.steady]⟩)
    (fun k i => rfl) (fun k => boundedBelow_one 2)
  refine lt_of_eq_of_lt e ?_
  have hf : ∀ k i, 0 ≤ pt.fn k i := fun k i =>
    (C06_occupation_bounds .fermiDirac (by simp [Monotonic]) _ 2 (by norm_num)).1
  have hres : 0 < ∑ k, (1 / 2 : ℝ) * eigenResidual (demoH 0) (1 : Mat 2 2) (mixX k) (pt.fn k) (L k) := by
    have hnn : ∀ k, 0 ≤ (1 / 2 : ℝ) * eigenResidual (demoH 0) (1 : Mat 2 2) (mixX k) (pt.fn k) (L k) := fun k =>
      mul_nonneg (by norm_num) (Finset.sum_nonneg fun j _ => mul_nonneg (hf k j)
        (Finset.sum_nonneg fun i _ => Complex.normSq_nonneg _))
    refine Finset.sum_pos' (fun k _ => hnn k) ⟨0, Finset.mem_univ _, mul_pos (by norm_num) ?_⟩
    refine Finset.sum_pos' (fun j _ => mul_nonneg (hf 0 j) (Finset.sum_nonneg fun i _ => Complex.normSq_nonneg _))
      ⟨(0 : Fin 1), Finset.mem_univ _, mul_pos ?_ ?_⟩
    · show 0 < fdFn ((1 - ek 0 (0 : Fin 1)) / (kB * 300)) 2
      have : ek 0 (0 : Fin 1) = 1 := by
        simp [ek, mixX, demoH, mul_apply, Fin.sum_univ_two, vecHead, vecTail]
      rw [this]
      norm_num [fdFn]
    · refine Finset.sum_pos' (fun i _ => Complex.normSq_nonneg _) ⟨1, Finset.mem_univ _, ?_⟩
      have : (demoH 0 * mixX 0 - (1 : Mat 2 2) * mixX 0 * L 0) 1 (0 : Fin 1) = 1 := by
        rw [Matrix.one_mul, Matrix.sub_apply, mul_apply, mul_apply, Fin.sum_univ_two]
        simp [mixX, demoH]
      rw [this]
      norm_num
  have : 0 < x := lt_of_lt_of_le (by
    have : (0 : ℝ) < 2 * 1 * ∑ k, (1 / 2 : ℝ) * eigenResidual (demoH 0) (1 : Mat 2 2) (mixX k) (pt.fn k) (L k) := by
      linarith
    exact this) hx'
  linarith

/-- **C68 (refuted for whole runs).** Two ranks with a k-point each. The eigensolver fails for the k-point of rank 1.
Whatever the schedule: after `N` steps rank 1 has ended with an exception, and rank 0 waits for ever. -/
theorem C68_not_all_end (prm : NlcgParams ℝ) (htau : prm.tau < 1) (hr : prm.restart ≠ 0) (hm : 1 ≤ prm.maxiter) :
    ∃ tol0 > 0, ∀ tol > 0, tol ≤ tol0 → ∃ fuel N, ∀ k S,
      Reaches mixHost (rankProcess id mixHost mixCfg mixOcc { prm with tol := tol } fuel mixStart)
        (System.fresh mixStart.s.h) k S →
      (k < N ∧ ∃ S', Step mixHost (rankProcess id mixHost mixCfg mixOcc { prm with tol := tol } fuel mixStart) S S') ∨
      (k = N ∧
        (¬ ∃ S', Step mixHost (rankProcess id mixHost mixCfg mixOcc { prm with tol := tol } fuel mixStart) S S') ∧
        (S.posted 1 = none ∧ ∃ v, Ends (rankProcess id mixHost mixCfg mixOcc { prm with tol := tol } fuel mixStart 1)
          (S.replies 1) (.throw .runtimeError) v) ∧
        ∃ e, S.posted 0 = some (.gather e)) := by
  obtain ⟨pt, s2, sl, dir, s3, h1, h2, hsl⟩ := mix_slope
  refine ⟨-sl, by linarith, fun tol ht ht0 => ?_⟩
  obtain ⟨fuel, info, w', h⟩ := mix_returns { prm with tol := tol } ht htau hr
  have hstart : [Ev.start 0 sl] <+: w'.trace := first_slope (s1 := mixStart.s) h hm
    (by simp [solverOps, mixCfg, Cfg.steady]) h1 h2
  obtain ⟨N, key⟩ := C68_not_ended (own := (id : Fin 2 → Fin 2)) two_pos mixHost mixCfg mixOcc (fun _ => rfl)
    { prm with tol := tol } fuel mixStart w' (.ok info) h 0 1 (by
      rintro k hk A
      have hk' : k = 0 := hk
      subst hk'
      rfl) (by
      rintro got v hv ⟨ω, -, he, -⟩
      have hgeo : ∀ p d t s, ((rankOps ω (localCfg id mixCfg mixOcc 1)).geo p d t s).1 = .throw .runtimeError := by
        intro p d t s
        have : (forMine fun k : Mine (id : Fin 2 → Fin 2) 1 => geodesicUs (localCfg id mixCfg mixOcc 1).la (p.X k)
            (p.eta k) (d.zx k) (d.zeta k) ((localCfg id mixCfg mixOcc 1).S k) t) = .throw .runtimeError := rfl
        show (geoR ω (localCfg id mixCfg mixOcc 1) p d t s).1 = _
        rw [geoR, this]
        rfl
      obtain ⟨sl', hp, hc⟩ := run_without_steps hgeo (rank_gather_clean ω _) (rank_print_clean ω _) he hm
      rw [hv] at hp
      obtain ⟨a, ha⟩ := hstart
      obtain ⟨a', ha'⟩ := hp
      rw [← ha] at ha'
      simp only [List.cons_append, List.nil_append, List.cons.injEq, Ev.start.injEq, true_and] at ha'
      rw [ha'.1] at hc
      rcases hc with hc | hc
      · have : |sl| < tol := of_decide_eq_true hc
        rw [abs_of_neg hsl] at this
        linarith
      · have : (((0 : ℚ) : ℝ)) < sl := of_decide_eq_true hc
        simp at this
        linarith)
  refine ⟨fuel, N, fun k S hS => ?_⟩
  rcases key k S hS with k1 | ⟨k1, k2, ⟨r, v, k3, k4⟩, e, k5⟩
  · exact .inl k1
  · refine .inr ⟨k1, k2, ?_, e, k5⟩
    have hr1 : r = 1 := by
      by_contra hne
      have : r = 0 := by omega
      subst this
      rw [k3] at k5
      simp at k5
    subst hr1
    exact ⟨k3, v, k4⟩

end Nlcg
