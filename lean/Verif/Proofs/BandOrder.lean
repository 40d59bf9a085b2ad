import Verif.Proofs.BandOrderLin
import Verif.Proofs.Gauge
import Verif.Proofs.GradEta

/-! Runs with the bands in another order. -/

namespace Nlcg
open Matrix Spec ComplexOrder

variable {K : ℕ} {n b : Fin K → ℕ} {η ξ : Type}

/-! ## A program that computes the band energies from `X` and `H X` -/

/-- the arguments of the direction code, from the point alone -/
noncomputable def kInPt (c : Cfg n b) (pt : Point n b) (k : Fin K) : KIn (n k) (b k) :=
  { X := pt.X k, hx := pt.hx k, e := pt.ek k, f := pt.fn k, hii := fun i => (((pt.X k)ᴴ * pt.hx k) i i).re, S := c.S k,
    P := c.P k, wk := c.wk k }

noncomputable def ptRestarted (c : Cfg n b) (pt : Point n b) : SM (SState η n b) (ℝ × Dir n b) :=
  SM.lift (.ok (restarted c.la (dirParams c pt) (kInPt c pt)))

noncomputable def ptConjugated (c : Cfg n b) (fr : ℝ) (pt : Point n b) (dir : Dir n b) :
    SM (SState η n b) (ℝ × ℝ × Dir n b) :=
  SM.lift (.ok (conjugated c.la (dirParams c pt) fr (kInPt c pt) dir pt.ul))

open Classical in
/-- the program with all its guards -/
noncomputable def orderOps (host : Host η n b) (c : Cfg n b) : Ops ℝ (SState η n b) (Point n b) (Dir n b) :=
  { mixedOps host c with
    geo := fun pt dir t s => if ∀ k, (dir.zeta k).IsHermitian then snapGeo host c pt dir t s else (.ub, s)
    setup := fun s => if s.calls = [] then solverSetup host c s else (.ub, s)
    restarted := fun pt s => if ∀ k, SOrtho (c.S k) (pt.X k) then ptRestarted c pt s else (.ub, s)
    conjugated := fun fr pt dir s =>
      if ∀ k, SOrtho (c.S k) (pt.X k) then ptConjugated c fr pt dir s else (.ub, s)
    refresh := snapRefresh }

theorem kIn_point {host : Host η n b} {c : Cfg n b} {pt : Point n b} {s : SState η n b} (h : SAt host c pt s) :
    kIn host c pt s.h = kInPt c pt := by
  obtain ⟨H, hH⟩ := h.at_.1.computed
  have hC : host.C s.h = pt.X := h.at_.1.C
  funext k
  have : host.ek s.h k = fun i => (((pt.X k)ᴴ * pt.hx k) i i).re := by
    funext i
    rw [h.hx, hH.hphi, ← hC, ← hH.ek]
    exact (Complex.ofReal_re _).symm
  simp only [kIn, kInPt, this]

theorem mixed_eq_order {host : Host η n b} {c : Cfg n b} (hs : Setting host c) (prm : NlcgParams ℝ) (fuel rank : ℕ)
    (w : NState ℝ (SState η n b)) (h0 : SStart host c w.s) :
    nlcg (mixedOps host c) prm fuel rank w = nlcg (orderOps host c) prm fuel rank w := by
  refine (mixed_rule hs).congr_ops ?_ ?_ ?_ ?_ ?_ prm fuel rank w h0
  · intro pt dir sl t s _ hD
    exact (if_pos hD.herm).symm
  · intro pt s _ hJ
    rw [if_pos hJ.at_.2.1]
    show (Res.ok (restarted c.la (dirParams c pt) (kIn host c pt s.h)), s) = _
    rw [kIn_point hJ]
    rfl
  · intro fr pt dir s _ hJ
    rw [if_pos hJ.at_.2.1]
    show (Res.ok (conjugated c.la (dirParams c pt) fr (kIn host c pt s.h) dir pt.ul), s) = _
    rw [kIn_point hJ]
    rfl
  · rintro r s hI ⟨h1, h2, h3⟩
    show solverRefresh host r s = _
    obtain ⟨X, ek, ul, eta, fn, hx, mu⟩ := r
    simp only at h2 h3
    subst h2
    subst h3
    rfl
  · intro s hs
    exact (if_pos hs.1).symm

/-- the guarded program runs as the program that stops at repeated eigenvalues -/
theorem order_simple {host : Host η n b} {c : Cfg n b} (hs : Setting host c) (prm : NlcgParams ℝ) (fuel rank : ℕ)
    (w : NState ℝ (SState η n b)) (h0 : SStart host c w.s) :
    nlcg (orderOps host c) prm fuel rank w = nlcg (simpleOps host c) prm fuel rank w := by
  rw [← mixed_eq_order hs prm fuel rank w h0, mixed_eq_snap hs prm fuel rank w h0, snap_simple hs prm fuel rank w h0]

/-! ## Host calls -/

variable {host' : Host η n b} {host : Host ξ n b} {c : Cfg n b}

theorem rearranged_eq (a : Arrangement b) (X : Orbitals n b) (k : Fin K) :
    rearranged a X k = X k * arr (a.order k) (a.phase k) := by
  ext i j
  rw [mul_arr, rearranged]

/-- the same state, with bands in the arrangement `a`, occupations in the order `σ` -/
structure ORel (H : BandHost host' host) (a : Arrangement b) (σ : BandPerm b) (s : SState η n b) (s' : SState ξ n b) :
    Prop where
  R : H.R a σ s.h s'.h
  F : s.F = s'.F
  S : s.S = s'.S
  calls : List.Forall₂ BandCall s.calls s'.calls

/-- the same, right after an evaluation -/
def OFull (H : BandHost host' host) (a : Arrangement b) (s : SState η n b) (s' : SState ξ n b) : Prop :=
  ORel H a a.order s s' ∧ host'.hphi s.h = rearranged a (host.hphi s'.h)

/-- a call that is not `print` -/
def tells : HostCall n b → Bool
  | .print => false
  | _ => true

/-- the last call is not that of `setC` alone, without occupations that belong to the orbitals -/
def Settled (l : List (HostCall n b)) : Prop := ∀ X, (l.filter tells).getLast? ≠ some (.setC X)

theorem settled_print {l : List (HostCall n b)} : Settled (l ++ [.print]) ↔ Settled l := by
  simp [Settled, tells]

theorem settled_setC {l : List (HostCall n b)} {X : Orbitals n b} : ¬ Settled (l ++ [.setC X]) := by
  simp [Settled, tells]

theorem settled_nil : Settled ([] : List (HostCall n b)) := by simp [Settled]

def orderWorld (H : BandHost host' host) : World (SState η n b) (SState ξ n b) where
  R s s' := ∃ a σ, IsPhase a.phase ∧ ORel H a σ s s' ∧ (Settled s.calls → σ = a.order)
  le _ _ := True
  refl _ := trivial
  trans _ _ := trivial

variable {H : BandHost host' host}

theorem orderCall_two {β : Type} {a u : Arrangement b} {σ τ : BandPerm b} (hu : IsPhase u.phase) {s : SState η n b}
    {s' : SState ξ n b} (hR : ORel H a σ s s') {f : η → Option β × η} {g : ξ → Option β × ξ} {cl' cl : HostCall n b}
    (hcl : BandCall cl' cl) (hset : Settled (s.calls ++ [cl']) → τ = u.order) (h : (f s.h).1 = (g s'.h).1 ∧ H.R u τ (f s.h).2 (g s'.h).2) :
    Two (fun t t' => ORel H u τ t t' ∧ t.calls = s.calls ++ [cl'] ∧ ∃ x, f s.h = (some x, t.h) ∧ g s'.h = (some x, t'.h))
      (orderWorld H).R (· = ·) (hostCall cl' f s) (hostCall cl g s') := by
  unfold hostCall
  generalize f s.h = r at *
  generalize g s'.h = r' at *
  obtain ⟨o, t⟩ := r
  obtain ⟨o', t'⟩ := r'
  obtain ⟨h1, h2⟩ := h
  simp only at h1 h2
  subst h1
  have hc : List.Forall₂ BandCall (s.calls ++ [cl']) (s'.calls ++ [cl]) :=
    List.rel_append hR.calls (.cons hcl .nil)
  cases o with
  | none => exact .throw ⟨u, τ, hu, ⟨h2, hR.F, hR.S, hc⟩, hset⟩
  | some x => exact .ok rfl ⟨⟨h2, hR.F, hR.S, hc⟩, rfl, x, rfl, rfl⟩

theorem sum_order {B : ℕ} (σ : Equiv.Perm (Fin B)) (f : Fin B → ℝ) : ∑ i, f (σ i) = ∑ i, f i :=
  Equiv.sum_comp σ f

theorem entropyTerm_order (t : SmearType) (T mo mu : ℝ) (wk : Fin K → ℝ) (σ : BandPerm b) (e : Bands b) :
    entropyTerm t T mo mu (List.ofFn fun k => (wk k, List.ofFn (reordered σ e k)))
      = entropyTerm t T mo mu (List.ofFn fun k => (wk k, List.ofFn (e k))) := by
  rw [entropyTerm_ofFn, entropyTerm_ofFn]
  congr 1
  refine Finset.sum_congr rfl fun k _ => ?_
  rw [← sum_order (σ k) fun i => (smearFns t).entropy ((mu - e k i) / (kB * T)) mo]
  rfl

theorem orderEvaluate_two (hh' : HostOk host') (hh : HostOk host) {a u : Arrangement b} {σ : BandPerm b}
    (hu : IsPhase u.phase) {s : SState η n b} {s' : SState ξ n b} (hR : ORel H a σ s s') (X : Orbitals n b)
    (f x : Bands b) (τ : BandPerm b) (mu : ℝ) :
    Two (OFull H u) (orderWorld H).R (fun _ _ => True)
      (evaluate host' c (rearranged u X) (reordered u.order f) (reordered τ x) mu s) (evaluate host c X f x mu s') := by
  unfold evaluate
  refine Two.bind (orderCall_two hu hR (.setC u X hu) (fun h => absurd h settled_setC) (H.setC X u hu hR.R)) fun t1 t1' _ _ h1 _ => ?_
  refine Two.bind (orderCall_two hu h1.1 (.setFn u.order f) (fun _ => rfl) (H.setFn f u.order h1.1.R)) fun t2 t2' _ _ h2 _ => ?_
  refine Two.bind (orderCall_two hu h2.1 (.same _) (fun _ => rfl) (H.compute h2.1.R)) fun t3 t3' _ _ h3 _ => ?_
  obtain ⟨h3, -, y, c1, c2⟩ := h3
  have p3 := H.hphi h2.1.R c1 c2
  refine Two.bind (orderCall_two hu h3 (.same _) (fun _ => rfl) (H.setMu mu h3.R)) fun t4 t4' _ _ h4 _ => ?_
  obtain ⟨h4, -, y, c1, c2⟩ := h4
  have p4 : host'.hphi t4.h = rearranged u (host.hphi t4'.h) := by
    rw [(hh'.setMu _ _ _ c1).1.hphi, (hh.setMu _ _ _ c2).1.hphi, p3]
  refine Two.bind (orderCall_two hu h4 (.same _) (fun _ => rfl) (H.energy h4.R)) fun t5 t5' y _ h5 heq => ?_
  obtain ⟨h5, -, y, c1, c2⟩ := h5
  have p5 : host'.hphi t5.h = rearranged u (host.hphi t5'.h) := by
    rw [(hh'.energy _ _ _ c1).1.hphi, (hh.energy _ _ _ c2).1.hphi, p4]
  subst heq
  rw [SM.modify_apply, SM.modify_apply]
  refine .ok trivial ⟨⟨h5.R, ?_, ?_, h5.calls⟩, p5⟩
  · simp only [entropyTerm_order]
  · simp only [entropyTerm_order]

/-! ## Points and directions -/

/-- the matrix of an arrangement -/
abbrev Spec.Arrangement.m (a : Arrangement b) (k : Fin K) : Mat (b k) (b k) := arr (a.order k) (a.phase k)

/-- the same direction in the arrangement `a` -/
structure ODir (a : Arrangement b) (d d' : Dir n b) : Prop where
  zx : d.zx = rearranged a d'.zx
  zeta : ∀ k, d.zeta k = (a.m k)ᴴ * d'.zeta k * a.m k

/-- the same point in the arrangement `a`, up to `ul` and `eta` -/
structure OVal (a : Arrangement b) (p q : Point n b) : Prop where
  X : p.X = rearranged a q.X
  hx : p.hx = rearranged a q.hx
  ek : p.ek = reordered a.order q.ek
  fn : p.fn = reordered a.order q.fn
  mu : p.mu = q.mu

/-- `eta` is diagonal, and the same but for the order -/
def OEta (a : Arrangement b) (p q : Point n b) : Prop :=
  ∃ e : Bands b, (q.eta = fun k => makeDiag (e k)) ∧ p.eta = fun k => makeDiag (reordered a.order e k)

/-- the point was reached along `d`, which is in the arrangement `u` -/
structure OStep (u v : Arrangement b) (d d' : Dir n b) (p q : Point n b) : Prop where
  hu : IsPhase u.phase
  hv : IsPhase v.phase
  dir : ODir u d d'
  val : OVal v p q
  ul : ∀ k, p.ul k = (u.m k)ᴴ * q.ul k * v.m k

theorem orderSetup_out (hh' : HostOk host') (hh : HostOk host) (hocc : OccFair c) {s : SState η n b}
    {s' : SState ξ n b} (hR : (orderWorld H).R s s') (h0 : s.calls = []) :
    Out (orderWorld H) (fun _ p q => ∃ v : Arrangement b, IsPhase v.phase ∧ OVal v p q ∧ OEta v p q) s
      (solverSetup host' c s) (solverSetup host c s') := by
  obtain ⟨a, σ, hv, hR, hσ⟩ := hR
  obtain rfl := hσ (by rw [h0]; exact settled_nil)
  refine Two.out (A := (orderWorld H).R) (fun _ _ => trivial) ?_ fun _ _ h => h
  unfold solverSetup
  refine Two.bind (orderCall_two hv hR (.same _) (fun _ => rfl) (H.compute hR.R)) fun s1 s1' _ _ h1 _ => ?_
  obtain ⟨h1, -, y, c1, c2⟩ := h1
  rw [SM.get_bind, SM.get_bind, SM.lift_bind, SM.lift_bind, H.ek hR.R c1 c2, hocc]
  have hW : (orderWorld H).R s1 s1' := ⟨a, a.order, hv, h1, fun _ => rfl⟩
  cases c.occ (host.ek s1'.h) with
  | ok q =>
    obtain ⟨mu, f⟩ := q
    simp only [Res.bind_ok, Res.pure_eq]
    rw [SM.get_bind, SM.get_bind, H.C h1.R]
    refine Two.bind (orderEvaluate_two hh' hh hv h1 _ _ _ _ _) fun s2 s2' _ _ h2 _ => ?_
    rw [SM.get_bind, SM.get_bind]
    exact .ok ⟨a, hv, ⟨H.C h2.1.R, h2.2, rfl, rfl, rfl⟩, _, rfl, rfl⟩ ⟨a, _, hv, h2.1, fun _ => rfl⟩
  | throw x => exact .throw hW
  | ub => exact .ub hW
  | abort => exact .abort hW

theorem orderGlobals {v : Arrangement b} (hv : IsPhase v.phase) {p q : Point n b} (hp : OVal v p q) (d : DirParams) :
    globals d (kInPt c p) = globals d (kInPt c q) := by
  have h : ∀ k i, (((p.X k)ᴴ * p.hx k) i i).re = (((q.X k)ᴴ * q.hx k) (v.order k i) (v.order k i)).re := fun k i => by
    rw [hp.X, hp.hx, rearranged_eq, rearranged_eq, conjTranspose_mul, ← Matrix.mul_assoc, Matrix.mul_assoc _ (q.X k)ᴴ,
      arr_apply, mul_right_comm, phase_star (hv k), one_mul]
  simp only [globals, dFdmu, dmuDeta, kInPt, hp.ek, h, reordered]
  congr 1
  · refine Finset.sum_congr rfl fun k _ => ?_
    rw [sum_order (v.order k) fun i => ((((q.X k)ᴴ * q.hx k) i i).re - q.ek k i)
      * (smearFns d.t).delta ((q.ek k i - d.mu) / (kB * d.T)) d.mo]
  · refine Finset.sum_congr rfl fun k _ => ?_
    rw [sum_order (v.order k) fun i => (smearFns d.t).delta ((q.ek k i - d.mu) / (kB * d.T)) d.mo * c.wk k]

theorem orderExec (hla : LapackOk c.la) (hP : ∀ k, (c.P k).PosDef) {v : Arrangement b}
    (hv : IsPhase v.phase) {p q : Point n b} (hp : OVal v p q) (ho : ∀ k, SOrtho (c.S k) (q.X k)) (k : Fin K) :
    execAll c.la (dirParams c q) (kInPt c p) k
      = ⟨(execAll c.la (dirParams c q) (kInPt c q) k).fr,
          (execAll c.la (dirParams c q) (kInPt c q) k).gx * v.m k,
          (v.m k)ᴴ * (execAll c.la (dirParams c q) (kInPt c q) k).geta * v.m k,
          (execAll c.la (dirParams c q) (kInPt c q) k).dx * v.m k,
          (v.m k)ᴴ * (execAll c.la (dirParams c q) (kInPt c q) k).deta * v.m k⟩ := by
  have h1 := execSpc_arr (σ := v.order k) hla (hv k) (dirParams c q) (globals (dirParams c q) (kInPt c q)).1
    (globals (dirParams c q) (kInPt c q)).2 (kInPt c q k) (kInPt c p k).hii (ho k) (hP k)
  rw [execAll, orderGlobals hv hp]
  refine Eq.trans (congrArg _ ?_) h1
  simp only [kInPt, hp.X, hp.hx, hp.ek, hp.fn, rearranged_eq]
  rfl

theorem orderParams {v : Arrangement b} {p q : Point n b} (hp : OVal v p q) : dirParams c p = dirParams c q := by
  simp only [dirParams, hp.mu]

theorem orderOrtho {v : Arrangement b} (hv : IsPhase v.phase) {p q : Point n b} (hp : OVal v p q) :
    (∀ k, SOrtho (c.S k) (p.X k)) ↔ ∀ k, SOrtho (c.S k) (q.X k) := by
  refine forall_congr' fun k => ?_
  rw [hp.X, rearranged_eq]
  exact sOrtho_uni (uni_arr (hv k))

/-- the direction relation: the arrangement of the point is that of the direction -/
def OAlong (p q : Point n b) (d d' : Dir n b) : Prop :=
  ∃ v : Arrangement b, IsPhase v.phase ∧ p.X = rearranged v q.X ∧ OEta v p q ∧ ODir v d d'

theorem orderRestarted (hla : LapackOk c.la) (hP : ∀ k, (c.P k).PosDef) {v : Arrangement b} (hv : IsPhase v.phase)
    {p q : Point n b} (hp : OVal v p q) (he : OEta v p q) (ho : ∀ k, SOrtho (c.S k) (q.X k)) :
    (restarted c.la (dirParams c p) (kInPt c p)).1 = (restarted c.la (dirParams c q) (kInPt c q)).1 ∧
      OAlong p q (restarted c.la (dirParams c p) (kInPt c p)).2 (restarted c.la (dirParams c q) (kInPt c q)).2 := by
  have e := orderExec hla hP hv hp ho
  rw [orderParams hp]
  refine ⟨?_, v, hv, hp.X, he, ?_, ?_⟩
  · simp only [restarted, e]
  · funext k
    rw [rearranged_eq]
    simp only [restarted, e]
  · intro k; simp only [restarted, e]

theorem orderConj (hla : LapackOk c.la) (hP : ∀ k, (c.P k).PosDef) {u v : Arrangement b}
    {p q : Point n b} {d d' : Dir n b} (hp : OStep u v d d' p q) (ho : ∀ k, SOrtho (c.S k) (q.X k)) (k : Fin K) :
    conjAll c.la (dirParams c q) (kInPt c p) d p.ul k
      = ((conjAll c.la (dirParams c q) (kInPt c q) d' q.ul k).1,
          (conjAll c.la (dirParams c q) (kInPt c q) d' q.ul k).2.1 * v.m k,
          (v.m k)ᴴ * (conjAll c.la (dirParams c q) (kInPt c q) d' q.ul k).2.2 * v.m k) := by
  obtain ⟨hu, hv, hd, hp, hul⟩ := hp
  rw [conjAll, orderExec hla hP hv hp ho, hd.zx, hd.zeta, hul]
  have : (kInPt c p k).S * (kInPt c p k).X = c.S k * q.X k * v.m k := by
    simp only [kInPt, hp.X, rearranged_eq]
    rw [← Matrix.mul_assoc]
  rw [this, rearranged_eq]
  exact execConjugate_uni hla (uni_arr (hu k)) (uni_arr (hv k)) (sx_injective (ho k)) _ _ _ _ _

theorem orderConjugated (hla : LapackOk c.la) (hP : ∀ k, (c.P k).PosDef) {u v : Arrangement b} {p q : Point n b}
    {d d' : Dir n b} (hp : OStep u v d d' p q) (he : OEta v p q) (ho : ∀ k, SOrtho (c.S k) (q.X k)) (fr : ℝ) :
    (conjugated c.la (dirParams c p) fr (kInPt c p) d p.ul).1 = (conjugated c.la (dirParams c q) fr (kInPt c q) d' q.ul).1 ∧
    (conjugated c.la (dirParams c p) fr (kInPt c p) d p.ul).2.1
      = (conjugated c.la (dirParams c q) fr (kInPt c q) d' q.ul).2.1 ∧
    OAlong p q (conjugated c.la (dirParams c p) fr (kInPt c p) d p.ul).2.2
      (conjugated c.la (dirParams c q) fr (kInPt c q) d' q.ul).2.2 := by
  have e := orderExec hla hP hp.hv hp.val ho
  have e2 := orderConj hla hP hp ho
  rw [orderParams hp.val]
  refine ⟨?_, ?_, v, hp.hv, hp.val.X, he, ?_, ?_⟩
  · simp only [conjugated, e]
  · simp only [conjugated, e, e2]
  · funext k
    rw [rearranged_eq]
    simp only [conjugated, e, e2, addM, ← Matrix.smul_mul, ← Matrix.add_mul]
  · intro k
    simp only [conjugated, e, e2, addM, Matrix.mul_add, Matrix.add_mul, Matrix.mul_smul, Matrix.smul_mul]

theorem reordered_one (f : Bands b) : reordered 1 f = f := rfl

theorem orderGeo_out (hs' : Setting host' c) (hs : Setting host c) (ht : EighTotal c.la) (ho : EighSorted c.la)
    {s : SState η n b} {s' : SState ξ n b} (hR : (orderWorld H).R s s') {p q : Point n b}
    {d d' : Dir n b} (hd : OAlong p q d d') (hz : ∀ k, (d'.zeta k).IsHermitian) (t : ℝ) :
    Out (orderWorld H) (fun _ x y => ∃ u v, OStep u v d d' x y) s
      (snapGeo host' c p d t s) (snapGeo host c q d' t s') := by
  obtain ⟨u, hu, hX, ⟨e, he, he'⟩, hd⟩ := hd
  have key := fun k => geodesicUs_uni hs.lapack ht ho (uni_arr (σ := u.order k) (hu k)) (hs.overlap k).1 (q.X k) (d'.zx k)
    (makeDiag_hermitian (e k)) (hz k) t
  choose k1 g g' k2 k3 k4 k5 k6 using key
  have heta : ∀ k, p.eta k = (u.m k)ᴴ * q.eta k * u.m k := fun k => by
    rw [he, he', makeDiag_arr (phase_star (hu k))]
    rfl
  have hq : ∀ k, q.eta k = makeDiag (e k) := fun k => by rw [he]
  have hsim : SimpleStep c p d t ↔ SimpleStep c q d' t := by
    refine forall_congr' fun k => ?_
    rw [heta, hd.zeta k, hq, show (c.la.heevd (advanceEta t ((u.m k)ᴴ * makeDiag (e k) * u.m k)
      ((u.m k)ᴴ * d'.zeta k * u.m k))).1.1 = _ from k1 k]
  by_cases hi : SimpleStep c q d' t
  swap
  · have a1 : (simpleOps host' c).geo p d t s = (.ub, s) := if_neg fun h => hi (hsim.1 h)
    have a2 : (simpleOps host c).geo q d' t s' = (.ub, s') := if_neg hi
    rw [snapGeo, snapGeo, a1, a2]
    exact ⟨hR, trivial, .ub⟩
  have a1 : (simpleOps host' c).geo p d t s = solverGeo host' c p d t s := if_pos (hsim.2 hi)
  have a2 : (simpleOps host c).geo q d' t s' = solverGeo host c q d' t s' := if_pos hi
  have hin : ∀ k, Function.Injective (g k).ek := fun k => by
    rw [k5 k]
    have := hi k
    rwa [hq] at this
  choose v hv hul hXn using fun k => k6 k (hin k)
  set V : Arrangement b := ⟨fun _ => 1, v⟩ with hVdef
  have hVm : ∀ k, V.m k = diagonal (v k) := fun k => arr_one _
  have f1 : (forAllK fun k => geodesicUs c.la (q.X k) (q.eta k) (d'.zx k) (d'.zeta k) (c.S k) t) = .ok g :=
    forAllK_eq_ok fun k => by rw [hq]; exact k2 k
  have f2 : (forAllK fun k => geodesicUs c.la (p.X k) (p.eta k) (d.zx k) (d.zeta k) (c.S k) t) = .ok g' :=
    forAllK_eq_ok fun k => by rw [heta, hq, hX, hd.zx, hd.zeta, rearranged_eq, rearranged_eq]; exact k3 k
  have f3 : (fun k => (g' k).ek) = fun k => (g k).ek := funext k4
  have f4 : (fun k => (g' k).X) = rearranged V fun k => (g k).X := funext fun k => by
    rw [rearranged_eq, hXn, ← hVm]
  rw [snapGeo, snapGeo, a1, a2, solverGeo, solverGeo, SM.lift_bind, SM.lift_bind, f1]
  simp only [f2, f3, f4]
  rw [SM.lift_bind, SM.lift_bind]
  cases c.occ fun k => (g k).ek with
  | ok r =>
    obtain ⟨mu, f⟩ := r
    simp only
    obtain ⟨a, σ, -, hR, -⟩ := hR
    have h2 := orderEvaluate_two (c := c) (u := V) hs'.host hs.host hv hR (fun k => (g k).X) f
      (fun k => (g k).ek) (fun _ => 1) mu
    rw [show reordered V.order f = f from rfl, show reordered (fun _ => 1) (fun k => (g k).ek) = fun k => (g k).ek from rfl]
      at h2
    rw [SM.bind_apply, SM.bind_apply]
    generalize evaluate host' c (rearranged V fun k => (g k).X) f _ mu s = x at *
    generalize evaluate host c (fun k => (g k).X) f _ mu s' = y at *
    cases h2 with
    | ok _ h2 =>
      exact ⟨⟨V, _, hv, h2.1, fun _ => rfl⟩, trivial, .ok ⟨u, V, hu, hv, hd, ⟨rfl, h2.2, rfl, H.fn h2.1.R, rfl⟩,
        fun k => by rw [hVm]; exact hul k⟩⟩
    | throw h => exact ⟨h, trivial, .throw _⟩
    | ub h => exact ⟨h, trivial, .ub⟩
    | abort h => exact ⟨h, trivial, .abort⟩
  | throw x => exact ⟨hR, trivial, .throw x⟩
  | ub => exact ⟨hR, trivial, .ub⟩
  | abort => exact ⟨hR, trivial, .abort⟩

/-- Runs with the bands in different orders correspond. -/
noncomputable def orderSim (H : BandHost host' host) (hs' : Setting host' c)
    (hs : Setting host c) (ht : EighTotal c.la) (ho : EighSorted c.la) (hocc : OccFair c) :
    SimPair (orderOps host' c) (orderOps host c) where
  W := orderWorld H
  P0 _ p q := ∃ v : Arrangement b, IsPhase v.phase ∧ OVal v p q ∧ OEta v p q
  P1 _ d d' p q := ∃ u v, OStep u v d d' p q
  P _ d d' p q := ∃ u v, OStep u v d d' p q ∧ OEta v p q
  D _ := OAlong
  weaken := by
    rintro s d d' p q ⟨u, v, h, he⟩
    exact ⟨v, h.hv, h.val, he⟩
  P0_mono _ h := h
  P1_mono _ h := h
  P_mono _ h := h
  D_mono _ h := h
  construct := by
    intro s s' hR
    show Out _ _ s (SM.lift (if c.T = 0 then _ else _) s) (SM.lift (if c.T = 0 then _ else _) s')
    split
    · exact ⟨hR, trivial, .throw _⟩
    · exact ⟨hR, trivial, .ok trivial⟩
  setup := by
    intro s s' hR
    obtain ⟨a, σ, -, hr, -⟩ := id hR
    have hc : s.calls = [] ↔ s'.calls = [] := by
      have := hr.calls.length_eq
      rw [← List.length_eq_zero_iff, ← List.length_eq_zero_iff, this]
    by_cases h : s.calls = []
    · rw [show (orderOps host' c).setup s = solverSetup host' c s from if_pos h,
        show (orderOps host c).setup s' = solverSetup host c s' from if_pos (hc.1 h)]
      exact orderSetup_out hs'.host hs.host hocc hR h
    · rw [show (orderOps host' c).setup s = (.ub, s) from if_neg h,
        show (orderOps host c).setup s' = (.ub, s') from if_neg fun h' => h (hc.2 h')]
      exact ⟨hR, trivial, .ub⟩
  restarted := by
    rintro s s' p q hR ⟨v, hv, hp, he⟩
    by_cases h : ∀ k, SOrtho (c.S k) (q.X k)
    · rw [show (orderOps host' c).restarted p s = ptRestarted c p s from if_pos ((orderOrtho hv hp).2 h),
        show (orderOps host c).restarted q s' = ptRestarted c q s' from if_pos h]
      exact ⟨hR, trivial, .ok (orderRestarted hs.lapack hs.prec hv hp he h)⟩
    · rw [show (orderOps host' c).restarted p s = (.ub, s) from if_neg fun h' => h ((orderOrtho hv hp).1 h'),
        show (orderOps host c).restarted q s' = (.ub, s') from if_neg h]
      exact ⟨hR, trivial, .ub⟩
  conjugated := by
    rintro s s' p q d d' fr hR ⟨u, v, hp, he⟩
    by_cases h : ∀ k, SOrtho (c.S k) (q.X k)
    · rw [show (orderOps host' c).conjugated fr p d s = ptConjugated c fr p d s from if_pos ((orderOrtho hp.hv hp.val).2 h),
        show (orderOps host c).conjugated fr q d' s' = ptConjugated c fr q d' s' from if_pos h]
      exact ⟨hR, trivial, .ok (orderConjugated hs.lapack hs.prec hp he h fr)⟩
    · rw [show (orderOps host' c).conjugated fr p d s = (.ub, s) from if_neg fun h' => h ((orderOrtho hp.hv hp.val).1 h'),
        show (orderOps host c).conjugated fr q d' s' = (.ub, s') from if_neg h]
      exact ⟨hR, trivial, .ub⟩
  geo := by
    rintro s s' p q d d' t hR - hd
    obtain ⟨v, hv, -, -, hd0⟩ := id hd
    have hz : (∀ k, (d.zeta k).IsHermitian) ↔ ∀ k, (d'.zeta k).IsHermitian := forall_congr' fun k => by
      rw [hd0.zeta k]; exact herm_uni (uni_arr (hv k))
    by_cases h : ∀ k, (d'.zeta k).IsHermitian
    · rw [show (orderOps host' c).geo p d t s = snapGeo host' c p d t s from if_pos (hz.2 h),
        show (orderOps host c).geo q d' t s' = snapGeo host c q d' t s' from if_pos h]
      exact orderGeo_out hs' hs ht ho hR hd h t
    · rw [show (orderOps host' c).geo p d t s = (.ub, s) from if_neg fun h' => h (hz.1 h'),
        show (orderOps host c).geo q d' t s' = (.ub, s') from if_neg h]
      exact ⟨hR, trivial, .ub⟩
  refresh := by
    rintro s s' d d' p q hR ⟨u, v, h⟩
    refine ⟨hR, trivial, .ok ⟨u, v, ⟨h.hu, h.hv, h.dir, ⟨h.val.X, h.val.hx, h.val.ek, h.val.fn, h.val.mu⟩, h.ul⟩,
      q.ek, rfl, ?_⟩⟩
    show (fun k => makeDiag (p.ek k)) = fun k => makeDiag (reordered v.order q.ek k)
    rw [h.val.ek]
  gather := fun hR _ => ⟨hR, trivial, .ok trivial⟩
  hostPrint := by
    rintro s s' ⟨a, σ, hv, hR, hσ⟩
    have := orderCall_two hv hR (.same .print) (fun h => hσ (settled_print.1 h)) (H.print hR.R)
    show Out _ _ s (hostCall .print host'.print s) (hostCall .print host.print s')
    generalize hostCall .print host'.print s = x at *
    generalize hostCall .print host.print s' = y at *
    cases this with
    | ok h1 h2 => exact ⟨⟨a, σ, hv, h2.1, fun h => hσ (settled_print.1 (h2.2.1 ▸ h))⟩, trivial, .ok trivial⟩
    | throw h => exact ⟨h, trivial, .throw _⟩
    | ub h => exact ⟨h, trivial, .ub⟩
    | abort h => exact ⟨h, trivial, .abort⟩
  getF := by rintro s s' ⟨a, σ, hv, hR, -⟩; exact hR.F
  getS := by rintro s s' ⟨a, σ, hv, hR, -⟩; exact hR.S

end Nlcg
