import Verif.Proofs.GaugeSimple
import Verif.Proofs.Shell
import Verif.Proofs.Spmd

/-! A first step that leads to a point with two equal pseudo-energies. -/

namespace Nlcg
open Spec Matrix ComplexOrder

/-! ## LAPACKs that differ in the eigenvectors of the zero matrix -/

open Classical in
noncomputable def ofZero (la : Lapack) (W : (n : ℕ) → Mat n n) : Lapack :=
  { la with heevd := fun {n} A => if A = 0 then ((0, W n), 0) else la.heevd A }

theorem ofZero_zero (la : Lapack) (W : (n : ℕ) → Mat n n) (n : ℕ) : (ofZero la W).heevd (0 : Mat n n) = ((0, W n), 0) :=
  if_pos rfl

theorem ofZero_else (la : Lapack) (W : (n : ℕ) → Mat n n) {n : ℕ} {A : Mat n n} (h : A ≠ 0) :
    (ofZero la W).heevd A = la.heevd A := if_neg h

theorem ofZero_total {la : Lapack} (h : EighTotal la) (W : (n : ℕ) → Mat n n) : EighTotal (ofZero la W) := fun A hA => by
  by_cases h0 : A = 0
  · subst h0; rw [ofZero_zero]
  · rw [ofZero_else _ _ h0]; exact h A hA

theorem ofZero_sorted {la : Lapack} (h : EighSorted la) (W : (n : ℕ) → Mat n n) : EighSorted (ofZero la W) :=
  fun A hA => by
  by_cases h0 : A = 0
  · subst h0; rw [ofZero_zero]; exact monotone_const
  · rw [ofZero_else _ _ h0]; exact h A hA

theorem ofZero_ok {la : Lapack} (h : LapackOk la) {W : (n : ℕ) → Mat n n} (hW : ∀ n, Uni (W n)) :
    LapackOk (ofZero la W) where
  chol := h.chol
  solve := h.solve
  eigen {m} A hA hi := by
    by_cases h0 : A = 0
    · subst h0
      rw [ofZero_zero]
      refine ⟨hW _, ?_⟩
      have : (diagonal fun i => (((0 : Fin m → ℝ) i : ℝ) : ℂ)) = (0 : Mat m m) := by
        ext i j; by_cases hij : i = j <;> simp [hij]
      rw [this, Matrix.zero_mul, Matrix.mul_zero]
    · rw [ofZero_else _ _ h0] at hi ⊢
      exact h.eigen A hA hi

/-- the identity, but a rotation by 45 degrees for two bands -/
noncomputable def turn : (n : ℕ) → Mat n n
  | 2 => ((√2)⁻¹ : ℂ) • !![1, -1; 1, 1]
  | _ => 1

theorem turn_uni (n : ℕ) : Uni (turn n) := by
  unfold turn
  split
  · have h : ((√2 : ℝ) : ℂ) * (√2 : ℝ) = 2 := by
      rw [← Complex.ofReal_mul, Real.mul_self_sqrt (by norm_num)]; norm_num
    have h2 : ((√2 : ℝ) : ℂ)⁻¹ * ((√2 : ℝ) : ℂ)⁻¹ = 1 / 2 := by rw [← mul_inv, h]; norm_num
    rw [Uni, conjTranspose_smul, smul_mul_smul_comm]
    rw [show star ((√2 : ℝ) : ℂ)⁻¹ = ((√2 : ℝ) : ℂ)⁻¹ by
      rw [Complex.star_def, map_inv₀, Complex.conj_ofReal], h2]
    ext i j
    fin_cases i <;> fin_cases j <;> simp [mul_apply, Fin.sum_univ_two] <;> norm_num
  · simp [Uni]

/-! ## The system -/

abbrev tieN : Fin 1 → ℕ := fun _ => 3
abbrev tieB : Fin 1 → ℕ := fun _ => 2

noncomputable def tieH : (k : Fin 1) → Mat (tieN k) (tieN k) := fun _ => (!![0, 0, 1; 0, 0, 0; 1, 0, 0] : Mat 3 3)

theorem tieH_herm (k : Fin 1) : (tieH k).IsHermitian := by
  ext i j
  fin_cases i <;> fin_cases j <;> simp [tieH]

noncomputable def tieCfg (la : Lapack) : Cfg tieN tieB :=
  { la := la, t := .gauss, T := 300, kappa := 3 / 10, mo := 2, wk := fun _ => 1,
    S := fun _ => 1, P := fun _ => 1, occ := fun ek => .ok (0, occs .gauss 300 2 ek 0), junk := fun _ => 0 }

noncomputable def tieHost : Host (LState tieN tieB) tieN tieB := linearHost tieH fun _ => 1

/-- two bands, at the first two unit vectors -/
noncomputable def tieX : Mat 3 2 := !![1, 0; 0, 1; 0, 0]

noncomputable def tieStart : SState (LState tieN tieB) tieN tieB :=
  { h := { C := fun _ => tieX, hphi := fun _ => 0, fn := fun _ _ => 0, ek := fun _ _ => 0, mu := 0 },
    F := 0, S := 0, calls := [] }

theorem tie_setting {la : Lapack} (h : LapackOk la) : Setting tieHost (tieCfg la) where
  host := linearHost_ok _ tieH_herm _
  lapack := h
  overlap := fun _ => PosSemidef.one
  prec := fun _ => PosDef.one
  weights := fun _ => one_pos
  occ := by rintro ek mu f ⟨⟩; rfl

theorem tie_start (la : Lapack) : SStart tieHost (tieCfg la) tieStart := by
  refine ⟨rfl, fun k => ?_⟩
  show tieXᴴ * ((1 : Mat 3 3) * tieX) = 1
  ext i j; fin_cases i <;> fin_cases j <;> simp [tieX, mul_apply, Fin.sum_univ_three]

theorem tie_block : tieXᴴ * (tieH 0 * tieX) = 0 := by
  ext i j; fin_cases i <;> fin_cases j <;> simp [tieX, tieH, mul_apply, Fin.sum_univ_three]

/-- the orbitals after a step of length `t`, before they are made orthonormal -/
noncomputable def tieY (t : ℝ) : Mat 3 2 := tieX + (t : ℂ) • -(tieH 0 * tieX)

theorem tieY_eq (t : ℝ) : tieY t = !![1, 0; 0, 1; -(t : ℂ), 0] := by
  ext i j; fin_cases i <;> fin_cases j <;> simp [tieY, tieX, tieH, mul_apply, Fin.sum_univ_three]

theorem tieY_overlap (t : ℝ) : (tieY t)ᴴ * ((1 : Mat 3 3) * tieY t) = makeDiag ![1 + t ^ 2, 1] := by
  rw [tieY_eq]
  ext i j
  fin_cases i <;> fin_cases j <;> simp [makeDiag, mul_apply, Fin.sum_univ_three]
  ring

/-- the orbitals after the step -/
noncomputable def tieL (t : ℝ) : Mat 3 2 := tieY t * makeDiag (loewdinAux ![1 + t ^ 2, 1])

theorem tie_loewdin {la : Lapack} (hla : LapackOk la) (ht : EighTotal la) (t : ℝ) :
    loewdin la (tieY t) ((1 : Mat 3 3) * tieY t) = .ok (tieL t) := by
  have hA := makeDiag_hermitian ![1 + t ^ 2, 1]
  rw [← tieY_overlap] at hA
  obtain ⟨w, U, h⟩ := eigh_total ht hA
  obtain ⟨hu, ha⟩ := hla.eigh hA h
  obtain ⟨Y, hY⟩ := loewdin_ok h
  obtain ⟨w', U', h', rfl⟩ := loewdin_inv hY
  rw [h] at h'
  simp only [Res.ok.injEq, Prod.mk.injEq] at h'
  obtain ⟨rfl, rfl⟩ := h'
  rw [hY, tieL]
  congr 2
  rw [tieY_overlap] at ha
  have := rotate_apply ha (fun x => 1 / √x)
  rw [invSqrt, rdiag, makeDiag_eq]
  rw [show (diagonal fun i => (loewdinAux w i : ℂ)) = diagonal fun i => ((1 / √(w i) : ℝ) : ℂ) from rfl, ← this,
    Matrix.mul_assoc, mul_eq_one_comm.1 hu, Matrix.mul_one]
  rfl

/-- the Hamiltonian between the orbitals after the step -/
noncomputable def tieM (t : ℝ) : ℝ := -2 * t / (1 + t ^ 2)

theorem tieL_block (t : ℝ) : (tieL t)ᴴ * (tieH 0 * tieL t) = makeDiag ![tieM t, 0] := by
  have h1 : (tieY t)ᴴ * (tieH 0 * tieY t) = makeDiag ![-2 * t, 0] := by
    rw [tieY_eq]
    ext i j
    fin_cases i <;> fin_cases j <;> simp [makeDiag, tieH, mul_apply, Fin.sum_univ_three]
    ring
  have hp : (0 : ℝ) < 1 + t ^ 2 := by positivity
  have hs : (√(1 + t ^ 2) : ℝ) * √(1 + t ^ 2) = 1 + t ^ 2 := Real.mul_self_sqrt hp.le
  rw [tieL, conjTranspose_mul, (makeDiag_hermitian _).eq, Matrix.mul_assoc, ← Matrix.mul_assoc (tieH 0),
    ← Matrix.mul_assoc (tieY t)ᴴ, h1]
  rw [makeDiag_eq, makeDiag_eq, makeDiag_eq, diagonal_mul_diagonal, diagonal_mul_diagonal]
  congr 1
  funext i
  rw [← Complex.ofReal_mul, ← Complex.ofReal_mul, Complex.ofReal_inj]
  have := Real.sqrt_pos.2 hp
  fin_cases i
  · show 1 / √(1 + t ^ 2) * (-2 * t * (1 / √(1 + t ^ 2))) = tieM t
    rw [tieM]
    generalize √(1 + t ^ 2) = q at *
    rw [← hs]
    field_simp
  · show 1 / √1 * (0 * (1 / √1)) = 0
    simp

theorem tieL_ortho (t : ℝ) : SOrtho (1 : Mat 3 3) (tieL t) :=
  loewdin_sortho refLapack_ok (by
    rw [tieY_overlap, makeDiag_eq]
    refine PosDef.diagonal fun i => ?_
    fin_cases i
    · simp only [Fin.zero_eta, cons_val_zero]
      exact_mod_cast (by positivity : (0 : ℝ) < 1 + t ^ 2)
    · simp) (tie_loewdin refLapack_ok refLapack_total t)

/-! ## The slope after the step -/

/-- band energies of orbitals -/
noncomputable def tieEk (X : Mat 3 2) : Bands tieB := fun _ i => ((Xᴴ * (tieH 0 * X)) i i).re

/-- occupations of two levels at the chemical potential -/
noncomputable def tieF : Bands tieB := occs .gauss 300 2 (fun _ _ => 0) 0

/-- the host after an evaluation -/
noncomputable def tieState (X : Mat 3 2) : LState tieN tieB :=
  { C := fun _ => X, hphi := fun _ => tieH 0 * X, fn := tieF, ek := tieEk X, mu := 0 }

noncomputable def tieS : ℝ := entropyTerm .gauss 300 2 0 (List.ofFn fun k : Fin 1 => ((1 : ℝ), List.ofFn fun _ : Fin (tieB k) => (0 : ℝ)))

noncomputable def tieEnergy (X : Mat 3 2) : ℝ := linearEnergy (b := tieB) tieH (fun _ => 1) (fun _ => X) tieF

theorem tie_fin1 {α : Fin 1 → Type} (f : (k : Fin 1) → α k) (g : (k : Fin 1) → α k) (h : f 0 = g 0) : f = g :=
  funext fun k => by rw [Subsingleton.elim k 0]; exact h

theorem tie_evaluate (la : Lapack) (X : Mat 3 2) (s : SState (LState tieN tieB) tieN tieB) :
    ∃ cs, evaluate tieHost (tieCfg la) (fun _ => X) tieF (fun _ _ => 0) 0 s
      = (.ok (), { h := tieState X, F := tieEnergy X + tieS, S := tieS, calls := cs }) := by
  obtain ⟨t, h1, h2, h3, h4⟩ := evaluate_of (host := tieHost) (c := tieCfg la) (X := fun _ => X) (fn := tieF)
    (en := fun _ _ => 0) (mu := 0) (s := s) rfl rfl rfl rfl rfl
  refine ⟨t.calls, h1.trans ?_⟩
  have e1 : t.h = tieState X := h2
  have e2 : t.S = tieS := h3
  have e3 : t.F = tieEnergy X + t.S := h4
  rw [← e1, ← e2, ← e3]

noncomputable def tiePoint (X : Mat 3 2) (U : Mat 2 2) (hx : Mat 3 2) : Point tieN tieB :=
  { X := fun _ => X, ek := fun _ _ => 0, ul := fun _ => U, eta := fun _ => makeDiag fun _ => 0, fn := tieF,
    hx := fun _ => hx, mu := 0 }

theorem tieEk_start : tieEk tieX = fun _ _ => 0 := by
  funext k i
  rw [tieEk, tie_block]
  rfl

theorem tie_setup (la : Lapack) :
    ∃ cs, solverSetup tieHost (tieCfg la) tieStart
      = (.ok (tiePoint tieX 0 (tieH 0 * tieX)),
          { h := tieState tieX, F := tieEnergy tieX + tieS, S := tieS, calls := cs }) := by
  set s1 : SState (LState tieN tieB) tieN tieB :=
    ⟨⟨fun _ => tieX, fun _ => tieH 0 * tieX, fun _ _ => 0, tieEk tieX, 0⟩, 0, 0, [HostCall.compute]⟩ with hs1
  have h1 : solverSetup tieHost (tieCfg la) tieStart
      = (evaluate tieHost (tieCfg la) (fun _ => tieX) (occs .gauss 300 2 (tieEk tieX) 0) (tieEk tieX) 0 >>= fun _ => do
          let s ← SM.get
          pure { X := tieHost.C s.h, ek := tieEk tieX, ul := fun _ => 0, eta := fun k => makeDiag (tieEk tieX k),
                 fn := occs .gauss 300 2 (tieEk tieX) 0, hx := tieHost.hphi s.h, mu := 0 }) s1 := rfl
  obtain ⟨cs, h2⟩ := tie_evaluate la tieX s1
  rw [tieEk_start] at h1
  refine ⟨cs, ?_⟩
  rw [h1, SM.bind_apply]
  change evaluate tieHost (tieCfg la) (fun _ => tieX) (occs .gauss 300 2 (fun _ _ => 0) 0) (fun _ _ => 0) 0 _ = _ at h2
  rw [h2]
  rfl

theorem tie_lmult (la : Lapack) (hla : LapackOk la) : lmult la ((1 : Mat 3 3) * tieX) (tieH 0 * tieX) 1 = 0 := by
  have h1 : tieXᴴ * tieX = 1 := by
    ext i j; fin_cases i <;> fin_cases j <;> simp [tieX, mul_apply, Fin.sum_univ_three]
  have h2 := hla.solveSym (1 : Mat 2 2) (0 : Mat 2 2) PosDef.one
  rw [Matrix.one_mul] at h2
  simp only [lmult, innerM_one, transformM, Matrix.one_mul, h1, tie_block, h2, Matrix.mul_zero]

/-- the first direction -/
theorem tie_dir {la : Lapack} (hla : LapackOk la) (s : SState (LState tieN tieB) tieN tieB) :
    ∃ a, solverRestarted tieHost (tieCfg la) (tiePoint tieX 0 (tieH 0 * tieX)) s
      = (.ok (a, { zx := fun _ => -(tieH 0 * tieX), zeta := fun _ => 0 }), s) := by
  refine ⟨(restarted la (dirParams (tieCfg la) (tiePoint tieX 0 (tieH 0 * tieX)))
    (kIn tieHost (tieCfg la) (tiePoint tieX 0 (tieH 0 * tieX)) s.h)).1, ?_⟩
  rw [solverRestarted, SM.get_bind, SM.pure_apply]
  refine Prod.ext (congrArg Res.ok (Prod.ext rfl ?_)) rfl
  simp only [restarted, Dir.mk.injEq]
  refine ⟨funext fun k => ?_, funext fun k => ?_⟩
  · show precondgxUs (tieH 0 * tieX) 1 (lmult la ((1 : Mat 3 3) * tieX) (tieH 0 * tieX) 1) = -(tieH 0 * tieX)
    rw [tie_lmult la hla]
    simp [precondgxUs, addM]
  · show deltaEta _ (innerM tieX (tieH 0 * tieX) _) _ _ = 0
    ext i j
    simp [deltaEta, innerM, tie_block, tiePoint, kIn]

theorem tie_geo {la : Lapack} (hla : LapackOk la) (ht : EighTotal la) {W : Mat 2 2}
    (h0 : la.heevd (0 : Mat 2 2) = ((0, W), 0)) (t : ℝ) (s : SState (LState tieN tieB) tieN tieB) :
    ∃ cs, solverGeo tieHost (tieCfg la) (tiePoint tieX 0 (tieH 0 * tieX))
        { zx := fun _ => -(tieH 0 * tieX), zeta := fun _ => 0 } t s
      = (.ok (tiePoint (tieL t * W) W (tieH 0 * tieX)),
          ⟨tieState (tieL t * W), tieEnergy (tieL t * W) + tieS, tieS, cs⟩) := by
  have hd : makeDiag (fun _ : Fin 2 => (0 : ℝ)) = 0 := by ext i j; simp [makeDiag]
  have hg : geodesicUs la tieX (makeDiag fun _ : Fin 2 => (0 : ℝ)) (-(tieH 0 * tieX)) 0 (1 : Mat 3 3) t
      = .ok ⟨fun _ => 0, W, tieL t * W⟩ := by
    have h1 : advanceEta t (makeDiag fun _ : Fin 2 => (0 : ℝ)) 0 = 0 := by simp [advanceEta, addM, hd]
    have h2 : la.eigh (0 : Mat 2 2) = .ok (0, W) := by rw [eigh_eq ht isHermitian_zero, h0]
    rw [geodesicUs, h1, h2]
    simp only [Res.bind_ok]
    have h3 : addM tieX (-(tieH 0 * tieX)) (t : ℂ) = tieY t := by rw [addM_one, tieY]
    rw [advanceX, h3, tie_loewdin hla ht]
    rfl
  have hf : forAllK (fun k : Fin 1 => geodesicUs la ((tiePoint tieX 0 (tieH 0 * tieX)).X k)
      ((tiePoint tieX 0 (tieH 0 * tieX)).eta k) (-(tieH 0 * tieX)) 0 (1 : Mat 3 3) t)
      = .ok fun _ => ⟨fun _ => 0, W, tieL t * W⟩ := forAllK_eq_ok fun k => hg
  obtain ⟨cs, h2⟩ := tie_evaluate la (tieL t * W) s
  refine ⟨cs, ?_⟩
  rw [solverGeo, SM.lift_bind]
  rw [show (forAllK fun k => geodesicUs (tieCfg la).la ((tiePoint tieX 0 (tieH 0 * tieX)).X k)
      ((tiePoint tieX 0 (tieH 0 * tieX)).eta k) (-(tieH 0 * tieX)) 0 ((tieCfg la).S k) t) = .ok _ from hf]
  show (evaluate tieHost (tieCfg la) (fun _ => tieL t * W) tieF (fun _ _ => 0) 0 >>= fun _ => pure _) s = _
  rw [SM.bind_apply, h2]
  rfl

/-- what the direction code gets at the new point -/
noncomputable def tieK (t : ℝ) (W : Mat 2 2) (k : Fin 1) : KIn (tieN k) (tieB k) :=
  { X := tieL t * W, hx := tieH 0 * (tieL t * W), e := fun _ => 0, f := tieF 0, hii := tieEk (tieL t * W) 0,
    S := (1 : Mat 3 3), P := (1 : Mat 3 3), wk := 1 }

theorem tie_slope {la : Lapack} (hla : LapackOk la) (ht : EighTotal la) {W : Mat 2 2}
    (h0 : la.heevd (0 : Mat 2 2) = ((0, W), 0)) (t : ℝ) :
    ∃ u, slopeAfter tieHost (tieCfg la) t tieStart
        = (.ok (restarted la { t := .gauss, T := 300, kappa := 3 / 10, mo := 2, mu := 0 } (tieK t W)).1, u) ∧
      u.F = tieEnergy (tieL t * W) + tieS := by
  obtain ⟨c1, h1⟩ := tie_setup la
  obtain ⟨a, h2⟩ := tie_dir hla ⟨tieState tieX, tieEnergy tieX + tieS, tieS, c1⟩
  obtain ⟨c3, h3⟩ := tie_geo hla ht h0 t ⟨tieState tieX, tieEnergy tieX + tieS, tieS, c1⟩
  refine ⟨⟨tieState (tieL t * W), tieEnergy (tieL t * W) + tieS, tieS, c3⟩, ?_, rfl⟩
  rw [slopeAfter, SM.bind_apply, h1]
  simp only
  rw [SM.bind_apply, h2]
  simp only
  rw [SM.bind_apply, h3]
  rfl

/-- the slope depends on the choice of eigenvectors through the diagonal of the Hamiltonian only -/
theorem tie_value {la : Lapack} (hla : LapackOk la) {W : Mat 2 2} (hW : Uni W) (t : ℝ) :
    (restarted la { t := .gauss, T := 300, kappa := 3 / 10, mo := 2, mu := 0 } (tieK t W)).1
      = -(2 * (tieF 0 0 * (trace ((tieH 0 * tieL t - lmult refLapack (tieL t) (tieH 0 * tieL t) 1)ᴴ
            * (tieH 0 * tieL t - lmult refLapack (tieL t) (tieH 0 * tieL t) 1))).re)
          + 3 / 10 / (kB * 300) * (gaussDelta 0 2
            * ((tieEk (tieL t * W) 0 0 - tieEk (tieL t * W) 0 1) ^ 2 / 2))) := by
  have hphys : ∀ k, Physical (tieK t W k) (tieH k) := fun k => by
    refine ⟨tieH_herm k, rfl, fun i => ?_, (sOrtho_uni hW).2 (tieL_ortho t), PosDef.one, one_pos⟩
    have hm : ((tieL t * W)ᴴ * (tieH 0 * (tieL t * W))).IsHermitian := by
      rw [← Matrix.mul_assoc]; exact isHermitian_conjTranspose_mul_mul _ (tieH_herm 0)
    exact hm.coe_re_apply_self i
  have hG : (tieH 0 * (tieL t * W)) - lmult la ((1 : Mat 3 3) * (tieL t * W)) (tieH 0 * (tieL t * W)) 1
      = (tieH 0 * tieL t - lmult refLapack (tieL t) (tieH 0 * tieL t) 1) * W := by
    have hi := sx_injective (tieL_ortho t)
    rw [Matrix.one_mul] at hi
    rw [Matrix.one_mul, Matrix.sub_mul, ← lmult_uni hW refLapack_ok hla PosDef.one hi, Matrix.mul_assoc]
  rw [restarted_slope hla _ (by simp) (tieK t W) tieH hphys]
  set G := tieH 0 * tieL t - lmult refLapack (tieL t) (tieH 0 * tieL t) 1 with hGd
  have hx : ∑ k, 2 * ((tieK t W k).wk * ∑ j, (tieK t W k).f j
        * ((((tieK t W k).hx - lmult la ((tieK t W k).S * (tieK t W k).X) (tieK t W k).hx (tieK t W k).P)ᴴ * (tieK t W k).P
            * ((tieK t W k).hx - lmult la ((tieK t W k).S * (tieK t W k).X) (tieK t W k).hx (tieK t W k).P)) j j).re)
      = 2 * (tieF 0 0 * (trace (Gᴴ * G)).re) := by
    rw [Fin.sum_univ_one]
    show 2 * (1 * ∑ j : Fin 2, tieF 0 0 * (((tieH 0 * (tieL t * W) - lmult la ((1 : Mat 3 3) * (tieL t * W))
      (tieH 0 * (tieL t * W)) 1)ᴴ * (1 : Mat 3 3) * (tieH 0 * (tieL t * W) - lmult la ((1 : Mat 3 3) * (tieL t * W))
      (tieH 0 * (tieL t * W)) 1)) j j).re) = _
    rw [hG, ← Finset.mul_sum, one_mul, Matrix.mul_one]
    congr 2
    rw [← Complex.re_sum]
    show (trace ((G * W)ᴴ * (G * W))).re = _
    rw [conjTranspose_mul, Matrix.mul_assoc, trace_mul_comm, Matrix.mul_assoc, Matrix.mul_assoc, hW.right, Matrix.mul_one]
  have hq : ∑ k, (3 / 10 : ℝ) * (tieK t W k).wk * ∑ j, ∑ i, (if i = j then 0 else
          -quot (tieK t W k).e (tieK t W k).f i j * Complex.normSq (((tieK t W k).Xᴴ * (tieK t W k).hx) i j)) = 0 := by
    refine Finset.sum_eq_zero fun k _ => ?_
    rw [Finset.sum_eq_zero, mul_zero]
    refine fun j _ => Finset.sum_eq_zero fun i _ => ?_
    have : quot (tieK t W k).e (tieK t W k).f i j = 0 := by
      rw [quot, if_pos]
      show |(0 : ℝ) - 0| < _
      norm_num
    rw [this]
    simp
  have hδ : (0 : ℝ) < gaussDelta 0 2 := by
    rw [gaussDelta]; positivity
  have hδ' : (1 : ℝ) ≤ gaussDelta 0 2 := by
    have h1 : √Real.pi ≤ 2 := by
      rw [show (2 : ℝ) = √4 by rw [show (4 : ℝ) = 2 ^ 2 by norm_num, Real.sqrt_sq (by norm_num)]]
      exact Real.sqrt_le_sqrt Real.pi_le_four
    rw [gaussDelta, le_div_iff₀ (Real.sqrt_pos.2 Real.pi_pos)]
    simpa using h1
  have hds : deltaSum .gauss 300 2 (fun k => (tieK t W k).wk) (fun k => (tieK t W k).e) 0 = 2 * gaussDelta 0 2 := by
    rw [deltaSum, Fin.sum_univ_one]
    show 1 * ∑ i : Fin 2, gaussDelta ((0 - 0) / (kB * 300)) 2 = _
    simp [Fin.sum_univ_two]
  have hsh : shift .gauss 300 2 (fun k => (tieK t W k).wk) (fun k => (tieK t W k).hii) (fun k => (tieK t W k).e) 0
      = (tieEk (tieL t * W) 0 0 + tieEk (tieL t * W) 0 1) / 2 := by
    rw [shift, hds, if_neg, Fin.sum_univ_one]
    · show 1 * (∑ i : Fin 2, gaussDelta ((0 - 0) / (kB * 300)) 2 * (tieEk (tieL t * W) 0 i - 0)) / _ = _
      rw [Fin.sum_univ_two]
      simp only [sub_zero, zero_div, one_mul]
      field_simp
    · rw [abs_of_pos (by positivity)]
      have : (1 : ℝ) / 10 ^ 12 < 1 := by norm_num
      linarith
  have hd : ∑ k, (tieK t W k).wk * ∑ i, (smearFns .gauss).delta ((0 - (tieK t W k).e i) / (kB * 300)) 2
          * ((tieK t W k).hii i - (tieK t W k).e i
            - shift .gauss 300 2 (fun k => (tieK t W k).wk) (fun k => (tieK t W k).hii) (fun k => (tieK t W k).e) 0) ^ 2
      = gaussDelta 0 2 * ((tieEk (tieL t * W) 0 0 - tieEk (tieL t * W) 0 1) ^ 2 / 2) := by
    rw [hsh, Fin.sum_univ_one]
    show 1 * (∑ i : Fin 2, gaussDelta ((0 - 0) / (kB * 300)) 2 * (tieEk (tieL t * W) 0 i - 0 - _) ^ 2) = _
    rw [Fin.sum_univ_two]
    simp only [sub_zero, zero_div, one_mul]
    ring
  refine congrArg Neg.neg ?_
  rw [hx, hq, hd, add_zero]

theorem tieEk_one (t : ℝ) : tieEk (tieL t * (1 : Mat 2 2)) 0 0 = tieM t ∧ tieEk (tieL t * (1 : Mat 2 2)) 0 1 = 0 := by
  unfold tieEk
  rw [Matrix.mul_one, tieL_block]
  simp [makeDiag]

theorem tieEk_turn (t : ℝ) : tieEk (tieL t * turn 2) 0 0 = tieEk (tieL t * turn 2) 0 1 := by
  have h : (tieL t * turn 2)ᴴ * (tieH 0 * (tieL t * turn 2)) = (turn 2)ᴴ * (makeDiag ![tieM t, 0] * turn 2) := by
    rw [← tieL_block, conjTranspose_mul]
    simp only [Matrix.mul_assoc]
  unfold tieEk
  rw [h]
  simp [turn, makeDiag_eq, mul_apply, Fin.sum_univ_two, diagonal]

/-- the energy does not depend on the choice of eigenvectors -/
theorem tieEnergy_uni {W : Mat 2 2} (hW : Uni W) (X : Mat 3 2) : tieEnergy (X * W) = tieEnergy X := by
  have hf : (diagonal fun i => (tieF 0 i : ℂ)) = ((tieF 0 0 : ℝ) : ℂ) • (1 : Mat 2 2) := by
    rw [smul_one_eq_diagonal]
    rfl
  rw [tieEnergy, tieEnergy, linearEnergy, linearEnergy, Fin.sum_univ_one, Fin.sum_univ_one]
  show 1 * (trace (tieH 0 * (X * W * (diagonal fun i => (tieF 0 i : ℂ)) * (X * W)ᴴ))).re
    = 1 * (trace (tieH 0 * (X * (diagonal fun i => (tieF 0 i : ℂ)) * Xᴴ))).re
  have : X * W * (W ᴴ * Xᴴ) = X * Xᴴ := by
    rw [Matrix.mul_assoc, ← Matrix.mul_assoc W, hW.right, Matrix.one_mul]
  rw [hf]
  simp only [Matrix.mul_smul, Matrix.smul_mul, Matrix.mul_one, conjTranspose_mul, this]

end Nlcg
