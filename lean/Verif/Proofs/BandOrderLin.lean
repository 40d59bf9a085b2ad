import Verif.Spec.BandOrder
import Verif.Proofs.GaugeLin

/-! Bands in another order, one k-point. -/

namespace Nlcg
open Matrix Spec ComplexOrder

variable {N B : ℕ}

/-- `X * arr σ v`: the columns of `X` in the order `σ`, with phases -/
def arr (σ : Equiv.Perm (Fin B)) (v : Fin B → ℂ) : Mat B B := fun i j => if i = σ j then v j else 0

variable {σ : Equiv.Perm (Fin B)} {v : Fin B → ℂ}

theorem mul_arr (A : Mat N B) (i : Fin N) (j : Fin B) : (A * arr σ v) i j = A i (σ j) * v j := by
  rw [Matrix.mul_apply, Finset.sum_eq_single (σ j)]
  · simp [arr]
  · intro k _ hk
    simp [arr, hk]
  · simp

theorem arrH_mul (A : Mat B N) (i : Fin B) (j : Fin N) : ((arr σ v)ᴴ * A) i j = star (v i) * A (σ i) j := by
  rw [Matrix.mul_apply, Finset.sum_eq_single (σ i)]
  · simp [arr]
  · intro k _ hk
    simp [arr, hk]
  · simp

theorem arr_apply (A : Mat B B) (i j : Fin B) :
    ((arr σ v)ᴴ * A * arr σ v) i j = star (v i) * A (σ i) (σ j) * v j := by
  rw [mul_arr, arrH_mul]

theorem uni_arr (hv : ∀ i, ‖v i‖ = 1) : Uni (arr σ v) := by
  ext i j
  rw [arrH_mul, arr]
  by_cases h : i = j
  · subst h
    rw [if_pos rfl, one_apply_eq, phase_star hv]
  · rw [one_apply_ne h, if_neg (fun e => h (σ.injective e)), mul_zero]

theorem arr_one (v : Fin B → ℂ) : arr 1 v = diagonal v := by
  ext i j
  by_cases h : i = j
  · subst h; simp [arr]
  · simp [arr, h]

theorem scaleCols_arr (A : Mat N B) (x : Fin B → ℝ) (a : ℝ) :
    scaleCols (A * arr σ v) (fun i => x (σ i)) a = scaleCols A x a * arr σ v := by
  ext i j
  simp only [scaleCols, mul_arr]
  ring

theorem gradx_arr (hx : Mat N B) (f : Fin B → ℝ) (xll : Mat N B) (wk : ℝ) :
    gradx (hx * arr σ v) (fun i => f (σ i)) (xll * arr σ v) wk = gradx hx f xll wk * arr σ v := by
  simp only [gradx, scaleCols_arr, addM, Matrix.add_mul, Matrix.smul_mul]

theorem makeDiag_arr (hv : ∀ i, star (v i) * v i = 1) (e : Fin B → ℝ) :
    (arr σ v)ᴴ * makeDiag e * arr σ v = makeDiag fun i => e (σ i) := by
  ext i j
  rw [arr_apply]
  by_cases h : i = j
  · subst h
    rw [mul_right_comm, hv, one_mul]
    simp [makeDiag]
  · simp [makeDiag, h, σ.injective.eq_iff]

theorem gEta_arr (hv : ∀ i, star (v i) * v i = 1) (sf : SmearFns ℝ) (T : ℝ) (hij : Mat B B) (mu wk : ℝ)
    (ek fn : Fin B → ℝ) (dmu dF mo : ℝ) :
    gEta sf T ((arr σ v)ᴴ * hij * arr σ v) mu wk (fun i => ek (σ i)) (fun i => fn (σ i)) dmu dF mo
      = (arr σ v)ᴴ * gEta sf T hij mu wk ek fn dmu dF mo * arr σ v := by
  ext i j
  rw [arr_apply]
  have h0 : ∀ x : ℂ, star (v i) * x * v i = x := fun x => by rw [mul_right_comm, hv, one_mul]
  by_cases h : i = j
  · subst h
    simp only [gEta, arr_apply, h0]
  · simp only [gEta, arr_apply, h, σ.injective.eq_iff, if_false]
    split_ifs
    · ring
    · ring

theorem deltaEta_arr (hv : ∀ i, star (v i) * v i = 1) (kappa : ℝ) (hij : Mat B B) (ek : Fin B → ℝ) (wk : ℝ) :
    deltaEta kappa ((arr σ v)ᴴ * hij * arr σ v) (fun i => ek (σ i)) wk
      = (arr σ v)ᴴ * deltaEta kappa hij ek wk * arr σ v := by
  ext i j
  rw [arr_apply]
  have h0 : ∀ x : ℂ, star (v i) * x * v i = x := fun x => by rw [mul_right_comm, hv, one_mul]
  by_cases h : i = j
  · subst h
    simp only [deltaEta, arr_apply, h0]
  · simp only [deltaEta, arr_apply, h, σ.injective.eq_iff, if_false]
    ring

/-- the direction code with bands in another order -/
theorem execSpc_arr {la : Lapack} (hla : LapackOk la) (hv : ∀ i, ‖v i‖ = 1) (p : DirParams)
    (dF sumfn : ℝ) (i : KIn N B) (hii : Fin B → ℝ) (ho : SOrtho i.S i.X) (hP : i.P.PosDef) :
    execSpc la p dF sumfn ⟨i.X * arr σ v, i.hx * arr σ v, fun j => i.e (σ j), fun j => i.f (σ j), hii, i.S, i.P, i.wk⟩
      = ⟨(execSpc la p dF sumfn i).fr, (execSpc la p dF sumfn i).gx * arr σ v,
          (arr σ v)ᴴ * (execSpc la p dF sumfn i).geta * arr σ v, (execSpc la p dF sumfn i).dx * arr σ v,
          (arr σ v)ᴴ * (execSpc la p dF sumfn i).deta * arr σ v⟩ := by
  have hV := uni_arr (σ := σ) hv
  have e1 : i.S * (i.X * arr σ v) = i.S * i.X * arr σ v := (Matrix.mul_assoc _ _ _).symm
  have e2 : innerM (i.X * arr σ v) (i.hx * arr σ v) (i.wk : ℂ)
      = (arr σ v)ᴴ * innerM i.X i.hx (i.wk : ℂ) * arr σ v := by
    simp only [innerM, conjTranspose_mul, Matrix.mul_smul, Matrix.smul_mul, Matrix.mul_assoc]
  have e3 : ∀ A B : Mat _ _, innerhTr ((arr σ v)ᴴ * A * arr σ v) ((arr σ v)ᴴ * B * arr σ v) = innerhTr A B :=
    fun A B => by rw [innerhTr_uni hV, innerhTr_uni2 hV]
  simp only [execSpc, e1, e2, lmult_uni hV hla hla hP (sx_injective ho), gradx_arr, precondgxUs_uni,
    gEta_arr (phase_star hv), deltaEta_arr (phase_star hv), e3, innerhTr_uni hV]

theorem execConjugate_uni {la : Lapack} (hla : LapackOk la) {V W : Mat B B} (hV : Uni V) (hW : Uni W)
    {sx : Mat N B} (hs : Function.Injective sx.mulVec) (z : Mat N B) (zeta ul : Mat B B)
    (gx : Mat N B) (geta : Mat B B) :
    execConjugate la (sx * W) (z * V) (Vᴴ * zeta * V) (Vᴴ * ul * W) (gx * W) (Wᴴ * geta * W)
      = ((execConjugate la sx z zeta ul gx geta).1, (execConjugate la sx z zeta ul gx geta).2.1 * W,
          Wᴴ * (execConjugate la sx z zeta ul gx geta).2.2 * W) := by
  simp only [execConjugate, rotatex_uni hV, rotateeta_uni hV, conjugatex_uni hW hla hla _ hs, innerhTr_uni hW,
    innerhTr_uni2 hW]

/-- a step from orbitals and pseudo-Hamiltonian in another basis of the bands -/
theorem geodesicUs_uni {la : Lapack} (hla : LapackOk la) (ht : EighTotal la) (hs : EighSorted la) {V : Mat B B}
    (hV : Uni V) {S : Mat N N} (hS : S.IsHermitian) (X zx : Mat N B) {eta zeta : Mat B B} (he : eta.IsHermitian)
    (hz : zeta.IsHermitian) (t : ℝ) :
    (la.heevd (advanceEta t (Vᴴ * eta * V) (Vᴴ * zeta * V))).1.1 = (la.heevd (advanceEta t eta zeta)).1.1 ∧
      ∃ g g', geodesicUs la X eta zx zeta S t = .ok g ∧
        geodesicUs la (X * V) (Vᴴ * eta * V) (zx * V) (Vᴴ * zeta * V) S t = .ok g' ∧
        g'.ek = g.ek ∧ g.ek = (la.heevd (advanceEta t eta zeta)).1.1 ∧
        (Function.Injective g.ek → ∃ u : Fin B → ℂ, (∀ i, ‖u i‖ = 1) ∧
          g'.ul = Vᴴ * g.ul * diagonal u ∧ g'.X = g.X * diagonal u) := by
  have hA : (advanceEta t eta zeta).IsHermitian := by
    have := addM_hermitian he hz t 1
    simpa only [advanceEta, Complex.ofReal_one] using this
  have hA' : advanceEta t (Vᴴ * eta * V) (Vᴴ * zeta * V) = Vᴴ * advanceEta t eta zeta * V := by
    simp only [advanceEta, addM, Matrix.mul_add, Matrix.add_mul, one_smul, Matrix.mul_smul, Matrix.smul_mul]
  have hx : addM (X * V) (zx * V) (t : ℂ) = addM X zx (t : ℂ) * V := by
    simp only [addM, Matrix.add_mul, Matrix.smul_mul]
  have hB := (herm_uni hV).2 hA
  obtain ⟨q1, q2⟩ := hla.eigen _ hA (ht _ hA)
  obtain ⟨q1', q2'⟩ := hla.eigen _ hB (ht _ hB)
  have he := eig_values hV q1 q1' q2 q2' (hs _ hA) (hs _ hB)
  have h1 : la.eigh (advanceEta t eta zeta) = .ok (la.heevd (advanceEta t eta zeta)).1 := eigh_eq ht hA
  have h1' : la.eigh (Vᴴ * advanceEta t eta zeta * V) = .ok (la.heevd (Vᴴ * advanceEta t eta zeta * V)).1 :=
    eigh_eq ht hB
  rw [he] at q2'
  generalize hr : la.heevd (advanceEta t eta zeta) = r at *
  generalize hr' : la.heevd (Vᴴ * advanceEta t eta zeta * V) = r' at *
  obtain ⟨Y, hY, hY'⟩ := loewdin_uni hla hla ht ht hV hS (addM X zx (t : ℂ))
  rw [hA', hr']
  refine ⟨he, ⟨r.1.1, r.1.2, Y * r.1.2⟩, ⟨r'.1.1, r'.1.2, Y * V * r'.1.2⟩, ?_, ?_, he, rfl, fun hi => ?_⟩
  · simp only [geodesicUs, h1, Res.bind_ok, advanceX, hY, transformM, Res.pure_eq]
  · simp only [geodesicUs, hA', h1', Res.bind_ok, advanceX, hx, hY', transformM, Res.pure_eq]
  · obtain ⟨u, hu, e1⟩ := eig_vectors hV q1 q1' q2 q2' hi
    refine ⟨u, hu, e1, ?_⟩
    show Y * V * r'.1.2 = Y * r.1.2 * diagonal u
    rw [e1, Matrix.mul_assoc Y, ← Matrix.mul_assoc V, ← Matrix.mul_assoc V, hV.right, Matrix.one_mul, Matrix.mul_assoc]

end Nlcg
