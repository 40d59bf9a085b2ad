import Verif.Proofs.MemSolver
import Verif.Proofs.LinearHost
import Mathlib.Data.Fintype.Sigma
import Mathlib.Data.Fintype.Sum
import Mathlib.Data.Set.Finite.Range

/-! A host with its buffers in memory, made from a host with matrices as values, to show that the assumptions
on the host can be met. -/

namespace Nlcg
open Spec Matrix

variable {K : ℕ} {n b : Fin K → ℕ} {ξ : Type}

/-- what is stored: orbitals, their products with the Hamiltonian, occupations, band energies -/
abbrev Cell (n b : Fin K → ℕ) :=
  ((Σ k, Fin (n k) × Fin (b k)) ⊕ (Σ k, Fin (n k) × Fin (b k))) ⊕ ((Σ k, Fin (b k)) ⊕ (Σ k, Fin (b k)))

/-- more than the size of a buffer -/
def blockSize (n b : Fin K → ℕ) : ℕ := 1 + ∑ k, (n k * b k + b k)

theorem blockSize_mat (k : Fin K) : n k * b k < blockSize n b := by
  have : n k * b k + b k ≤ ∑ k, (n k * b k + b k) :=
    Finset.single_le_sum (f := fun k => n k * b k + b k) (fun _ _ => Nat.zero_le _) (Finset.mem_univ k)
  unfold blockSize
  omega

theorem blockSize_vec (k : Fin K) : b k < blockSize n b := by
  have : n k * b k + b k ≤ ∑ k, (n k * b k + b k) :=
    Finset.single_le_sum (f := fun k => n k * b k + b k) (fun _ _ => Nat.zero_le _) (Finset.mem_univ k)
  unfold blockSize
  omega

/-- four blocks per k-point -/
def blockAt (n b : Fin K → ℕ) (i : ℕ) (k : Fin K) : ℕ := (4 * k + i) * blockSize n b

theorem block_inj {W r o r' o' : ℕ} (ho : o < W) (ho' : o' < W) (h : r * W + o = r' * W + o') : r = r' ∧ o = o' := by
  have h1 : (r * W + o) / W = r := by
    rw [Nat.mul_comm, Nat.mul_add_div (by omega), Nat.div_eq_of_lt ho, Nat.add_zero]
  have h2 : (r' * W + o') / W = r' := by
    rw [Nat.mul_comm, Nat.mul_add_div (by omega), Nat.div_eq_of_lt ho', Nat.add_zero]
  have : r = r' := by rw [← h1, ← h2, h]
  subst this
  exact ⟨rfl, by omega⟩

/-- the address of an entry -/
def addrOf : Cell n b → ℕ
  | .inl (.inl ⟨k, i, j⟩) => blockAt n b 0 k + (i * 1 + j * n k)
  | .inl (.inr ⟨k, i, j⟩) => blockAt n b 1 k + (i * 1 + j * n k)
  | .inr (.inl ⟨k, i⟩) => blockAt n b 2 k + i
  | .inr (.inr ⟨k, i⟩) => blockAt n b 3 k + i

theorem mat_lt (k : Fin K) (i : Fin (n k)) (j : Fin (b k)) :
    (i : ℕ) * 1 + (j : ℕ) * n k < blockSize n b := by
  have h1 := blockSize_mat (n := n) (b := b) k
  have h2 := lt_mul_of_cell i.2 j.2
  omega

theorem mat_inj {k : Fin K} {i i' : Fin (n k)} {j j' : Fin (b k)}
    (h : (i : ℕ) * 1 + (j : ℕ) * n k = (i' : ℕ) * 1 + (j' : ℕ) * n k) : i = i' ∧ j = j' := by
  have h1 := block_inj (W := n k) (r := j) (r' := j') i.2 i'.2 (by omega)
  exact ⟨Fin.ext h1.2, Fin.ext h1.1⟩

/-- the block of an entry -/
def blockOf : Cell n b → ℕ
  | .inl (.inl ⟨k, _⟩) => 4 * k + 0
  | .inl (.inr ⟨k, _⟩) => 4 * k + 1
  | .inr (.inl ⟨k, _⟩) => 4 * k + 2
  | .inr (.inr ⟨k, _⟩) => 4 * k + 3

/-- the place of an entry in its block -/
def offsetOf : Cell n b → ℕ
  | .inl (.inl ⟨k, i, j⟩) => i * 1 + j * n k
  | .inl (.inr ⟨k, i, j⟩) => i * 1 + j * n k
  | .inr (.inl ⟨_, i⟩) => i
  | .inr (.inr ⟨_, i⟩) => i

theorem addrOf_eq : ∀ c : Cell n b, addrOf c = blockOf c * blockSize n b + offsetOf c
  | .inl (.inl ⟨_, _, _⟩) => rfl
  | .inl (.inr ⟨_, _, _⟩) => rfl
  | .inr (.inl ⟨_, _⟩) => rfl
  | .inr (.inr ⟨_, _⟩) => rfl

theorem offsetOf_lt : ∀ c : Cell n b, offsetOf c < blockSize n b
  | .inl (.inl ⟨k, i, j⟩) => mat_lt k i j
  | .inl (.inr ⟨k, i, j⟩) => mat_lt k i j
  | .inr (.inl ⟨k, i⟩) => i.2.trans (blockSize_vec k)
  | .inr (.inr ⟨k, i⟩) => i.2.trans (blockSize_vec k)

theorem addrOf_inj : Function.Injective (addrOf (n := n) (b := b)) := by
  intro c c' h
  rw [addrOf_eq, addrOf_eq] at h
  obtain ⟨h1, h2⟩ := block_inj (offsetOf_lt c) (offsetOf_lt c') h
  clear h
  rcases c with ((⟨k, i, j⟩ | ⟨k, i, j⟩) | (⟨k, i⟩ | ⟨k, i⟩)) <;>
    rcases c' with ((⟨k', i', j'⟩ | ⟨k', i', j'⟩) | (⟨k', i'⟩ | ⟨k', i'⟩)) <;>
    simp only [blockOf] at h1 <;> try omega
  · obtain rfl : k = k' := Fin.ext (by omega)
    obtain ⟨rfl, rfl⟩ := mat_inj h2
    rfl
  · obtain rfl : k = k' := Fin.ext (by omega)
    obtain ⟨rfl, rfl⟩ := mat_inj h2
    rfl
  · obtain rfl : k = k' := Fin.ext (by omega)
    obtain rfl : i = i' := Fin.ext h2
    rfl
  · obtain rfl : k = k' := Fin.ext (by omega)
    obtain rfl : i = i' := Fin.ext h2
    rfl

/-- the entries of a state -/
def entry (host : Host ξ n b) (x : ξ) : Cell n b → ℂ
  | .inl (.inl ⟨k, i, j⟩) => host.C x k i j
  | .inl (.inr ⟨k, i, j⟩) => host.hphi x k i j
  | .inr (.inl ⟨k, i⟩) => (host.fn x k i : ℂ)
  | .inr (.inr ⟨k, i⟩) => (host.ek x k i : ℂ)

open Classical in
/-- memory with the entries of `x` stored -/
noncomputable def storeAll (host : Host ξ n b) (x : ξ) (m : Mem ℂ) : Mem ℂ := fun a =>
  if h : ∃ i : Cell n b, addrOf i = a then some (entry host x h.choose) else m a

theorem storeAll_at (host : Host ξ n b) (x : ξ) (m : Mem ℂ) (i : Cell n b) :
    storeAll host x m (addrOf i) = some (entry host x i) := by
  have h : ∃ j : Cell n b, addrOf j = addrOf i := ⟨i, rfl⟩
  rw [storeAll, dif_pos h, addrOf_inj h.choose_spec]

theorem storeAll_off (host : Host ξ n b) (x : ξ) (m : Mem ℂ) {a : ℕ}
    (h : a ∉ Set.range (addrOf (n := n) (b := b))) : storeAll host x m a = m a := by
  rw [storeAll, dif_neg (by simpa using h)]

/-- the orbitals found in memory -/
noncomputable def orbitalsIn (n b : Fin K → ℕ) (m : Mem ℂ) : Orbitals n b := fun k i j =>
  match m (addrOf (n := n) (b := b) (.inl (.inl ⟨k, i, j⟩))) with
  | some x => x
  | none => 0

/-- a call: the orbitals are taken from memory, the results are stored -/
noncomputable def callMem (host : Host ξ n b) {β : Type} (f : ξ → Option β × ξ) (h : ξ) (m : Mem ℂ) :
    Option β × ξ × Mem ℂ :=
  let r := f (host.setC (orbitalsIn n b m) h).2
  (r.1, r.2, storeAll host r.2 m)

/-- the host with buffers in memory -/
noncomputable def bufferHost (host : Host ξ n b) : MHost ξ b where
  compute := callMem host host.compute
  setFn := fun f => callMem host (host.setFn f)
  setMu := fun mu => callMem host (host.setMu mu)
  energy := callMem host host.energy
  print := callMem host host.print
  C := fun _ k => ⟨blockAt n b 0 k, n k, b k, 1, n k, true⟩
  hphi := fun _ k => ⟨blockAt n b 1 k, n k, b k, 1, n k, true⟩
  fn := fun _ k => blockAt n b 2 k
  ek := fun _ k => blockAt n b 3 k

/-- the orbitals of the host are a plain variable -/
structure PlainC (host : Host ξ n b) : Prop where
  ok : ∀ X x, (host.setC X x).1 = some ()
  get : ∀ X x, host.C (host.setC X x).2 = X
  twice : ∀ X Y x, (host.setC X (host.setC Y x).2).2 = (host.setC X x).2
  same : ∀ x, (host.setC (host.C x) x).2 = x
  hphi : ∀ X x, host.hphi (host.setC X x).2 = host.hphi x
  fn : ∀ X x, host.fn (host.setC X x).2 = host.fn x
  ek : ∀ X x, host.ek (host.setC X x).2 = host.ek x

theorem linearHost_plain (H : (k : Fin K) → Mat (n k) (n k)) (wk : Fin K → ℝ) :
    PlainC (linearHost (b := b) H wk) where
  ok _ _ := rfl
  get _ _ := rfl
  twice _ _ _ := rfl
  same _ := rfl
  hphi _ _ := rfl
  fn _ _ := rfl
  ek _ _ := rfl

/-- private state and memory stand for `x` -/
def BufRep (host : Host ξ n b) (h : ξ) (m : Mem ℂ) (x : ξ) : Prop :=
  (∀ i, m (addrOf i) = some (entry host x i)) ∧ (host.setC (host.C x) h).2 = x

theorem callMem_answers {host : Host ξ n b} (hp : PlainC host) {β : Type} (f : ξ → Option β × ξ) {h : ξ} {m : Mem ℂ}
    {x : ξ} (hm : Spec.Finite m) (hr : BufRep host h m x) :
    Answers (fun _ => Set.range (addrOf (n := n) (b := b))) (BufRep host) h m (callMem host f h m) (f x) := by
  have hX : orbitalsIn n b m = host.C x := by
    funext k i j
    simp only [orbitalsIn, hr.1, entry]
  have hx : (host.setC (orbitalsIn n b m) h).2 = x := by rw [hX]; exact hr.2
  unfold callMem
  rw [hx]
  refine ⟨rfl, ⟨storeAll_at _ _ _, hp.same _⟩, ?_, fun a v h1 h2 => ⟨h1, ?_⟩⟩
  · exact hm.step (S := Set.range (addrOf (n := n) (b := b))) (fun a ha => storeAll_off _ _ _ ha)
      (Set.finite_range _)
  · rw [← h2]
    exact storeAll_off _ _ _ h1

theorem buf_cells {i : ℕ} {k : Fin K} {a : ℕ} (h : a ∈ cells ⟨blockAt n b i k, n k, b k, 1, n k, true⟩) :
    ∃ (p : Fin (n k)) (q : Fin (b k)), a = blockAt n b i k + (p * 1 + q * n k) := by
  obtain ⟨p, q, hp, hq, rfl⟩ := h
  exact ⟨⟨p, hp⟩, ⟨q, hq⟩, by simp only; omega⟩

noncomputable def bufferHost_mirrors {host : Host ξ n b} (hp : PlainC host) (hn : ∀ k, 0 < n k) :
    MirrorsHost (bufferHost host) host where
  own := fun _ => Set.range (addrOf (n := n) (b := b))
  Rep := BufRep host
  rep_mem := fun h he => ⟨fun i => by rw [he _ ⟨i, rfl⟩]; exact h.1 i, h.2⟩
  used := by
    rintro h m x hr a ⟨i, rfl⟩
    exact ⟨_, hr.1 i⟩
  C := fun {h m x} hr k => by
    refine ⟨contiguous_colMajor (hn k), ⟨rfl, rfl, fun i j => ?_⟩, fun a ha => ?_⟩
    · have := hr.1 (.inl (.inl ⟨k, i, j⟩))
      simp only [addrOf, ← Nat.add_assoc] at this
      exact this
    · obtain ⟨p, q, rfl⟩ := buf_cells ha
      exact ⟨.inl (.inl ⟨k, p, q⟩), rfl⟩
  C_apart := fun {h m x} hr k l hkl => by
    rw [Set.disjoint_left]
    intro a ha hb
    obtain ⟨p, q, rfl⟩ := buf_cells ha
    obtain ⟨p', q', e⟩ := buf_cells hb
    have := addrOf_inj (n := n) (b := b) (a₁ := .inl (.inl ⟨k, p, q⟩)) (a₂ := .inl (.inl ⟨l, p', q'⟩)) e
    simp only [Sum.inl.injEq, Sigma.mk.injEq] at this
    exact hkl this.1
  hphi := fun {h m x} hr k => by
    refine ⟨contiguous_colMajor (hn k), ⟨rfl, rfl, fun i j => ?_⟩, fun a ha => ?_⟩
    · have := hr.1 (.inl (.inr ⟨k, i, j⟩))
      simp only [addrOf, ← Nat.add_assoc] at this
      exact this
    · obtain ⟨p, q, rfl⟩ := buf_cells ha
      exact ⟨.inl (.inr ⟨k, p, q⟩), rfl⟩
  fn := fun {h m x} hr k => by
    refine ⟨fun i => hr.1 (.inr (.inl ⟨k, i⟩)), fun a ha => ⟨.inr (.inl ⟨k, ⟨a - blockAt n b 2 k, ?_⟩⟩), ?_⟩⟩
    · have := ha.1; have := ha.2; simp only [bufferHost] at *; omega
    · have := ha.1; simp only [bufferHost] at *; simp only [addrOf]; omega
  ek := fun {h m x} hr k => by
    refine ⟨fun i => hr.1 (.inr (.inr ⟨k, i⟩)), fun a ha => ⟨.inr (.inr ⟨k, ⟨a - blockAt n b 3 k, ?_⟩⟩), ?_⟩⟩
    · have := ha.1; have := ha.2; simp only [bufferHost] at *; omega
    · have := ha.1; simp only [bufferHost] at *; simp only [addrOf]; omega
  setC := fun {h m m' x} X hr hX hs => by
    refine ⟨(host.setC X x).2, Prod.ext (hp.ok X x) rfl, fun i => ?_, ?_⟩
    · have off : ∀ {i : Cell n b}, (∀ k p q, i ≠ .inl (.inl ⟨k, p, q⟩)) → m' (addrOf i) = m (addrOf i) := by
        intro i hi
        refine hs _ ?_
        rintro ⟨k, hk⟩
        obtain ⟨p, q, e⟩ := buf_cells hk
        exact hi k p q (addrOf_inj e)
      rcases i with ((⟨k, i, j⟩ | ⟨k, i, j⟩) | (⟨k, i⟩ | ⟨k, i⟩))
      · have := (hX k).2.2 i j
        simp only [addrOf, ← Nat.add_assoc, entry, hp.get]
        exact this
      · rw [off (by simp), hr.1]
        simp only [entry, hp.hphi]
      · rw [off (by simp), hr.1]
        simp only [entry, hp.fn]
      · rw [off (by simp), hr.1]
        simp only [entry, hp.ek]
    · rw [hp.get, ← hr.2, hp.twice]
  compute := fun hm hr => callMem_answers hp _ hm hr
  setFn := fun f hm hr => callMem_answers hp _ hm hr
  setMu := fun mu hm hr => callMem_answers hp _ hm hr
  energy := fun hm hr => callMem_answers hp _ hm hr
  print := fun hm hr => callMem_answers hp _ hm hr

/-- a memory to start with -/
theorem bufferHost_start {host : Host ξ n b} (hp : PlainC host) (x : ξ) :
    ∃ m, Spec.Finite m ∧ BufRep host x m x :=
  ⟨storeAll host x fun _ => none, Spec.Finite.step (m := fun _ => none) (S := Set.range (addrOf (n := n) (b := b)))
    (by simp [Spec.Finite]) (fun a ha => storeAll_off _ _ _ ha) (Set.finite_range _), storeAll_at _ _ _, hp.same x⟩

end Nlcg
