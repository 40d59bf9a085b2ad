import Verif.Model.Parallel
import Verif.Spec.Memory

/-! What a correct parallel loop is. -/

namespace Nlcg.Spec
variable {ι α : Type} [DecidableEq ι]

/-- the next access of an iteration is a load from `a` -/
def Reads (it : Iter α) (a : ℕ) : Prop := ∃ k, it = .load a k

/-- the next access of an iteration is a store to `a` -/
def Writes (it : Iter α) (a : ℕ) : Prop := ∃ v k, it = .store a v k

/-- Two iterations are about to access the same address, and one of the accesses is a store. -/
def DataRace (l : List ι) (s : PState ι α) : Prop :=
  ∃ i ∈ l, ∃ j ∈ l, i ≠ j ∧ ∃ a, Writes (s.todo i) a ∧ (Reads (s.todo j) a ∨ Writes (s.todo j) a)

/-- An iteration is about to access an address that does not exist. -/
def Invalid (l : List ι) (s : PState ι α) : Prop :=
  ∃ i ∈ l, ∃ a, (Reads (s.todo i) a ∨ Writes (s.todo i) a) ∧ s.mem a = none

/-- all iterations have been executed -/
def Finished (l : List ι) (s : PState ι α) : Prop := ∀ i ∈ l, s.todo i = .done

/-- The loop over `l` started in memory `m` may be executed in parallel, and the result is `m'`. -/
structure SafeLoop (l : List ι) (body : ι → Iter α) (m m' : Mem α) : Prop where
  /-- there is no data race, at any point of any interleaving -/
  noRace : ∀ {n s}, PSteps l n ⟨body, m⟩ s → ¬ DataRace l s
  /-- every access is to an existing address -/
  valid : ∀ {n s}, PSteps l n ⟨body, m⟩ s → ¬ Invalid l s
  /-- the loop ends -/
  bounded : ∃ N, ∀ {n s}, PSteps l n ⟨body, m⟩ s → n ≤ N
  /-- it is never stuck -/
  progress : ∀ {n s}, PSteps l n ⟨body, m⟩ s → Finished l s ∨ ∃ s', PStep l s s'
  /-- every interleaving leaves the same memory -/
  result : ∀ {n s}, PSteps l n ⟨body, m⟩ s → Finished l s → s.mem = m'

/-- The kernel `p`, in which the iterations of a loop are executed one after the other in some order, computes what
every interleaving of the accesses of the iterations computes. -/
def ParallelKernel (p : Sched → MemM α Unit) (l : List ι) (body : ι → Iter α) (m : Mem α) : Prop :=
  ∃ m', (∀ sch, p sch m = (.ok (), m')) ∧ SafeLoop l body m m'

/-- all elements of the vector of length `n` at `a` exist -/
def AccessibleVec (m : Mem α) (a n : ℕ) : Prop := ∀ i < n, ∃ x, m (a + i) = some x

/-- no element of the vector of length `n` at `a` is an element of the matrix -/
def Apart (a n : ℕ) (v : MView) : Prop := ∀ i < n, a + i ∉ cells v

end Nlcg.Spec
