import Verif.Model.Driver
import Mathlib.Data.Nat.Notation

/-!
What it means that two programs on different states correspond: the same outcome, from related states into
related states. `le s t`: whatever the program has in its hands in state `s` is still there in state `t`.
-/

namespace Nlcg.Spec

/-- how states of two programs correspond -/
structure World (τ τ' : Type) where
  R : τ → τ' → Prop
  le : τ → τ → Prop
  refl : ∀ s, le s s
  trans : ∀ {s t u}, le s t → le t u → le s u

variable {τ τ' β γ : Type}

/-- the same outcome, with values related by `Q` -/
inductive RelRes (Q : β → γ → Prop) : Res β → Res γ → Prop
  | ok {a b} : Q a b → RelRes Q (.ok a) (.ok b)
  | throw (e : Exc) : RelRes Q (.throw e) (.throw e)
  | ub : RelRes Q .ub .ub
  | abort : RelRes Q .abort .abort

/-- corresponding ends of two programs, the first one started in state `s` -/
def Out (W : World τ τ') (Q : τ → β → γ → Prop) (s : τ) (x : Res β × τ) (y : Res γ × τ') : Prop :=
  W.R x.2 y.2 ∧ W.le s x.2 ∧ RelRes (Q x.2) x.1 y.1

/-- the same for programs that may run out of fuel: both do or neither does -/
inductive FOut (W : World τ τ') (Q : τ → β → γ → Prop) (s : τ) :
    Option (Res β × τ) → Option (Res γ × τ') → Prop
  | none : FOut W Q s none none
  | some {x y} : Out W Q s x y → FOut W Q s (some x) (some y)

/-- Two backends of the driver that correspond. `P0` relates the point the run starts with, `P` those of a
step, `D` the directions; what is related stays so. -/
structure Sim {α σ σ' ρ ρ' δ δ' : Type} (A : Ops α σ ρ δ) (B : Ops α σ' ρ' δ') where
  W : World σ σ'
  P0 : σ → ρ → ρ' → Prop
  P : σ → ρ → ρ' → Prop
  D : σ → δ → δ' → Prop
  weaken : ∀ {s p p'}, P s p p' → P0 s p p'
  P0_mono : ∀ {s t p p'}, W.le s t → P0 s p p' → P0 t p p'
  P_mono : ∀ {s t p p'}, W.le s t → P s p p' → P t p p'
  D_mono : ∀ {s t d d'}, W.le s t → D s d d' → D t d d'
  construct : ∀ {s s'}, W.R s s' → Out W (fun _ _ _ => True) s (A.construct s) (B.construct s')
  setup : ∀ {s s'}, W.R s s' → Out W P0 s (A.setup s) (B.setup s')
  restarted : ∀ {s s' p p'}, W.R s s' → P0 s p p' →
    Out W (fun t x y => x.1 = y.1 ∧ D t x.2 y.2) s (A.restarted p s) (B.restarted p' s')
  conjugated : ∀ {s s' p p' d d'} (fr : α), W.R s s' → P s p p' → D s d d' →
    Out W (fun t x y => x.1 = y.1 ∧ x.2.1 = y.2.1 ∧ D t x.2.2 y.2.2) s (A.conjugated fr p d s)
      (B.conjugated fr p' d' s')
  geo : ∀ {s s' p p' d d'} (t : α), W.R s s' → P0 s p p' → D s d d' →
    Out W P s (A.geo p d t s) (B.geo p' d' t s')
  refresh : ∀ {s s' p p'}, W.R s s' → P s p p' → Out W P s (A.refresh p s) (B.refresh p' s')
  gather : ∀ {s s' p p'}, W.R s s' → P0 s p p' → Out W (fun _ _ _ => True) s (A.gather p s) (B.gather p' s')
  hostPrint : ∀ {s s'}, W.R s s' → Out W (fun _ _ _ => True) s (A.hostPrint s) (B.hostPrint s')
  getF : ∀ {s s'}, W.R s s' → A.getF s = B.getF s'
  getS : ∀ {s s'}, W.R s s' → A.getS s = B.getS s'

/-- The same, where the relation of directions may depend on the point they start from, and that of new points
on the direction they were reached along; `P1` relates what a step returns, before it is completed. -/
structure SimPair {α σ σ' ρ ρ' δ δ' : Type} (A : Ops α σ ρ δ) (B : Ops α σ' ρ' δ') where
  W : World σ σ'
  P0 : σ → ρ → ρ' → Prop
  P1 : σ → δ → δ' → ρ → ρ' → Prop
  P : σ → δ → δ' → ρ → ρ' → Prop
  D : σ → ρ → ρ' → δ → δ' → Prop
  weaken : ∀ {s d d' p p'}, P s d d' p p' → P0 s p p'
  P0_mono : ∀ {s t p p'}, W.le s t → P0 s p p' → P0 t p p'
  P1_mono : ∀ {s t d d' p p'}, W.le s t → P1 s d d' p p' → P1 t d d' p p'
  P_mono : ∀ {s t d d' p p'}, W.le s t → P s d d' p p' → P t d d' p p'
  D_mono : ∀ {s t p p' d d'}, W.le s t → D s p p' d d' → D t p p' d d'
  construct : ∀ {s s'}, W.R s s' → Out W (fun _ _ _ => True) s (A.construct s) (B.construct s')
  setup : ∀ {s s'}, W.R s s' → Out W P0 s (A.setup s) (B.setup s')
  restarted : ∀ {s s' p p'}, W.R s s' → P0 s p p' →
    Out W (fun t x y => x.1 = y.1 ∧ D t p p' x.2 y.2) s (A.restarted p s) (B.restarted p' s')
  conjugated : ∀ {s s' p p' d d'} (fr : α), W.R s s' → P s d d' p p' →
    Out W (fun t x y => x.1 = y.1 ∧ x.2.1 = y.2.1 ∧ D t p p' x.2.2 y.2.2) s (A.conjugated fr p d s)
      (B.conjugated fr p' d' s')
  geo : ∀ {s s' p p' d d'} (t : α), W.R s s' → P0 s p p' → D s p p' d d' →
    Out W (fun t => P1 t d d') s (A.geo p d t s) (B.geo p' d' t s')
  refresh : ∀ {s s' d d' p p'}, W.R s s' → P1 s d d' p p' →
    Out W (fun t => P t d d') s (A.refresh p s) (B.refresh p' s')
  gather : ∀ {s s' p p'}, W.R s s' → P0 s p p' → Out W (fun _ _ _ => True) s (A.gather p s) (B.gather p' s')
  hostPrint : ∀ {s s'}, W.R s s' → Out W (fun _ _ _ => True) s (A.hostPrint s) (B.hostPrint s')
  getF : ∀ {s s'}, W.R s s' → A.getF s = B.getF s'
  getS : ∀ {s s'}, W.R s s' → A.getS s = B.getS s'

end Nlcg.Spec
