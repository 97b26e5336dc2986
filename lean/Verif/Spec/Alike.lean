import Verif.Model.Heap

/-! # When two cells hold the same

Cells may lead back to themselves, so "the same" means that no number of steps into them shows a difference. -/

namespace Verif.Spec
variable {α : Type}

/-- The same position by position. -/
inductive Pairs {β γ : Type} (R : β → γ → Prop) : List β → List γ → Prop
  | nil : Pairs R [] []
  | cons {a b as bs} (h : R a b) (hs : Pairs R as bs) : Pairs R (a :: as) (b :: bs)

/-- Two arguments are the same if the cells in `R` are. -/
inductive SameArg (R : α → α → Prop) : HArg α → HArg α → Prop
  | dynamic {a b : α} (n : Bytes) (t : JType) (h : R a b) : SameArg R (.dynamic ⟨a, n, t⟩) (.dynamic ⟨b, n, t⟩)
  | static (c : Constant) : SameArg R (.static c) (.static c)

/-- The cells are both empty, or both have the same handle and the same arguments if the cells in `R` are the same. -/
def SameStep (H : Heap α) (R : α → α → Prop) (a b : α) : Prop :=
  (H a = none ∧ H b = none) ∨
    ∃ h as bs, H a = some ⟨h, as⟩ ∧ H b = some ⟨h, bs⟩ ∧ Pairs (SameArg R) as bs

/-- No number of steps shows a difference. -/
def SameCells (H : Heap α) (a b : α) : Prop := ∃ R : α → α → Prop, R a b ∧ ∀ a b, R a b → SameStep H R a b

/-- The bootstrap method in cell `a` has an argument with cell `b`. -/
def Uses (H : Heap α) (a b : α) : Prop := ∃ x n t, H a = some x ∧ HArg.dynamic ⟨b, n, t⟩ ∈ x.arguments

/-- One can go from cell to cell for ever. -/
def Endless (H : Heap α) (a : α) : Prop := ∃ f : Nat → α, f 0 = a ∧ ∀ n, Uses H (f n) (f (n + 1))

end Verif.Spec
