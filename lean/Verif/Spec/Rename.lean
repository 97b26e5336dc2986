import Verif.Lemmas.AgainBody

/-! # Bodies that differ in their labels only

Independent of how bodies are assembled: a label stands for a place between two instructions. -/

namespace Verif.Spec
open Verif

/-- The number of instructions before the last place with the label. -/
def lastPlace (l : Label) : List Insn → Option Nat
  | [] => none
  | .label l' :: is => match lastPlace l is with
    | some k => some k
    | none => if l' = l then some 0 else none
  | i :: is => (lastPlace l is).map (· + if (normal i).isSome then 1 else 0)

/-- All labels that occur in a body: those that are placed, those that are referred to, and those of handlers
that annotations name. -/
def allLabels (x : Code) : List Label :=
  placed x.code ++ codeLabels x ++ (x.attrs.flatMap annCatches).flatMap catchLabels

/-- The body with other names for its labels. -/
def renBody (f : Label → Label) (x : Code) : Code :=
  ⟨x.maxStack, x.maxLocals, x.code.map (renI f), x.catches.map (renCatch f), x.attrs.map (renKept f)⟩

/-- `y` has the instructions, handlers and attributes of `x`, and each label of `x` that is used has its place under its
new name. Nothing is asked of labels that are not used, of line numbers, and of places that are not the last one. -/
structure SamePlaces (f : Label → Label) (x y : Code) : Prop where
  maxStack : y.maxStack = x.maxStack
  maxLocals : y.maxLocals = x.maxLocals
  insns : y.code.filterMap normal = (x.code.filterMap normal).map (renI f)
  places : ∀ l ∈ codeLabels x, lastPlace (f l) y.code = lastPlace l x.code
  catches : y.catches = x.catches.map (renCatch f)
  attrs : y.attrs = x.attrs.map (renKept f)
  /-- Handlers that annotations name are not confused with others. -/
  handlers : ∀ k ∈ x.attrs.flatMap annCatches, ∀ c ∈ x.catches, renCatch f c = renCatch f k → c = k

end Verif.Spec
