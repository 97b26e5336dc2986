import Verif.Spec.Members

/-! # A method body without its debug information -/

namespace Verif.Spec

/-- The labels to which the instructions and the exception table of a body refer. -/
def goals (k : Code) : List Label := k.code.flatMap targets ++ k.catches.flatMap catchLabels

/-- All instructions except line numbers and those labels that are not asked for. -/
def keeps (g : Label → Bool) : Insn → Bool
  | .lineNumber _ => false
  | .label l => g l
  | _ => true

/-- The instructions without the line numbers, and without the labels to which neither instructions nor the exception
table refer. -/
def essence (k : Code) : List Insn := k.code.filter (keeps fun l => decide (l ∈ goals k))

/-- Two bodies with the same code: they differ at most in their attributes, in line numbers, and in labels that no
instruction and no handler uses. -/
structure CodeAlike (k k' : Code) : Prop where
  maxStack : k'.maxStack = k.maxStack
  maxLocals : k'.maxLocals = k.maxLocals
  catches : k'.catches = k.catches
  code : essence k' = essence k

/-- The instructions without the line numbers. -/
def withoutLines (is : List Insn) : List Insn := is.filter (keeps fun _ => true)

/-- The attributes of a body without its line number tables. -/
inductive LinesCut (P : Pool) : List (UInt16 × Bytes) → List (UInt16 × Bytes) → Prop
  | nil : LinesCut P [] []
  | cut {i : UInt16} {data : Bytes} {as bs : List (UInt16 × Bytes)} (h : IsUtf8 P i N.lineNumberTable) (hs : LinesCut P as bs) :
    LinesCut P ((i, data) :: as) bs
  | kept {i : UInt16} {data : Bytes} {as bs : List (UInt16 × Bytes)} (h : ¬ IsUtf8 P i N.lineNumberTable)
    (hs : LinesCut P as bs) : LinesCut P ((i, data) :: as) ((i, data) :: bs)

end Verif.Spec
