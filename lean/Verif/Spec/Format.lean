import Verif.Spec.Wtf8

/-! # Formatting with a width and a precision

What `format!` documents (`std::fmt`): a text is cut after so many characters as the precision says, then filled up to
the width. Characters are code points. -/

namespace Verif.Spec

inductive Align where
  | left | right | center
  deriving DecidableEq

/-- What stands after the colon in `{:*>8.3}`: here the fill `*`, the alignment `>`, the width 8, the precision 3. -/
structure Options where
  fill : Nat := 0x20
  align : Option Align := none
  width : Option Nat := none
  precision : Option Nat := none
  deriving DecidableEq

/-- `out` is the text in the given layout. Without an alignment, a text is filled on its right; if it cannot be centered
exactly, there is one more character on the right. -/
def Laid (o : Options) (text out : List Nat) : Prop :=
  let cut := match o.precision with
    | some p => text.take p
    | none => text
  ∃ l r, out = List.replicate l o.fill ++ cut ++ List.replicate r o.fill ∧ l + r = o.width.getD 0 - cut.length ∧
    match o.align with
    | none | some .left => l = 0
    | some .right => r = 0
    | some .center => r = l ∨ r = l + 1

end Verif.Spec
