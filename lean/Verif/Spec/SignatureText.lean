import Verif.Spec.Signature

/-! # Texts of signatures as the parser sees them -/

namespace Verif.Spec

/-- There is no `<>` in the text. -/
def NoEmpty (s : Str) : Prop := ∀ a b, s ≠ a ++ 0x3C :: 0x3E :: b

/-- A bound that follows another one, as a parameter without a name. -/
def nameless (b : RefSig) : TypeParam := ⟨[], some b, []⟩

/-- One type parameter cut after each bound. -/
def cutParam : TypeParam → List TypeParam
  | ⟨n, some b, bs⟩ => ⟨n, some b, []⟩ :: bs.map nameless
  | ⟨n, none, []⟩ => [⟨n, none, []⟩]
  | ⟨n, none, b :: bs⟩ => ⟨n, none, [b]⟩ :: bs.map nameless

/-- Type parameters, cut after each bound. -/
def cutParams (ps : List TypeParam) : List TypeParam := ps.flatMap cutParam

end Verif.Spec
