import Verif.Spec.Nested
import Verif.Spec.Reread
import Verif.Spec.Growth
import Verif.Spec.Circular

/-! # Copies of classes whose bootstrap arguments are dynamic constants -/

namespace Verif.Spec
open Sig

/-- Bootstrap methods whose arguments may be dynamic constants. -/
structure NestedBsm (b : Bsm) : Prop where
  handle : Printable b.handle.member.descriptor ∧ b.handle.member.norm = b.handle.member
  arguments : ∀ a ∈ b.arguments, (∃ c, a = .static c ∧ RegularConst c) ∨
    ∃ c n t, a = .dynamic c n t ∧ Printable t ∧ ∀ ps r, t ≠ .method ps r

def NestedClassAttr : ClassAttr → Prop
  | .bootstrapMethods ms => ms ≠ [] ∧ ∀ b ∈ ms, NestedBsm b
  | a => RegularClassAttr a

/-- As `Regular`, but bootstrap arguments may be dynamic constants. -/
structure RegularNested (x : Class) : Prop where
  fields : ∀ f ∈ x.fields, IsDescriptor f.descriptor ∧ ∀ a ∈ f.attrs, RegularFieldAttr a
  methods : ∀ m ∈ x.methods, IsDescriptor m.descriptor ∧ ∀ a ∈ m.attrs, RegularMethodAttr a
  attrs : ∀ a ∈ x.attrs, NestedClassAttr a
  one : (x.attrs.filter isBootstrap).length ≤ 1
  acyclic : ¬ Circular (bsmTable x.attrs)
  /-- There is room for a copy of a bootstrap method for every use (C83). -/
  room : copySize x < 65536
  strings : AllClass Fitting x

/-- The dynamic arguments of the table are made with its entries from the first on, each with the next one, and
no instruction uses an entry that has dynamic arguments. -/
def InOrder (x : Class) : Prop :=
  (bsmTable x.attrs).flatMap argEntries = List.range ((bsmTable x.attrs).flatMap argEntries).length ∧
    ∀ d ∈ classDynamics x, ∀ k b, d.bsm = .pending k → (bsmTable x.attrs)[k.toNat]? = some b → argEntries b = []

end Verif.Spec
