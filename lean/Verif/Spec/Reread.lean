import Verif.Spec.Rewrite
import Verif.Spec.Strings

/-! # Classes that survive reading, writing and reading

What the class file must not contain: types and signatures that are none in the JVM specification or that the
code does not print as they are (C15, C17, C19), the instructions of C34, bodies beyond the limits of C37,
dynamic bootstrap arguments (C46), tables that are empty or not the only one (C45). The rest of what C47 asks of
a class need not be asked of one that was read. -/

namespace Verif.Spec
open Sig

mutual

/-- The types in a value of an annotation. -/
def RegularValue : AnnValue → Prop
  | .enum t _ => IsDescriptor t
  | .cls (some t) => Printable t
  | .annotation t es => IsDescriptor t ∧ RegularPairs es
  | .array vs => RegularValues vs
  | _ => True

def RegularValues : List AnnValue → Prop
  | [] => True
  | v :: vs => RegularValue v ∧ RegularValues vs

def RegularPairs : List (Bytes × AnnValue) → Prop
  | [] => True
  | (_, v) :: es => RegularValue v ∧ RegularPairs es

end

def RegularAnn (a : Annotation) : Prop := IsDescriptor a.ty ∧ RegularPairs a.vals
def RegularTypeAnn {T : Type} (a : TypeAnnotation T) : Prop := IsDescriptor a.ty ∧ RegularPairs a.vals

/-- Constants whose types are printed without loss; a reference to a field is not one to an interface. -/
def RegularConst (c : Constant) : Prop := PlainConst c ∧ c.norm = c

def RegularFieldAttr : FieldAttr → Prop
  | .signature s => SigText RText s
  | .constantValue c => RegularConst c
  | .visible as | .invisible as => ∀ a ∈ as, RegularAnn a
  | .visibleType as | .invisibleType as => ∀ a ∈ as, RegularTypeAnn a
  | _ => True

/-- The instructions of C34 and C37. -/
def RegularInsn : Insn → Prop
  | .lookupSwitch _ _ => True
  | i => CodeOk i

def RegularVar (v : LocalVariable) : Prop :=
  (∀ t, v.descriptor = some t → IsDescriptor t) ∧ ∀ s, v.signature = some s → SigText RText s

def RegularCodeAttr : CodeAttribute → Prop
  | .visibleType as | .invisibleType as => ∀ a ∈ as, RegularTypeAnn a
  | .locals vs => ∀ v ∈ vs, RegularVar v
  | .raw _ => True

structure RegularBody (x : Code) : Prop where
  insns : ∀ i ∈ x.code, RegularInsn i
  attrs : ∀ a ∈ x.attrs, RegularCodeAttr a
  compact : Compact x.code

def RegularMethodAttr : MethodAttr → Prop
  | .code x => RegularBody x
  | .signature s => SigText MethodText s ∧ ∀ n, ThrowsSig.typeParam n ∉ s.throws
  | .visible as | .invisible as => ∀ a ∈ as, RegularAnn a
  | .visibleType as | .invisibleType as => ∀ a ∈ as, RegularTypeAnn a
  | .visibleParams ps | .invisibleParams ps => ∀ as ∈ ps, ∀ a ∈ as, RegularAnn a
  | .annotationDefault v => RegularValue v
  | _ => True

/-- Bootstrap methods whose arguments are not dynamic. -/
structure RegularBsm (b : Bsm) : Prop where
  handle : Printable b.handle.member.descriptor ∧ b.handle.member.norm = b.handle.member
  arguments : ∀ a ∈ b.arguments, ∃ c, a = .static c ∧ RegularConst c

def RegularClassAttr : ClassAttr → Prop
  | .signature s => SigText ClassText s
  | .enclosingMethod _ m => ∀ p, m = some p → Printable p.2
  | .debugExtension s => WellFormed s
  | .bootstrapMethods ms => ms ≠ [] ∧ ∀ b ∈ ms, RegularBsm b
  | .visible as | .invisible as => ∀ a ∈ as, RegularAnn a
  | .visibleType as | .invisibleType as => ∀ a ∈ as, RegularTypeAnn a
  | _ => True

structure Regular (x : Class) : Prop where
  fields : ∀ f ∈ x.fields, IsDescriptor f.descriptor ∧ ∀ a ∈ f.attrs, RegularFieldAttr a
  methods : ∀ m ∈ x.methods, IsDescriptor m.descriptor ∧ ∀ a ∈ m.attrs, RegularMethodAttr a
  attrs : ∀ a ∈ x.attrs, RegularClassAttr a
  one : (x.attrs.filter isBootstrap).length ≤ 1
  /-- There is room for a copy of a bootstrap method for every use (C56). -/
  room : (bsmTable x.attrs).length + (classDynamics x).length < 65536
  strings : AllClass Fitting x

end Verif.Spec
