import Verif.Spec.Parts
import Verif.Spec.Code

/-! # The parts of fields, methods and method bodies (JVMS 4.5, 4.6, 4.7.3) -/

namespace Verif.Spec

/-- The bytes of a field or method, cut into its parts. -/
structure MemberParts where
  access : Bytes
  name : Bytes
  type : Bytes
  attrs : List Bytes

def MemberParts.bytes (y : MemberParts) : Bytes := y.access ++ (y.name ++ (y.type ++ counted y.attrs))

/-- The parts, read one by one, are the parts of the field. -/
def MemberParts.GivesField (P : Pool) (y : MemberParts) (d : Field) : Prop :=
  Alone (rFlags .field) P y.access d.access ∧ Alone rUtf8 P y.name d.name ∧ Alone rType P y.type d.descriptor ∧
  EachAlone FieldAttr.read P y.attrs d.attrs

/-- The parts, read one by one, are the parts of the method. -/
def MemberParts.GivesMethod (f : List LocalVariable → List LocalVariable) (P : Pool) (y : MemberParts) (m : Method) : Prop :=
  Alone (rFlags .method) P y.access m.access ∧ Alone rUtf8 P y.name m.name ∧ Alone rType P y.type m.descriptor ∧
  EachAlone (MethodAttr.read fun _ _ => f) P y.attrs m.attrs

/-- An attribute: the index of its name, its length, its content (JVMS 4.7). -/
def attrBytes (i : UInt16) (data : Bytes) : Bytes := U2 i.toNat ++ (U4 data.length ++ data)

/-- The content of a `Code` attribute, cut into its parts: the two limits, the code array, the entries of the exception
table, and the attributes with the indices of their names. -/
structure BodyParts where
  limits : Bytes
  code : Bytes
  handlers : List Bytes
  attrs : List (UInt16 × Bytes)

def BodyParts.bytes (y : BodyParts) : Bytes :=
  y.limits ++ (U4 y.code.length ++ (y.code ++ (counted y.handlers ++ counted (y.attrs.map fun a => attrBytes a.1 a.2))))

/-- The sizes are those of the format. -/
structure BodyParts.Sized (y : BodyParts) : Prop where
  limits : y.limits.length = 4
  code : y.code.length < 2 ^ 32
  handlers : y.handlers.length < 65536
  handler : ∀ h ∈ y.handlers, h.length = 8
  attrs : y.attrs.length < 65536
  attr : ∀ a ∈ y.attrs, a.2.length < 2 ^ 32

end Verif.Spec
