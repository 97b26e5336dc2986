import Verif.Spec.Input
import Verif.Spec.Attr

/-! # The parts of a class file (JVMS 4.1) -/

namespace Verif.Spec

/-- The bytes of a class file, cut into its parts. The pool comes with its count; the other counts and the magic
number are left out. -/
structure Parts where
  version : Bytes
  pool : Bytes
  access : Bytes
  name : Bytes
  super : Bytes
  interfaces : List Bytes
  fields : List Bytes
  methods : List Bytes
  attrs : List Bytes

/-- The number of parts, then the parts. -/
def counted (bs : List Bytes) : Bytes := U2 bs.length ++ bs.flatten

/-- The class file. -/
def Parts.bytes (x : Parts) : Bytes :=
  U4 0xCAFEBABE ++ (x.version ++ (x.pool ++ (x.access ++ (x.name ++ (x.super ++ (counted x.interfaces ++
    (counted x.fields ++ (counted x.methods ++ counted x.attrs))))))))

/-- With the pool `P` and nothing else known of the class file, the bytes `b` are read as `a`. -/
def Alone {α : Type} (r : Rd α) (P : Pool) (b : Bytes) (a : α) : Prop :=
  ∃ st, r ⟨P, none⟩ ⟨[], none⟩ b = .ok (a, st, [])

/-- Each of a list of parts is read alone. -/
def EachAlone {α : Type} (r : Rd α) (P : Pool) (bs : List Bytes) (as : List α) : Prop :=
  bs.length < 65536 ∧ Matched (Alone r P) bs as

/-- Every bootstrap method the class asks for is in its first table, if it has a table. -/
def EntriesFound (c : Class) : Prop := ∀ pre ms post, c.attrs = pre ++ .bootstrapMethods ms :: post →
  (∀ a ∈ pre, ∀ t, a ≠ .bootstrapMethods t) → ∀ k ∈ openClass c, k.toNat < ms.length

/-- The parts, read one by one, are the parts of the class. -/
def Parts.Gives (f : List LocalVariable → List LocalVariable) (x : Parts) (c : Class) : Prop := ∃ cp,
  Version.read x.version = .ok (c.version, []) ∧ MapCp.read x.pool = .ok (cp, []) ∧
  Alone (rFlags .cls) cp.get x.access c.access ∧ Alone (rStr 7) cp.get x.name c.name ∧
  Alone rClsOpt cp.get x.super c.superName ∧ EachAlone (rStr 7) cp.get x.interfaces c.interfaces ∧
  EachAlone Field.read cp.get x.fields c.fields ∧
  EachAlone (Method.read fun _ _ => f) cp.get x.methods c.methods ∧
  EachAlone ClassAttr.read cp.get x.attrs c.attrs ∧ EntriesFound c

end Verif.Spec
