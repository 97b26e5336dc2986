import Verif.Spec.Ty
import Verif.Spec.Mutf8
import Verif.Model.Cp

/-!
# Specification of the constant pool (JVMS 4.4)

Only the data types are taken from the model.
-/

namespace Verif.Spec

/-- Number of constant pool indices an entry takes (JVMS 4.4.5: long and double take two). -/
def slots : Entry → Nat
  | .long _ => 2
  | .double _ => 2
  | _ => 1

/-- Number of indices the entries take together. -/
def slotsAll (es : List Entry) : Nat := (es.map slots).sum

/-- `At es i e`: in a pool with the entries `es`, index `i` designates `e`. Numbering starts at 1 and
skips the index after a long or double. -/
def At (es : List Entry) (i : Nat) (e : Entry) : Prop :=
  ∃ pre suf, es = pre ++ e :: suf ∧ i = 1 + slotsAll pre

/-- Big-endian unsigned numbers. -/
def U1 (n : Nat) : Bytes := [UInt8.ofNat n]
def U2 (n : Nat) : Bytes := [UInt8.ofNat (n / 256), UInt8.ofNat n]
def U4 (n : Nat) : Bytes := U2 (n / 65536) ++ U2 n
def U8 (n : Nat) : Bytes := U4 (n / 4294967296) ++ U4 n

/-- The layout of one entry (JVMS 4.4.1 – 4.4.12; table 4.4-B for the tags). A string is written in
modified UTF-8 with a 16-bit length. -/
inductive EntryBytes : Entry → Bytes → Prop
  | utf8 {s : Bytes} {v : List UInt16} : HasUtf16 s v → (mutf8 v).length < 65536 →
      EntryBytes (.utf8 s) (U1 1 ++ U2 (mutf8 v).length ++ mutf8 v)
  | int {i : Int32} : EntryBytes (.int i) (U1 3 ++ U4 i.toUInt32.toNat)
  | float {f : F32} : EntryBytes (.float f) (U1 4 ++ U4 f.bits.toNat)
  | long {l : Int64} : EntryBytes (.long l) (U1 5 ++ U8 l.toUInt64.toNat)
  | double {d : F64} : EntryBytes (.double d) (U1 6 ++ U8 d.bits.toNat)
  | cls {i : UInt16} : EntryBytes (.cls i) (U1 7 ++ U2 i.toNat)
  | str {i : UInt16} : EntryBytes (.str i) (U1 8 ++ U2 i.toNat)
  | field {o n : UInt16} : EntryBytes (.field o n) (U1 9 ++ U2 o.toNat ++ U2 n.toNat)
  | method {o n : UInt16} : EntryBytes (.method o n) (U1 10 ++ U2 o.toNat ++ U2 n.toNat)
  | imethod {o n : UInt16} : EntryBytes (.imethod o n) (U1 11 ++ U2 o.toNat ++ U2 n.toNat)
  | nat {n t : UInt16} : EntryBytes (.nat n t) (U1 12 ++ U2 n.toNat ++ U2 t.toNat)
  | handle {k : UInt8} {m : UInt16} : EntryBytes (.handle k m) (U1 15 ++ U1 k.toNat ++ U2 m.toNat)
  | mtype {t : UInt16} : EntryBytes (.mtype t) (U1 16 ++ U2 t.toNat)
  | dyn {b n : UInt16} : EntryBytes (.dyn b n) (U1 17 ++ U2 b.toNat ++ U2 n.toNat)
  | indy {b n : UInt16} : EntryBytes (.indy b n) (U1 18 ++ U2 b.toNat ++ U2 n.toNat)
  | module {n : UInt16} : EntryBytes (.module n) (U1 19 ++ U2 n.toNat)
  | package {n : UInt16} : EntryBytes (.package n) (U1 20 ++ U2 n.toNat)

/-- The layout of a sequence of entries. -/
inductive EntriesBytes : List Entry → Bytes → Prop
  | nil : EntriesBytes [] []
  | cons {e : Entry} {es : List Entry} {b bs : Bytes} : EntryBytes e b → EntriesBytes es bs →
      EntriesBytes (e :: es) (b ++ bs)

/-- The layout of a pool (JVMS 4.1): `constant_pool_count` is one more than the last index. -/
def PoolBytes (es : List Entry) (bs : Bytes) : Prop :=
  ∃ body, EntriesBytes es body ∧ 1 + slotsAll es < 65536 ∧ bs = U2 (1 + slotsAll es) ++ body

/-! ## What an index stands for (JVMS 4.4.1 – 4.4.10)

`P` is any pool; indices are followed through it. -/

/-- Types whose descriptor text exists and holds no surrogate: those whose `Display` text is the
descriptor (C15, C17). -/
def Printable (t : JType) : Prop :=
  IsDescriptor t ∧ ∀ cs, Desc t cs → ∀ c ∈ cs, ¬ IsSurrogate c

def IsUtf8 (P : Pool) (i : UInt16) (s : Bytes) : Prop := P i = some (.utf8 s)

def IsClass (P : Pool) (i : UInt16) (s : Bytes) : Prop := ∃ j, P i = some (.cls j) ∧ IsUtf8 P j s

def IsString (P : Pool) (i : UInt16) (s : Bytes) : Prop := ∃ j, P i = some (.str j) ∧ IsUtf8 P j s

def IsModule (P : Pool) (i : UInt16) (s : Bytes) : Prop := ∃ j, P i = some (.module j) ∧ IsUtf8 P j s

def IsPackage (P : Pool) (i : UInt16) (s : Bytes) : Prop :=
  ∃ j, P i = some (.package j) ∧ IsUtf8 P j s

/-- The index of a descriptor string. -/
def IsDescr (P : Pool) (i : UInt16) (t : JType) : Prop :=
  IsDescriptor t ∧ ∃ cs, Desc t cs ∧ IsUtf8 P i (encodeCps cs)

def IsNat (P : Pool) (i : UInt16) (n : Bytes) (t : JType) : Prop :=
  ∃ a b, P i = some (.nat a b) ∧ IsUtf8 P a n ∧ IsDescr P b t

/-- Fields, methods and interface methods have different entries; the `itfs` flag of a field is
meaningless. -/
inductive IsMember (P : Pool) (i : UInt16) (m : MemberRef) : Prop
  | field (o nt : UInt16) : P i = some (.field o nt) → (∀ ps r, m.descriptor ≠ .method ps r) →
      IsClass P o m.owner → IsNat P nt m.name m.descriptor → IsMember P i m
  | method (o nt : UInt16) (ps : List JType) (r : Option JType) : P i = some (.method o nt) →
      m.descriptor = .method ps r → m.itfs = false →
      IsClass P o m.owner → IsNat P nt m.name m.descriptor → IsMember P i m
  | imethod (o nt : UInt16) (ps : List JType) (r : Option JType) : P i = some (.imethod o nt) →
      m.descriptor = .method ps r → m.itfs = true →
      IsClass P o m.owner → IsNat P nt m.name m.descriptor → IsMember P i m

/-- JVMS table 5.4.3.5-A: the reference kinds. -/
def refKind : HandleKind → Nat
  | .getField => 1
  | .getStatic => 2
  | .putField => 3
  | .putStatic => 4
  | .invokeVirtual => 5
  | .invokeStatic => 6
  | .invokeSpecial => 7
  | .newInvokeSpecial => 8
  | .invokeInterface => 9

def IsHandle (P : Pool) (i : UInt16) (h : MethodHandle) : Prop :=
  ∃ m, P i = some (.handle (UInt8.ofNat (refKind h.kind)) m) ∧ IsMember P m h.member

inductive IsConstant (P : Pool) (i : UInt16) : Constant → Prop
  | int (x : Int32) : P i = some (.int x) → IsConstant P i (.i32 x)
  | float (x : F32) : P i = some (.float x) → IsConstant P i (.f32 x)
  | long (x : Int64) : P i = some (.long x) → IsConstant P i (.i64 x)
  | double (x : F64) : P i = some (.double x) → IsConstant P i (.f64 x)
  | string (s : Bytes) : IsString P i s → IsConstant P i (.string s)
  | cls (s : Bytes) : IsClass P i s → IsConstant P i (.cls s)
  | member (m : MemberRef) : IsMember P i m → IsConstant P i (.member m)
  | methodType (t : JType) (j : UInt16) : P i = some (.mtype j) → IsDescr P j t →
      IsConstant P i (.methodType t)
  | methodHandle (h : MethodHandle) : IsHandle P i h → IsConstant P i (.methodHandle h)

/-- A dynamic constant, or a dynamic call site when the type is a method type: `b` is the index of
its bootstrap method. -/
inductive IsDynamic (P : Pool) (i b : UInt16) (n : Bytes) (t : JType) : Prop
  | constant (nt : UInt16) : P i = some (.dyn b nt) → (∀ ps r, t ≠ .method ps r) →
      IsNat P nt n t → IsDynamic P i b n t
  | callSite (nt : UInt16) (ps : List JType) (r : Option JType) : P i = some (.indy b nt) →
      t = .method ps r → IsNat P nt n t → IsDynamic P i b n t

/-- The pool `P` holds (at least) the entries `es` at their indices. -/
def Agrees (P : Pool) (es : List Entry) : Prop := ∀ (i : UInt16) e, At es i.toNat e → P i = some e

/-- `Steps cp cp'`: the pool `cp'` is reached from `cp` by insertions (`insert_raw`, `insert_bsm`;
all other insertion functions are built from these). -/
inductive Steps : VecCp → VecCp → Prop
  | refl (cp : VecCp) : Steps cp cp
  | raw {a b c : VecCp} {e : Entry} {i : UInt16} : Steps a b → insertRaw e b = .ok (i, c) → Steps a c
  | bsm {a b c : VecCp} {m : Bsm} {i : UInt16} : Steps a b → insertBsm m b = .ok (i, c) → Steps a c

end Verif.Spec

namespace Verif

/-- A field reference has no interface flag in the class file. -/
def MemberRef.norm (m : MemberRef) : MemberRef := { m with itfs := m.itfs && JType.isMethod m.descriptor }

/-- The constant with the interface flag of field references cleared. -/
def Constant.norm : Constant → Constant
  | .member m => .member m.norm
  | .methodHandle h => .methodHandle ⟨h.kind, h.member.norm⟩
  | c => c

end Verif

namespace Verif
open Spec

/-- The types inside a constant have a printable descriptor. -/
def ConstOk : Constant → Prop
  | .member m => Printable m.descriptor
  | .methodType t => Printable t
  | .methodHandle h => Printable h.member.descriptor
  | _ => True

end Verif
