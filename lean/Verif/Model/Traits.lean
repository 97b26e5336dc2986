import Verif.Model.Cp

/-!
# The pool traits with any implementation

`ConstantPoolWriter` and `ConstantPoolReader` (src/rw.rs:22-362) are public traits. An implementation
provides `insert_raw` and `insert_bsm`, or `read_raw`, `resolve_later` and `bootstrap_methods`; the
other methods are provided by the trait. Here these provided methods are modelled over any
implementation. (`Model/Cp.lean` has them over the two implementations in the crate, `VecCp` and
`MapCp`.) Implementations that replace a provided method are not modelled, nor are `label`, `catch`,
`get_label` and `get_catch`, which are for the wrappers in src/code.rs.
-/

namespace Verif

/-- A method with a `&mut self` receiver: `σ` is the implementing type. -/
def Act (σ α : Type) := σ → Res (α × σ)

namespace Act
variable {σ : Type}

def pure {α : Type} (a : α) : Act σ α := fun s => .ok (a, s)

def bind {α β : Type} (x : Act σ α) (f : α → Act σ β) : Act σ β := fun s =>
  match x s with
  | .ok (a, s) => f a s
  | .error e => .error e

def fail {α : Type} (e : Err) : Act σ α := fun _ => .error e

def lift {α : Type} (r : Res α) : Act σ α := fun s =>
  match r with
  | .ok a => .ok (a, s)
  | .error e => .error e

instance : Monad (Act σ) where
  pure := Act.pure
  bind := Act.bind

end Act

/-- The required methods of `ConstantPoolWriter`: `insert_raw` (src/rw.rs:27) and `insert_bsm`
(src/rw.rs:75). They may panic. -/
structure CpWriter (σ : Type) where
  raw : Entry → Act σ UInt16
  bsm : Bsm → Act σ UInt16

namespace CpWriter
variable {σ : Type} (W : CpWriter σ)

/-- src/rw.rs:107-109 `insert_wtf8`. -/
def wtf8 (s : Bytes) : Act σ UInt16 := W.raw (.utf8 s)

/-- src/rw.rs:95-106 `insert_indirect_str`: the string is inserted before the tag is looked at. -/
def indirect (tag : UInt8) (s : Bytes) : Act σ UInt16 := do
  let i ← W.wtf8 s
  match tag with
  | 7 => W.raw (.cls i)
  | 8 => W.raw (.str i)
  | 19 => W.raw (.module i)
  | 20 => W.raw (.package i)
  | _ => Act.fail .panic

/-- src/rw.rs:110-118 `insert_nameandtype`. -/
def nameAndType (name desc : Bytes) : Act σ UInt16 := do
  let a ← W.wtf8 name
  let b ← W.wtf8 desc
  W.raw (.nat a b)

/-- src/rw.rs:119-122 `insert_class`. -/
def cls (s : Bytes) : Act σ UInt16 := do
  let i ← W.wtf8 s
  W.raw (.cls i)

/-- src/rw.rs:123-126 `insert_package`. -/
def package (s : Bytes) : Act σ UInt16 := do
  let i ← W.wtf8 s
  W.raw (.package i)

/-- src/rw.rs:127-129 `insert_int`. -/
def int (x : Int32) : Act σ UInt16 := W.raw (.int x)

/-- src/rw.rs:130-132 `insert_long`. -/
def long (x : Int64) : Act σ UInt16 := W.raw (.long x)

/-- src/rw.rs:133-135 `insert_float`. -/
def float (x : F32) : Act σ UInt16 := W.raw (.float x)

/-- src/rw.rs:136-138 `insert_double`. -/
def double (x : F64) : Act σ UInt16 := W.raw (.double x)

/-- src/rw.rs:139-149 `insert_member`. -/
def member (m : MemberRef) : Act σ UInt16 := do
  let o ← W.cls m.owner
  let nt ← W.nameAndType m.name (JType.display m.descriptor)
  W.raw (if JType.isMethod m.descriptor then
      if m.itfs then .imethod o nt else .method o nt
    else .field o nt)

/-- src/rw.rs:150-153 `insert_method_handle`. -/
def methodHandle (h : MethodHandle) : Act σ UInt16 := do
  let m ← W.member h.member
  W.raw (.handle h.kind.toU8 m)

/-- src/rw.rs:32-50 `insert_constant`. -/
def constant : Constant → Act σ UInt16
  | .i32 i => W.int i
  | .f32 f => W.float f
  | .i64 l => W.long l
  | .f64 d => W.double d
  | .string s => W.indirect 8 s
  | .cls s => W.indirect 7 s
  | .member m => W.member m
  | .methodType t => do
    let d ← W.wtf8 (JType.display t)
    W.raw (.mtype d)
  | .methodHandle h => do
    let m ← W.member h.member
    W.raw (.handle h.kind.toU8 m)

/-- src/rw.rs:83-93 `insert_dynamic`. -/
def dynamic (d : Dynamic) : Act σ UInt16 := do
  let b ← Act.lift d.getBsm
  let b ← W.bsm b
  let nt ← W.nameAndType d.name (JType.display d.descriptor)
  W.raw (if JType.isMethod d.descriptor then .indy b nt else .dyn b nt)

/-- src/rw.rs:57-65 `insert_ordynamic`. -/
def orDynamic {α : Type} (f : α → Act σ UInt16) : OrDynamic α → Act σ UInt16
  | .dynamic d => W.dynamic d
  | .static a => f a

end CpWriter

/-- The required methods of `ConstantPoolReader` that the provided ones use: `read_raw`
(src/rw.rs:179) and `resolve_later` (src/rw.rs:344). The cell handed to `resolve_later` is not
modelled, only the index it is registered with. -/
structure CpReader (σ : Type) where
  raw : UInt16 → Act σ (Option Entry)
  later : UInt16 → Act σ Unit

namespace CpReader
variable {σ : Type} (R : CpReader σ)

/-- src/rw.rs:259-264 `read_wtf8`. -/
def wtf8 (i : UInt16) : Act σ (Option Bytes) := do
  match ← R.raw i with
  | some (.utf8 s) => pure (some s)
  | _ => pure none

/-- src/rw.rs:182-193 `read_nameandtype`. -/
def nameAndType (i : UInt16) : Act σ (Option (Bytes × JType)) := do
  match ← R.raw i with
  | some (.nat n t) =>
    match ← R.wtf8 n with
    | some n =>
      match ← R.wtf8 t with
      | some t =>
        match ← Act.lift (okOrNone (JType.parseType t)) with
        | some t => pure (some (n, t))
        | none => pure none
      | none => pure none
    | none => pure none
  | _ => pure none

/-- src/rw.rs:241-253 `read_indirect_str`. -/
def indirect (tag : UInt8) (i : UInt16) : Act σ (Option Bytes) := do
  match ← R.raw i with
  | some (.module u) => if tag = 19 then R.wtf8 u else pure none
  | some (.package u) => if tag = 20 then R.wtf8 u else pure none
  | some (.str u) => if tag = 8 then R.wtf8 u else pure none
  | some (.cls u) => if tag = 7 then R.wtf8 u else pure none
  | _ => pure none

/-- src/rw.rs:255-257 `read_class`. -/
def cls (i : UInt16) : Act σ (Option Bytes) := R.indirect 7 i

/-- The common tail of src/rw.rs:319-341. -/
def memberParts (itfs : Bool) (o nt : UInt16) : Act σ (Option MemberRef) := do
  match ← R.indirect 7 o with
  | some o =>
    match ← R.nameAndType nt with
    | some (n, t) => pure (some ⟨o, n, t, itfs⟩)
    | none => pure none
  | none => pure none

/-- src/rw.rs:319-341 `read_member`. -/
def member (i : UInt16) : Act σ (Option MemberRef) := do
  match ← R.raw i with
  | some (.method o nt) => R.memberParts false o nt
  | some (.field o nt) => R.memberParts false o nt
  | some (.imethod o nt) => R.memberParts true o nt
  | _ => pure none

/-- src/rw.rs:306-318 `read_method_handle`. -/
def methodHandle (i : UInt16) : Act σ (Option MethodHandle) := do
  match ← R.raw i with
  | some (.handle k m) =>
    match ← R.member m with
    | some m =>
      match HandleKind.ofU8 k with
      | some k => pure (some ⟨k, m⟩)
      | none => pure none
    | none => pure none
  | _ => pure none

/-- src/rw.rs:194-215 `read_constant`: anything but the kinds listed is read a second time, by
`read_member`. -/
def constant (i : UInt16) : Act σ (Option Constant) := do
  match ← R.raw i with
  | some (.int i) => pure (some (.i32 i))
  | some (.long l) => pure (some (.i64 l))
  | some (.float f) => pure (some (.f32 f))
  | some (.double d) => pure (some (.f64 d))
  | some (.str s) => do pure ((← R.wtf8 s).map .string)
  | some (.cls s) => do pure ((← R.wtf8 s).map .cls)
  | some (.mtype m) =>
    match ← R.wtf8 m with
    | some t => do pure ((← Act.lift (okOrNone (JType.parseType t))).map .methodType)
    | none => pure none
  | some (.handle k m) => do
    let m ← R.member m
    match HandleKind.ofU8 k, m with
    | some k, some m => pure (some (.methodHandle ⟨k, m⟩))
    | _, _ => pure none
  | _ => do pure ((← R.member i).map .member)

/-- src/rw.rs:216-221 `read_int`. -/
def int (i : UInt16) : Act σ (Option Int32) := do
  match ← R.raw i with
  | some (.int i) => pure (some i)
  | _ => pure none

/-- src/rw.rs:222-227 `read_long`. -/
def long (i : UInt16) : Act σ (Option Int64) := do
  match ← R.raw i with
  | some (.long i) => pure (some i)
  | _ => pure none

/-- src/rw.rs:228-233 `read_float`. -/
def float (i : UInt16) : Act σ (Option F32) := do
  match ← R.raw i with
  | some (.float i) => pure (some i)
  | _ => pure none

/-- src/rw.rs:234-239 `read_double`. -/
def double (i : UInt16) : Act σ (Option F64) := do
  match ← R.raw i with
  | some (.double i) => pure (some i)
  | _ => pure none

/-- The tail shared by src/rw.rs:276-290 and 291-305. -/
def dynamicParts (b nt : UInt16) : Act σ (Option Dynamic) := do
  match ← R.nameAndType nt with
  | some (n, t) => do
    R.later b
    pure (some ⟨.pending b, n, t⟩)
  | none => pure none

/-- src/rw.rs:276-290 `read_invokedynamic`. -/
def invokeDynamic (i : UInt16) : Act σ (Option Dynamic) := do
  match ← R.raw i with
  | some (.indy b nt) => R.dynamicParts b nt
  | _ => pure none

/-- src/rw.rs:291-305 `read_dynamic`. -/
def dynamic (i : UInt16) : Act σ (Option Dynamic) := do
  match ← R.raw i with
  | some (.dyn b nt) => R.dynamicParts b nt
  | _ => pure none

/-- src/rw.rs:265-275 `read_or_dynamic`. -/
def orDynamic {α : Type} (f : UInt16 → Act σ (Option α)) (i : UInt16) :
    Act σ (Option (OrDynamic α)) := do
  match ← R.dynamic i with
  | some d => pure (some (.dynamic d))
  | none => do pure ((← f i).map .static)

end CpReader

/-- `VecCp` as an implementation, src/cp.rs:217-236. -/
def VecCp.writer : CpWriter VecCp := ⟨insertRaw, insertBsm⟩

/-- A pool that answers every index in the same way, with the indices registered by `resolve_later`
as its state: `MapCp` (src/cp.rs:175-182) for the pool `MapCp.get`. -/
def Pool.reader (P : Pool) : CpReader (List UInt16) :=
  ⟨fun i s => .ok (P i, s), fun b s => .ok ((), s ++ [b])⟩

/-- `ConstantPoolWriter for Labeler`, src/code.rs:493-502: a wrapper hands insertions to the inner
implementation. `κ` is the wrapper's own part. -/
def CpWriter.wrap {σ : Type} (W : CpWriter σ) (κ : Type) : CpWriter (κ × σ) where
  raw e s := match W.raw e s.2 with
    | .ok (i, s') => .ok (i, s.1, s')
    | .error e => .error e
  bsm b s := match W.bsm b s.2 with
    | .ok (i, s') => .ok (i, s.1, s')
    | .error e => .error e

/-- `ConstantPoolReader for Labeler`, src/code.rs:50-57. -/
def CpReader.wrap {σ : Type} (R : CpReader σ) (κ : Type) : CpReader (κ × σ) where
  raw i s := match R.raw i s.2 with
    | .ok (x, s') => .ok (x, s.1, s')
    | .error e => .error e
  later b s := match R.later b s.2 with
    | .ok (x, s') => .ok (x, s.1, s')
    | .error e => .error e

end Verif
