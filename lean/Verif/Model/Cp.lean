import Verif.Model.Rw
import Verif.Model.Ty

/-!
# Model of the constant pool: src/cp.rs, the pool traits of src/rw.rs, src/loadable.rs,
src/dynamic.rs, `MemberRef` of src/member.rs

Hash maps are association lists (first match wins); `RawConstantEntry` compares floats by bit
pattern (src/total_floats.rs, property C27). `u16` arithmetic that overflows is a panic.
-/

namespace Verif

/-- src/cp.rs:57-80 `RawConstantEntry`. -/
inductive Entry where
  | utf8 (s : Bytes)
  | int (i : Int32)
  | float (f : F32)
  | long (l : Int64)
  | double (d : F64)
  | cls (i : UInt16)
  | str (i : UInt16)
  | field (o nt : UInt16)
  | method (o nt : UInt16)
  | imethod (o nt : UInt16)
  | nat (n t : UInt16)
  | handle (k : UInt8) (m : UInt16)
  | mtype (t : UInt16)
  | dyn (b nt : UInt16)
  | indy (b nt : UInt16)
  | module (n : UInt16)
  | package (n : UInt16)
  deriving DecidableEq, Repr

namespace Entry

/-- src/cp.rs:86-91 `size`. -/
def size : Entry → UInt16
  | .long _ => 2
  | .double _ => 2
  | _ => 1

end Entry

namespace Reader

def map {α β : Type} (f : α → β) (r : Reader α) : Reader β := bind r fun a => pure (f a)

def map2 {α β γ : Type} (f : α → β → γ) (r : Reader α) (s : Reader β) : Reader γ :=
  bind r fun a => bind s fun b => pure (f a b)

end Reader

namespace Entry

/-- The payload after the tag: the arms of the reader generated by `derive(ReadWrite)`
(coffer_macros/src/derive.rs:381-417) for src/cp.rs:57-80; the tag of a variant without an explicit
tag is that of the previous one plus one (derive.rs:331-354). -/
def readPayload (tag : UInt8) : Reader Entry :=
  match tag with
  | 1 => readString.map .utf8
  | 3 => i32.read.map .int
  | 4 => f32.read.map .float
  | 5 => i64.read.map .long
  | 6 => f64.read.map .double
  | 7 => u16.read.map .cls
  | 8 => u16.read.map .str
  | 9 => Reader.map2 .field u16.read u16.read
  | 10 => Reader.map2 .method u16.read u16.read
  | 11 => Reader.map2 .imethod u16.read u16.read
  | 12 => Reader.map2 .nat u16.read u16.read
  | 15 => Reader.map2 .handle u8.read u16.read
  | 16 => u16.read.map .mtype
  | 17 => Reader.map2 .dyn u16.read u16.read
  | 18 => Reader.map2 .indy u16.read u16.read
  | 19 => u16.read.map .module
  | 20 => u16.read.map .package
  | _ => Reader.fail .invalid

/-- `RawConstantEntry::read_from` (derived). -/
def read : Reader Entry := Reader.bind u8.read readPayload

/-- `RawConstantEntry::write_to` (derived): tag, then the fields in order. -/
def write : Entry → Res Bytes
  | .utf8 s =>
    match writeString s with
    | .ok bs => .ok (u8.write 1 ++ bs)
    | .error e => .error e
  | .int i => .ok (u8.write 3 ++ i32.write i)
  | .float f => .ok (u8.write 4 ++ f32.write f)
  | .long l => .ok (u8.write 5 ++ i64.write l)
  | .double d => .ok (u8.write 6 ++ f64.write d)
  | .cls i => .ok (u8.write 7 ++ u16.write i)
  | .str i => .ok (u8.write 8 ++ u16.write i)
  | .field o nt => .ok (u8.write 9 ++ (u16.write o ++ u16.write nt))
  | .method o nt => .ok (u8.write 10 ++ (u16.write o ++ u16.write nt))
  | .imethod o nt => .ok (u8.write 11 ++ (u16.write o ++ u16.write nt))
  | .nat n t => .ok (u8.write 12 ++ (u16.write n ++ u16.write t))
  | .handle k m => .ok (u8.write 15 ++ (u8.write k ++ u16.write m))
  | .mtype t => .ok (u8.write 16 ++ u16.write t)
  | .dyn b nt => .ok (u8.write 17 ++ (u16.write b ++ u16.write nt))
  | .indy b nt => .ok (u8.write 18 ++ (u16.write b ++ u16.write nt))
  | .module n => .ok (u8.write 19 ++ u16.write n)
  | .package n => .ok (u8.write 20 ++ u16.write n)

end Entry

/-! ## Reading a pool: `MapCp` -/

/-- src/cp.rs:102-109 `MapCp.entries`. The field `refs` is the argument `pending` of the functions
below. -/
structure MapCp where
  entries : List (UInt16 × Entry)

/-- src/cp.rs:159-166: the loop, with the number `i` of the next entry. `i += entry.size()` is
checked before the insertion. -/
def MapCp.readLoop (count : UInt16) (i : UInt16) (acc : List (UInt16 × Entry)) : Reader MapCp :=
  fun bs =>
    if i < count then
      match Entry.read bs with
      | .ok (e, rest) =>
        if i.toNat + e.size.toNat < 65536 then
          readLoop count (i + e.size) ((i, e) :: acc) rest
        else .error .panic
      | .error e => .error e
    else .ok (⟨acc⟩, bs)
termination_by 65536 - i.toNat
decreasing_by
  rename_i _ _ h
  have h1 : 1 ≤ e.size.toNat := by cases e <;> simp [Entry.size]
  rw [UInt16.toNat_add, Nat.mod_eq_of_lt h]
  omega

/-- src/cp.rs:157-168 `MapCp::read_from`. -/
def MapCp.read : Reader MapCp := Reader.bind u16.read fun count => MapCp.readLoop count 1 []

/-- A pool as seen by `read_raw`, src/cp.rs:176-178. -/
abbrev Pool := UInt16 → Option Entry

def MapCp.get (m : MapCp) : Pool := fun i => m.entries.lookup i

/-! ## Values held in the pool -/

/-- src/member.rs:13-30. -/
structure MemberRef where
  owner : Bytes
  name : Bytes
  descriptor : JType
  itfs : Bool

/-- src/loadable.rs:16-37. -/
inductive HandleKind where
  | getField | getStatic | putField | putStatic | invokeVirtual | invokeStatic | invokeSpecial
  | newInvokeSpecial | invokeInterface
  deriving DecidableEq, Repr

/-- `kind as u8`, src/loadable.rs:17-37 (discriminants from 1). -/
def HandleKind.toU8 : HandleKind → UInt8
  | .getField => 1
  | .getStatic => 2
  | .putField => 3
  | .putStatic => 4
  | .invokeVirtual => 5
  | .invokeStatic => 6
  | .invokeSpecial => 7
  | .newInvokeSpecial => 8
  | .invokeInterface => 9

/-- src/loadable.rs:39-58 `TryFrom<u8>`. -/
def HandleKind.ofU8 : UInt8 → Option HandleKind
  | 1 => some .getField
  | 2 => some .getStatic
  | 3 => some .putField
  | 4 => some .putStatic
  | 5 => some .invokeVirtual
  | 6 => some .invokeStatic
  | 7 => some .invokeSpecial
  | 8 => some .newInvokeSpecial
  | 9 => some .invokeInterface
  | _ => none

/-- src/loadable.rs:63-68. -/
structure MethodHandle where
  kind : HandleKind
  member : MemberRef

/-- src/loadable.rs:167-186. -/
inductive Constant where
  | i32 (i : Int32)
  | f32 (f : F32)
  | i64 (l : Int64)
  | f64 (d : F64)
  | string (s : Bytes)
  | cls (s : Bytes)
  | member (m : MemberRef)
  | methodType (t : JType)
  | methodHandle (h : MethodHandle)

/-- src/loadable.rs:193-195 `is_wide`. -/
def Constant.isWide : Constant → Bool
  | .i64 _ => true
  | .f64 _ => true
  | _ => false

mutual
/-- The cell `Arc<OnceCell<BootstrapMethod>>` of src/dynamic.rs:55. `pending i` is a cell that has
not been filled and has been handed to `resolve_later` with index `i` (src/rw.rs:276-305); `filled`
is a cell holding a bootstrap method. -/
inductive Cell where
  | pending (i : UInt16)
  | filled (handle : MethodHandle) (args : List Arg)
/-- `OrDynamic<Constant>`, src/dynamic.rs:101-104, with the fields of `Dynamic` (src/dynamic.rs:54-61)
inlined. -/
inductive Arg where
  | dynamic (cell : Cell) (name : Bytes) (descriptor : JType)
  | static (c : Constant)
end

/-- src/dynamic.rs:9-13. -/
structure Bsm where
  handle : MethodHandle
  arguments : List Arg

/-- src/dynamic.rs:54-61. -/
structure Dynamic where
  bsm : Cell
  name : Bytes
  descriptor : JType

/-- src/dynamic.rs:77-80 `get_bsm`: `expect` on an empty cell. -/
def Dynamic.getBsm (d : Dynamic) : Res Bsm :=
  match d.bsm with
  | .pending _ => .error .panic
  | .filled h as => .ok ⟨h, as⟩

/-- src/dynamic.rs:101-104 `OrDynamic`. -/
inductive OrDynamic (α : Type) where
  | dynamic (d : Dynamic)
  | static (a : α)

/-! ## Resolving indices: `ConstantPoolReader` (src/rw.rs:177-362)

The result `none` is Rust's `None`. A panic inside (`parse_type` on more than 255 `[`) is an error. -/

/-- `.and_then(Result::ok)`: an `Err` becomes `None`, a panic stays a panic. -/
def okOrNone {α : Type} : Res α → Res (Option α)
  | .ok a => .ok (some a)
  | .error .panic => .error .panic
  | .error .ub => .error .ub
  | .error .diverge => .error .diverge
  | .error _ => .ok none

namespace Pool
variable (P : Pool)

/-- src/rw.rs:259-264 `read_wtf8`. -/
def wtf8 (i : UInt16) : Option Bytes :=
  match P i with
  | some (.utf8 s) => some s
  | _ => none

/-- src/rw.rs:182-193 `read_nameandtype`. -/
def nameAndType (i : UInt16) : Res (Option (Bytes × JType)) :=
  match P i with
  | some (.nat n t) =>
    match wtf8 P n with
    | some n =>
      match wtf8 P t with
      | some t =>
        match okOrNone (JType.parseType t) with
        | .ok (some t) => .ok (some (n, t))
        | .ok none => .ok none
        | .error e => .error e
      | none => .ok none
    | none => .ok none
  | _ => .ok none

/-- src/rw.rs:241-253 `read_indirect_str`. -/
def indirect (tag : UInt8) (i : UInt16) : Option Bytes :=
  match P i with
  | some (.module u) => if tag = 19 then wtf8 P u else none
  | some (.package u) => if tag = 20 then wtf8 P u else none
  | some (.str u) => if tag = 8 then wtf8 P u else none
  | some (.cls u) => if tag = 7 then wtf8 P u else none
  | _ => none

/-- src/rw.rs:255-257 `read_class`. -/
def cls (i : UInt16) : Option Bytes := indirect P 7 i

/-- The common tail of src/rw.rs:319-341. -/
def memberParts (itfs : Bool) (o nt : UInt16) : Res (Option MemberRef) :=
  match indirect P 7 o with
  | some o =>
    match nameAndType P nt with
    | .ok (some (n, t)) => .ok (some ⟨o, n, t, itfs⟩)
    | .ok none => .ok none
    | .error e => .error e
  | none => .ok none

/-- src/rw.rs:319-341 `read_member`. -/
def member (i : UInt16) : Res (Option MemberRef) :=
  match P i with
  | some (.method o nt) => memberParts P false o nt
  | some (.field o nt) => memberParts P false o nt
  | some (.imethod o nt) => memberParts P true o nt
  | _ => .ok none

/-- src/rw.rs:306-318 `read_method_handle`: `read_member` is evaluated before the kind is checked. -/
def methodHandle (i : UInt16) : Res (Option MethodHandle) :=
  match P i with
  | some (.handle k m) =>
    match member P m with
    | .ok (some m) =>
      match HandleKind.ofU8 k with
      | some k => .ok (some ⟨k, m⟩)
      | none => .ok none
    | .ok none => .ok none
    | .error e => .error e
  | _ => .ok none

/-- src/rw.rs:194-215 `read_constant`. For a method handle, `zip` evaluates `read_member` also when
the kind is wrong. -/
def constant (i : UInt16) : Res (Option Constant) :=
  match P i with
  | some (.int i) => .ok (some (.i32 i))
  | some (.long l) => .ok (some (.i64 l))
  | some (.float f) => .ok (some (.f32 f))
  | some (.double d) => .ok (some (.f64 d))
  | some (.str s) => .ok ((wtf8 P s).map .string)
  | some (.cls s) => .ok ((wtf8 P s).map .cls)
  | some (.mtype m) =>
    match wtf8 P m with
    | some t =>
      match okOrNone (JType.parseType t) with
      | .ok t => .ok (t.map .methodType)
      | .error e => .error e
    | none => .ok none
  | some (.handle k m) =>
    match member P m with
    | .ok m =>
      match HandleKind.ofU8 k, m with
      | some k, some m => .ok (some (.methodHandle ⟨k, m⟩))
      | _, _ => .ok none
    | .error e => .error e
  | _ =>
    match member P i with
    | .ok m => .ok (m.map .member)
    | .error e => .error e

/-- src/rw.rs:216-239 `read_int`, … -/
def int (i : UInt16) : Option Int32 :=
  match P i with
  | some (.int i) => some i
  | _ => none

def long (i : UInt16) : Option Int64 :=
  match P i with
  | some (.long i) => some i
  | _ => none

def float (i : UInt16) : Option F32 :=
  match P i with
  | some (.float i) => some i
  | _ => none

def double (i : UInt16) : Option F64 :=
  match P i with
  | some (.double i) => some i
  | _ => none

/-- The tail shared by src/rw.rs:276-290 and 291-305: the cell is registered once name and type are
known. `pending` holds the indices with which `resolve_later` was called, in order; the number of a
cell is its position. -/
def dynamicParts (b nt : UInt16) (pending : List UInt16) : Res (Option Dynamic × List UInt16) :=
  match nameAndType P nt with
  | .ok (some (n, t)) => .ok (some ⟨.pending b, n, t⟩, pending ++ [b])
  | .ok none => .ok (none, pending)
  | .error e => .error e

/-- src/rw.rs:276-290 `read_invokedynamic`. -/
def invokeDynamic (i : UInt16) (pending : List UInt16) : Res (Option Dynamic × List UInt16) :=
  match P i with
  | some (.indy b nt) => dynamicParts P b nt pending
  | _ => .ok (none, pending)

/-- src/rw.rs:291-305 `read_dynamic`. -/
def dynamic (i : UInt16) (pending : List UInt16) : Res (Option Dynamic × List UInt16) :=
  match P i with
  | some (.dyn b nt) => dynamicParts P b nt pending
  | _ => .ok (none, pending)

/-- src/rw.rs:265-275 `read_or_dynamic`. -/
def orDynamic {α : Type} (f : UInt16 → Res (Option α)) (i : UInt16) (pending : List UInt16) :
    Res (Option (OrDynamic α) × List UInt16) :=
  match dynamic P i pending with
  | .ok (some d, p) => .ok (some (.dynamic d), p)
  | .ok (none, p) =>
    match f i with
    | .ok a => .ok (a.map .static, p)
    | .error e => .error e
  | .error e => .error e

end Pool

/-- src/cp.rs:185-191, the loop of `bootstrap_methods` from table index `i` on. `refs` is the content
of the map `MapCp.refs`: for each registered cell (a number) the bootstrap index it was registered
with. The first component of the result says which cell is set to which bootstrap method, the second
is what remains in the map. `i as _` is a cast to `u16`. -/
def fillLoop : Nat → List Bsm → List (UInt16 × Nat) → List (Nat × Bsm) × List (UInt16 × Nat)
  | _, [], refs => ([], refs)
  | i, b :: bs, refs =>
    let hit := refs.filter fun r => r.1 = UInt16.ofNat i
    let (set, left) := fillLoop (i + 1) bs (refs.filter fun r => r.1 ≠ UInt16.ofNat i)
    (hit.map (fun r => (r.2, b)) ++ set, left)

/-- src/cp.rs:184-200 `bootstrap_methods`: an error if references are left over, else the cells that
were set. -/
def bootstrapMethods (bsms : List Bsm) (refs : List (UInt16 × Nat)) : Res (List (Nat × Bsm)) :=
  match fillLoop 0 bsms refs with
  | (set, []) => .ok set
  | (_, _ :: _) => .error .invalid

/-! ## Inserting: `VecCp` and `ConstantPoolWriter` -/

/-- src/cp.rs:111-117. -/
structure VecCp where
  entries : List Entry
  cache : List (Entry × UInt16)
  len : UInt16
  bsm : List Bsm

/-- src/cp.rs:121-128. -/
def VecCp.new : VecCp := ⟨[], [], 1, []⟩

/-- An insertion: it returns a value and changes the pool, or panics. -/
def Ins (α : Type) := VecCp → Res (α × VecCp)

namespace Ins

def pure {α : Type} (a : α) : Ins α := fun cp => .ok (a, cp)

def bind {α β : Type} (x : Ins α) (f : α → Ins β) : Ins β := fun cp =>
  match x cp with
  | .ok (a, cp) => f a cp
  | .error e => .error e

def fail {α : Type} (e : Err) : Ins α := fun _ => .error e

instance : Monad Ins where
  pure := Ins.pure
  bind := Ins.bind

def lift {α : Type} (r : Res α) : Ins α := fun cp =>
  match r with
  | .ok a => .ok (a, cp)
  | .error e => .error e

end Ins

/-- src/cp.rs:218-229 `insert_raw`. -/
def insertRaw (e : Entry) : Ins UInt16 := fun cp =>
  match cp.cache.lookup e with
  | some i => .ok (i, cp)
  | none =>
    if cp.len.toNat + e.size.toNat < 65536 then
      .ok (cp.len, { cp with
        entries := cp.entries ++ [e], cache := (e, cp.len) :: cp.cache, len := cp.len + e.size })
    else .error .panic

/-- src/cp.rs:231-235 `insert_bsm`. -/
def insertBsm (b : Bsm) : Ins UInt16 := fun cp =>
  .ok (UInt16.ofNat cp.bsm.length, { cp with bsm := cp.bsm ++ [b] })

/-- src/rw.rs:107-109. -/
def insertWtf8 (s : Bytes) : Ins UInt16 := insertRaw (.utf8 s)

/-- src/rw.rs:95-106. -/
def insertIndirect (tag : UInt8) (s : Bytes) : Ins UInt16 := do
  let i ← insertWtf8 s
  match tag with
  | 7 => insertRaw (.cls i)
  | 8 => insertRaw (.str i)
  | 19 => insertRaw (.module i)
  | 20 => insertRaw (.package i)
  | _ => Ins.fail .panic

/-- src/rw.rs:110-118. -/
def insertNameAndType (name desc : Bytes) : Ins UInt16 := do
  let a ← insertWtf8 name
  let b ← insertWtf8 desc
  insertRaw (.nat a b)

/-- src/rw.rs:119-122. -/
def insertClass (s : Bytes) : Ins UInt16 := do
  let i ← insertWtf8 s
  insertRaw (.cls i)

/-- src/rw.rs:139-149. -/
def insertMember (m : MemberRef) : Ins UInt16 := do
  let o ← insertClass m.owner
  let nt ← insertNameAndType m.name (JType.display m.descriptor)
  insertRaw (if JType.isMethod m.descriptor then
      if m.itfs then .imethod o nt else .method o nt
    else .field o nt)

/-- src/rw.rs:150-153. -/
def insertMethodHandle (h : MethodHandle) : Ins UInt16 := do
  let m ← insertMember h.member
  insertRaw (.handle h.kind.toU8 m)

/-- src/rw.rs:32-50. -/
def insertConstant : Constant → Ins UInt16
  | .i32 i => insertRaw (.int i)
  | .f32 f => insertRaw (.float f)
  | .i64 l => insertRaw (.long l)
  | .f64 d => insertRaw (.double d)
  | .string s => insertIndirect 8 s
  | .cls s => insertIndirect 7 s
  | .member m => insertMember m
  | .methodType t => do
    let d ← insertWtf8 (JType.display t)
    insertRaw (.mtype d)
  | .methodHandle h => insertMethodHandle h

/-- src/rw.rs:83-93. -/
def insertDynamic (d : Dynamic) : Ins UInt16 := do
  let b ← Ins.lift d.getBsm
  let b ← insertBsm b
  let nt ← insertNameAndType d.name (JType.display d.descriptor)
  insertRaw (if JType.isMethod d.descriptor then .indy b nt else .dyn b nt)

/-- src/rw.rs:57-65. -/
def insertOrDynamic {α : Type} (f : α → Ins UInt16) : OrDynamic α → Ins UInt16
  | .dynamic d => insertDynamic d
  | .static a => f a

/-- The bootstrap argument as an `OrDynamic` (the model inlines the structure). -/
def Arg.toOrDynamic : Arg → OrDynamic Constant
  | .dynamic c n d => .dynamic ⟨c, n, d⟩
  | .static c => .static c

/-- src/cp.rs:208-214 `VecCp::write_to`. -/
def VecCp.write (cp : VecCp) : Res Bytes :=
  match writeAll Entry.write cp.entries with
  | .ok bs => .ok (u16.write cp.len ++ bs)
  | .error e => .error e

end Verif
