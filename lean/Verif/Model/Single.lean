import Verif.Model.Io
import Verif.Model.Misc

/-!
# Model of codecs that no class file uses

Types of the public interface that can be written and read by themselves but do not occur in the
declaration of a class: borrowed constants (src/cp.rs:16-53), numbers as constants
(src/rw.rs:492-529), method handles and their kinds (src/loadable.rs:15-37, 142-165).
-/

namespace Verif

/-! ## src/cp.rs: `ConstEntryRef` -/

/-- src/cp.rs:19-31 `StrRef::write_to`: the bytes without a length. -/
def writeStrRef (s : Bytes) : Res Bytes := Mutf8.encode s

/-- src/cp.rs:20-25 `StrRef::read_from`: always an error. -/
def readStrRef : Reader Bytes := Reader.fail .invalid

namespace Entry

/-- src/cp.rs:33-53 `ConstEntryRef::write_to` (derived), a borrowed entry being given by the entry it
stands for. The variant `UTF8` is the first and has no tag in the source: its tag is 0. The other
variants have the tags of `RawConstantEntry`. -/
def writeRef : Entry → Res Bytes
  | .utf8 s =>
    match writeStrRef s with
    | .ok bs => .ok (u8.write 0 ++ bs)
    | .error e => .error e
  | e => e.write

/-- The arms of `ConstEntryRef::read_from` (derived). -/
def readRefPayload (tag : UInt8) : Reader Entry :=
  match tag with
  | 0 => readStrRef.map .utf8
  | 1 => Reader.fail .invalid
  | n => readPayload n

/-- `ConstEntryRef::read_from`. -/
def readRef : Reader Entry := Reader.bind u8.read readRefPayload

end Entry

/-! ## src/rw.rs: numbers -/

/-- src/rw.rs:492-513 `ConstantPoolReadWrite` for `i32`, `i64`, `f32`, `f64`, and 515-529 for
`TotalF32` and `TotalF64`, with `insert_int` … `insert_double` (src/rw.rs:127-138) and
`read_int` … `read_double` (src/rw.rs:216-239). Floats are bit patterns, so that the last two are the
same. -/
def wI32 (x : Int32) : Ins Bytes := wIdx (insertRaw (.int x))
def wI64 (x : Int64) : Ins Bytes := wIdx (insertRaw (.long x))
def wF32 (x : F32) : Ins Bytes := wIdx (insertRaw (.float x))
def wF64 (x : F64) : Ins Bytes := wIdx (insertRaw (.double x))
def rI32 : Rd Int32 := rIdx Pool.int
def rI64 : Rd Int64 := rIdx Pool.long
def rF32 : Rd F32 := rIdx Pool.float
def rF64 : Rd F64 := rIdx Pool.double

/-! ## src/loadable.rs: method handles -/

/-- src/loadable.rs:15-37: the derived `ReadWrite` of `MethodHandleKind`. The tags are the
discriminants. -/
def HandleKind.write (k : HandleKind) : Bytes := u8.write k.toU8
def HandleKind.read : Reader HandleKind := Reader.bind u8.read fun n =>
  match HandleKind.ofU8 n with
  | some k => Reader.pure k
  | none => Reader.fail .invalid

/-- src/member.rs:32-47: `ConstantPoolReadWrite` of `MemberRef`. -/
def wMemberRef (m : MemberRef) : Ins Bytes := wIdx (insertMember m)
def rMemberRef : Rd MemberRef := rIdxR Pool.member

/-- src/loadable.rs:155-164 `MethodHandle::write_to`. -/
def MethodHandle.write (h : MethodHandle) : Ins Bytes := do
  Ins.lift h.check
  wSeq [pure h.kind.write, wMemberRef h.member]

/-- src/loadable.rs:143-153 `MethodHandle::read_from`. -/
def MethodHandle.read : Rd MethodHandle :=
  Rd.bind (Rd.lift HandleKind.read) fun kind =>
  Rd.bind rMemberRef fun member =>
  Rd.bind (Rd.ofRes (MethodHandle.check ⟨kind, member⟩)) fun _ =>
  Rd.pure ⟨kind, member⟩

end Verif
