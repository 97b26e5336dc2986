import Verif.Model.Cp

/-!
# Model of src/total_floats.rs, src/flags.rs, src/version.rs, `MethodHandle::check` of
src/loadable.rs and `JumpCondition` of src/code/structure.rs
-/

namespace Verif

/-! ## src/total_floats.rs -/

/-- `f32::total_cmp` of the standard library: the bits as `i32`, with the low 31 bits flipped when
the sign bit is set. -/
def F32.key (x : F32) : Int32 :=
  let left := x.bits.toInt32
  left ^^^ ((left >>> 31).toUInt32 >>> 1).toInt32

/-- `f64::total_cmp`. -/
def F64.key (x : F64) : Int64 :=
  let left := x.bits.toInt64
  left ^^^ ((left >>> 63).toUInt64 >>> 1).toInt64

/-- `Ord::cmp` of integers. -/
def cmpInt (a b : Int) : Ordering := if a < b then .lt else if a = b then .eq else .gt

/-- src/total_floats.rs:68-72 (and `PartialOrd`, 52-56): `total_cmp`. -/
def F32.cmp (a b : F32) : Ordering := cmpInt a.key.toInt b.key.toInt

/-- src/total_floats.rs:74-78, 58-62. -/
def F64.cmp (a b : F64) : Ordering := cmpInt a.key.toInt b.key.toInt

/-- src/total_floats.rs:40-44; also the comparisons with plain `f32`, 116-120 and 128-132. -/
def F32.eq (a b : F32) : Bool := (a.cmp b).isEq

/-- src/total_floats.rs:46-50, 122-126, 134-138. -/
def F64.eq (a b : F64) : Bool := (a.cmp b).isEq

/-- src/total_floats.rs:80-84: what is fed to the hasher. -/
def F32.hashed (x : F32) : UInt32 := x.bits

/-- src/total_floats.rs:86-90. -/
def F64.hashed (x : F64) : UInt64 := x.bits

/-! ## src/flags.rs -/

/-- The eight flag types of src/flags.rs. -/
inductive FlagType where
  | cls | field | method | inner | param | module | require | exOp
  deriving DecidableEq, Repr

/-- The constants declared for a flag type: src/flags.rs:7-31, 33-55, 57-85, 87-111, 113-123,
125-135, 137-149, 151-159. -/
def FlagType.consts : FlagType → List UInt16
  | .cls => [0b0000_0000_0000_0001, 0b0000_0000_0001_0000, 0b0000_0000_0010_0000,
      0b0000_0010_0000_0000, 0b0000_0100_0000_0000, 0b0001_0000_0000_0000, 0b0010_0000_0000_0000,
      0b0100_0000_0000_0000, 0b1000_0000_0000_0000]
  | .field => [0b0000_0000_0000_0001, 0b0000_0000_0000_0010, 0b0000_0000_0000_0100,
      0b0000_0000_0000_1000, 0b0000_0000_0001_0000, 0b0000_0000_0100_0000, 0b0000_0000_1000_0000,
      0b0001_0000_0000_0000, 0b0100_0000_0000_0000]
  | .method => [0b0000_0000_0000_0001, 0b0000_0000_0000_0010, 0b0000_0000_0000_0100,
      0b0000_0000_0000_1000, 0b0000_0000_0001_0000, 0b0000_0000_0010_0000, 0b0000_0000_0100_0000,
      0b0000_0000_1000_0000, 0b0000_0001_0000_0000, 0b0000_0100_0000_0000, 0b0000_1000_0000_0000,
      0b0001_0000_0000_0000]
  | .inner => [0b0000_0000_0000_0001, 0b0000_0000_0000_0010, 0b0000_0000_0000_0100,
      0b0000_0000_0000_1000, 0b0000_0000_0001_0000, 0b0000_0010_0000_0000, 0b0000_0100_0000_0000,
      0b0001_0000_0000_0000, 0b0010_0000_0000_0000, 0b0100_0000_0000_0000]
  | .param => [0b0000_0000_0001_0000, 0b0001_0000_0000_0000, 0b1000_0000_0000_0000]
  | .module => [0b0000_0000_0010_0000, 0b0001_0000_0000_0000, 0b1000_0000_0000_0000]
  | .require => [0b0000_0000_0010_0000, 0b0000_0000_0100_0000, 0b0001_0000_0000_0000,
      0b1000_0000_0000_0000]
  | .exOp => [0b0001_0000_0000_0000, 0b1000_0000_0000_0000]

/-- `all()` of the `bitflags!` type: the union of its constants. -/
def FlagType.all (t : FlagType) : UInt16 := t.consts.foldl (· ||| ·) 0

/-- A value of a flag type is its bits. -/
structure Flags (t : FlagType) where
  bits : UInt16
  deriving DecidableEq, Repr

/-- `from_bits_truncate`. -/
def Flags.ofBitsTruncate (t : FlagType) (b : UInt16) : Flags t := ⟨b &&& t.all⟩

/-- src/flags.rs:165-170. -/
def Flags.read (t : FlagType) : Reader (Flags t) := u16.read.map (Flags.ofBitsTruncate t)

/-- src/flags.rs:171. -/
def Flags.write {t : FlagType} (f : Flags t) : Bytes := u16.write f.bits

/-! ## src/version.rs -/

/-- src/version.rs:25-56 `MajorVersion`. -/
inductive Major where
  | j1 | j1_2 | j1_3 | j1_4 | j5 | j6 | j7 | j8 | j9 | j10 | j11 | j12 | j13 | j14 | j15
  deriving DecidableEq, Repr

/-- The tags assigned by `derive(ReadWrite)` to src/version.rs:25-56: `J1 = 45`, each further variant
one more (coffer_macros/src/derive.rs:331-354). -/
def Major.tag : Major → UInt16
  | .j1 => 45 | .j1_2 => 46 | .j1_3 => 47 | .j1_4 => 48 | .j5 => 49 | .j6 => 50 | .j7 => 51
  | .j8 => 52 | .j9 => 53 | .j10 => 54 | .j11 => 55 | .j12 => 56 | .j13 => 57 | .j14 => 58
  | .j15 => 59

/-- The arms of the derived reader. -/
def Major.ofTag : UInt16 → Option Major
  | 45 => some .j1 | 46 => some .j1_2 | 47 => some .j1_3 | 48 => some .j1_4 | 49 => some .j5
  | 50 => some .j6 | 51 => some .j7 | 52 => some .j8 | 53 => some .j9 | 54 => some .j10
  | 55 => some .j11 | 56 => some .j12 | 57 => some .j13 | 58 => some .j14 | 59 => some .j15
  | _ => none

/-- The derived reader: an unknown tag is refused (derive.rs:381-417). -/
def Major.read : Reader Major := Reader.bind u16.read fun t =>
  match Major.ofTag t with
  | some m => Reader.pure m
  | none => Reader.fail .invalid

/-- src/version.rs:7-12. -/
structure Version where
  minor : UInt16
  major : Major
  deriving DecidableEq, Repr

/-- The derived reader: the fields in order. -/
def Version.read : Reader Version := Reader.map2 Version.mk u16.read Major.read

/-- The derived writer. -/
def Version.write (v : Version) : Bytes := u16.write v.minor ++ u16.write v.major.tag

/-! ## src/loadable.rs: `MethodHandle::check` -/

/-- The bytes of `<init>`. -/
def nameInit : Bytes := [0x3C, 0x69, 0x6E, 0x69, 0x74, 0x3E]

/-- The bytes of `<clinit>`. -/
def nameClinit : Bytes := [0x3C, 0x63, 0x6C, 0x69, 0x6E, 0x69, 0x74, 0x3E]

/-- src/loadable.rs:80-139. -/
def MethodHandle.check (h : MethodHandle) : Res Unit :=
  let isM := h.member.descriptor.isMethod
  -- 117: should_not_be_method
  if (h.kind = .getField ∨ h.kind = .getStatic ∨ h.kind = .putField ∨ h.kind = .putStatic) ∧ isM = true
  then .error .invalid
  -- 118: should_be_method
  else if (h.kind = .invokeInterface ∨ h.kind = .invokeSpecial ∨ h.kind = .invokeStatic ∨
      h.kind = .invokeVirtual ∨ h.kind = .newInvokeSpecial) ∧ isM = false
  then .error .invalid
  else match h.kind with
  | .invokeVirtual | .invokeStatic | .invokeSpecial | .invokeInterface =>
    if h.member.name = nameInit ∨ h.member.name = nameClinit then .error .invalid else .ok ()
  | .newInvokeSpecial => if h.member.name ≠ nameInit then .error .invalid else .ok ()
  | _ => .ok ()

/-! ## src/code/structure.rs: `JumpCondition` -/

/-- src/code/structure.rs:64-84. -/
inductive Cond where
  | refEq | refNe | intEq | intNe | intLt | intGt | intLe | intGe
  | eqZ | neZ | ltZ | gtZ | leZ | geZ | isNull | isNonNull | always
  deriving DecidableEq, Repr

/-- src/code/structure.rs:86-111 with src/constants/insn.rs. -/
def Cond.opcode : Cond → UInt8
  | .refEq => 0xA5
  | .refNe => 0xA6
  | .intEq => 0x9F
  | .intNe => 0xA0
  | .intLt => 0xA1
  | .intGt => 0xA3
  | .intLe => 0xA4
  | .intGe => 0xA2
  | .eqZ => 0x99
  | .neZ => 0x9A
  | .ltZ => 0x9B
  | .gtZ => 0x9D
  | .leZ => 0x9E
  | .geZ => 0x9C
  | .isNull => 0xC6
  | .isNonNull => 0xC7
  | .always => 0xA7

/-- src/code/structure.rs:113-138. -/
def Cond.neg : Cond → Option Cond
  | .refEq => some .refNe
  | .refNe => some .refEq
  | .intNe => some .intEq
  | .intEq => some .intNe
  | .intLt => some .intGe
  | .intGt => some .intLe
  | .intLe => some .intGt
  | .intGe => some .intLt
  | .eqZ => some .neZ
  | .neZ => some .eqZ
  | .ltZ => some .geZ
  | .gtZ => some .leZ
  | .leZ => some .gtZ
  | .geZ => some .ltZ
  | .isNull => some .isNonNull
  | .isNonNull => some .isNull
  | .always => none

end Verif
