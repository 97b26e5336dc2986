import Verif.Model.Io

/-! # Model of stack map frames: src/code.rs:610-746 -/

namespace Verif

/-- src/code.rs:610-623 `VerificationType`. -/
inductive VType where
  | top | int | float | long | double | null | uninitThis
  | object (name : Bytes)
  | uninit (l : Label)
  deriving DecidableEq, Repr

/-- The derived tag: without `tag =` attributes the variants are numbered from 0
(coffer_macros/src/derive.rs:331-354). -/
def VType.tag : VType → UInt8
  | .top => 0
  | .int => 1
  | .float => 2
  | .long => 3
  | .double => 4
  | .null => 5
  | .uninitThis => 6
  | .object _ => 7
  | .uninit _ => 8

/-- derive.rs:355-380, 432-: the tag, then the fields. -/
def VType.write (env : WEnv) (v : VType) : Ins Bytes :=
  wSeq [wNum u8 v.tag,
    match v with
    | .object s => wStr 7 s
    | .uninit l => wLabel env l
    | _ => pure []]

/-- The derived reader after the tag. -/
def VType.readTag : UInt8 → Rd VType
  | 0 => Rd.pure .top
  | 1 => Rd.pure .int
  | 2 => Rd.pure .float
  | 3 => Rd.pure .long
  | 4 => Rd.pure .double
  | 5 => Rd.pure .null
  | 6 => Rd.pure .uninitThis
  | 7 => Rd.map .object (rStr 7)
  | 8 => Rd.map .uninit rLabel
  | _ => Rd.fail .invalid

def VType.read : Rd VType := Rd.bind (rNum u8) VType.readTag

/-- src/code.rs:631-641 `RawFrame`. -/
inductive Frame where
  | same (off : UInt16)
  | one (off : UInt16) (v : VType)
  | chop (off : UInt16) (n : UInt8)
  | append (off : UInt16) (locals : List VType)
  | full (off : UInt16) (locals stack : List VType)
  deriving DecidableEq, Repr

/-- src/code.rs:696-745 `write_to`. -/
def Frame.write (env : WEnv) : Frame → Ins Bytes
  | .same off =>
    if off ≤ 63 then wNum u8 off.toUInt8 else wSeq [wNum u8 251, wNum u16 off]
  | .one off v =>
    if off ≤ 63 then wSeq [wNum u8 (off.toUInt8 + 64), v.write env]
    else wSeq [wNum u8 247, wNum u16 off, v.write env]
  | .chop off n =>
    if 1 ≤ n ∧ n ≤ 3 then wSeq [wNum u8 (251 - n), wNum u16 off] else Ins.fail .invalid
  | .append off locals =>
    if locals.length ≤ 3 then
      wSeq [wNum u8 (UInt8.ofNat locals.length + 251), wNum u16 off, wAll (VType.write env) locals]
    else Ins.fail .invalid
  | .full off locals stack =>
    wSeq [wNum u8 255, wNum u16 off,
      wNum u16 (UInt16.ofNat locals.length), wAll (VType.write env) locals,
      wNum u16 (UInt16.ofNat stack.length), wAll (VType.write env) stack]

/-- src/code.rs:648-693, after the tag. -/
def Frame.readTag (tag : UInt8) : Rd Frame :=
  if tag ≤ 63 then Rd.pure (.same tag.toUInt16)
  else if tag ≤ 127 then Rd.map (.one (tag - 64).toUInt16) VType.read
  else if tag ≤ 246 then Rd.fail .invalid
  else if tag = 247 then Rd.ap (Rd.map .one (rNum u16)) VType.read
  else if tag ≤ 250 then Rd.map (fun off => .chop off (251 - tag)) (rNum u16)
  else if tag = 251 then Rd.map .same (rNum u16)
  else if tag ≤ 254 then
    Rd.ap (Rd.map .append (rNum u16)) (Rd.replicate (tag - 251).toNat VType.read)
  else Rd.ap (Rd.ap (Rd.map .full (rNum u16)) (rVec u16 VType.read)) (rVec u16 VType.read)

/-- src/code.rs:643-694 `read_from`. -/
def Frame.read : Rd Frame := Rd.bind (rNum u8) Frame.readTag

end Verif
