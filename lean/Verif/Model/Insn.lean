import Verif.Model.Rw

/-!
# Model of the raw instructions: src/insn.rs

`ReadWrite` is derived (coffer_macros/src/derive.rs:279-430): the tag byte, then the fields in order.
The readers are a table from tags to readers; a tag that is not in the table is an error.
-/

namespace Verif

/-- Read by a table of tags. -/
def Reader.tagged {α : Type} (table : List (Nat × Reader α)) : Reader α :=
  Reader.bind u8.read fun t =>
    match table.lookup t.toNat with
    | some r => r
    | none => Reader.fail .invalid

/-- Apply a constructor to the values of readers. -/
def Reader.of1 {α β : Type} (f : α → β) (a : Reader α) : Reader β :=
  Reader.bind a fun a => Reader.pure (f a)
def Reader.of2 {α β γ : Type} (f : α → β → γ) (a : Reader α) (b : Reader β) : Reader γ :=
  Reader.bind a fun a => Reader.of1 (f a) b
def Reader.of3 {α β γ δ : Type} (f : α → β → γ → δ) (a : Reader α) (b : Reader β) (c : Reader γ) :
    Reader δ := Reader.bind a fun a => Reader.of2 (f a) b c

/-- src/insn.rs:8 `SwitchEntry`. -/
structure SwitchEntry where
  key : Int32
  off : Int32
  deriving DecidableEq, Repr

def SwitchEntry.write (e : SwitchEntry) : Bytes := i32.write e.key ++ i32.write e.off
def SwitchEntry.read : Reader SwitchEntry := Reader.of2 SwitchEntry.mk i32.read i32.read

/-- src/insn.rs:10-29 `Wide`. -/
inductive Wide where
  | ILoad (i : UInt16) | LLoad (i : UInt16) | FLoad (i : UInt16) | DLoad (i : UInt16)
  | ALoad (i : UInt16)
  | IStore (i : UInt16) | LStore (i : UInt16) | FStore (i : UInt16) | DStore (i : UInt16)
  | AStore (i : UInt16)
  | IInc (i : UInt16) (n : Int16)
  | Ret (i : UInt16)
  deriving DecidableEq, Repr

def Wide.write : Wide → Bytes
  | .ILoad i => u8.write 0x15 ++ u16.write i
  | .LLoad i => u8.write 0x16 ++ u16.write i
  | .FLoad i => u8.write 0x17 ++ u16.write i
  | .DLoad i => u8.write 0x18 ++ u16.write i
  | .ALoad i => u8.write 0x19 ++ u16.write i
  | .IStore i => u8.write 0x36 ++ u16.write i
  | .LStore i => u8.write 0x37 ++ u16.write i
  | .FStore i => u8.write 0x38 ++ u16.write i
  | .DStore i => u8.write 0x39 ++ u16.write i
  | .AStore i => u8.write 0x3A ++ u16.write i
  | .IInc i n => u8.write 0x84 ++ (u16.write i ++ i16.write n)
  | .Ret i => u8.write 0xA9 ++ u16.write i

def Wide.read : Reader Wide := Reader.tagged [
  (0x15, Reader.of1 .ILoad u16.read), (0x16, Reader.of1 .LLoad u16.read),
  (0x17, Reader.of1 .FLoad u16.read), (0x18, Reader.of1 .DLoad u16.read),
  (0x19, Reader.of1 .ALoad u16.read), (0x36, Reader.of1 .IStore u16.read),
  (0x37, Reader.of1 .LStore u16.read), (0x38, Reader.of1 .FStore u16.read),
  (0x39, Reader.of1 .DStore u16.read), (0x3A, Reader.of1 .AStore u16.read),
  (0x84, Reader.of2 .IInc u16.read i16.read), (0xA9, Reader.of1 .Ret u16.read)]

/-- src/insn.rs:31-36 `TableSwitch`. -/
structure TblSwitch where
  low : Int32
  high : Int32
  offsets : List Int32
  deriving DecidableEq, Repr

/-- src/insn.rs:50-57. -/
def TblSwitch.write (t : TblSwitch) : Res Bytes := do
  let os ← writeAll (fun x => .ok (i32.write x)) t.offsets
  return i32.write t.low ++ (i32.write t.high ++ os)

/-- src/insn.rs:39-49. The length is `(high - low + 1) as usize`: the subtraction and the addition
panic on overflow, and `Vec::with_capacity` panics on the huge capacity a negative length is cast to.
(A failing allocation of up to 8 GiB is modelled in `Model/Memory` only.) -/
def TblSwitch.read : Reader TblSwitch :=
  Reader.bind i32.read fun low => Reader.bind i32.read fun high =>
    let len := high.toInt - low.toInt + 1
    if 0 ≤ len ∧ len < 2 ^ 31 then
      Reader.of1 (TblSwitch.mk low high) (Reader.replicate len.toNat i32.read)
    else Reader.fail .panic

/-- src/insn.rs:60-467 `Instruction`. -/
inductive RInsn where
  | Nop
  | AConstNull
  | IConstM1
  | IConst0
  | IConst1
  | IConst2
  | IConst3
  | IConst4
  | IConst5
  | LConst0
  | LConst1
  | FConst0
  | FConst1
  | FConst2
  | DConst0
  | DConst1
  | Bipush (a : Int8)
  | Sipush (a : Int16)
  | Ldc (a : UInt8)
  | LdcW (a : UInt16)
  | Ldc2W (a : UInt16)
  | ILoad (a : UInt8)
  | LLoad (a : UInt8)
  | FLoad (a : UInt8)
  | DLoad (a : UInt8)
  | ALoad (a : UInt8)
  | ILoad0
  | ILoad1
  | ILoad2
  | ILoad3
  | LLoad0
  | LLoad1
  | LLoad2
  | LLoad3
  | FLoad0
  | FLoad1
  | FLoad2
  | FLoad3
  | DLoad0
  | DLoad1
  | DLoad2
  | DLoad3
  | ALoad0
  | ALoad1
  | ALoad2
  | ALoad3
  | IALoad
  | LALoad
  | FALoad
  | DALoad
  | AALoad
  | BALoad
  | CALoad
  | SALoad
  | IStore (a : UInt8)
  | LStore (a : UInt8)
  | FStore (a : UInt8)
  | DStore (a : UInt8)
  | AStore (a : UInt8)
  | IStore0
  | IStore1
  | IStore2
  | IStore3
  | LStore0
  | LStore1
  | LStore2
  | LStore3
  | FStore0
  | FStore1
  | FStore2
  | FStore3
  | DStore0
  | DStore1
  | DStore2
  | DStore3
  | AStore0
  | AStore1
  | AStore2
  | AStore3
  | IAStore
  | LAStore
  | FAStore
  | DAStore
  | AAStore
  | BAStore
  | CAStore
  | SAStore
  | Pop
  | Pop2
  | Dup
  | Dupx1
  | Dupx2
  | Dup2
  | Dup2x1
  | Dup2x2
  | Swap
  | IAdd
  | LAdd
  | FAdd
  | DAdd
  | ISub
  | LSub
  | FSub
  | DSub
  | IMul
  | LMul
  | FMul
  | DMul
  | IDiv
  | LDiv
  | FDiv
  | DDiv
  | IRem
  | LRem
  | FRem
  | DRem
  | INeg
  | LNeg
  | FNeg
  | DNeg
  | IShl
  | LShl
  | IShr
  | LShr
  | IUshr
  | LUshr
  | IAnd
  | LAnd
  | IOr
  | LOr
  | IXor
  | LXor
  | IInc (a : UInt8) (b : Int8)
  | I2L
  | I2F
  | I2D
  | L2I
  | L2F
  | L2D
  | F2I
  | F2L
  | F2D
  | D2I
  | D2L
  | D2F
  | I2B
  | I2C
  | I2S
  | LCmp
  | FCmpL
  | FCmpG
  | DCmpL
  | DCmpG
  | IfEq (a : Int16)
  | IfNe (a : Int16)
  | IfLt (a : Int16)
  | IfGe (a : Int16)
  | IfGt (a : Int16)
  | IfLe (a : Int16)
  | IfICmpEq (a : Int16)
  | IfICmpNe (a : Int16)
  | IfICmpLt (a : Int16)
  | IfICmpGe (a : Int16)
  | IfICmpGt (a : Int16)
  | IfICmpLe (a : Int16)
  | IfACmpEq (a : Int16)
  | IfACmpNe (a : Int16)
  | Goto (a : Int16)
  | Jsr (a : Int16)
  | Ret (a : UInt8)
  | TableSwitch (a : Int32) (b : TblSwitch)
  | LookupSwitch (a : Int32) (b : List SwitchEntry)
  | IReturn
  | LReturn
  | FReturn
  | DReturn
  | AReturn
  | Return
  | GetStatic (a : UInt16)
  | PutStatic (a : UInt16)
  | GetField (a : UInt16)
  | PutField (a : UInt16)
  | InvokeVirtual (a : UInt16)
  | InvokeSpecial (a : UInt16)
  | InvokeStatic (a : UInt16)
  | InvokeInterface (a : UInt16) (b : UInt8) (c : UInt8)
  | InvokeDynamic (a : UInt16) (b : UInt16)
  | New (a : UInt16)
  | NewArray (a : UInt8)
  | ANewArray (a : UInt16)
  | ArrayLength
  | AThrow
  | CheckCast (a : UInt16)
  | InstanceOf (a : UInt16)
  | MonitorEnter
  | MonitorExit
  | Wide (a : Wide)
  | MultiANewArray (a : UInt16) (b : UInt8)
  | IfNull (a : Int16)
  | IfNonNull (a : Int16)
  | GotoW (a : Int32)
  | JsrW (a : Int32)
  deriving DecidableEq, Repr

/-- The derived writer. -/
def RInsn.write : RInsn → Res Bytes
  | .Nop => .ok (u8.write 0x00)
  | .AConstNull => .ok (u8.write 0x01)
  | .IConstM1 => .ok (u8.write 0x02)
  | .IConst0 => .ok (u8.write 0x03)
  | .IConst1 => .ok (u8.write 0x04)
  | .IConst2 => .ok (u8.write 0x05)
  | .IConst3 => .ok (u8.write 0x06)
  | .IConst4 => .ok (u8.write 0x07)
  | .IConst5 => .ok (u8.write 0x08)
  | .LConst0 => .ok (u8.write 0x09)
  | .LConst1 => .ok (u8.write 0x0A)
  | .FConst0 => .ok (u8.write 0x0B)
  | .FConst1 => .ok (u8.write 0x0C)
  | .FConst2 => .ok (u8.write 0x0D)
  | .DConst0 => .ok (u8.write 0x0E)
  | .DConst1 => .ok (u8.write 0x0F)
  | .Bipush a => .ok (u8.write 0x10 ++ i8.write a)
  | .Sipush a => .ok (u8.write 0x11 ++ i16.write a)
  | .Ldc a => .ok (u8.write 0x12 ++ u8.write a)
  | .LdcW a => .ok (u8.write 0x13 ++ u16.write a)
  | .Ldc2W a => .ok (u8.write 0x14 ++ u16.write a)
  | .ILoad a => .ok (u8.write 0x15 ++ u8.write a)
  | .LLoad a => .ok (u8.write 0x16 ++ u8.write a)
  | .FLoad a => .ok (u8.write 0x17 ++ u8.write a)
  | .DLoad a => .ok (u8.write 0x18 ++ u8.write a)
  | .ALoad a => .ok (u8.write 0x19 ++ u8.write a)
  | .ILoad0 => .ok (u8.write 0x1A)
  | .ILoad1 => .ok (u8.write 0x1B)
  | .ILoad2 => .ok (u8.write 0x1C)
  | .ILoad3 => .ok (u8.write 0x1D)
  | .LLoad0 => .ok (u8.write 0x1E)
  | .LLoad1 => .ok (u8.write 0x1F)
  | .LLoad2 => .ok (u8.write 0x20)
  | .LLoad3 => .ok (u8.write 0x21)
  | .FLoad0 => .ok (u8.write 0x22)
  | .FLoad1 => .ok (u8.write 0x23)
  | .FLoad2 => .ok (u8.write 0x24)
  | .FLoad3 => .ok (u8.write 0x25)
  | .DLoad0 => .ok (u8.write 0x26)
  | .DLoad1 => .ok (u8.write 0x27)
  | .DLoad2 => .ok (u8.write 0x28)
  | .DLoad3 => .ok (u8.write 0x29)
  | .ALoad0 => .ok (u8.write 0x2A)
  | .ALoad1 => .ok (u8.write 0x2B)
  | .ALoad2 => .ok (u8.write 0x2C)
  | .ALoad3 => .ok (u8.write 0x2D)
  | .IALoad => .ok (u8.write 0x2E)
  | .LALoad => .ok (u8.write 0x2F)
  | .FALoad => .ok (u8.write 0x30)
  | .DALoad => .ok (u8.write 0x31)
  | .AALoad => .ok (u8.write 0x32)
  | .BALoad => .ok (u8.write 0x33)
  | .CALoad => .ok (u8.write 0x34)
  | .SALoad => .ok (u8.write 0x35)
  | .IStore a => .ok (u8.write 0x36 ++ u8.write a)
  | .LStore a => .ok (u8.write 0x37 ++ u8.write a)
  | .FStore a => .ok (u8.write 0x38 ++ u8.write a)
  | .DStore a => .ok (u8.write 0x39 ++ u8.write a)
  | .AStore a => .ok (u8.write 0x3A ++ u8.write a)
  | .IStore0 => .ok (u8.write 0x3B)
  | .IStore1 => .ok (u8.write 0x3C)
  | .IStore2 => .ok (u8.write 0x3D)
  | .IStore3 => .ok (u8.write 0x3E)
  | .LStore0 => .ok (u8.write 0x3F)
  | .LStore1 => .ok (u8.write 0x40)
  | .LStore2 => .ok (u8.write 0x41)
  | .LStore3 => .ok (u8.write 0x42)
  | .FStore0 => .ok (u8.write 0x43)
  | .FStore1 => .ok (u8.write 0x44)
  | .FStore2 => .ok (u8.write 0x45)
  | .FStore3 => .ok (u8.write 0x46)
  | .DStore0 => .ok (u8.write 0x47)
  | .DStore1 => .ok (u8.write 0x48)
  | .DStore2 => .ok (u8.write 0x49)
  | .DStore3 => .ok (u8.write 0x4A)
  | .AStore0 => .ok (u8.write 0x4B)
  | .AStore1 => .ok (u8.write 0x4C)
  | .AStore2 => .ok (u8.write 0x4D)
  | .AStore3 => .ok (u8.write 0x4E)
  | .IAStore => .ok (u8.write 0x4F)
  | .LAStore => .ok (u8.write 0x50)
  | .FAStore => .ok (u8.write 0x51)
  | .DAStore => .ok (u8.write 0x52)
  | .AAStore => .ok (u8.write 0x53)
  | .BAStore => .ok (u8.write 0x54)
  | .CAStore => .ok (u8.write 0x55)
  | .SAStore => .ok (u8.write 0x56)
  | .Pop => .ok (u8.write 0x57)
  | .Pop2 => .ok (u8.write 0x58)
  | .Dup => .ok (u8.write 0x59)
  | .Dupx1 => .ok (u8.write 0x5A)
  | .Dupx2 => .ok (u8.write 0x5B)
  | .Dup2 => .ok (u8.write 0x5C)
  | .Dup2x1 => .ok (u8.write 0x5D)
  | .Dup2x2 => .ok (u8.write 0x5E)
  | .Swap => .ok (u8.write 0x5F)
  | .IAdd => .ok (u8.write 0x60)
  | .LAdd => .ok (u8.write 0x61)
  | .FAdd => .ok (u8.write 0x62)
  | .DAdd => .ok (u8.write 0x63)
  | .ISub => .ok (u8.write 0x64)
  | .LSub => .ok (u8.write 0x65)
  | .FSub => .ok (u8.write 0x66)
  | .DSub => .ok (u8.write 0x67)
  | .IMul => .ok (u8.write 0x68)
  | .LMul => .ok (u8.write 0x69)
  | .FMul => .ok (u8.write 0x6A)
  | .DMul => .ok (u8.write 0x6B)
  | .IDiv => .ok (u8.write 0x6C)
  | .LDiv => .ok (u8.write 0x6D)
  | .FDiv => .ok (u8.write 0x6E)
  | .DDiv => .ok (u8.write 0x6F)
  | .IRem => .ok (u8.write 0x70)
  | .LRem => .ok (u8.write 0x71)
  | .FRem => .ok (u8.write 0x72)
  | .DRem => .ok (u8.write 0x73)
  | .INeg => .ok (u8.write 0x74)
  | .LNeg => .ok (u8.write 0x75)
  | .FNeg => .ok (u8.write 0x76)
  | .DNeg => .ok (u8.write 0x77)
  | .IShl => .ok (u8.write 0x78)
  | .LShl => .ok (u8.write 0x79)
  | .IShr => .ok (u8.write 0x7A)
  | .LShr => .ok (u8.write 0x7B)
  | .IUshr => .ok (u8.write 0x7C)
  | .LUshr => .ok (u8.write 0x7D)
  | .IAnd => .ok (u8.write 0x7E)
  | .LAnd => .ok (u8.write 0x7F)
  | .IOr => .ok (u8.write 0x80)
  | .LOr => .ok (u8.write 0x81)
  | .IXor => .ok (u8.write 0x82)
  | .LXor => .ok (u8.write 0x83)
  | .IInc a b => .ok (u8.write 0x84 ++ (u8.write a ++ i8.write b))
  | .I2L => .ok (u8.write 0x85)
  | .I2F => .ok (u8.write 0x86)
  | .I2D => .ok (u8.write 0x87)
  | .L2I => .ok (u8.write 0x88)
  | .L2F => .ok (u8.write 0x89)
  | .L2D => .ok (u8.write 0x8A)
  | .F2I => .ok (u8.write 0x8B)
  | .F2L => .ok (u8.write 0x8C)
  | .F2D => .ok (u8.write 0x8D)
  | .D2I => .ok (u8.write 0x8E)
  | .D2L => .ok (u8.write 0x8F)
  | .D2F => .ok (u8.write 0x90)
  | .I2B => .ok (u8.write 0x91)
  | .I2C => .ok (u8.write 0x92)
  | .I2S => .ok (u8.write 0x93)
  | .LCmp => .ok (u8.write 0x94)
  | .FCmpL => .ok (u8.write 0x95)
  | .FCmpG => .ok (u8.write 0x96)
  | .DCmpL => .ok (u8.write 0x97)
  | .DCmpG => .ok (u8.write 0x98)
  | .IfEq a => .ok (u8.write 0x99 ++ i16.write a)
  | .IfNe a => .ok (u8.write 0x9A ++ i16.write a)
  | .IfLt a => .ok (u8.write 0x9B ++ i16.write a)
  | .IfGe a => .ok (u8.write 0x9C ++ i16.write a)
  | .IfGt a => .ok (u8.write 0x9D ++ i16.write a)
  | .IfLe a => .ok (u8.write 0x9E ++ i16.write a)
  | .IfICmpEq a => .ok (u8.write 0x9F ++ i16.write a)
  | .IfICmpNe a => .ok (u8.write 0xA0 ++ i16.write a)
  | .IfICmpLt a => .ok (u8.write 0xA1 ++ i16.write a)
  | .IfICmpGe a => .ok (u8.write 0xA2 ++ i16.write a)
  | .IfICmpGt a => .ok (u8.write 0xA3 ++ i16.write a)
  | .IfICmpLe a => .ok (u8.write 0xA4 ++ i16.write a)
  | .IfACmpEq a => .ok (u8.write 0xA5 ++ i16.write a)
  | .IfACmpNe a => .ok (u8.write 0xA6 ++ i16.write a)
  | .Goto a => .ok (u8.write 0xA7 ++ i16.write a)
  | .Jsr a => .ok (u8.write 0xA8 ++ i16.write a)
  | .Ret a => .ok (u8.write 0xA9 ++ u8.write a)
  | .TableSwitch a b => do
    let b ← b.write
    return u8.write 0xAA ++ (i32.write a ++ b)
  | .LookupSwitch a b => do
    let b ← writeVec u32 (fun e => .ok (SwitchEntry.write e)) b
    return u8.write 0xAB ++ (i32.write a ++ b)
  | .IReturn => .ok (u8.write 0xAC)
  | .LReturn => .ok (u8.write 0xAD)
  | .FReturn => .ok (u8.write 0xAE)
  | .DReturn => .ok (u8.write 0xAF)
  | .AReturn => .ok (u8.write 0xB0)
  | .Return => .ok (u8.write 0xB1)
  | .GetStatic a => .ok (u8.write 0xB2 ++ u16.write a)
  | .PutStatic a => .ok (u8.write 0xB3 ++ u16.write a)
  | .GetField a => .ok (u8.write 0xB4 ++ u16.write a)
  | .PutField a => .ok (u8.write 0xB5 ++ u16.write a)
  | .InvokeVirtual a => .ok (u8.write 0xB6 ++ u16.write a)
  | .InvokeSpecial a => .ok (u8.write 0xB7 ++ u16.write a)
  | .InvokeStatic a => .ok (u8.write 0xB8 ++ u16.write a)
  | .InvokeInterface a b c => .ok (u8.write 0xB9 ++ (u16.write a ++ (u8.write b ++ u8.write c)))
  | .InvokeDynamic a b => .ok (u8.write 0xBA ++ (u16.write a ++ u16.write b))
  | .New a => .ok (u8.write 0xBB ++ u16.write a)
  | .NewArray a => .ok (u8.write 0xBC ++ u8.write a)
  | .ANewArray a => .ok (u8.write 0xBD ++ u16.write a)
  | .ArrayLength => .ok (u8.write 0xBE)
  | .AThrow => .ok (u8.write 0xBF)
  | .CheckCast a => .ok (u8.write 0xC0 ++ u16.write a)
  | .InstanceOf a => .ok (u8.write 0xC1 ++ u16.write a)
  | .MonitorEnter => .ok (u8.write 0xC2)
  | .MonitorExit => .ok (u8.write 0xC3)
  | .Wide a => .ok (u8.write 0xC4 ++ a.write)
  | .MultiANewArray a b => .ok (u8.write 0xC5 ++ (u16.write a ++ u8.write b))
  | .IfNull a => .ok (u8.write 0xC6 ++ i16.write a)
  | .IfNonNull a => .ok (u8.write 0xC7 ++ i16.write a)
  | .GotoW a => .ok (u8.write 0xC8 ++ i32.write a)
  | .JsrW a => .ok (u8.write 0xC9 ++ i32.write a)

/-- The derived reader: tags and field readers. -/
def RInsn.table : List (Nat × Reader RInsn) := [
  (0x00, Reader.pure .Nop),
  (0x01, Reader.pure .AConstNull),
  (0x02, Reader.pure .IConstM1),
  (0x03, Reader.pure .IConst0),
  (0x04, Reader.pure .IConst1),
  (0x05, Reader.pure .IConst2),
  (0x06, Reader.pure .IConst3),
  (0x07, Reader.pure .IConst4),
  (0x08, Reader.pure .IConst5),
  (0x09, Reader.pure .LConst0),
  (0x0A, Reader.pure .LConst1),
  (0x0B, Reader.pure .FConst0),
  (0x0C, Reader.pure .FConst1),
  (0x0D, Reader.pure .FConst2),
  (0x0E, Reader.pure .DConst0),
  (0x0F, Reader.pure .DConst1),
  (0x10, Reader.of1 .Bipush i8.read),
  (0x11, Reader.of1 .Sipush i16.read),
  (0x12, Reader.of1 .Ldc u8.read),
  (0x13, Reader.of1 .LdcW u16.read),
  (0x14, Reader.of1 .Ldc2W u16.read),
  (0x15, Reader.of1 .ILoad u8.read),
  (0x16, Reader.of1 .LLoad u8.read),
  (0x17, Reader.of1 .FLoad u8.read),
  (0x18, Reader.of1 .DLoad u8.read),
  (0x19, Reader.of1 .ALoad u8.read),
  (0x1A, Reader.pure .ILoad0),
  (0x1B, Reader.pure .ILoad1),
  (0x1C, Reader.pure .ILoad2),
  (0x1D, Reader.pure .ILoad3),
  (0x1E, Reader.pure .LLoad0),
  (0x1F, Reader.pure .LLoad1),
  (0x20, Reader.pure .LLoad2),
  (0x21, Reader.pure .LLoad3),
  (0x22, Reader.pure .FLoad0),
  (0x23, Reader.pure .FLoad1),
  (0x24, Reader.pure .FLoad2),
  (0x25, Reader.pure .FLoad3),
  (0x26, Reader.pure .DLoad0),
  (0x27, Reader.pure .DLoad1),
  (0x28, Reader.pure .DLoad2),
  (0x29, Reader.pure .DLoad3),
  (0x2A, Reader.pure .ALoad0),
  (0x2B, Reader.pure .ALoad1),
  (0x2C, Reader.pure .ALoad2),
  (0x2D, Reader.pure .ALoad3),
  (0x2E, Reader.pure .IALoad),
  (0x2F, Reader.pure .LALoad),
  (0x30, Reader.pure .FALoad),
  (0x31, Reader.pure .DALoad),
  (0x32, Reader.pure .AALoad),
  (0x33, Reader.pure .BALoad),
  (0x34, Reader.pure .CALoad),
  (0x35, Reader.pure .SALoad),
  (0x36, Reader.of1 .IStore u8.read),
  (0x37, Reader.of1 .LStore u8.read),
  (0x38, Reader.of1 .FStore u8.read),
  (0x39, Reader.of1 .DStore u8.read),
  (0x3A, Reader.of1 .AStore u8.read),
  (0x3B, Reader.pure .IStore0),
  (0x3C, Reader.pure .IStore1),
  (0x3D, Reader.pure .IStore2),
  (0x3E, Reader.pure .IStore3),
  (0x3F, Reader.pure .LStore0),
  (0x40, Reader.pure .LStore1),
  (0x41, Reader.pure .LStore2),
  (0x42, Reader.pure .LStore3),
  (0x43, Reader.pure .FStore0),
  (0x44, Reader.pure .FStore1),
  (0x45, Reader.pure .FStore2),
  (0x46, Reader.pure .FStore3),
  (0x47, Reader.pure .DStore0),
  (0x48, Reader.pure .DStore1),
  (0x49, Reader.pure .DStore2),
  (0x4A, Reader.pure .DStore3),
  (0x4B, Reader.pure .AStore0),
  (0x4C, Reader.pure .AStore1),
  (0x4D, Reader.pure .AStore2),
  (0x4E, Reader.pure .AStore3),
  (0x4F, Reader.pure .IAStore),
  (0x50, Reader.pure .LAStore),
  (0x51, Reader.pure .FAStore),
  (0x52, Reader.pure .DAStore),
  (0x53, Reader.pure .AAStore),
  (0x54, Reader.pure .BAStore),
  (0x55, Reader.pure .CAStore),
  (0x56, Reader.pure .SAStore),
  (0x57, Reader.pure .Pop),
  (0x58, Reader.pure .Pop2),
  (0x59, Reader.pure .Dup),
  (0x5A, Reader.pure .Dupx1),
  (0x5B, Reader.pure .Dupx2),
  (0x5C, Reader.pure .Dup2),
  (0x5D, Reader.pure .Dup2x1),
  (0x5E, Reader.pure .Dup2x2),
  (0x5F, Reader.pure .Swap),
  (0x60, Reader.pure .IAdd),
  (0x61, Reader.pure .LAdd),
  (0x62, Reader.pure .FAdd),
  (0x63, Reader.pure .DAdd),
  (0x64, Reader.pure .ISub),
  (0x65, Reader.pure .LSub),
  (0x66, Reader.pure .FSub),
  (0x67, Reader.pure .DSub),
  (0x68, Reader.pure .IMul),
  (0x69, Reader.pure .LMul),
  (0x6A, Reader.pure .FMul),
  (0x6B, Reader.pure .DMul),
  (0x6C, Reader.pure .IDiv),
  (0x6D, Reader.pure .LDiv),
  (0x6E, Reader.pure .FDiv),
  (0x6F, Reader.pure .DDiv),
  (0x70, Reader.pure .IRem),
  (0x71, Reader.pure .LRem),
  (0x72, Reader.pure .FRem),
  (0x73, Reader.pure .DRem),
  (0x74, Reader.pure .INeg),
  (0x75, Reader.pure .LNeg),
  (0x76, Reader.pure .FNeg),
  (0x77, Reader.pure .DNeg),
  (0x78, Reader.pure .IShl),
  (0x79, Reader.pure .LShl),
  (0x7A, Reader.pure .IShr),
  (0x7B, Reader.pure .LShr),
  (0x7C, Reader.pure .IUshr),
  (0x7D, Reader.pure .LUshr),
  (0x7E, Reader.pure .IAnd),
  (0x7F, Reader.pure .LAnd),
  (0x80, Reader.pure .IOr),
  (0x81, Reader.pure .LOr),
  (0x82, Reader.pure .IXor),
  (0x83, Reader.pure .LXor),
  (0x84, Reader.of2 .IInc u8.read i8.read),
  (0x85, Reader.pure .I2L),
  (0x86, Reader.pure .I2F),
  (0x87, Reader.pure .I2D),
  (0x88, Reader.pure .L2I),
  (0x89, Reader.pure .L2F),
  (0x8A, Reader.pure .L2D),
  (0x8B, Reader.pure .F2I),
  (0x8C, Reader.pure .F2L),
  (0x8D, Reader.pure .F2D),
  (0x8E, Reader.pure .D2I),
  (0x8F, Reader.pure .D2L),
  (0x90, Reader.pure .D2F),
  (0x91, Reader.pure .I2B),
  (0x92, Reader.pure .I2C),
  (0x93, Reader.pure .I2S),
  (0x94, Reader.pure .LCmp),
  (0x95, Reader.pure .FCmpL),
  (0x96, Reader.pure .FCmpG),
  (0x97, Reader.pure .DCmpL),
  (0x98, Reader.pure .DCmpG),
  (0x99, Reader.of1 .IfEq i16.read),
  (0x9A, Reader.of1 .IfNe i16.read),
  (0x9B, Reader.of1 .IfLt i16.read),
  (0x9C, Reader.of1 .IfGe i16.read),
  (0x9D, Reader.of1 .IfGt i16.read),
  (0x9E, Reader.of1 .IfLe i16.read),
  (0x9F, Reader.of1 .IfICmpEq i16.read),
  (0xA0, Reader.of1 .IfICmpNe i16.read),
  (0xA1, Reader.of1 .IfICmpLt i16.read),
  (0xA2, Reader.of1 .IfICmpGe i16.read),
  (0xA3, Reader.of1 .IfICmpGt i16.read),
  (0xA4, Reader.of1 .IfICmpLe i16.read),
  (0xA5, Reader.of1 .IfACmpEq i16.read),
  (0xA6, Reader.of1 .IfACmpNe i16.read),
  (0xA7, Reader.of1 .Goto i16.read),
  (0xA8, Reader.of1 .Jsr i16.read),
  (0xA9, Reader.of1 .Ret u8.read),
  (0xAA, Reader.of2 .TableSwitch i32.read TblSwitch.read),
  (0xAB, Reader.of2 .LookupSwitch i32.read (readVec u32 SwitchEntry.read)),
  (0xAC, Reader.pure .IReturn),
  (0xAD, Reader.pure .LReturn),
  (0xAE, Reader.pure .FReturn),
  (0xAF, Reader.pure .DReturn),
  (0xB0, Reader.pure .AReturn),
  (0xB1, Reader.pure .Return),
  (0xB2, Reader.of1 .GetStatic u16.read),
  (0xB3, Reader.of1 .PutStatic u16.read),
  (0xB4, Reader.of1 .GetField u16.read),
  (0xB5, Reader.of1 .PutField u16.read),
  (0xB6, Reader.of1 .InvokeVirtual u16.read),
  (0xB7, Reader.of1 .InvokeSpecial u16.read),
  (0xB8, Reader.of1 .InvokeStatic u16.read),
  (0xB9, Reader.of3 .InvokeInterface u16.read u8.read u8.read),
  (0xBA, Reader.of2 .InvokeDynamic u16.read u16.read),
  (0xBB, Reader.of1 .New u16.read),
  (0xBC, Reader.of1 .NewArray u8.read),
  (0xBD, Reader.of1 .ANewArray u16.read),
  (0xBE, Reader.pure .ArrayLength),
  (0xBF, Reader.pure .AThrow),
  (0xC0, Reader.of1 .CheckCast u16.read),
  (0xC1, Reader.of1 .InstanceOf u16.read),
  (0xC2, Reader.pure .MonitorEnter),
  (0xC3, Reader.pure .MonitorExit),
  (0xC4, Reader.of1 .Wide Wide.read),
  (0xC5, Reader.of2 .MultiANewArray u16.read u8.read),
  (0xC6, Reader.of1 .IfNull i16.read),
  (0xC7, Reader.of1 .IfNonNull i16.read),
  (0xC8, Reader.of1 .GotoW i32.read),
  (0xC9, Reader.of1 .JsrW i32.read)]

def RInsn.read : Reader RInsn := Reader.tagged RInsn.table

end Verif
