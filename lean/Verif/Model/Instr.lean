import Verif.Model.Io
import Verif.Model.Insn
import Verif.Model.Opcodes
import Verif.Model.Misc

/-!
# Model of the symbolic instructions: src/code/structure.rs:35-325, src/code/convert.rs
-/

namespace Verif

/-! ## Data (src/code/structure.rs) -/

/-- structure.rs:36-39. -/
inductive FloatType where
  | double | float
  deriving DecidableEq, Repr

/-- structure.rs:62-65. -/
inductive NaNBehavior where
  | one | negOne
  deriving DecidableEq, Repr

/-- structure.rs:149-152. -/
inductive LoadOrStore where
  | load | store
  deriving DecidableEq, Repr

/-- structure.rs:155-158. -/
inductive GetOrPut where
  | get | put
  deriving DecidableEq, Repr

/-- structure.rs:161-164. -/
inductive MemberType where
  | static | virtual
  deriving DecidableEq, Repr

/-- structure.rs:167-173. -/
inductive LocalType where
  | int | long | float | double | ref
  deriving DecidableEq, Repr

/-- structure.rs:176-185. -/
inductive ArrayType where
  | byteOrBool | short | char | int | long | float | double | ref
  deriving DecidableEq, Repr

/-- structure.rs:188-193. -/
inductive NumberType where
  | int | long | float | double
  deriving DecidableEq, Repr

/-- structure.rs:196-204. -/
inductive BitType where
  | byte | short | char | int | long | float | double
  deriving DecidableEq, Repr

/-- structure.rs:207-210. -/
inductive IntType where
  | int | long
  deriving DecidableEq, Repr

/-- structure.rs:213-220. -/
inductive FloatOp where
  | div | add | sub | mul | rem | neg
  deriving DecidableEq, Repr

/-- structure.rs:223-236. -/
inductive IntOp where
  | div | add | sub | mul | rem | neg | xor | or | and | shl | shr | ushr
  deriving DecidableEq, Repr

/-- structure.rs:239-242. -/
inductive MonitorOp where
  | enter | exit
  deriving DecidableEq, Repr

/-- structure.rs:245-248. -/
inductive ClassType where
  | object (s : Bytes)
  | array (dim : UInt8) (t : JType)

/-- structure.rs:251-260: `format!("{}{}", "[".repeat(dim as usize), ty)`. -/
def ClassType.toStr : ClassType → Bytes
  | .object s => s
  | .array dim t => List.replicate dim.toNat 0x5B ++ JType.display t

/-- structure.rs:272-325 `Instruction`. An `IndexMap` is the list of its entries in order; its keys
are distinct. -/
inductive Insn where
  | noOp
  | pushNull
  | push (c : OrDynamic Constant)
  | dup | dupX1 | dupX2 | dup2 | dup2X1 | dup2X2
  | pop1 | pop2
  | jump (c : Cond) (l : Label)
  | compareLongs
  | compareFloats (t : FloatType) (n : NaNBehavior)
  | localVariable (m : LoadOrStore) (t : LocalType) (i : UInt16)
  | array (m : LoadOrStore) (t : ArrayType)
  | arrayLength
  | intOperation (t : IntType) (o : IntOp)
  | floatOperation (t : FloatType) (o : FloatOp)
  | throw
  | checkCast (t : OrDynamic ClassType)
  | instanceOf (t : OrDynamic ClassType)
  | newArray (t : OrDynamic JType) (dim : UInt8)
  | monitor (o : MonitorOp)
  | new (c : OrDynamic Bytes)
  | conversion (a b : NumberType)
  | convertInt (t : BitType)
  | return (t : Option LocalType)
  | field (o : GetOrPut) (t : MemberType) (m : OrDynamic MemberRef)
  | invokeExact (t : MemberType) (m : OrDynamic MemberRef)
  | invokeSpecial (m : OrDynamic MemberRef)
  | invokeDynamic (d : Dynamic)
  | invokeInterface (m : OrDynamic MemberRef) (count : UInt8)
  | jsr (l : Label)
  | ret (i : UInt16)
  | swap
  | intIncrement (i : UInt16) (n : Int16)
  | lineNumber (n : UInt16)
  | tableSwitch (default : Label) (low : Int32) (offsets : List Label)
  | lookupSwitch (default : Label) (table : List (Int32 × Label))
  | label (l : Label)

/-! ## From raw instructions: `convert_direct_instruction` (src/code/convert.rs:18-413) -/

/-- convert.rs:23-27 `lbl!`: `(curpos + off as i64) as u32`. -/
def lbl (pos : Nat) (off : Int) : Rd Label := getLabel (UInt32.ofInt (pos + off))

/-- `for i in offsets { lbl!(i) }`. -/
def lbls (pos : Nat) : List Int32 → Rd (List Label)
  | [] => Rd.pure []
  | o :: os => Rd.bind (lbl pos o.toInt) fun l => Rd.map (fun ls => l :: ls) (lbls pos os)

/-- convert.rs:270-273, the entries of a lookup switch. -/
def lblEntries (pos : Nat) : List SwitchEntry → Rd (List (Int32 × Label))
  | [] => Rd.pure []
  | e :: es =>
    Rd.bind (lbl pos e.off.toInt) fun l => Rd.map (fun ls => (e.key, l) :: ls) (lblEntries pos es)

/-- Collecting into an `IndexMap`: a key that is present keeps its place and gets the new value. -/
def indexInsert (m : List (Int32 × Label)) (k : Int32) (v : Label) : List (Int32 × Label) :=
  if m.any (fun e => e.1 = k) then m.map (fun e => if e.1 = k then (k, v) else e) else m ++ [(k, v)]

def indexCollect (es : List (Int32 × Label)) : List (Int32 × Label) :=
  es.foldl (fun m e => indexInsert m e.1 e.2) []

/-- `push(Constant)`. -/
def Insn.const (c : Constant) : Insn := .push (.static c)

/-- `push(try_cp_read_idx!(labeler, i, read_constant)?)`. -/
def rPush (i : UInt16) : Rd Insn := Rd.map Insn.const (rLookupR Pool.constant i)

/-- `try_cp_read!(i, labeler.read_or_dynamic(i, f))`. -/
def rOrDyn {α : Type} (f : Pool → UInt16 → Res (Option α)) (i : UInt16) : Rd (OrDynamic α) :=
  rLookupD (fun P i p => Pool.orDynamic P (f P) i p) i

def rMember (i : UInt16) : Rd (OrDynamic MemberRef) := rOrDyn Pool.member i
def rClassOr (i : UInt16) : Rd (OrDynamic Bytes) := rOrDyn (fun P i => .ok (Pool.cls P i)) i

/-- convert.rs:359, 367: `parse_type(&c).unwrap_or(Type::Ref(c))`; a panic stays a panic. -/
def arrayElem (c : Bytes) : Res JType :=
  match okOrNone (JType.parseType c) with
  | .ok (some t) => .ok t
  | .ok none => .ok (.ref c)
  | .error e => .error e

/-- convert.rs:354-369: `anewarray` and `multianewarray`. -/
def rNewArray (i : UInt16) (dim : UInt8) : Rd Insn :=
  Rd.bind (rClassOr i) fun c =>
    match c with
    | .dynamic d => Rd.pure (.newArray (.dynamic d) dim)
    | .static c => Rd.map (fun t => .newArray (.static t) dim) (Rd.ofRes (arrayElem c))

/-- convert.rs:375-389, 396-410: a name beginning with `[` is parsed and taken to be an array. The first code
point of a string is `[` exactly when the first byte is. -/
def toClassType (c : Bytes) : Res ClassType :=
  if c.head? = some 0x5B then
    match JType.parseType c with
    | .ok (.array dim t) => .ok (.array dim t)
    | .ok _ => .error .ub
    | .error e => .error e
  else .ok (.object c)

def rClassType (i : UInt16) : Rd (OrDynamic ClassType) :=
  Rd.bind (rClassOr i) fun c =>
    match c with
    | .dynamic d => Rd.pure (.dynamic d)
    | .static c => Rd.map OrDynamic.static (Rd.ofRes (toClassType c))

/-- convert.rs:344-352. -/
def newArrayType (n : UInt8) : Option JType :=
  [((4 : UInt8), JType.boolean), (5, .char), (6, .float), (7, .double), (8, .byte), (9, .short),
    (10, .int), (11, .long)].lookup n

/-- convert.rs:18-413; `pos` is the position of the opcode. -/
def convert (pos : Nat) : RInsn → Rd Insn
  | .AThrow => Rd.pure .throw
  | .Nop => Rd.pure .noOp
  | .AConstNull => Rd.pure .pushNull
  | .Swap => Rd.pure .swap
  | .LCmp => Rd.pure .compareLongs
  | .ArrayLength => Rd.pure .arrayLength
  | .MonitorEnter => Rd.pure (.monitor .enter)
  | .MonitorExit => Rd.pure (.monitor .exit)
  | .IInc idx val => Rd.pure (.intIncrement idx.toUInt16 val.toInt16)
  | .Wide (.IInc idx val) => Rd.pure (.intIncrement idx val)
  | .Pop => Rd.pure .pop1
  | .Pop2 => Rd.pure .pop2
  | .Dup => Rd.pure .dup
  | .Dup2 => Rd.pure .dup2
  | .Dupx1 => Rd.pure .dupX1
  | .Dupx2 => Rd.pure .dupX2
  | .Dup2x1 => Rd.pure .dup2X1
  | .Dup2x2 => Rd.pure .dup2X2
  | .IConstM1 => Rd.pure (.const (.i32 (-1)))
  | .IConst0 => Rd.pure (.const (.i32 0))
  | .IConst1 => Rd.pure (.const (.i32 1))
  | .IConst2 => Rd.pure (.const (.i32 2))
  | .IConst3 => Rd.pure (.const (.i32 3))
  | .IConst4 => Rd.pure (.const (.i32 4))
  | .IConst5 => Rd.pure (.const (.i32 5))
  | .FConst0 => Rd.pure (.const (.f32 ⟨0⟩))
  | .FConst1 => Rd.pure (.const (.f32 ⟨0x3F800000⟩))
  | .FConst2 => Rd.pure (.const (.f32 ⟨0x40000000⟩))
  | .DConst0 => Rd.pure (.const (.f64 ⟨0⟩))
  | .DConst1 => Rd.pure (.const (.f64 ⟨0x3FF0000000000000⟩))
  | .LConst0 => Rd.pure (.const (.i64 0))
  | .LConst1 => Rd.pure (.const (.i64 1))
  | .Bipush b => Rd.pure (.const (.i32 b.toInt32))
  | .Sipush s => Rd.pure (.const (.i32 s.toInt32))
  | .Ldc b => rPush b.toUInt16
  | .LdcW i => rPush i
  | .Ldc2W i => rPush i
  | .IALoad => Rd.pure (.array .load .int)
  | .LALoad => Rd.pure (.array .load .long)
  | .FALoad => Rd.pure (.array .load .float)
  | .DALoad => Rd.pure (.array .load .double)
  | .CALoad => Rd.pure (.array .load .char)
  | .SALoad => Rd.pure (.array .load .short)
  | .BALoad => Rd.pure (.array .load .byteOrBool)
  | .AALoad => Rd.pure (.array .load .ref)
  | .IAStore => Rd.pure (.array .store .int)
  | .LAStore => Rd.pure (.array .store .long)
  | .FAStore => Rd.pure (.array .store .float)
  | .DAStore => Rd.pure (.array .store .double)
  | .CAStore => Rd.pure (.array .store .char)
  | .SAStore => Rd.pure (.array .store .short)
  | .BAStore => Rd.pure (.array .store .byteOrBool)
  | .AAStore => Rd.pure (.array .store .ref)
  | .ALoad0 => Rd.pure (.localVariable .load .ref 0)
  | .ALoad1 => Rd.pure (.localVariable .load .ref 1)
  | .ALoad2 => Rd.pure (.localVariable .load .ref 2)
  | .ALoad3 => Rd.pure (.localVariable .load .ref 3)
  | .ALoad i => Rd.pure (.localVariable .load .ref i.toUInt16)
  | .Wide (.ALoad i) => Rd.pure (.localVariable .load .ref i)
  | .ILoad0 => Rd.pure (.localVariable .load .int 0)
  | .ILoad1 => Rd.pure (.localVariable .load .int 1)
  | .ILoad2 => Rd.pure (.localVariable .load .int 2)
  | .ILoad3 => Rd.pure (.localVariable .load .int 3)
  | .ILoad i => Rd.pure (.localVariable .load .int i.toUInt16)
  | .Wide (.ILoad i) => Rd.pure (.localVariable .load .int i)
  | .LLoad0 => Rd.pure (.localVariable .load .long 0)
  | .LLoad1 => Rd.pure (.localVariable .load .long 1)
  | .LLoad2 => Rd.pure (.localVariable .load .long 2)
  | .LLoad3 => Rd.pure (.localVariable .load .long 3)
  | .LLoad i => Rd.pure (.localVariable .load .long i.toUInt16)
  | .Wide (.LLoad i) => Rd.pure (.localVariable .load .long i)
  | .FLoad0 => Rd.pure (.localVariable .load .float 0)
  | .FLoad1 => Rd.pure (.localVariable .load .float 1)
  | .FLoad2 => Rd.pure (.localVariable .load .float 2)
  | .FLoad3 => Rd.pure (.localVariable .load .float 3)
  | .FLoad i => Rd.pure (.localVariable .load .float i.toUInt16)
  | .Wide (.FLoad i) => Rd.pure (.localVariable .load .float i)
  | .DLoad0 => Rd.pure (.localVariable .load .double 0)
  | .DLoad1 => Rd.pure (.localVariable .load .double 1)
  | .DLoad2 => Rd.pure (.localVariable .load .double 2)
  | .DLoad3 => Rd.pure (.localVariable .load .double 3)
  | .DLoad i => Rd.pure (.localVariable .load .double i.toUInt16)
  | .Wide (.DLoad i) => Rd.pure (.localVariable .load .double i)
  | .AStore0 => Rd.pure (.localVariable .store .ref 0)
  | .AStore1 => Rd.pure (.localVariable .store .ref 1)
  | .AStore2 => Rd.pure (.localVariable .store .ref 2)
  | .AStore3 => Rd.pure (.localVariable .store .ref 3)
  | .AStore i => Rd.pure (.localVariable .store .ref i.toUInt16)
  | .Wide (.AStore i) => Rd.pure (.localVariable .store .ref i)
  | .IStore0 => Rd.pure (.localVariable .store .int 0)
  | .IStore1 => Rd.pure (.localVariable .store .int 1)
  | .IStore2 => Rd.pure (.localVariable .store .int 2)
  | .IStore3 => Rd.pure (.localVariable .store .int 3)
  | .IStore i => Rd.pure (.localVariable .store .int i.toUInt16)
  | .Wide (.IStore i) => Rd.pure (.localVariable .store .int i)
  | .LStore0 => Rd.pure (.localVariable .store .long 0)
  | .LStore1 => Rd.pure (.localVariable .store .long 1)
  | .LStore2 => Rd.pure (.localVariable .store .long 2)
  | .LStore3 => Rd.pure (.localVariable .store .long 3)
  | .LStore i => Rd.pure (.localVariable .store .long i.toUInt16)
  | .Wide (.LStore i) => Rd.pure (.localVariable .store .long i)
  | .FStore0 => Rd.pure (.localVariable .store .float 0)
  | .FStore1 => Rd.pure (.localVariable .store .float 1)
  | .FStore2 => Rd.pure (.localVariable .store .float 2)
  | .FStore3 => Rd.pure (.localVariable .store .float 3)
  | .FStore i => Rd.pure (.localVariable .store .float i.toUInt16)
  | .Wide (.FStore i) => Rd.pure (.localVariable .store .float i)
  | .DStore0 => Rd.pure (.localVariable .store .double 0)
  | .DStore1 => Rd.pure (.localVariable .store .double 1)
  | .DStore2 => Rd.pure (.localVariable .store .double 2)
  | .DStore3 => Rd.pure (.localVariable .store .double 3)
  | .DStore i => Rd.pure (.localVariable .store .double i.toUInt16)
  | .Wide (.DStore i) => Rd.pure (.localVariable .store .double i)
  | .IAdd => Rd.pure (.intOperation .int .add)
  | .IAnd => Rd.pure (.intOperation .int .and)
  | .INeg => Rd.pure (.intOperation .int .neg)
  | .IXor => Rd.pure (.intOperation .int .xor)
  | .IOr => Rd.pure (.intOperation .int .or)
  | .ISub => Rd.pure (.intOperation .int .sub)
  | .IMul => Rd.pure (.intOperation .int .mul)
  | .IDiv => Rd.pure (.intOperation .int .div)
  | .IShr => Rd.pure (.intOperation .int .shr)
  | .IShl => Rd.pure (.intOperation .int .shl)
  | .IUshr => Rd.pure (.intOperation .int .ushr)
  | .IRem => Rd.pure (.intOperation .int .rem)
  | .LAdd => Rd.pure (.intOperation .long .add)
  | .LAnd => Rd.pure (.intOperation .long .and)
  | .LNeg => Rd.pure (.intOperation .long .neg)
  | .LXor => Rd.pure (.intOperation .long .xor)
  | .LOr => Rd.pure (.intOperation .long .or)
  | .LSub => Rd.pure (.intOperation .long .sub)
  | .LMul => Rd.pure (.intOperation .long .mul)
  | .LDiv => Rd.pure (.intOperation .long .div)
  | .LShr => Rd.pure (.intOperation .long .shr)
  | .LShl => Rd.pure (.intOperation .long .shl)
  | .LUshr => Rd.pure (.intOperation .long .ushr)
  | .LRem => Rd.pure (.intOperation .long .rem)
  | .FAdd => Rd.pure (.floatOperation .float .add)
  | .FNeg => Rd.pure (.floatOperation .float .neg)
  | .FSub => Rd.pure (.floatOperation .float .sub)
  | .FMul => Rd.pure (.floatOperation .float .mul)
  | .FDiv => Rd.pure (.floatOperation .float .div)
  | .FRem => Rd.pure (.floatOperation .float .rem)
  | .DAdd => Rd.pure (.floatOperation .double .add)
  | .DNeg => Rd.pure (.floatOperation .double .neg)
  | .DSub => Rd.pure (.floatOperation .double .sub)
  | .DMul => Rd.pure (.floatOperation .double .mul)
  | .DDiv => Rd.pure (.floatOperation .double .div)
  | .DRem => Rd.pure (.floatOperation .double .rem)
  | .I2B => Rd.pure (.convertInt .byte)
  | .I2C => Rd.pure (.convertInt .char)
  | .I2S => Rd.pure (.convertInt .short)
  | .I2F => Rd.pure (.convertInt .float)
  | .I2L => Rd.pure (.convertInt .long)
  | .I2D => Rd.pure (.convertInt .double)
  | .L2I => Rd.pure (.conversion .long .int)
  | .L2D => Rd.pure (.conversion .long .double)
  | .L2F => Rd.pure (.conversion .long .float)
  | .F2I => Rd.pure (.conversion .float .int)
  | .F2D => Rd.pure (.conversion .float .double)
  | .F2L => Rd.pure (.conversion .float .long)
  | .D2I => Rd.pure (.conversion .double .int)
  | .D2L => Rd.pure (.conversion .double .long)
  | .D2F => Rd.pure (.conversion .double .float)
  | .FCmpG => Rd.pure (.compareFloats .float .one)
  | .FCmpL => Rd.pure (.compareFloats .float .negOne)
  | .DCmpG => Rd.pure (.compareFloats .double .one)
  | .DCmpL => Rd.pure (.compareFloats .double .negOne)
  | .Goto off => Rd.map (.jump .always) (lbl pos off.toInt)
  | .GotoW off => Rd.map (.jump .always) (lbl pos off.toInt)
  | .IfEq off => Rd.map (.jump .eqZ) (lbl pos off.toInt)
  | .IfNe off => Rd.map (.jump .neZ) (lbl pos off.toInt)
  | .IfGt off => Rd.map (.jump .gtZ) (lbl pos off.toInt)
  | .IfGe off => Rd.map (.jump .geZ) (lbl pos off.toInt)
  | .IfLt off => Rd.map (.jump .ltZ) (lbl pos off.toInt)
  | .IfLe off => Rd.map (.jump .leZ) (lbl pos off.toInt)
  | .IfNull off => Rd.map (.jump .isNull) (lbl pos off.toInt)
  | .IfNonNull off => Rd.map (.jump .isNonNull) (lbl pos off.toInt)
  | .IfACmpEq off => Rd.map (.jump .refEq) (lbl pos off.toInt)
  | .IfACmpNe off => Rd.map (.jump .refNe) (lbl pos off.toInt)
  | .IfICmpEq off => Rd.map (.jump .intEq) (lbl pos off.toInt)
  | .IfICmpNe off => Rd.map (.jump .intNe) (lbl pos off.toInt)
  | .IfICmpGt off => Rd.map (.jump .intGt) (lbl pos off.toInt)
  | .IfICmpGe off => Rd.map (.jump .intGe) (lbl pos off.toInt)
  | .IfICmpLt off => Rd.map (.jump .intLt) (lbl pos off.toInt)
  | .IfICmpLe off => Rd.map (.jump .intLe) (lbl pos off.toInt)
  | .Jsr off => Rd.map .jsr (lbl pos off.toInt)
  | .JsrW off => Rd.map .jsr (lbl pos off.toInt)
  | .Ret l => Rd.pure (.ret l.toUInt16)
  | .Wide (.Ret l) => Rd.pure (.ret l)
  | .AReturn => Rd.pure (.return (some .ref))
  | .IReturn => Rd.pure (.return (some .int))
  | .LReturn => Rd.pure (.return (some .long))
  | .DReturn => Rd.pure (.return (some .double))
  | .FReturn => Rd.pure (.return (some .float))
  | .Return => Rd.pure (.return none)
  | .TableSwitch dflt t =>
    Rd.bind (lbl pos dflt.toInt) fun d => Rd.map (fun ls => .tableSwitch d t.low ls) (lbls pos t.offsets)
  | .LookupSwitch dflt es =>
    Rd.bind (lbl pos dflt.toInt) fun d =>
      Rd.map (fun ls => .lookupSwitch d (indexCollect ls)) (lblEntries pos es)
  | .GetStatic m => Rd.map (.field .get .static) (rMember m)
  | .PutStatic m => Rd.map (.field .put .static) (rMember m)
  | .GetField m => Rd.map (.field .get .virtual) (rMember m)
  | .PutField m => Rd.map (.field .put .virtual) (rMember m)
  | .InvokeStatic m => Rd.map (.invokeExact .static) (rMember m)
  | .InvokeVirtual m => Rd.map (.invokeExact .virtual) (rMember m)
  | .InvokeSpecial m => Rd.map .invokeSpecial (rMember m)
  | .InvokeInterface m c _ => Rd.map (fun m => .invokeInterface m c) (rMember m)
  | .InvokeDynamic d _ => Rd.map .invokeDynamic (rLookupD Pool.invokeDynamic d)
  | .New n => Rd.map .new (rClassOr n)
  | .NewArray n =>
    match newArrayType n with
    | some t => Rd.pure (.newArray (.static t) 1)
    | none => Rd.fail .invalid
  | .ANewArray r => rNewArray r 1
  | .MultiANewArray r dim => rNewArray r dim
  | .CheckCast r => Rd.map .checkCast (rClassType r)
  | .InstanceOf r => Rd.map .instanceOf (rClassType r)

/-- One round of the loop in src/code.rs:94-110: the instruction at position `pos` of the code array, of
which `bs` is the rest. Before the operands of a switch `4 - pos % 4` bytes (the opcode and the
padding) are skipped. -/
def rInsn (pos : Nat) : Rd Insn := fun env st bs =>
  match bs with
  | [] => .error .panic
  | o :: _ =>
    if o = opc.TABLESWITCH ∨ o = opc.LOOKUPSWITCH then
      Rd.bind (Rd.lift RInsn.read) (convert pos) env st (o :: bs.drop (4 - pos % 4))
    else Rd.bind (Rd.lift RInsn.read) (convert pos) env st bs

/-! ## To bytes: `write_insn` (src/code/convert.rs:415-813)

The opcode constants are those of src/constants/insn.rs. -/

open opc

/-- `OP.write_to(&mut cursor)`. -/
def op (b : UInt8) : Ins Bytes := wNum u8 b

/-- convert.rs:424-442 `wide_or_normal!` with one operand. -/
def wideOrNormal (o : UInt8) (l : UInt16) : Ins Bytes :=
  if l.toNat < 256 then wSeq [op o, wNum u8 l.toUInt8] else wSeq [op WIDE, op o, wNum u16 l]

/-- convert.rs:496-512: through the constant pool. -/
def writeLdc (c : OrDynamic Constant) : Ins Bytes := do
  let idx ← insertOrDynamic insertConstant c
  let wide := match c with
    | .dynamic d => d.descriptor.isWide
    | .static c => c.isWide
  if wide then wSeq [op LDC2_W, wNum u16 idx]
  else if idx.toNat < 256 then wSeq [op LDC, wNum u8 idx.toUInt8]
  else wSeq [op LDC_W, wNum u16 idx]

/-- convert.rs:445-512. -/
def writePush (c : OrDynamic Constant) : Ins Bytes :=
  match c with
  | .static (.i32 i) =>
    if i = 0 then op ICONST_0
    else if i = 1 then op ICONST_1
    else if i = 2 then op ICONST_2
    else if i = 3 then op ICONST_3
    else if i = 4 then op ICONST_4
    else if i = 5 then op ICONST_5
    else if i = -1 then op ICONST_M1
    else if -128 ≤ i ∧ i ≤ 127 then wSeq [op BIPUSH, wNum i8 i.toInt8]
    else if -32768 ≤ i ∧ i ≤ 32767 then wSeq [op SIPUSH, wNum i16 i.toInt16]
    else writeLdc c
  | .static (.i64 l) =>
    if l = 0 then op LCONST_0
    else if l = 1 then op LCONST_1
    else writeLdc c
  | .static (.f32 f) =>
    if f.eq ⟨0⟩ then op FCONST_0
    else if f.eq ⟨0x3F800000⟩ then op FCONST_1
    else if f.eq ⟨0x40000000⟩ then op FCONST_2
    else writeLdc c
  | .static (.f64 f) =>
    if f.eq ⟨0⟩ then op DCONST_0
    else if f.eq ⟨0x3FF0000000000000⟩ then op DCONST_1
    else writeLdc c
  | c => writeLdc c

/-- convert.rs:536-547. -/
def localOp : LoadOrStore → LocalType → UInt8
  | .load, .int => ILOAD
  | .load, .float => FLOAD
  | .load, .double => DLOAD
  | .load, .long => LLOAD
  | .load, .ref => ALOAD
  | .store, .int => ISTORE
  | .store, .float => FSTORE
  | .store, .double => DSTORE
  | .store, .long => LSTORE
  | .store, .ref => ASTORE

/-- convert.rs:550-597. -/
def arrayOp : LoadOrStore → ArrayType → UInt8
  | .load, .int => IALOAD
  | .load, .byteOrBool => BALOAD
  | .load, .short => SALOAD
  | .load, .char => CALOAD
  | .load, .float => FALOAD
  | .load, .long => LALOAD
  | .load, .double => DALOAD
  | .load, .ref => AALOAD
  | .store, .int => IASTORE
  | .store, .byteOrBool => BASTORE
  | .store, .short => SASTORE
  | .store, .char => CASTORE
  | .store, .float => FASTORE
  | .store, .long => LASTORE
  | .store, .double => DASTORE
  | .store, .ref => AASTORE

/-- convert.rs:600-647. -/
def intOp : IntType → IntOp → UInt8
  | .int, .sub => ISUB
  | .int, .add => IADD
  | .int, .mul => IMUL
  | .int, .div => IDIV
  | .int, .rem => IREM
  | .int, .neg => INEG
  | .int, .shr => ISHR
  | .int, .shl => ISHL
  | .int, .ushr => IUSHR
  | .int, .or => IOR
  | .int, .xor => IXOR
  | .int, .and => IAND
  | .long, .sub => LSUB
  | .long, .add => LADD
  | .long, .mul => LMUL
  | .long, .div => LDIV
  | .long, .rem => LREM
  | .long, .neg => LNEG
  | .long, .shr => LSHR
  | .long, .shl => LSHL
  | .long, .ushr => LUSHR
  | .long, .or => LOR
  | .long, .xor => LXOR
  | .long, .and => LAND

/-- convert.rs:649-684. -/
def floatOp : FloatType → FloatOp → UInt8
  | .float, .sub => FSUB
  | .float, .neg => FNEG
  | .float, .add => FADD
  | .float, .mul => FMUL
  | .float, .div => FDIV
  | .float, .rem => FREM
  | .double, .sub => DSUB
  | .double, .neg => DNEG
  | .double, .add => DADD
  | .double, .mul => DMUL
  | .double, .div => DDIV
  | .double, .rem => DREM

/-- convert.rs:523-534. -/
def compareOp : FloatType → NaNBehavior → UInt8
  | .float, .one => FCMPG
  | .float, .negOne => FCMPL
  | .double, .one => DCMPG
  | .double, .negOne => DCMPL

/-- convert.rs:704-741: conversions between equal types write nothing. -/
def conversionOp : NumberType → NumberType → Option UInt8
  | .long, .int => some L2I
  | .long, .float => some L2F
  | .long, .double => some L2D
  | .double, .float => some D2F
  | .double, .int => some D2I
  | .double, .long => some D2L
  | .int, .double => some I2D
  | .int, .float => some I2F
  | .int, .long => some I2L
  | .float, .double => some F2D
  | .float, .int => some F2I
  | .float, .long => some F2L
  | _, _ => none

/-- convert.rs:742-749. -/
def convertIntOp : BitType → Option UInt8
  | .int => none
  | .long => some I2L
  | .short => some I2S
  | .byte => some I2B
  | .char => some I2C
  | .double => some I2D
  | .float => some I2F

/-- convert.rs:750-755. -/
def returnOp : Option LocalType → UInt8
  | none => RETURN
  | some .ref => ARETURN
  | some .long => LRETURN
  | some .int => IRETURN
  | some .double => DRETURN
  | some .float => FRETURN

/-- convert.rs:757-762: a static store is written as a static load. -/
def fieldOp : GetOrPut → MemberType → UInt8
  | .get, .virtual => GETFIELD
  | .put, .virtual => PUTFIELD
  | .get, .static => GETSTATIC
  | .put, .static => GETSTATIC

/-- `cp.insert_ordynamic(…, f).write_to(&mut cursor)`. -/
def wOrDyn {α : Type} (f : α → Ins UInt16) (x : OrDynamic α) : Ins Bytes := wIdx (insertOrDynamic f x)

/-- convert.rs:443-813 for the instructions that are written at once; the others are handled by
`writeInsn`. -/
def Insn.encode : Insn → Ins Bytes
  | .noOp => op NOP
  | .pushNull => op ACONST_NULL
  | .push c => writePush c
  | .dup => op DUP
  | .dupX1 => op DUP_X1
  | .dupX2 => op DUP_X2
  | .dup2 => op DUP2
  | .dup2X1 => op DUP2_X1
  | .dup2X2 => op DUP2_X2
  | .pop1 => op POP
  | .pop2 => op POP2
  | .compareLongs => op LCMP
  | .compareFloats t n => op (compareOp t n)
  | .localVariable m t l => wideOrNormal (localOp m t) l
  | .array m t => op (arrayOp m t)
  | .arrayLength => op ARRAYLENGTH
  | .intOperation t o => op (intOp t o)
  | .floatOperation t o => op (floatOp t o)
  | .throw => op ATHROW
  | .instanceOf t => wSeq [op INSTANCEOF, wOrDyn (fun x => insertClass x.toStr) t]
  | .checkCast t => wSeq [op CHECKCAST, wOrDyn (fun x => insertClass x.toStr) t]
  | .new t => wSeq [op NEW, wOrDyn insertClass t]
  | .newArray _ _ => pure []
  | .monitor .enter => op MONITORENTER
  | .monitor .exit => op MONITOREXIT
  | .conversion a b => match conversionOp a b with
    | some o => op o
    | none => pure []
  | .convertInt t => match convertIntOp t with
    | some o => op o
    | none => pure []
  | .return t => op (returnOp t)
  | .field o t m => wSeq [op (fieldOp o t), wOrDyn insertMember m]
  | .invokeExact .static m => wSeq [op INVOKESTATIC, wOrDyn insertMember m]
  | .invokeExact .virtual m => wSeq [op INVOKEVIRTUAL, wOrDyn insertMember m]
  | .invokeSpecial m => wSeq [op INVOKESPECIAL, wOrDyn insertMember m]
  | .invokeDynamic d => wSeq [op INVOKEDYNAMIC, wIdx (insertDynamic d), pure [0, 0]]
  | .invokeInterface m count =>
    wSeq [op INVOKEINTERFACE, wOrDyn insertMember m, wNum u8 count, pure [0]]
  | .ret i => wideOrNormal RET i
  | .swap => op SWAP
  | .intIncrement l inc =>
    if l.toNat < 256 ∧ -128 ≤ inc ∧ inc ≤ 127 then
      wSeq [op IINC, wNum u8 l.toUInt8, wNum i8 inc.toInt8]
    else wSeq [op WIDE, op IINC, wNum u16 l, wNum i16 inc]
  | .lineNumber _ | .label _ | .jump _ _ | .jsr _ | .tableSwitch _ _ _ | .lookupSwitch _ _ => pure []

end Verif
