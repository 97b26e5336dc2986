import Verif.Spec.Fmt
import Verif.Spec.Insn
import Verif.Spec.Misc
import Verif.Model.Instr

/-!
# Encodings of symbolic instructions (JVMS 6.5)

Only data types are taken from the model. `Enc c p i bs`: in a code array with the context `c`, the
bytes `bs` at position `p` are an encoding of the instruction `i`. An instruction may have several
encodings (short forms, wide forms).
-/

namespace Verif.Spec

/-- The instructions without operands. -/
def noArg : Op → Option Insn
  | .nop => some .noOp
  | .aconst_null => some .pushNull
  | .iconst_m1 => some (.push (.static (.i32 (-1))))
  | .iconst_0 => some (.push (.static (.i32 0)))
  | .iconst_1 => some (.push (.static (.i32 1)))
  | .iconst_2 => some (.push (.static (.i32 2)))
  | .iconst_3 => some (.push (.static (.i32 3)))
  | .iconst_4 => some (.push (.static (.i32 4)))
  | .iconst_5 => some (.push (.static (.i32 5)))
  | .lconst_0 => some (.push (.static (.i64 0)))
  | .lconst_1 => some (.push (.static (.i64 1)))
  | .fconst_0 => some (.push (.static (.f32 ⟨0x00000000⟩)))
  | .fconst_1 => some (.push (.static (.f32 ⟨0x3F800000⟩)))
  | .fconst_2 => some (.push (.static (.f32 ⟨0x40000000⟩)))
  | .dconst_0 => some (.push (.static (.f64 ⟨0x0000000000000000⟩)))
  | .dconst_1 => some (.push (.static (.f64 ⟨0x3FF0000000000000⟩)))
  | .iload_0 => some (.localVariable .load .int 0)
  | .iload_1 => some (.localVariable .load .int 1)
  | .iload_2 => some (.localVariable .load .int 2)
  | .iload_3 => some (.localVariable .load .int 3)
  | .lload_0 => some (.localVariable .load .long 0)
  | .lload_1 => some (.localVariable .load .long 1)
  | .lload_2 => some (.localVariable .load .long 2)
  | .lload_3 => some (.localVariable .load .long 3)
  | .fload_0 => some (.localVariable .load .float 0)
  | .fload_1 => some (.localVariable .load .float 1)
  | .fload_2 => some (.localVariable .load .float 2)
  | .fload_3 => some (.localVariable .load .float 3)
  | .dload_0 => some (.localVariable .load .double 0)
  | .dload_1 => some (.localVariable .load .double 1)
  | .dload_2 => some (.localVariable .load .double 2)
  | .dload_3 => some (.localVariable .load .double 3)
  | .aload_0 => some (.localVariable .load .ref 0)
  | .aload_1 => some (.localVariable .load .ref 1)
  | .aload_2 => some (.localVariable .load .ref 2)
  | .aload_3 => some (.localVariable .load .ref 3)
  | .istore_0 => some (.localVariable .store .int 0)
  | .istore_1 => some (.localVariable .store .int 1)
  | .istore_2 => some (.localVariable .store .int 2)
  | .istore_3 => some (.localVariable .store .int 3)
  | .lstore_0 => some (.localVariable .store .long 0)
  | .lstore_1 => some (.localVariable .store .long 1)
  | .lstore_2 => some (.localVariable .store .long 2)
  | .lstore_3 => some (.localVariable .store .long 3)
  | .fstore_0 => some (.localVariable .store .float 0)
  | .fstore_1 => some (.localVariable .store .float 1)
  | .fstore_2 => some (.localVariable .store .float 2)
  | .fstore_3 => some (.localVariable .store .float 3)
  | .dstore_0 => some (.localVariable .store .double 0)
  | .dstore_1 => some (.localVariable .store .double 1)
  | .dstore_2 => some (.localVariable .store .double 2)
  | .dstore_3 => some (.localVariable .store .double 3)
  | .astore_0 => some (.localVariable .store .ref 0)
  | .astore_1 => some (.localVariable .store .ref 1)
  | .astore_2 => some (.localVariable .store .ref 2)
  | .astore_3 => some (.localVariable .store .ref 3)
  | .iaload => some (.array .load .int)
  | .laload => some (.array .load .long)
  | .faload => some (.array .load .float)
  | .daload => some (.array .load .double)
  | .aaload => some (.array .load .ref)
  | .baload => some (.array .load .byteOrBool)
  | .caload => some (.array .load .char)
  | .saload => some (.array .load .short)
  | .iastore => some (.array .store .int)
  | .lastore => some (.array .store .long)
  | .fastore => some (.array .store .float)
  | .dastore => some (.array .store .double)
  | .aastore => some (.array .store .ref)
  | .bastore => some (.array .store .byteOrBool)
  | .castore => some (.array .store .char)
  | .sastore => some (.array .store .short)
  | .pop => some .pop1
  | .pop2 => some .pop2
  | .dup => some .dup
  | .dup_x1 => some .dupX1
  | .dup_x2 => some .dupX2
  | .dup2 => some .dup2
  | .dup2_x1 => some .dup2X1
  | .dup2_x2 => some .dup2X2
  | .swap => some .swap
  | .iadd => some (.intOperation .int .add)
  | .ladd => some (.intOperation .long .add)
  | .fadd => some (.floatOperation .float .add)
  | .dadd => some (.floatOperation .double .add)
  | .isub => some (.intOperation .int .sub)
  | .lsub => some (.intOperation .long .sub)
  | .fsub => some (.floatOperation .float .sub)
  | .dsub => some (.floatOperation .double .sub)
  | .imul => some (.intOperation .int .mul)
  | .lmul => some (.intOperation .long .mul)
  | .fmul => some (.floatOperation .float .mul)
  | .dmul => some (.floatOperation .double .mul)
  | .idiv => some (.intOperation .int .div)
  | .ldiv => some (.intOperation .long .div)
  | .fdiv => some (.floatOperation .float .div)
  | .ddiv => some (.floatOperation .double .div)
  | .irem => some (.intOperation .int .rem)
  | .lrem => some (.intOperation .long .rem)
  | .frem => some (.floatOperation .float .rem)
  | .drem => some (.floatOperation .double .rem)
  | .ineg => some (.intOperation .int .neg)
  | .lneg => some (.intOperation .long .neg)
  | .fneg => some (.floatOperation .float .neg)
  | .dneg => some (.floatOperation .double .neg)
  | .ishl => some (.intOperation .int .shl)
  | .lshl => some (.intOperation .long .shl)
  | .ishr => some (.intOperation .int .shr)
  | .lshr => some (.intOperation .long .shr)
  | .iushr => some (.intOperation .int .ushr)
  | .lushr => some (.intOperation .long .ushr)
  | .iand => some (.intOperation .int .and)
  | .land => some (.intOperation .long .and)
  | .ior => some (.intOperation .int .or)
  | .lor => some (.intOperation .long .or)
  | .ixor => some (.intOperation .int .xor)
  | .lxor => some (.intOperation .long .xor)
  | .i2l => some (.convertInt .long)
  | .i2f => some (.convertInt .float)
  | .i2d => some (.convertInt .double)
  | .i2b => some (.convertInt .byte)
  | .i2c => some (.convertInt .char)
  | .i2s => some (.convertInt .short)
  | .l2i => some (.conversion .long .int)
  | .l2f => some (.conversion .long .float)
  | .l2d => some (.conversion .long .double)
  | .f2i => some (.conversion .float .int)
  | .f2l => some (.conversion .float .long)
  | .f2d => some (.conversion .float .double)
  | .d2i => some (.conversion .double .int)
  | .d2l => some (.conversion .double .long)
  | .d2f => some (.conversion .double .float)
  | .lcmp => some .compareLongs
  | .fcmpl => some (.compareFloats .float .negOne)
  | .fcmpg => some (.compareFloats .float .one)
  | .dcmpl => some (.compareFloats .double .negOne)
  | .dcmpg => some (.compareFloats .double .one)
  | .ireturn => some (.return (some .int))
  | .lreturn => some (.return (some .long))
  | .freturn => some (.return (some .float))
  | .dreturn => some (.return (some .double))
  | .areturn => some (.return (some .ref))
  | .return_ => some (.return none)
  | .arraylength => some .arrayLength
  | .athrow => some .throw
  | .monitorenter => some (.monitor .enter)
  | .monitorexit => some (.monitor .exit)
  | _ => none

/-- The loads and stores with the number of the variable as operand. -/
def varOp : LoadOrStore → LocalType → Op
  | .load, .int => .iload
  | .load, .long => .lload
  | .load, .float => .fload
  | .load, .double => .dload
  | .load, .ref => .aload
  | .store, .int => .istore
  | .store, .long => .lstore
  | .store, .float => .fstore
  | .store, .double => .dstore
  | .store, .ref => .astore

/-- A conversion from int is the same instruction whichever way it is named. -/
def fromInt : NumberType → Option Op
  | .int => none
  | .long => some .i2l
  | .float => some .i2f
  | .double => some .i2d

/-- The branches. -/
def condOp : Cond → Op
  | .eqZ => .ifeq
  | .neZ => .ifne
  | .ltZ => .iflt
  | .geZ => .ifge
  | .gtZ => .ifgt
  | .leZ => .ifle
  | .intEq => .if_icmpeq
  | .intNe => .if_icmpne
  | .intLt => .if_icmplt
  | .intGe => .if_icmpge
  | .intGt => .if_icmpgt
  | .intLe => .if_icmple
  | .refEq => .if_acmpeq
  | .refNe => .if_acmpne
  | .isNull => .ifnull
  | .isNonNull => .ifnonnull
  | .always => .goto

/-- Fields and methods. -/
def fieldOp : GetOrPut → MemberType → Op
  | .get, .static => .getstatic
  | .put, .static => .putstatic
  | .get, .virtual => .getfield
  | .put, .virtual => .putfield

def callOp : MemberType → Op
  | .static => .invokestatic
  | .virtual => .invokevirtual

/-- JVMS table 6.5.newarray-A. -/
def arrayCode : JType → Option Nat
  | .boolean => some 4
  | .char => some 5
  | .float => some 6
  | .double => some 7
  | .byte => some 8
  | .short => some 9
  | .int => some 10
  | .long => some 11
  | _ => none

/-- JVMS 4.4.1: a class entry names a class, or an array type by its descriptor. -/
inductive ClassName : ClassType → Bytes → Prop
  | object {s : Bytes} : s.head? ≠ some 0x5B → ClassName (.object s) s
  | array {d : UInt8} {t : JType} {cs : List Nat} : IsField (.array d t) → Desc (.array d t) cs →
      ClassName (.array d t) (encodeCps cs)

def IsClassType (P : Pool) (i : UInt16) (t : ClassType) : Prop := ∃ s, ClassName t s ∧ IsClass P i s

/-- The component type of an array made by `anewarray`: a class or an array type. -/
inductive ElemName : JType → Bytes → Prop
  | ref {s : Bytes} : s.head? ≠ some 0x5B → ElemName (.ref s) s
  | array {d : UInt8} {t : JType} {cs : List Nat} : IsField (.array d t) → Desc (.array d t) cs →
      ElemName (.array d t) (encodeCps cs)

def IsElem (P : Pool) (i : UInt16) (t : JType) : Prop := ∃ s, ElemName t s ∧ IsClass P i s

/-- A dynamic constant or call site: an index of an entry with its name and type, which refers to its
bootstrap method in the table of the class. (A table has at most 65535 entries, so that `k` is the
number in the entry.) -/
def IsDyn (c : Ctx) (i : UInt16) (d : Dynamic) : Prop :=
  ∃ (k : Nat) (b : Bsm), IsDynamic c.pool i (UInt16.ofNat k) d.name d.descriptor ∧
    c.bsm[k]? = some b ∧ d.bsm = .filled b.handle b.arguments

/-- Something given directly or through a dynamic constant. -/
def IsOrDyn {α : Type} (is : Pool → UInt16 → α → Prop) (c : Ctx) (i : UInt16) : OrDynamic α → Prop
  | .static a => is c.pool i a
  | .dynamic d => (∀ ps r, d.descriptor ≠ .method ps r) ∧ IsDyn c i d

/-- Constants that take two stack slots (JVMS 6.5.ldc2_w). -/
def TwoSlots : OrDynamic Constant → Prop
  | .static (.i64 _) => True
  | .static (.f64 _) => True
  | .static _ => False
  | .dynamic d => d.descriptor = .long ∨ d.descriptor = .double

/-- Constants that can be pushed (JVMS table 4.4-C). -/
def Loadable : OrDynamic Constant → Prop
  | .static (.member _) => False
  | _ => True

/-- The distance from `p` to a label. -/
def Dist (c : Ctx) (p : Nat) (l : Label) (n : Int) : Prop := ∃ t : Nat, c.pos l = some t ∧ n = (t : Int) - p

/-- Distances as 16-bit and 32-bit operands. -/
def near (p : Nat) : Fmt Label := fun c l bs =>
  ∃ n, Dist c p l n ∧ -2 ^ 15 ≤ n ∧ n < 2 ^ 15 ∧ bs = S2 n
def far (p : Nat) : Fmt Label := fun c l bs =>
  ∃ n, Dist c p l n ∧ -2 ^ 31 ≤ n ∧ n < 2 ^ 31 ∧ bs = S4 n

/-- A match-offset pair. -/
def pair (p : Nat) : Fmt (Int32 × Label) := fun c e bs => ∃ b, bs = S4 e.1.toInt ++ b ∧ far p c e.2 b

inductive Enc (c : Ctx) (p : Nat) : Insn → Bytes → Prop
  | noArg {o : Op} {i : Insn} : noArg o = some i → Enc c p i (U1 o.code)
  | fromInt {o : Op} {t : NumberType} : fromInt t = some o → Enc c p (.conversion .int t) (U1 o.code)
  /-- Conversions that do nothing. -/
  | sameType {t : NumberType} : Enc c p (.conversion t t) []
  | sameInt : Enc c p (.convertInt .int) []
  | bipush {x : Int8} : Enc c p (.push (.static (.i32 (Int32.ofInt x.toInt)))) (U1 Op.bipush.code ++ S1 x.toInt)
  | sipush {x : Int16} : Enc c p (.push (.static (.i32 (Int32.ofInt x.toInt)))) (U1 Op.sipush.code ++ S2 x.toInt)
  | ldc {x : OrDynamic Constant} {i : UInt16} : IsOrDyn IsConstant c i x → Loadable x → ¬ TwoSlots x →
      i.toNat < 256 →
      Enc c p (.push x) (U1 Op.ldc.code ++ U1 i.toNat)
  | ldc_w {x : OrDynamic Constant} {i : UInt16} : IsOrDyn IsConstant c i x → Loadable x → ¬ TwoSlots x →
      Enc c p (.push x) (U1 Op.ldc_w.code ++ U2 i.toNat)
  | ldc2_w {x : OrDynamic Constant} {i : UInt16} : IsOrDyn IsConstant c i x → TwoSlots x →
      Enc c p (.push x) (U1 Op.ldc2_w.code ++ U2 i.toNat)
  | var {m : LoadOrStore} {t : LocalType} {n : Nat} : n < 256 →
      Enc c p (.localVariable m t (UInt16.ofNat n)) (U1 (varOp m t).code ++ U1 n)
  | varWide {m : LoadOrStore} {t : LocalType} {n : UInt16} :
      Enc c p (.localVariable m t n) (U1 Op.wide.code ++ U1 (varOp m t).code ++ U2 n.toNat)
  | ret {n : Nat} : n < 256 → Enc c p (.ret (UInt16.ofNat n)) (U1 Op.ret.code ++ U1 n)
  | retWide {n : UInt16} : Enc c p (.ret n) (U1 Op.wide.code ++ U1 Op.ret.code ++ U2 n.toNat)
  | iinc {n : Nat} {x : Int8} : n < 256 →
      Enc c p (.intIncrement (UInt16.ofNat n) (Int16.ofInt x.toInt)) (U1 Op.iinc.code ++ U1 n ++ S1 x.toInt)
  | iincWide {n : UInt16} {x : Int16} :
      Enc c p (.intIncrement n x) (U1 Op.wide.code ++ U1 Op.iinc.code ++ U2 n.toNat ++ S2 x.toInt)
  | field {o : GetOrPut} {t : MemberType} {m : OrDynamic MemberRef} {i : UInt16} : IsOrDyn IsMember c i m →
      Enc c p (.field o t m) (U1 (fieldOp o t).code ++ U2 i.toNat)
  | call {t : MemberType} {m : OrDynamic MemberRef} {i : UInt16} : IsOrDyn IsMember c i m →
      Enc c p (.invokeExact t m) (U1 (callOp t).code ++ U2 i.toNat)
  | special {m : OrDynamic MemberRef} {i : UInt16} : IsOrDyn IsMember c i m →
      Enc c p (.invokeSpecial m) (U1 Op.invokespecial.code ++ U2 i.toNat)
  | interface {m : OrDynamic MemberRef} {i : UInt16} {n : UInt8} : IsOrDyn IsMember c i m →
      Enc c p (.invokeInterface m n) (U1 Op.invokeinterface.code ++ U2 i.toNat ++ U1 n.toNat ++ U1 0)
  | dynamic {d : Dynamic} {i : UInt16} {ps : List JType} {r : Option JType} : d.descriptor = .method ps r →
      IsDyn c i d → Enc c p (.invokeDynamic d) (U1 Op.invokedynamic.code ++ U2 i.toNat ++ U2 0)
  | new {x : OrDynamic Bytes} {i : UInt16} : IsOrDyn IsClass c i x →
      Enc c p (.new x) (U1 Op.new.code ++ U2 i.toNat)
  | newarray {t : JType} {n : Nat} : arrayCode t = some n →
      Enc c p (.newArray (.static t) 1) (U1 Op.newarray.code ++ U1 n)
  | anewarray {t : OrDynamic JType} {i : UInt16} : IsOrDyn IsElem c i t →
      Enc c p (.newArray t 1) (U1 Op.anewarray.code ++ U2 i.toNat)
  /-- Here the type is that of the whole array; it has at least `n` dimensions. -/
  | multianewarray {t : OrDynamic JType} {i : UInt16} {n : UInt8} : IsOrDyn IsElem c i t → 2 ≤ n.toNat →
      (∀ s, t = .static s → ∃ d e, s = .array d e ∧ n.toNat ≤ d.toNat) →
      Enc c p (.newArray t n) (U1 Op.multianewarray.code ++ U2 i.toNat ++ U1 n.toNat)
  | checkcast {t : OrDynamic ClassType} {i : UInt16} : IsOrDyn IsClassType c i t →
      Enc c p (.checkCast t) (U1 Op.checkcast.code ++ U2 i.toNat)
  | instanceof {t : OrDynamic ClassType} {i : UInt16} : IsOrDyn IsClassType c i t →
      Enc c p (.instanceOf t) (U1 Op.instanceof.code ++ U2 i.toNat)
  | jump {k : Cond} {l : Label} {b : Bytes} : near p c l b → Enc c p (.jump k l) (U1 (condOp k).code ++ b)
  | gotoWide {l : Label} {b : Bytes} : far p c l b → Enc c p (.jump .always l) (U1 Op.goto_w.code ++ b)
  | jsr {l : Label} {b : Bytes} : near p c l b → Enc c p (.jsr l) (U1 Op.jsr.code ++ b)
  | jsrWide {l : Label} {b : Bytes} : far p c l b → Enc c p (.jsr l) (U1 Op.jsr_w.code ++ b)
  /-- The operands of the switches begin at the next multiple of four. -/
  | tableSwitch {d : Label} {low : Int32} {ls : List Label} {pad b b' : Bytes} :
      pad.length ≤ 3 → (p + 1 + pad.length) % 4 = 0 → ls ≠ [] →
      ls.length < 2 ^ 31 → low.toInt + ls.length - 1 < 2 ^ 31 → far p c d b → Fmt.all (far p) c ls b' →
      Enc c p (.tableSwitch d low ls)
        (U1 Op.tableswitch.code ++ pad ++ b ++ S4 low.toInt ++ S4 (low.toInt + ls.length - 1) ++ b')
  /-- The pairs are in ascending order of the keys. -/
  | lookupSwitch {d : Label} {t es : List (Int32 × Label)} {pad b b' : Bytes} :
      pad.length ≤ 3 → (p + 1 + pad.length) % 4 = 0 → es.Perm t →
      es.Pairwise (fun a b => a.1.toInt < b.1.toInt) → es.length < 2 ^ 32 → far p c d b →
      Fmt.all (pair p) c es b' →
      Enc c p (.lookupSwitch d t) (U1 Op.lookupswitch.code ++ pad ++ b ++ U4 es.length ++ b')
  /-- Markers occupy no space. -/
  | label {l : Label} : c.pos l = some p → Enc c p (.label l) []
  | line {n : UInt16} : Enc c p (.lineNumber n) []

/-- The type of the array that an instruction makes (JVMS 6.5). -/
inductive Makes (c : Ctx) : Bytes → JType → Prop
  | newarray {t : JType} {n : Nat} : arrayCode t = some n → Makes c (U1 Op.newarray.code ++ U1 n) (.array 1 t)
  | ofClass {s : Bytes} {i : UInt16} : IsElem c.pool i (.ref s) →
      Makes c (U1 Op.anewarray.code ++ U2 i.toNat) (.array 1 (.ref s))
  | ofArray {d : UInt8} {t : JType} {i : UInt16} : IsElem c.pool i (.array d t) → d.toNat < 255 →
      Makes c (U1 Op.anewarray.code ++ U2 i.toNat) (.array (d + 1) t)
  | multi {d n : UInt8} {t : JType} {i : UInt16} : IsElem c.pool i (.array d t) → 1 ≤ n.toNat →
      n.toNat ≤ d.toNat → Makes c (U1 Op.multianewarray.code ++ U2 i.toNat ++ U1 n.toNat) (.array d t)

/-- The code array of a list of instructions, from position `p` on. -/
inductive Layout (c : Ctx) : Nat → List Insn → Bytes → Prop
  | nil {p : Nat} : Layout c p [] []
  | cons {p : Nat} {i : Insn} {is : List Insn} {b bs : Bytes} : Enc c p i b →
      Layout c (p + b.length) is bs → Layout c p (i :: is) (b ++ bs)

/-! ## What can be read back -/

/-- Names of classes that are not mistaken for descriptors when read from `anewarray`. -/
def PlainName (s : Bytes) : Prop :=
  ∃ cs, ValidCps cs ∧ s = encodeCps cs ∧ 0x3B ∉ cs ∧
    ∀ x ∈ cs.head?, x ∉ [0x42, 0x43, 0x44, 0x46, 0x49, 0x4A, 0x53, 0x5A, 0x5B, 0x28]

/-- Instructions whose encodings are understood by the reader. -/
def Readable : Insn → Prop
  | .push (.dynamic _) => False
  | .newArray (.static (.ref s)) _ => PlainName s
  | _ => True

/-- The canonical form of an instruction: one that occupies space, with conversions from int in one
form, interface flags of fields cleared, and switch tables in ascending order. -/
def normal : Insn → Option Insn
  | .conversion .int .int | .conversion .long .long | .conversion .float .float
  | .conversion .double .double | .convertInt .int | .label _ | .lineNumber _ => none
  | .conversion .int .long => some (.convertInt .long)
  | .conversion .int .float => some (.convertInt .float)
  | .conversion .int .double => some (.convertInt .double)
  | .push (.static c) => some (.push (.static c.norm))
  | .field o t (.static m) => some (.field o t (.static m.norm))
  | .invokeExact t (.static m) => some (.invokeExact t (.static m.norm))
  | .invokeSpecial (.static m) => some (.invokeSpecial (.static m.norm))
  | .invokeInterface (.static m) n => some (.invokeInterface (.static m.norm) n)
  | .lookupSwitch d t => some (.lookupSwitch d (t.mergeSort fun a b => a.1.toInt ≤ b.1.toInt))
  | i => some i

/-- An instruction with its labels renamed. -/
def renI (f : Label → Label) : Insn → Insn
  | .jump c l => .jump c (f l)
  | .jsr l => .jsr (f l)
  | .tableSwitch d low ls => .tableSwitch (f d) low (ls.map f)
  | .lookupSwitch d t => .lookupSwitch (f d) (t.map fun e => (e.1, f e.2))
  | .label l => .label (f l)
  | i => i

/-- The labels an instruction refers to, in the order of its encoding. -/
def targets : Insn → List Label
  | .jump _ l | .jsr l => [l]
  | .tableSwitch d _ ls => d :: ls
  | .lookupSwitch d t => d :: t.map Prod.snd
  | _ => []

/-- A dynamic constant with its bootstrap method taken from a table. -/
def resolveD (T : List Bsm) (d : Dynamic) : Dynamic :=
  match d.bsm with
  | .filled _ _ => d
  | .pending k => match T[k.toNat]? with
    | some b => { d with bsm := .filled b.handle b.arguments }
    | none => d

def resolveO {α : Type} (T : List Bsm) : OrDynamic α → OrDynamic α
  | .dynamic d => .dynamic (resolveD T d)
  | .static a => .static a

def resolveI (T : List Bsm) : Insn → Insn
  | .push c => .push (resolveO T c)
  | .checkCast t => .checkCast (resolveO T t)
  | .instanceOf t => .instanceOf (resolveO T t)
  | .newArray t n => .newArray (resolveO T t) n
  | .new t => .new (resolveO T t)
  | .field o t m => .field o t (resolveO T m)
  | .invokeExact t m => .invokeExact t (resolveO T m)
  | .invokeSpecial m => .invokeSpecial (resolveO T m)
  | .invokeInterface m n => .invokeInterface (resolveO T m) n
  | .invokeDynamic d => .invokeDynamic (resolveD T d)
  | i => i

end Verif.Spec

namespace Verif
open Spec

/-! ## Instructions that are written correctly (C34, C37) -/

/-- Dynamic constants that can be written: the type prints without loss and is not a method type. -/
def DynOk (d : Dynamic) : Prop := Printable d.descriptor ∧ ∀ ps r, d.descriptor ≠ .method ps r

def OrDynOk {α : Type} (ok : α → Prop) : OrDynamic α → Prop
  | .dynamic d => DynOk d
  | .static a => ok a

def ClassTypeOk : ClassType → Prop
  | .object s => s.head? ≠ some 0x5B
  | .array d t => IsField (.array d t) ∧ Printable (.array d t)

/-- The straight-line instructions that are written correctly. -/
def EncOk : Insn → Prop
  | .push c => OrDynOk ConstOk c ∧ Loadable c
  | .checkCast t | .instanceOf t => OrDynOk ClassTypeOk t
  | .newArray _ _ => False
  | .field .put .static _ => False
  | .field _ _ m | .invokeExact _ m | .invokeSpecial m | .invokeInterface m _ =>
    OrDynOk (fun m => Printable m.descriptor) m
  | .invokeDynamic d => Printable d.descriptor ∧ ∃ ps r, d.descriptor = .method ps r
  | .new x => OrDynOk (fun _ => True) x
  | .jump _ _ | .jsr _ | .tableSwitch _ _ _ | .lookupSwitch _ _ | .label _ | .lineNumber _ => False
  | _ => True

/-- Instructions that are written correctly at a suitable place. -/
def CodeOk : Insn → Prop
  | .lookupSwitch _ t => (t.map Prod.fst).Nodup
  | .jump _ _ | .jsr _ | .tableSwitch _ _ _ | .label _ | .lineNumber _ => True
  | i => EncOk i

/-- The labels a list of instructions places. -/
def marks : List Insn → List Label
  | [] => []
  | .label l :: is => l :: marks is
  | _ :: is => marks is

/-- The number of branches. -/
def branches : List Insn → Nat
  | [] => 0
  | .jump _ _ :: is | .jsr _ :: is | .tableSwitch _ _ _ :: is | .lookupSwitch _ _ :: is => branches is + 1
  | _ :: is => branches is

end Verif
