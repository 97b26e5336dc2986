import Verif.Spec.Cp
import Verif.Model.Insn

/-!
# The instruction set of the Java virtual machine (JVMS chapter 6, opcodes from chapter 7)

Only data types are taken from the model.
-/

namespace Verif.Spec

/-- The mnemonics in the order of their opcodes (JVMS chapter 7, "constants" … "extended"):
the opcode is the place in this list. -/
inductive Op where
  | nop | aconst_null | iconst_m1 | iconst_0 | iconst_1 | iconst_2 | iconst_3 | iconst_4 | iconst_5 | lconst_0 | lconst_1
  | fconst_0 | fconst_1 | fconst_2 | dconst_0 | dconst_1 | bipush | sipush | ldc | ldc_w | ldc2_w
  | iload | lload | fload | dload | aload
  | iload_0 | iload_1 | iload_2 | iload_3 | lload_0 | lload_1 | lload_2 | lload_3 | fload_0 | fload_1 | fload_2 | fload_3
  | dload_0 | dload_1 | dload_2 | dload_3 | aload_0 | aload_1 | aload_2 | aload_3
  | iaload | laload | faload | daload | aaload | baload | caload | saload
  | istore | lstore | fstore | dstore | astore
  | istore_0 | istore_1 | istore_2 | istore_3 | lstore_0 | lstore_1 | lstore_2 | lstore_3 | fstore_0 | fstore_1 | fstore_2 | fstore_3
  | dstore_0 | dstore_1 | dstore_2 | dstore_3 | astore_0 | astore_1 | astore_2 | astore_3
  | iastore | lastore | fastore | dastore | aastore | bastore | castore | sastore
  | pop | pop2 | dup | dup_x1 | dup_x2 | dup2 | dup2_x1 | dup2_x2 | swap
  | iadd | ladd | fadd | dadd | isub | lsub | fsub | dsub | imul | lmul | fmul | dmul | idiv | ldiv | fdiv | ddiv
  | irem | lrem | frem | drem | ineg | lneg | fneg | dneg
  | ishl | lshl | ishr | lshr | iushr | lushr | iand | land | ior | lor | ixor | lxor | iinc
  | i2l | i2f | i2d | l2i | l2f | l2d | f2i | f2l | f2d | d2i | d2l | d2f | i2b | i2c | i2s
  | lcmp | fcmpl | fcmpg | dcmpl | dcmpg
  | ifeq | ifne | iflt | ifge | ifgt | ifle
  | if_icmpeq | if_icmpne | if_icmplt | if_icmpge | if_icmpgt | if_icmple | if_acmpeq | if_acmpne
  | goto | jsr | ret | tableswitch | lookupswitch
  | ireturn | lreturn | freturn | dreturn | areturn | return_
  | getstatic | putstatic | getfield | putfield
  | invokevirtual | invokespecial | invokestatic | invokeinterface | invokedynamic
  | new | newarray | anewarray | arraylength | athrow | checkcast | instanceof | monitorenter | monitorexit
  | wide | multianewarray | ifnull | ifnonnull | goto_w | jsr_w
  deriving DecidableEq, Repr

/-- The opcode. -/
def Op.code (o : Op) : Nat := o.ctorIdx

/-- Signed operands are in two's complement. -/
def S1 (x : Int) : Bytes := U1 (x % 2 ^ 8).toNat
def S2 (x : Int) : Bytes := U2 (x % 2 ^ 16).toNat
def S4 (x : Int) : Bytes := U4 (x % 2 ^ 32).toNat

/-- Some opcodes for orientation: each group of chapter 7 begins where it should. -/
example : Op.nop.code = 0 ∧ Op.iload.code = 21 ∧ Op.istore.code = 54 ∧ Op.pop.code = 87 ∧
    Op.iadd.code = 96 ∧ Op.i2l.code = 133 ∧ Op.lcmp.code = 148 ∧ Op.goto.code = 167 ∧
    Op.getstatic.code = 178 ∧ Op.wide.code = 196 ∧ Op.jsr_w.code = 201 := by decide

/-- The mnemonic of a raw instruction. -/
def rawOp : RInsn → Op
  | .Nop => .nop
  | .AConstNull => .aconst_null
  | .IConstM1 => .iconst_m1
  | .IConst0 => .iconst_0
  | .IConst1 => .iconst_1
  | .IConst2 => .iconst_2
  | .IConst3 => .iconst_3
  | .IConst4 => .iconst_4
  | .IConst5 => .iconst_5
  | .LConst0 => .lconst_0
  | .LConst1 => .lconst_1
  | .FConst0 => .fconst_0
  | .FConst1 => .fconst_1
  | .FConst2 => .fconst_2
  | .DConst0 => .dconst_0
  | .DConst1 => .dconst_1
  | .Bipush _ => .bipush
  | .Sipush _ => .sipush
  | .Ldc _ => .ldc
  | .LdcW _ => .ldc_w
  | .Ldc2W _ => .ldc2_w
  | .ILoad _ => .iload
  | .LLoad _ => .lload
  | .FLoad _ => .fload
  | .DLoad _ => .dload
  | .ALoad _ => .aload
  | .ILoad0 => .iload_0
  | .ILoad1 => .iload_1
  | .ILoad2 => .iload_2
  | .ILoad3 => .iload_3
  | .LLoad0 => .lload_0
  | .LLoad1 => .lload_1
  | .LLoad2 => .lload_2
  | .LLoad3 => .lload_3
  | .FLoad0 => .fload_0
  | .FLoad1 => .fload_1
  | .FLoad2 => .fload_2
  | .FLoad3 => .fload_3
  | .DLoad0 => .dload_0
  | .DLoad1 => .dload_1
  | .DLoad2 => .dload_2
  | .DLoad3 => .dload_3
  | .ALoad0 => .aload_0
  | .ALoad1 => .aload_1
  | .ALoad2 => .aload_2
  | .ALoad3 => .aload_3
  | .IALoad => .iaload
  | .LALoad => .laload
  | .FALoad => .faload
  | .DALoad => .daload
  | .AALoad => .aaload
  | .BALoad => .baload
  | .CALoad => .caload
  | .SALoad => .saload
  | .IStore _ => .istore
  | .LStore _ => .lstore
  | .FStore _ => .fstore
  | .DStore _ => .dstore
  | .AStore _ => .astore
  | .IStore0 => .istore_0
  | .IStore1 => .istore_1
  | .IStore2 => .istore_2
  | .IStore3 => .istore_3
  | .LStore0 => .lstore_0
  | .LStore1 => .lstore_1
  | .LStore2 => .lstore_2
  | .LStore3 => .lstore_3
  | .FStore0 => .fstore_0
  | .FStore1 => .fstore_1
  | .FStore2 => .fstore_2
  | .FStore3 => .fstore_3
  | .DStore0 => .dstore_0
  | .DStore1 => .dstore_1
  | .DStore2 => .dstore_2
  | .DStore3 => .dstore_3
  | .AStore0 => .astore_0
  | .AStore1 => .astore_1
  | .AStore2 => .astore_2
  | .AStore3 => .astore_3
  | .IAStore => .iastore
  | .LAStore => .lastore
  | .FAStore => .fastore
  | .DAStore => .dastore
  | .AAStore => .aastore
  | .BAStore => .bastore
  | .CAStore => .castore
  | .SAStore => .sastore
  | .Pop => .pop
  | .Pop2 => .pop2
  | .Dup => .dup
  | .Dupx1 => .dup_x1
  | .Dupx2 => .dup_x2
  | .Dup2 => .dup2
  | .Dup2x1 => .dup2_x1
  | .Dup2x2 => .dup2_x2
  | .Swap => .swap
  | .IAdd => .iadd
  | .LAdd => .ladd
  | .FAdd => .fadd
  | .DAdd => .dadd
  | .ISub => .isub
  | .LSub => .lsub
  | .FSub => .fsub
  | .DSub => .dsub
  | .IMul => .imul
  | .LMul => .lmul
  | .FMul => .fmul
  | .DMul => .dmul
  | .IDiv => .idiv
  | .LDiv => .ldiv
  | .FDiv => .fdiv
  | .DDiv => .ddiv
  | .IRem => .irem
  | .LRem => .lrem
  | .FRem => .frem
  | .DRem => .drem
  | .INeg => .ineg
  | .LNeg => .lneg
  | .FNeg => .fneg
  | .DNeg => .dneg
  | .IShl => .ishl
  | .LShl => .lshl
  | .IShr => .ishr
  | .LShr => .lshr
  | .IUshr => .iushr
  | .LUshr => .lushr
  | .IAnd => .iand
  | .LAnd => .land
  | .IOr => .ior
  | .LOr => .lor
  | .IXor => .ixor
  | .LXor => .lxor
  | .IInc _ _ => .iinc
  | .I2L => .i2l
  | .I2F => .i2f
  | .I2D => .i2d
  | .L2I => .l2i
  | .L2F => .l2f
  | .L2D => .l2d
  | .F2I => .f2i
  | .F2L => .f2l
  | .F2D => .f2d
  | .D2I => .d2i
  | .D2L => .d2l
  | .D2F => .d2f
  | .I2B => .i2b
  | .I2C => .i2c
  | .I2S => .i2s
  | .LCmp => .lcmp
  | .FCmpL => .fcmpl
  | .FCmpG => .fcmpg
  | .DCmpL => .dcmpl
  | .DCmpG => .dcmpg
  | .IfEq _ => .ifeq
  | .IfNe _ => .ifne
  | .IfLt _ => .iflt
  | .IfGe _ => .ifge
  | .IfGt _ => .ifgt
  | .IfLe _ => .ifle
  | .IfICmpEq _ => .if_icmpeq
  | .IfICmpNe _ => .if_icmpne
  | .IfICmpLt _ => .if_icmplt
  | .IfICmpGe _ => .if_icmpge
  | .IfICmpGt _ => .if_icmpgt
  | .IfICmpLe _ => .if_icmple
  | .IfACmpEq _ => .if_acmpeq
  | .IfACmpNe _ => .if_acmpne
  | .Goto _ => .goto
  | .Jsr _ => .jsr
  | .Ret _ => .ret
  | .TableSwitch _ _ => .tableswitch
  | .LookupSwitch _ _ => .lookupswitch
  | .IReturn => .ireturn
  | .LReturn => .lreturn
  | .FReturn => .freturn
  | .DReturn => .dreturn
  | .AReturn => .areturn
  | .Return => .return_
  | .GetStatic _ => .getstatic
  | .PutStatic _ => .putstatic
  | .GetField _ => .getfield
  | .PutField _ => .putfield
  | .InvokeVirtual _ => .invokevirtual
  | .InvokeSpecial _ => .invokespecial
  | .InvokeStatic _ => .invokestatic
  | .InvokeInterface _ _ _ => .invokeinterface
  | .InvokeDynamic _ _ => .invokedynamic
  | .New _ => .new
  | .NewArray _ => .newarray
  | .ANewArray _ => .anewarray
  | .ArrayLength => .arraylength
  | .AThrow => .athrow
  | .CheckCast _ => .checkcast
  | .InstanceOf _ => .instanceof
  | .MonitorEnter => .monitorenter
  | .MonitorExit => .monitorexit
  | .Wide _ => .wide
  | .MultiANewArray _ _ => .multianewarray
  | .IfNull _ => .ifnull
  | .IfNonNull _ => .ifnonnull
  | .GotoW _ => .goto_w
  | .JsrW _ => .jsr_w

/-- Instructions that may follow `wide`. -/
def wideOp : Wide → Op
  | .ILoad _ => .iload
  | .LLoad _ => .lload
  | .FLoad _ => .fload
  | .DLoad _ => .dload
  | .ALoad _ => .aload
  | .IStore _ => .istore
  | .LStore _ => .lstore
  | .FStore _ => .fstore
  | .DStore _ => .dstore
  | .AStore _ => .astore
  | .Ret _ => .ret
  | .IInc _ _ => .iinc

/-- The operands after `wide` and the opcode. -/
def wideArgs : Wide → Bytes
  | .IInc i n => U2 i.toNat ++ S2 n.toInt
  | .ILoad i | .LLoad i | .FLoad i | .DLoad i | .ALoad i
  | .IStore i | .LStore i | .FStore i | .DStore i | .AStore i | .Ret i => U2 i.toNat

/-- The operands of a raw instruction; the switches without the padding, which depends on the place
of the instruction. -/
def rawArgs : RInsn → Bytes
  | .Bipush a => S1 a.toInt
  | .Sipush a | .IfEq a | .IfNe a | .IfLt a | .IfGe a | .IfGt a | .IfLe a | .IfICmpEq a
  | .IfICmpNe a | .IfICmpLt a | .IfICmpGe a | .IfICmpGt a | .IfICmpLe a | .IfACmpEq a
  | .IfACmpNe a | .Goto a | .Jsr a | .IfNull a | .IfNonNull a => S2 a.toInt
  | .Ldc a | .ILoad a | .LLoad a | .FLoad a | .DLoad a | .ALoad a | .IStore a | .LStore a
  | .FStore a | .DStore a | .AStore a | .Ret a | .NewArray a => U1 a.toNat
  | .LdcW a | .Ldc2W a | .GetStatic a | .PutStatic a | .GetField a | .PutField a
  | .InvokeVirtual a | .InvokeSpecial a | .InvokeStatic a | .New a | .ANewArray a
  | .CheckCast a | .InstanceOf a => U2 a.toNat
  | .IInc a b => U1 a.toNat ++ S1 b.toInt
  | .InvokeInterface a b c => U2 a.toNat ++ U1 b.toNat ++ U1 c.toNat
  | .InvokeDynamic a b => U2 a.toNat ++ U2 b.toNat
  | .MultiANewArray a b => U2 a.toNat ++ U1 b.toNat
  | .GotoW a | .JsrW a => S4 a.toInt
  | .TableSwitch a b => S4 a.toInt ++ S4 b.low.toInt ++ S4 b.high.toInt ++
      b.offsets.flatMap fun x => S4 x.toInt
  | .LookupSwitch a b => S4 a.toInt ++ U4 b.length ++
      b.flatMap fun e => S4 e.key.toInt ++ S4 e.off.toInt
  | .Wide a => U1 (wideOp a).code ++ wideArgs a
  | _ => []

/-- Values that the format can express: a table has one offset per value from `low` to `high`, and
fewer than 2³¹ of them; a lookup table has fewer than 2³² entries. -/
def RawOk : RInsn → Prop
  | .TableSwitch _ b =>
      (b.offsets.length : Int) = b.high.toInt - b.low.toInt + 1 ∧
      b.offsets.length < 2 ^ 31
  | .LookupSwitch _ b => b.length < 2 ^ 32
  | _ => True

end Verif.Spec
