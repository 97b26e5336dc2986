import Verif.Model.ReleaseRead

/-! # Writing a class in a build without overflow checks

The writers of `Model/Class` and of what it uses, with arithmetic that wraps, which is the default of release builds: the
index of a constant (src/cp.rs:224), positions in the code (src/code.rs:393-403, 504-511), the greatest key of a
`tableswitch` (src/code.rs:445), the length of the range of a local variable (src/code.rs:562 and 573,
src/annotation/type_annotation.rs:69-80), the number of attributes of a body (src/code.rs:591 and 604), the number of
bootstrap methods and the length of their table (src/clazz.rs:116 and 124). Everything else is as in a build with checks,
but nearly every writer inserts constants. -/

namespace Verif
open Sig opc

/-- src/cp.rs:218-229 `insert_raw`, as `insertRaw` (`insertRawW` in `Model/Release` as an insertion). -/
def insertEntryW (e : Entry) : Ins UInt16 := fun cp => .ok (insertRawW e cp)

/-- src/rw.rs:107-109, as `insertWtf8`. -/
def insertWtf8W (s : Bytes) : Ins UInt16 := insertEntryW (.utf8 s)

/-- src/rw.rs:95-106, as `insertIndirect`. -/
def insertIndirectW (tag : UInt8) (s : Bytes) : Ins UInt16 := do
  let i ← insertWtf8W s
  match tag with
  | 7 => insertEntryW (.cls i)
  | 8 => insertEntryW (.str i)
  | 19 => insertEntryW (.module i)
  | 20 => insertEntryW (.package i)
  | _ => Ins.fail .panic

/-- src/rw.rs:110-118, as `insertNameAndType`. -/
def insertNameAndTypeW (name desc : Bytes) : Ins UInt16 := do
  let a ← insertWtf8W name
  let b ← insertWtf8W desc
  insertEntryW (.nat a b)

/-- src/rw.rs:119-122, as `insertClass`. -/
def insertClassW (s : Bytes) : Ins UInt16 := do
  let i ← insertWtf8W s
  insertEntryW (.cls i)

/-- src/rw.rs:139-149, as `insertMember`. -/
def insertMemberW (m : MemberRef) : Ins UInt16 := do
  let o ← insertClassW m.owner
  let nt ← insertNameAndTypeW m.name (JType.display m.descriptor)
  insertEntryW (if JType.isMethod m.descriptor then
      if m.itfs then .imethod o nt else .method o nt
    else .field o nt)

/-- src/rw.rs:150-153, as `insertMethodHandle`. -/
def insertMethodHandleW (h : MethodHandle) : Ins UInt16 := do
  let m ← insertMemberW h.member
  insertEntryW (.handle h.kind.toU8 m)

/-- src/rw.rs:32-50, as `insertConstant`. -/
def insertConstantW : Constant → Ins UInt16
  | .i32 i => insertEntryW (.int i)
  | .f32 f => insertEntryW (.float f)
  | .i64 l => insertEntryW (.long l)
  | .f64 d => insertEntryW (.double d)
  | .string s => insertIndirectW 8 s
  | .cls s => insertIndirectW 7 s
  | .member m => insertMemberW m
  | .methodType t => do
    let d ← insertWtf8W (JType.display t)
    insertEntryW (.mtype d)
  | .methodHandle h => insertMethodHandleW h

/-- src/rw.rs:83-93, as `insertDynamic`. -/
def insertDynamicW (d : Dynamic) : Ins UInt16 := do
  let b ← Ins.lift d.getBsm
  let b ← insertBsm b
  let nt ← insertNameAndTypeW d.name (JType.display d.descriptor)
  insertEntryW (if JType.isMethod d.descriptor then .indy b nt else .dyn b nt)

/-- src/rw.rs:57-65, as `insertOrDynamic`. -/
def insertOrDynamicW {α : Type} (f : α → Ins UInt16) : OrDynamic α → Ins UInt16
  | .dynamic d => insertDynamicW d
  | .static a => f a

/-- src/ty.rs:164-166, as `wUtf8`. -/
def wUtf8W (s : Bytes) : Ins Bytes := wIdx (insertWtf8W s)

/-- src/helper.rs:54-60, as `wStr`. -/
def wStrW (tag : UInt8) (s : Bytes) : Ins Bytes := wIdx (insertIndirectW tag s)

/-- src/ty.rs:203-205, as `wType`. -/
def wTypeW (t : JType) : Ins Bytes := wIdx (insertWtf8W (JType.toWtf8 t))

/-- coffer_macros/src/derive.rs:197-205, as `wAttr`. -/
def wAttrW (name : Bytes) (fields : Ins Bytes) : Ins Bytes := do
  let i ← insertWtf8W name
  let body ← fields
  pure (u16.write i ++ u32.write (UInt32.ofNat body.length) ++ body)

/-- coffer_macros/src/derive.rs:170-175, as `wRaw`. -/
def wRawW (a : RawAttribute) : Ins Bytes := do
  let i ← insertWtf8W a.name
  pure (u16.write i ++ u32.write (UInt32.ofNat a.inner.length) ++ a.inner)

/-- src/annotation/mod.rs:137-143, as `wInt`. -/
def wIntW (x : Int32) : Ins Bytes := wIdx (insertEntryW (.int x))

mutual
/-- src/annotation/mod.rs:136-210, as `AnnValue.write`. -/
def AnnValue.writeW : AnnValue → Ins Bytes
  | .byte x => wSeq [wNum u8 0x42, wIntW x.toInt32]
  | .char x => wSeq [wNum u8 0x43, wIntW (Int32.ofNat x.toNat)]
  | .double x => wSeq [wNum u8 0x44, wIdx (insertEntryW (.double x))]
  | .float x => wSeq [wNum u8 0x46, wIdx (insertEntryW (.float x))]
  | .int x => wSeq [wNum u8 0x49, wIntW x]
  | .long x => wSeq [wNum u8 0x4a, wIdx (insertEntryW (.long x))]
  | .short x => wSeq [wNum u8 0x53, wIntW x.toInt32]
  | .boolean x => wSeq [wNum u8 0x5a, wIntW (if x then 1 else 0)]
  | .string s => wSeq [wNum u8 0x73, wUtf8W s]
  | .enum t name => wSeq [wNum u8 0x65, wTypeW t, wUtf8W name]
  | .cls t => wSeq [wNum u8 0x63, wUtf8W (match t with
      | none => [0x56]
      | some t => JType.display t)]
  | .annotation t vals =>
    wSeq [wNum u8 0x40, wTypeW t, wNum u16 (UInt16.ofNat vals.length), AnnValue.writeElemsW vals]
  | .array vs => wSeq [wNum u8 0x5b, wNum u16 (UInt16.ofNat vs.length), AnnValue.writeListW vs]

/-- src/annotation/mod.rs:204-206, as `AnnValue.writeList`. -/
def AnnValue.writeListW : List AnnValue → Ins Bytes
  | [] => pure []
  | v :: vs => wSeq [v.writeW, AnnValue.writeListW vs]

/-- src/annotation/mod.rs:244-247, as `AnnValue.writeElems`. -/
def AnnValue.writeElemsW : List (Bytes × AnnValue) → Ins Bytes
  | [] => pure []
  | (k, v) :: es => wSeq [wUtf8W k, v.writeW, AnnValue.writeElemsW es]
end

/-- src/annotation/mod.rs:237-249, as `Elems.write`. -/
def Elems.writeW (m : Elems) : Ins Bytes :=
  wSeq [wNum u16 (UInt16.ofNat m.length), AnnValue.writeElemsW m]

/-- src/annotation/mod.rs:214-220, as `Annotation.write`. -/
def Annotation.writeW (a : Annotation) : Ins Bytes := wSeq [wTypeW a.ty, Elems.writeW a.vals]

/-- src/annotation/type_annotation.rs:69-80, as `LocalVarTarget.write`; the subtraction wraps. -/
def LocalVarTarget.writeW (env : WEnv) (t : LocalVarTarget) : Ins Bytes := do
  let s ← Ins.lift (env.label t.start)
  let e ← Ins.lift (env.label t.stop)
  pure (u16.write s ++ u16.write (e - s) ++ u16.write t.idx)

/-- src/annotation/type_annotation.rs:83-111, as `CodeTarget.write`. -/
def CodeTarget.writeW (env : WEnv) : CodeTarget → Ins Bytes
  | .localVar ts => wSeq [wNum u8 0x40, wVec u16 (LocalVarTarget.writeW env) ts]
  | .resourceVar ts => wSeq [wNum u8 0x41, wVec u16 (LocalVarTarget.writeW env) ts]
  | .catchParam c => wSeq [wNum u8 0x42, wCatch env c]
  | .instanceOf l => wSeq [wNum u8 0x43, wLabel env l]
  | .new l => wSeq [wNum u8 0x44, wLabel env l]
  | .newRef l => wSeq [wNum u8 0x45, wLabel env l]
  | .methodRef l => wSeq [wNum u8 0x46, wLabel env l]
  | .cast l i => wSeq [wNum u8 0x47, wLabel env l, wNum u8 i]
  | .newArg l i => wSeq [wNum u8 0x48, wLabel env l, wNum u8 i]
  | .methodArg l i => wSeq [wNum u8 0x49, wLabel env l, wNum u8 i]
  | .newRefArg l i => wSeq [wNum u8 0x4a, wLabel env l, wNum u8 i]
  | .methodRefArg l i => wSeq [wNum u8 0x4b, wLabel env l, wNum u8 i]

/-- src/annotation/type_annotation.rs:122-166, as `TypeAnnotation.write`. -/
def TypeAnnotation.writeW {T : Type} (w : T → Ins Bytes) (a : TypeAnnotation T) : Ins Bytes :=
  wSeq [w a.target, wVec u8 PathStep.write a.path, wTypeW a.ty, Elems.writeW a.vals]

/-- src/signature.rs:495-498, as `wSig`. -/
def wSigW (text : Str) : Ins Bytes := wUtf8W (text.foldl JType.pushChar [])

/-- src/loadable.rs:204-215, as `wConst`. -/
def wConstW (c : Constant) : Ins Bytes := wIdx (insertConstantW c)

/-- src/attr.rs:39-63, as `wNatOpt`. -/
def wNatOptW : Option (Bytes × JType) → Ins Bytes := wOpt fun p => insertNameAndTypeW p.1 (JType.display p.2)

/-- src/helper.rs:78-88, as `wClsOpt`. -/
def wClsOptW : Option Bytes → Ins Bytes := wOpt (insertIndirectW 7)

/-- src/ty.rs:189-195, as `wUtf8Opt`. -/
def wUtf8OptW : Option Bytes → Ins Bytes := wOpt insertWtf8W

/-- src/dynamic.rs:33-46, as `Bsm.write`. -/
def Bsm.writeW (b : Bsm) : Ins Bytes :=
  wSeq [wIdx (insertMethodHandleW b.handle), wNum u16 (UInt16.ofNat b.arguments.length),
    wAll (fun a => wIdx (insertOrDynamicW insertConstantW a.toOrDynamic)) b.arguments]

/-- src/module.rs:15-22, as `Require.write`. -/
def Require.writeW (x : Require) : Ins Bytes := wSeq [wStrW 19 x.module_, wFlags x.flags, wUtf8OptW x.version]

/-- src/module.rs:24-30, as `Provide.write`. -/
def Provide.writeW (x : Provide) : Ins Bytes := wSeq [wStrW 7 x.cls, wVec u16 (wStrW 7) x.with_]

/-- src/module.rs:51-59, 82-90, as `Export.write`. -/
def Export.writeW (x : Export) : Ins Bytes :=
  wSeq [wStrW 20 x.package, wFlags x.flags, wVec u16 (wStrW 19) x.to]

/-- src/module.rs:32-49, as `Module.write`. -/
def Module.writeW (x : Module) : Ins Bytes :=
  wSeq [wStrW 19 x.name, wFlags x.flags, wUtf8OptW x.version, wVec u16 Require.writeW x.requires,
    wVec u16 Export.writeW x.exports, wVec u16 Export.writeW x.opens, wVec u16 (wStrW 7) x.uses,
    wVec u16 Provide.writeW x.provides]

/-- src/attr.rs:86-96, as `InnerClass.write`. -/
def InnerClass.writeW (x : InnerClass) : Ins Bytes :=
  wSeq [wStrW 7 x.inner, wClsOptW x.outer, wUtf8OptW x.name, wFlags x.access]

/-- src/attr.rs:98-122, as `ClassAttr.write`. -/
def ClassAttr.writeW : ClassAttr → Ins Bytes
  | .signature s => wAttrW N.signature (wSigW (showClass s))
  | .synthetic => wAttrW N.synthetic (wSeq [])
  | .deprecated => wAttrW N.deprecated (wSeq [])
  | .sourceFile s => wAttrW N.sourceFile (wUtf8W s)
  | .innerClasses cs => wAttrW N.innerClasses (wVec u16 InnerClass.writeW cs)
  | .enclosingMethod c m => wAttrW N.enclosingMethod (wSeq [wStrW 7 c, wNatOptW m])
  | .debugExtension s => wAttrW N.sourceDebugExtension (wDebugExt s)
  | .bootstrapMethods bs => wAttrW N.bootstrapMethods (wVec u16 Bsm.writeW bs)
  | .module_ m => wAttrW N.module_ m.writeW
  | .modulePackages ps => wAttrW N.modulePackages (wVec u16 (wStrW 20) ps)
  | .mainClass c => wAttrW N.moduleMainClass (wStrW 7 c)
  | .nestHost c => wAttrW N.nestHost (wStrW 7 c)
  | .nestMembers cs => wAttrW N.nestMembers (wVec u16 (wStrW 7) cs)
  | .visible as => wAttrW N.runtimeVisibleAnnotations (wVec u16 Annotation.writeW as)
  | .invisible as => wAttrW N.runtimeInvisibleAnnotations (wVec u16 Annotation.writeW as)
  | .visibleType as =>
    wAttrW N.runtimeVisibleTypeAnnotations (wVec u16 (TypeAnnotation.writeW ClassTarget.write) as)
  | .invisibleType as =>
    wAttrW N.runtimeInvisibleTypeAnnotations (wVec u16 (TypeAnnotation.writeW ClassTarget.write) as)
  | .raw a => wRawW a

/-- src/member.rs:51-62, as `FieldAttr.write`. -/
def FieldAttr.writeW : FieldAttr → Ins Bytes
  | .deprecated => wAttrW N.deprecated (wSeq [])
  | .synthetic => wAttrW N.synthetic (wSeq [])
  | .signature s => wAttrW N.signature (wSigW (showR s))
  | .constantValue c => wAttrW N.constantValue (wConstW c)
  | .visible as => wAttrW N.runtimeVisibleAnnotations (wVec u16 Annotation.writeW as)
  | .invisible as => wAttrW N.runtimeInvisibleAnnotations (wVec u16 Annotation.writeW as)
  | .visibleType as =>
    wAttrW N.runtimeVisibleTypeAnnotations (wVec u16 (TypeAnnotation.writeW FieldTarget.write) as)
  | .invisibleType as =>
    wAttrW N.runtimeInvisibleTypeAnnotations (wVec u16 (TypeAnnotation.writeW FieldTarget.write) as)
  | .raw a => wRawW a

/-- src/member.rs:64-72, as `Field.write`. -/
def Field.writeW (f : Field) : Ins Bytes :=
  wSeq [wFlags f.access, wUtf8W f.name, wTypeW f.descriptor, wVec u16 FieldAttr.writeW f.attrs]

/-- src/member.rs:74-79, as `MethodParameter.write`. -/
def MethodParameter.writeW (x : MethodParameter) : Ins Bytes := wSeq [wUtf8OptW x.name, wFlags x.access]

/-- src/code.rs:610-624, as `VType.write`. -/
def VType.writeW (env : WEnv) (v : VType) : Ins Bytes :=
  wSeq [wNum u8 v.tag,
    match v with
    | .object s => wStrW 7 s
    | .uninit l => wLabel env l
    | _ => pure []]

/-- src/code.rs:696-745, as `Frame.write`. -/
def Frame.writeW (env : WEnv) : Frame → Ins Bytes
  | .same off =>
    if off ≤ 63 then wNum u8 off.toUInt8 else wSeq [wNum u8 251, wNum u16 off]
  | .one off v =>
    if off ≤ 63 then wSeq [wNum u8 (off.toUInt8 + 64), v.writeW env]
    else wSeq [wNum u8 247, wNum u16 off, v.writeW env]
  | .chop off n =>
    if 1 ≤ n ∧ n ≤ 3 then wSeq [wNum u8 (251 - n), wNum u16 off] else Ins.fail .invalid
  | .append off locals =>
    if locals.length ≤ 3 then
      wSeq [wNum u8 (UInt8.ofNat locals.length + 251), wNum u16 off, wAll (VType.writeW env) locals]
    else Ins.fail .invalid
  | .full off locals stack =>
    wSeq [wNum u8 255, wNum u16 off,
      wNum u16 (UInt16.ofNat locals.length), wAll (VType.writeW env) locals,
      wNum u16 (UInt16.ofNat stack.length), wAll (VType.writeW env) stack]

/-- src/code/convert.rs:496-512, as `writeLdc`. -/
def writeLdcW (c : OrDynamic Constant) : Ins Bytes := do
  let idx ← insertOrDynamicW insertConstantW c
  let wide := match c with
    | .dynamic d => d.descriptor.isWide
    | .static c => c.isWide
  if wide then wSeq [op LDC2_W, wNum u16 idx]
  else if idx.toNat < 256 then wSeq [op LDC, wNum u8 idx.toUInt8]
  else wSeq [op LDC_W, wNum u16 idx]

/-- src/code/convert.rs:445-512, as `writePush`. -/
def writePushW (c : OrDynamic Constant) : Ins Bytes :=
  match c with
  | .static (.i32 i) =>
    if i = 0 then op ICONST_0
    else if i = 1 then op ICONST_1
    else if i = 2 then op ICONST_2
    else if i = 3 then op ICONST_3
    else if i = 4 then op ICONST_4
    else if i = 5 then op ICONST_5
    else if i = -1 then op ICONST_M1
    else if -128 ≤ i ∧ i ≤ 127 then wSeq [op BIPUSH, wNum i8 i.toInt8]
    else if -32768 ≤ i ∧ i ≤ 32767 then wSeq [op SIPUSH, wNum i16 i.toInt16]
    else writeLdcW c
  | .static (.i64 l) =>
    if l = 0 then op LCONST_0
    else if l = 1 then op LCONST_1
    else writeLdcW c
  | .static (.f32 f) =>
    if f.eq ⟨0⟩ then op FCONST_0
    else if f.eq ⟨0x3F800000⟩ then op FCONST_1
    else if f.eq ⟨0x40000000⟩ then op FCONST_2
    else writeLdcW c
  | .static (.f64 f) =>
    if f.eq ⟨0⟩ then op DCONST_0
    else if f.eq ⟨0x3FF0000000000000⟩ then op DCONST_1
    else writeLdcW c
  | c => writeLdcW c

/-- src/code/convert.rs:443-813, as `wOrDyn`. -/
def wOrDynW {α : Type} (f : α → Ins UInt16) (x : OrDynamic α) : Ins Bytes := wIdx (insertOrDynamicW f x)

/-- src/code/convert.rs:443-813, as `Insn.encode`. -/
def Insn.encodeW : Insn → Ins Bytes
  | .noOp => op NOP
  | .pushNull => op ACONST_NULL
  | .push c => writePushW c
  | .dup => op DUP
  | .dupX1 => op DUP_X1
  | .dupX2 => op DUP_X2
  | .dup2 => op DUP2
  | .dup2X1 => op DUP2_X1
  | .dup2X2 => op DUP2_X2
  | .pop1 => op POP
  | .pop2 => op POP2
  | .compareLongs => op LCMP
  | .compareFloats t n => op (compareOp t n)
  | .localVariable m t l => wideOrNormal (localOp m t) l
  | .array m t => op (arrayOp m t)
  | .arrayLength => op ARRAYLENGTH
  | .intOperation t o => op (intOp t o)
  | .floatOperation t o => op (floatOp t o)
  | .throw => op ATHROW
  | .instanceOf t => wSeq [op INSTANCEOF, wOrDynW (fun x => insertClassW x.toStr) t]
  | .checkCast t => wSeq [op CHECKCAST, wOrDynW (fun x => insertClassW x.toStr) t]
  | .new t => wSeq [op NEW, wOrDynW insertClassW t]
  | .newArray _ _ => pure []
  | .monitor .enter => op MONITORENTER
  | .monitor .exit => op MONITOREXIT
  | .conversion a b => match conversionOp a b with
    | some o => op o
    | none => pure []
  | .convertInt t => match convertIntOp t with
    | some o => op o
    | none => pure []
  | .return t => op (returnOp t)
  | .field o t m => wSeq [op (fieldOp o t), wOrDynW insertMemberW m]
  | .invokeExact .static m => wSeq [op INVOKESTATIC, wOrDynW insertMemberW m]
  | .invokeExact .virtual m => wSeq [op INVOKEVIRTUAL, wOrDynW insertMemberW m]
  | .invokeSpecial m => wSeq [op INVOKESPECIAL, wOrDynW insertMemberW m]
  | .invokeDynamic d => wSeq [op INVOKEDYNAMIC, wIdx (insertDynamicW d), pure [0, 0]]
  | .invokeInterface m count =>
    wSeq [op INVOKEINTERFACE, wOrDynW insertMemberW m, wNum u8 count, pure [0]]
  | .ret i => wideOrNormal RET i
  | .swap => op SWAP
  | .intIncrement l inc =>
    if l.toNat < 256 ∧ -128 ≤ inc ∧ inc ≤ 127 then
      wSeq [op IINC, wNum u8 l.toUInt8, wNum i8 inc.toInt8]
    else wSeq [op WIDE, op IINC, wNum u16 l, wNum i16 inc]
  | .lineNumber _ | .label _ | .jump _ _ | .jsr _ | .tableSwitch _ _ _ | .lookupSwitch _ _ => pure []

/-- src/code/convert.rs:415-812, as `writeInsn`. -/
def writeInsnW (b : CodeBuf) (i : Insn) : Ins CodeBuf :=
  match i with
  | .lookupSwitch d t => pure (b.branch (.lookup d t))
  | .tableSwitch d low ls => pure (b.branch (.table d low ls))
  | .jump c l => pure (b.branch (.jump c l))
  | .jsr l => pure (b.branch (.jsr l))
  | .label l => pure { b with labels := (l, (b.buf.length, b.cur.length)) :: b.labels }
  | .lineNumber _ => pure b
  | i => do
    let bs ← i.encodeW
    pure { b with cur := b.cur ++ bs }

/-- src/code.rs:272-282, as `writeInsns`. -/
def writeInsnsW (b : CodeBuf) : List Insn → Ins CodeBuf
  | [] => pure b
  | i :: is => do
    let b ← writeInsnW b i
    writeInsnsW b is

/-- src/code.rs:393-403, as `resolveLabel`; the additions wrap. -/
def resolveLabelW (labels : List (Label × (Nat × Nat))) (indices : List Nat) (size idx : Nat) (l : Label) :
    Res Int32 :=
  match findLabel labels l with
  | .error e => .error e
  | .ok (bufOff, innerOff) =>
    match startOf indices bufOff with
    | .error e => .error e
    | .ok s =>
      .ok ((UInt32.ofNat s + UInt32.ofNat innerOff).toInt32 - (UInt32.ofNat idx).toInt32 + (UInt32.ofNat size).toInt32)

/-- src/code.rs:446-448, as `resolveAll`. -/
def resolveAllW (labels : List (Label × (Nat × Nat))) (indices : List Nat) (size idx : Nat) :
    List Label → Res Bytes
  | [] => .ok []
  | l :: ls => do
    let o ← resolveLabelW labels indices size idx l
    let bs ← resolveAllW labels indices size idx ls
    return i32.write o ++ bs

/-- src/code.rs:428-431, as `resolvePairs`. -/
def resolvePairsW (labels : List (Label × (Nat × Nat))) (indices : List Nat) (size idx : Nat) :
    List (Int32 × Label) → Res Bytes
  | [] => .ok []
  | (k, l) :: es => do
    let o ← resolveLabelW labels indices size idx l
    let bs ← resolvePairsW labels indices size idx es
    return i32.write k ++ i32.write o ++ bs

/-- src/code.rs:416-480, as `Branch.emit`; `offsets.len() - 1` wraps to the greatest
`usize`, which is -1 as a 32-bit number, and the sum wraps. -/
def Branch.emitW (labels : List (Label × (Nat × Nat))) (indices : List Nat) (size idx : Nat) :
    Branch → Res Bytes
  | .lookup d t => do
    let o ← resolveLabelW labels indices size idx d
    let es ← resolvePairsW labels indices size idx (t.mergeSort fun a b => a.1.toInt ≤ b.1.toInt)
    return u8.write LOOKUPSWITCH ++ List.replicate (padding (idx - size + 1)) 0 ++ i32.write o ++
      u32.write (UInt32.ofNat t.length) ++ es
  | .table d low ls => do
    let o ← resolveLabelW labels indices size idx d
    let os ← resolveAllW labels indices size idx ls
    return u8.write TABLESWITCH ++ List.replicate (padding (idx - size + 1)) 0 ++ i32.write o ++ i32.write low ++
      i32.write (low + (if ls.length = 0 then -1 else (UInt32.ofNat (ls.length - 1)).toInt32)) ++ os
  | .jsr l => do
    let o ← resolveLabelW labels indices size idx l
    return if fitsI16 o then u8.write JSR ++ i16.write o.toInt16 else u8.write JSR_W ++ i32.write o
  | .jump .always l => do
    let o ← resolveLabelW labels indices size idx l
    return if fitsI16 o then u8.write GOTO ++ i16.write o.toInt16 else u8.write GOTO_W ++ i32.write o
  | .jump c l => do
    let o ← resolveLabelW labels indices size idx l
    if fitsI16 o then return u8.write c.opcode ++ i16.write o.toInt16
    else match c.neg with
      | none => .error .panic
      | some n => return u8.write n.opcode ++ i32.write 5 ++ u8.write GOTO_W ++ i32.write o

/-- src/code.rs:388-484, as `emitFrom`. -/
def emitFromW (labels : List (Label × (Nat × Nat))) (indices : List Nat) :
    List Branch → List Bytes → List (Nat × Nat) → Res Bytes
  | j :: js, b :: bs, (s, idx) :: r =>
    match j.emitW labels indices s idx with
    | .error e => .error e
    | .ok o =>
      match emitFromW labels indices js bs r with
      | .error e => .error e
      | .ok rest => .ok (o ++ b ++ rest)
  | [], _ :: _, _ :: _ => .error .panic
  | _, _, _ => .ok []

/-- src/code.rs:504-511, as `labelPos`; the addition wraps. -/
def labelPosW (labels : List (Label × (Nat × Nat))) (indices : List Nat) (l : Label) : Res UInt16 :=
  match labels.lookup l with
  | none => .error .panic
  | some (bufOff, innerOff) =>
    match startOf indices bufOff with
    | .error e => .error e
    | .ok s =>
      .ok (UInt16.ofNat s + UInt16.ofNat innerOff)

/-- src/code.rs:283-511, as `assemble`. -/
def assembleW (b : CodeBuf) : Res Assembled :=
  let buf := b.buf ++ [b.cur]
  match hintsFrom 0 b.jumps buf with
  | .error e => .error e
  | .ok hints =>
    match layoutFrom b.labels hints 0 b.jumps buf with
    | .error e => .error e
    | .ok r =>
      let indices := r.map Prod.snd
      -- 383-384: the buffer after the last branch, and the last position
      match buf[b.jumps.length]? with
      | none => .error .panic
      | some last =>
        let len := UInt32.ofNat (last.length + indices.getLast?.getD 0)
        match buf with
        | [] => .error .panic
        | first :: rest =>
          match emitFromW b.labels indices b.jumps rest r with
          | .error e => .error e
          | .ok code => .ok ⟨len, first ++ code, labelPosW b.labels indices⟩

/-- src/code.rs:256-519, as `writeCode`. -/
def writeCodeW (is : List Insn) : Ins Assembled := do
  let b ← writeInsnsW .empty is
  Ins.lift (assembleW b)

/-- src/code/structure.rs:392-402, as `VarEntry.write`. -/
def VarEntry.writeW (x : VarEntry) : Ins Bytes :=
  wSeq [wNum u16 x.start, wNum u16 x.len, wUtf8W x.name, wTypeW x.descriptor, wNum u16 x.index]

/-- src/code/structure.rs:404-414, as `VarTypeEntry.write`. -/
def VarTypeEntry.writeW (x : VarTypeEntry) : Ins Bytes :=
  wSeq [wNum u16 x.start, wNum u16 x.len, wUtf8W x.name, wSigW (showR x.signature), wNum u16 x.index]

/-- src/code/structure.rs:416-426, as `CodeAttr.write`. -/
def CodeAttr.writeW (env : WEnv) : CodeAttr → Ins Bytes
  | .lines ls => wAttrW N.lineNumberTable (wVec u16 LineEntry.write ls)
  | .vars vs => wAttrW N.localVariableTable (wVec u16 VarEntry.writeW vs)
  | .varTypes vs => wAttrW N.localVariableTypeTable (wVec u16 VarTypeEntry.writeW vs)
  | .invisibleType as =>
    wAttrW N.runtimeInvisibleTypeAnnotations (wVec u16 (TypeAnnotation.writeW (CodeTarget.writeW env)) as)
  | .visibleType as =>
    wAttrW N.runtimeVisibleTypeAnnotations (wVec u16 (TypeAnnotation.writeW (CodeTarget.writeW env)) as)
  | .frames fs => wAttrW N.stackMapTable (wVec u16 (Frame.writeW env) fs)
  | .raw a => wRawW a

/-- src/code.rs:528-544, as `Catch.write`. -/
def Catch.writeW (env : WEnv) (c : Catch) : Ins Bytes :=
  wSeq [wLabel env c.start, wLabel env c.stop, wLabel env c.handler, wOpt insertClassW c.ty]

/-- src/code.rs:561-562, 572-573, as `rangeOf`; the subtraction wraps. -/
def rangeOfW (env : WEnv) (start stop : Label) : Res (UInt16 × UInt16) :=
  match env.label start with
  | .error e => .error e
  | .ok s =>
    match env.label stop with
    | .error e => .error e
    | .ok e => .ok (s, e - s)

/-- src/code.rs:560-569, as `LocalVariable.varEntries`. -/
def LocalVariable.varEntriesW (env : WEnv) (v : LocalVariable) : Res (List VarEntry) :=
  match v.descriptor with
  | none => .ok []
  | some d =>
    match rangeOfW env v.start v.stop with
    | .error e => .error e
    | .ok (s, n) => .ok [⟨s, n, v.name, d, v.index⟩]

/-- src/code.rs:570-580, as `LocalVariable.varTypeEntries`. -/
def LocalVariable.varTypeEntriesW (env : WEnv) (v : LocalVariable) : Res (List VarTypeEntry) :=
  match v.signature with
  | none => .ok []
  | some g =>
    match rangeOfW env v.start v.stop with
    | .error e => .error e
    | .ok (s, n) => .ok [⟨s, n, v.name, g, v.index⟩]

/-- src/code.rs:557-582, as `splitVars`. -/
def splitVarsW (env : WEnv) : List LocalVariable → Res (List VarTypeEntry × List VarEntry)
  | [] => .ok ([], [])
  | v :: vs => do
    let var ← v.varEntriesW env
    let ty ← v.varTypeEntriesW env
    let r ← splitVarsW env vs
    return (ty ++ r.1, var ++ r.2)

/-- src/code.rs:549-601, as `CodeAttribute.lower`. -/
def CodeAttribute.lowerW (env : WEnv) : CodeAttribute → Res (List CodeAttr)
  | .visibleType as => .ok [.visibleType as]
  | .invisibleType as => .ok [.invisibleType as]
  | .locals vs => do
    let (ty, var) ← splitVarsW env vs
    match ty, var with
    | [], [] => .error .invalid
    | ty, [] => pure [.varTypes ty]
    | [], var => pure [.vars var]
    | ty, var => pure [.vars var, .varTypes ty]
  | .raw a => .ok [.raw a]

/-- src/code.rs:545-603, as `writeCodeAttrs`; the counter `extra_attrs` wraps. -/
def writeCodeAttrsW (env : WEnv) (extra : UInt16) : List CodeAttribute → Ins (UInt16 × Bytes)
  | [] => pure (extra, [])
  | a :: as => do
    let ls ← Ins.lift (a.lowerW env)
    let b ← wAll (CodeAttr.writeW env) ls
    let (n, bs) ← writeCodeAttrsW env (extra + UInt16.ofNat (ls.length - 1)) as
    pure (n, b ++ bs)

/-- src/code.rs:250-607, as `Code.write`; the sum in line 604 wraps. -/
def Code.writeW (c : Code) : Ins Bytes := do
  let a ← writeCodeW c.code
  let env := Code.env a c.catches
  let hs ← wAll (Catch.writeW env) c.catches
  let (extra, as) ← writeCodeAttrsW env 0 c.attrs
  pure (u16.write c.maxStack ++ u16.write c.maxLocals ++ u32.write a.len ++ a.code ++
    u16.write (UInt16.ofNat c.catches.length) ++ hs ++
    u16.write (UInt16.ofNat c.attrs.length + extra) ++ as)

/-- src/member.rs:81-98, as `MethodAttr.write`. -/
def MethodAttr.writeW : MethodAttr → Ins Bytes
  | .code x => wAttrW N.code x.writeW
  | .deprecated => wAttrW N.deprecated (wSeq [])
  | .synthetic => wAttrW N.synthetic (wSeq [])
  | .signature s => wAttrW N.signature (wSigW (showMethod s))
  | .visible as => wAttrW N.runtimeVisibleAnnotations (wVec u16 Annotation.writeW as)
  | .invisible as => wAttrW N.runtimeInvisibleAnnotations (wVec u16 Annotation.writeW as)
  | .visibleType as =>
    wAttrW N.runtimeVisibleTypeAnnotations (wVec u16 (TypeAnnotation.writeW MethodTarget.write) as)
  | .invisibleType as =>
    wAttrW N.runtimeInvisibleTypeAnnotations (wVec u16 (TypeAnnotation.writeW MethodTarget.write) as)
  | .visibleParams ps =>
    wAttrW N.runtimeVisibleParameterAnnotations (wVec u8 (wVec u16 Annotation.writeW) ps)
  | .invisibleParams ps =>
    wAttrW N.runtimeInvisibleParameterAnnotations (wVec u8 (wVec u16 Annotation.writeW) ps)
  | .exceptions cs => wAttrW N.exceptions (wVec u16 (wStrW 7) cs)
  | .annotationDefault v => wAttrW N.annotationDefault v.writeW
  | .methodParameters ps => wAttrW N.methodParameters (wVec u8 MethodParameter.writeW ps)
  | .raw a => wRawW a

/-- src/member.rs:100-108, as `Method.write`. -/
def Method.writeW (m : Method) : Ins Bytes :=
  wSeq [wFlags m.access, wUtf8W m.name, wTypeW m.descriptor, wVec u16 MethodAttr.writeW m.attrs]

/-- src/clazz.rs:113-120, as `writeBatches`; the sum in line 116 wraps. The test on `bsmNodes` never fails
(`C104_ends`). -/
def writeBatchesW (i : UInt16) (cp : VecCp) : Res (UInt16 × Bytes × VecCp) :=
  if cp.bsm.length = 0 then .ok (i, [], cp)
  else
    match wAll Bsm.writeW cp.bsm { cp with bsm := [] } with
    | .error e => .error e
    | .ok (bs, cp') =>
      if _h : bsmNodes cp'.bsm < bsmNodes cp.bsm then
        match writeBatchesW (i + UInt16.ofNat cp.bsm.length) cp' with
        | .error e => .error e
        | .ok (n, bs', cp'') => .ok (n, bs ++ bs', cp'')
      else .error .diverge
termination_by bsmNodes cp.bsm

/-- src/clazz.rs:110-129, as `wBootstrap`; `buf2.len() as u32 + 2` wraps. -/
def wBootstrapW : Ins Bytes := fun cp =>
  if cp.bsm.length = 0 then .ok ([], cp)
  else match writeBatchesW 0 cp with
    | .error e => .error e
    | .ok (n, bs, cp) =>
      match wUtf8W N.bootstrapMethods cp with
      | .error e => .error e
      | .ok (name, cp) =>
        .ok (name ++ u32.write (UInt32.ofNat bs.length + 2) ++ u16.write n ++ bs, cp)

/-- src/clazz.rs:104-109, as `ClassAttr.writeOther`. -/
def ClassAttr.writeOtherW : ClassAttr → Ins Bytes
  | .bootstrapMethods _ => wSeq []
  | a => a.writeW

/-- src/clazz.rs:84-109, as `Class.writeBody`. -/
def Class.writeBodyW (x : Class) : Ins Bytes :=
  wSeq [wFlags x.access, wIdx (insertClassW x.name), wOpt insertClassW x.superName,
    wCut (fun s => wIdx (insertClassW s)) x.interfaces, wCut Field.writeW x.fields,
    wCut Method.writeW x.methods, wCut ClassAttr.writeOtherW x.attrs]

/-- src/clazz.rs:71-133, as `Class.write`. -/
def Class.writeW (x : Class) : Res Bytes :=
  match wSeq [Class.writeBodyW x, wBootstrapW] { VecCp.new with bsm := ownBsms x.attrs } with
  | .error e => .error e
  | .ok (buf, cp) =>
    match cp.write with
    | .error e => .error e
    | .ok pool => .ok (u32.write jvmMagic ++ x.version.write ++ pool ++ buf)

end Verif
