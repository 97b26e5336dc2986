import Verif.Model.Release

/-! # Reading a class in a build without overflow checks

The readers of `Model/Class` and of what it uses, as far as they come to one of the places at which arithmetic may
overflow: the dimensions of a type (src/ty.rs:118) and of a signature (src/signature.rs:180), the number of an entry of the
pool (src/cp.rs:164), the length of the table of a `tableswitch` (src/insn.rs:42), and the end of the range of a local
variable (src/code.rs:166 and 189). There it wraps, which is the default of release builds. All other readers are those of
a build with checks. -/

namespace Verif
open Sig

namespace Sig

mutual
/-- src/signature.rs:156-172, as `typeSig`. -/
def typeSigW : Nat → Str → Res (TypeSig × Str)
  | 0, _ => .error .diverge
  | _ + 1, [] => .error .invalid
  | fuel + 1, c :: cs =>
    match primSig c with
    | some t => .ok (t, cs)
    | none =>
      if isRefStart c then
        match refTypeSigW fuel (c :: cs) with
        | .ok (r, i) => .ok (.ref r, i)
        | .error e => .error e
      else .error .invalid
/-- src/signature.rs:173-200, as `refTypeSig`; `dim += 1` in line 180 wraps. -/
def refTypeSigW : Nat → Str → Res (RefSig × Str)
  | 0, _ => .error .diverge
  | _ + 1, [] => .error .invalid
  | fuel + 1, c :: cs =>
    if c = 0x5B then
      match typeSigW fuel (JType.countBrackets cs).2 with
      | .ok (t, i) => .ok (.array (UInt8.ofNat ((JType.countBrackets cs).1 + 1)) t, i)
      | .error e => .error e
    else if c = 0x54 then
      match tyVar cs with
      | .ok (n, i) => .ok (.typeVar n, i)
      | .error e => .error e
    else if c = 0x4C then
      match classTypeSigW fuel (c :: cs) with
      | .ok (s, i) => .ok (.cls s, i)
      | .error e => .error e
    else .error .invalid
/-- src/signature.rs:234-254, as `classTypeSig`. -/
def classTypeSigW : Nat → Str → Res (ClassTySig × Str)
  | 0, _ => .error .diverge
  | fuel + 1, i =>
    match expect 0x4C i with
    | .error e => .error e
    | .ok i =>
      match packages i with
      | .error e => .error e
      | .ok (package, i) =>
        match simpleTypeSigW fuel i with
        | .error e => .error e
        | .ok (name, i) =>
          match suffixesW fuel i with
          | .error e => .error e
          | .ok (suffix, i) =>
            match expect 0x3B i with
            | .error e => .error e
            | .ok i => .ok (.mk package name suffix, i)
/-- src/signature.rs:239-244, as `suffixes`. -/
def suffixesW : Nat → Str → Res (List SimpleSig × Str)
  | 0, _ => .error .diverge
  | _ + 1, [] => .ok ([], [])
  | fuel + 1, c :: cs =>
    if c = 0x2E then
      match simpleTypeSigW fuel cs with
      | .error e => .error e
      | .ok (s, i) =>
        match suffixesW fuel i with
        | .error e => .error e
        | .ok (ss, i) => .ok (s :: ss, i)
    else .ok ([], c :: cs)
/-- src/signature.rs:343-365, as `simpleTypeSig`. -/
def simpleTypeSigW : Nat → Str → Res (SimpleSig × Str)
  | 0, _ => .error .diverge
  | fuel + 1, i =>
    match i.dropWhile nameChar with
    | [] => .ok (.mk (i.takeWhile nameChar) [], [])
    | c :: cs =>
      if c = 0x3C then
        match typeArgsW fuel cs with
        | .error e => .error e
        | .ok (args, i') =>
          match expect 0x3E i' with
          | .error e => .error e
          | .ok i'' => .ok (.mk (i.takeWhile nameChar) args, i'')
      else .ok (.mk (i.takeWhile nameChar) [], c :: cs)
/-- src/signature.rs:331-335, as `typeArgs`. -/
def typeArgsW : Nat → Str → Res (List TypeArg × Str)
  | 0, _ => .error .diverge
  | _ + 1, [] => .ok ([], [])
  | fuel + 1, c :: cs =>
    if c = 0x3E then .ok ([], c :: cs)
    else
      match typeArgW fuel (c :: cs) with
      | .error e => .error e
      | .ok (a, i) =>
        match typeArgsW fuel i with
        | .error e => .error e
        | .ok (as, i) => .ok (a :: as, i)
/-- src/signature.rs:300-325, as `typeArg`. -/
def typeArgW : Nat → Str → Res (TypeArg × Str)
  | 0, _ => .error .diverge
  | _ + 1, [] => .error .invalid
  | fuel + 1, c :: cs =>
    if c = 0x2A then .ok (.any, cs)
    else if c = 0x2D then
      match refTypeSigW fuel cs with
      | .ok (r, i) => .ok (.sup r, i)
      | .error e => .error e
    else if c = 0x2B then
      match refTypeSigW fuel cs with
      | .ok (r, i) => .ok (.ext r, i)
      | .error e => .error e
    else if isRefStart c then
      match refTypeSigW fuel (c :: cs) with
      | .ok (r, i) => .ok (.exact r, i)
      | .error e => .error e
    else .error .invalid
end

/-- src/signature.rs:213-228, as `throwsSig`. -/
def throwsSigW (i : Str) : Res (ThrowsSig × Str) :=
  match expect 0x5E i with
  | .error e => .error e
  | .ok [] => .error .invalid
  | .ok (c :: cs) =>
    if c = 0x4C then
      match classTypeSigW (enough (c :: cs)) (c :: cs) with
      | .ok (s, i) => .ok (.cls s, i)
      | .error e => .error e
    else if c = 0x54 then
      match tyVar cs with
      | .ok (n, i) => .ok (.typeParam n, i)
      | .error e => .error e
    else .error .invalid

/-- src/signature.rs:382-386, as `interfaceBounds`. -/
def interfaceBoundsW : Str → Str → Res (List RefSig × Str)
  | [], i => .ok ([], i)
  | c :: cs, i =>
    if c = 0x3A then
      match refTypeSigW (enough cs) cs with
      | .error e => .error e
      | .ok (b, i') =>
        match interfaceBoundsW cs i' with
        | .error e => .error e
        | .ok (bs, i'') => .ok (b :: bs, i'')
    else .ok ([], i)

/-- src/signature.rs:367-396, as `typeParam`. -/
def typeParamW (i : Str) : Res (TypeParam × Str) :=
  let name := i.takeWhile (· ≠ 0x3A)
  let chars := (i.dropWhile (· ≠ 0x3A)).drop 1
  let bound : Res (Option RefSig × Str) :=
    match chars with
    | [] => .ok (none, chars)
    | c :: _ =>
      if isRefStart c then
        match refTypeSigW (enough chars) chars with
        | .ok (r, i) => .ok (some r, i)
        | .error e => .error e
      else .ok (none, chars)
  match bound with
  | .error e => .error e
  | .ok (classBound, i) =>
    match interfaceBoundsW chars i with
    | .error e => .error e
    | .ok (bs, i) => .ok (⟨name, classBound, bs⟩, i)

/-- src/signature.rs:402-406, as `typeParamsLoop`. -/
def typeParamsLoopW : Nat → Str → Res (List TypeParam × Str)
  | 0, _ => .error .diverge
  | _ + 1, [] => .ok ([], [])
  | fuel + 1, c :: cs =>
    if c = 0x3E then .ok ([], c :: cs)
    else
      match typeParamW (c :: cs) with
      | .error e => .error e
      | .ok (p, i) =>
        match typeParamsLoopW fuel i with
        | .error e => .error e
        | .ok (ps, i) => .ok (p :: ps, i)

/-- src/signature.rs:398-412, as `typeParams`. -/
def typeParamsW : Str → Res (List TypeParam × Str)
  | [] => .ok ([], [])
  | c :: cs =>
    if c = 0x3C then
      match typeParamsLoopW (enough cs) cs with
      | .error e => .error e
      | .ok (ps, i) =>
        match expect 0x3E i with
        | .error e => .error e
        | .ok i => .ok (ps, i)
    else .ok ([], c :: cs)

/-- src/signature.rs:414-420, as `retSig`. -/
def retSigW : Str → Res (Option TypeSig × Str)
  | [] => .error .invalid
  | c :: cs =>
    if c = 0x56 then .ok (none, cs)
    else
      match typeSigW (enough (c :: cs)) (c :: cs) with
      | .ok (t, i) => .ok (some t, i)
      | .error e => .error e

/-- src/signature.rs:426-432, as `paramsLoop`. -/
def paramsLoopW : Nat → Str → Res (List TypeSig × Str)
  | 0, _ => .error .diverge
  | _ + 1, [] => .ok ([], [])
  | fuel + 1, c :: cs =>
    if (primSig c).isSome || isRefStart c then
      match typeSigW (enough (c :: cs)) (c :: cs) with
      | .error e => .error e
      | .ok (t, i) =>
        match paramsLoopW fuel i with
        | .error e => .error e
        | .ok (ts, i) => .ok (t :: ts, i)
    else .ok ([], c :: cs)

/-- src/signature.rs:436-440, as `throwsLoop`. -/
def throwsLoopW : Nat → Str → Res (List ThrowsSig × Str)
  | 0, _ => .error .diverge
  | _ + 1, [] => .ok ([], [])
  | fuel + 1, c :: cs =>
    if c = 0x5E then
      match throwsSigW (c :: cs) with
      | .error e => .error e
      | .ok (t, i) =>
        match throwsLoopW fuel i with
        | .error e => .error e
        | .ok (ts, i) => .ok (t :: ts, i)
    else .ok ([], c :: cs)

/-- src/signature.rs:422-450, as `methodSig`. -/
def methodSigW (i : Str) : Res (MethodSig × Str) :=
  match typeParamsW i with
  | .error e => .error e
  | .ok (tps, i) =>
    match expect 0x28 i with
    | .error e => .error e
    | .ok i =>
      match paramsLoopW (enough i) i with
      | .error e => .error e
      | .ok (ps, i) =>
        match expect 0x29 i with
        | .error e => .error e
        | .ok i =>
          match retSigW i with
          | .error e => .error e
          | .ok (r, i) =>
            match throwsLoopW (enough i) i with
            | .error e => .error e
            | .ok (ts, i) => .ok (⟨tps, ps, r, ts⟩, i)

/-- src/signature.rs:456-460, as `interfacesLoop`. -/
def interfacesLoopW : Nat → Str → Res (List ClassTySig × Str)
  | 0, _ => .error .diverge
  | _ + 1, [] => .ok ([], [])
  | fuel + 1, c :: cs =>
    if c = 0x4C then
      match classTypeSigW (enough (c :: cs)) (c :: cs) with
      | .error e => .error e
      | .ok (t, i) =>
        match interfacesLoopW fuel i with
        | .error e => .error e
        | .ok (ts, i) => .ok (t :: ts, i)
    else .ok ([], c :: cs)

/-- src/signature.rs:452-470, as `classSig`. -/
def classSigW (i : Str) : Res (ClassSig × Str) :=
  match typeParamsW i with
  | .error e => .error e
  | .ok (tps, i) =>
    match classTypeSigW (enough i) i with
    | .error e => .error e
    | .ok (sup, i) =>
      match interfacesLoopW (enough i) i with
      | .error e => .error e
      | .ok (is, i) => .ok (⟨tps, sup, is⟩, i)

/-- src/signature.rs:472-484, as `parseRef`. -/
def parseRefW (i : Str) : Res RefSig := dropRest (refTypeSigW (enough i) i)

/-- src/signature.rs:472-484, as `parseMethod`. -/
def parseMethodW (i : Str) : Res MethodSig := dropRest (methodSigW i)

/-- src/signature.rs:472-484, as `parseClass`. -/
def parseClassW (i : Str) : Res ClassSig := dropRest (classSigW i)

end Sig

namespace Pool
variable (P : Pool)

/-- src/rw.rs:182-193, as `Pool.nameAndType`. -/
def nameAndTypeW (i : UInt16) : Res (Option (Bytes × JType)) :=
  match P i with
  | some (.nat n t) =>
    match wtf8 P n with
    | some n =>
      match wtf8 P t with
      | some t =>
        match okOrNone (JType.parseTypeW t) with
        | .ok (some t) => .ok (some (n, t))
        | .ok none => .ok none
        | .error e => .error e
      | none => .ok none
    | none => .ok none
  | _ => .ok none

/-- src/rw.rs:319-341, as `Pool.memberParts`. -/
def memberPartsW (itfs : Bool) (o nt : UInt16) : Res (Option MemberRef) :=
  match indirect P 7 o with
  | some o =>
    match nameAndTypeW P nt with
    | .ok (some (n, t)) => .ok (some ⟨o, n, t, itfs⟩)
    | .ok none => .ok none
    | .error e => .error e
  | none => .ok none

/-- src/rw.rs:319-341, as `Pool.member`. -/
def memberW (i : UInt16) : Res (Option MemberRef) :=
  match P i with
  | some (.method o nt) => memberPartsW P false o nt
  | some (.field o nt) => memberPartsW P false o nt
  | some (.imethod o nt) => memberPartsW P true o nt
  | _ => .ok none

/-- src/rw.rs:306-318, as `Pool.methodHandle`. -/
def methodHandleW (i : UInt16) : Res (Option MethodHandle) :=
  match P i with
  | some (.handle k m) =>
    match memberW P m with
    | .ok (some m) =>
      match HandleKind.ofU8 k with
      | some k => .ok (some ⟨k, m⟩)
      | none => .ok none
    | .ok none => .ok none
    | .error e => .error e
  | _ => .ok none

/-- src/rw.rs:194-215, as `Pool.constant`. -/
def constantW (i : UInt16) : Res (Option Constant) :=
  match P i with
  | some (.int i) => .ok (some (.i32 i))
  | some (.long l) => .ok (some (.i64 l))
  | some (.float f) => .ok (some (.f32 f))
  | some (.double d) => .ok (some (.f64 d))
  | some (.str s) => .ok ((wtf8 P s).map .string)
  | some (.cls s) => .ok ((wtf8 P s).map .cls)
  | some (.mtype m) =>
    match wtf8 P m with
    | some t =>
      match okOrNone (JType.parseTypeW t) with
      | .ok t => .ok (t.map .methodType)
      | .error e => .error e
    | none => .ok none
  | some (.handle k m) =>
    match memberW P m with
    | .ok m =>
      match HandleKind.ofU8 k, m with
      | some k, some m => .ok (some (.methodHandle ⟨k, m⟩))
      | _, _ => .ok none
    | .error e => .error e
  | _ =>
    match memberW P i with
    | .ok m => .ok (m.map .member)
    | .error e => .error e

/-- src/rw.rs:276-305, as `Pool.dynamicParts`. -/
def dynamicPartsW (b nt : UInt16) (pending : List UInt16) : Res (Option Dynamic × List UInt16) :=
  match nameAndTypeW P nt with
  | .ok (some (n, t)) => .ok (some ⟨.pending b, n, t⟩, pending ++ [b])
  | .ok none => .ok (none, pending)
  | .error e => .error e

/-- src/rw.rs:276-290, as `Pool.invokeDynamic`. -/
def invokeDynamicW (i : UInt16) (pending : List UInt16) : Res (Option Dynamic × List UInt16) :=
  match P i with
  | some (.indy b nt) => dynamicPartsW P b nt pending
  | _ => .ok (none, pending)

/-- src/rw.rs:291-305, as `Pool.dynamic`. -/
def dynamicW (i : UInt16) (pending : List UInt16) : Res (Option Dynamic × List UInt16) :=
  match P i with
  | some (.dyn b nt) => dynamicPartsW P b nt pending
  | _ => .ok (none, pending)

/-- src/rw.rs:265-275, as `Pool.orDynamic`. -/
def orDynamicW {α : Type} (f : UInt16 → Res (Option α)) (i : UInt16) (pending : List UInt16) :
    Res (Option (OrDynamic α) × List UInt16) :=
  match dynamicW P i pending with
  | .ok (some d, p) => .ok (some (.dynamic d), p)
  | .ok (none, p) =>
    match f i with
    | .ok a => .ok (a.map .static, p)
    | .error e => .error e
  | .error e => .error e

end Pool

/-- src/ty.rs:199-201, as `rType`. -/
def rTypeW : Rd JType := Rd.bind rUtf8 fun s => Rd.ofRes (JType.parseTypeW s)

/-- src/annotation/mod.rs:109-122, as `rClassText`. -/
def rClassTextW : Rd (Option JType) :=
  Rd.bind rUtf8 fun s => if s = [0x56] then Rd.pure none else Rd.map some (Rd.ofRes (JType.parseTypeW s))

/-- src/annotation/mod.rs:72-134, as `AnnValue.readF`. -/
def AnnValue.readFW : Nat → Rd AnnValue
  | 0 => Rd.fail .diverge
  | n + 1 => Rd.bind (rNum u8) fun tag =>
    if tag = 0x42 then rIntIn (-128) 127 fun x => .byte x.toInt8
    else if tag = 0x43 then rIntIn 0 65535 fun x => .char (UInt16.ofNat x.toInt.toNat)
    else if tag = 0x44 then Rd.map .double (rIdx Pool.double)
    else if tag = 0x46 then Rd.map .float (rIdx Pool.float)
    else if tag = 0x49 then Rd.map .int (rIdx Pool.int)
    else if tag = 0x4a then Rd.map .long (rIdx Pool.long)
    else if tag = 0x53 then rIntIn (-32768) 32767 fun x => .short x.toInt16
    else if tag = 0x5a then rIntIn 0 1 fun x => .boolean (x = 1)
    else if tag = 0x73 then Rd.map .string rUtf8
    else if tag = 0x65 then Rd.ap (Rd.map .enum rTypeW) rUtf8
    else if tag = 0x63 then Rd.map .cls rClassTextW
    else if tag = 0x40 then Rd.ap (Rd.map .annotation rTypeW) (Elems.readWith (AnnValue.readFW n))
    else if tag = 0x5b then Rd.map .array (rVec u16 (AnnValue.readFW n))
    else Rd.fail .invalid

/-- src/annotation/mod.rs:72-134, as `AnnValue.read`. -/
def AnnValue.readW : Rd AnnValue := fun env st bs => AnnValue.readFW (bs.length + 1) env st bs

/-- src/annotation/mod.rs:223-235, as `Elems.read`. -/
def Elems.readW : Rd Elems := Elems.readWith AnnValue.readW

/-- src/annotation/mod.rs:214-220, as `Annotation.read`. -/
def Annotation.readW : Rd Annotation := Rd.ap (Rd.map Annotation.mk rTypeW) Elems.readW

/-- src/annotation/type_annotation.rs:122-166, as `TypeAnnotation.read`. -/
def TypeAnnotation.readW {T : Type} (r : Rd T) : Rd (TypeAnnotation T) :=
  Rd.ap (Rd.ap (Rd.ap (Rd.map TypeAnnotation.mk r) (rVec u8 PathStep.read)) rTypeW) Elems.readW

/-- src/loadable.rs:204-215, as `rConst`. -/
def rConstW : Rd Constant := rIdxR Pool.constantW

/-- src/attr.rs:39-63, as `rNatOpt`. -/
def rNatOptW : Rd (Option (Bytes × JType)) := rOpt (rLookupR Pool.nameAndTypeW)

/-- src/dynamic.rs:25-31, as `rArg`. -/
def rArgW : Rd Arg := Rd.bind (rNum u16) fun i =>
  Rd.map OrDynamic.toArg (rLookupD (fun P i p => Pool.orDynamicW P (Pool.constantW P) i p) i)

/-- src/dynamic.rs:16-33, as `Bsm.read`. -/
def Bsm.readW : Rd Bsm := Rd.ap (Rd.map Bsm.mk (rIdxR Pool.methodHandleW)) (rVec u16 rArgW)

/-- src/attr.rs:98-122, as `ClassAttr.table`. -/
def ClassAttr.tableW (name : Bytes) : Option (Rd ClassAttr) :=
  if name = N.signature then some (Rd.map .signature (rSig parseClassW))
  else if name = N.synthetic then some (Rd.pure .synthetic)
  else if name = N.deprecated then some (Rd.pure .deprecated)
  else if name = N.sourceFile then some (Rd.map .sourceFile rUtf8)
  else if name = N.innerClasses then some (Rd.map .innerClasses (rVec u16 InnerClass.read))
  else if name = N.enclosingMethod then some (Rd.ap (Rd.map .enclosingMethod (rStr 7)) rNatOptW)
  else if name = N.sourceDebugExtension then some (Rd.map .debugExtension rDebugExt)
  else if name = N.bootstrapMethods then some (Rd.map .bootstrapMethods (rVec u16 Bsm.readW))
  else if name = N.module_ then some (Rd.map .module_ Module.read)
  else if name = N.modulePackages then some (Rd.map .modulePackages (rVec u16 (rStr 20)))
  else if name = N.moduleMainClass then some (Rd.map .mainClass (rStr 7))
  else if name = N.nestHost then some (Rd.map .nestHost (rStr 7))
  else if name = N.nestMembers then some (Rd.map .nestMembers (rVec u16 (rStr 7)))
  else if name = N.runtimeVisibleAnnotations then some (Rd.map .visible (rVec u16 Annotation.readW))
  else if name = N.runtimeInvisibleAnnotations then some (Rd.map .invisible (rVec u16 Annotation.readW))
  else if name = N.runtimeVisibleTypeAnnotations then
    some (Rd.map .visibleType (rVec u16 (TypeAnnotation.readW ClassTarget.read)))
  else if name = N.runtimeInvisibleTypeAnnotations then
    some (Rd.map .invisibleType (rVec u16 (TypeAnnotation.readW ClassTarget.read)))
  else none

/-- src/attr.rs:98-122, as `ClassAttr.read`. -/
def ClassAttr.readW : Rd ClassAttr := rAttr ClassAttr.tableW .raw

/-- src/member.rs:51-62, as `FieldAttr.table`. -/
def FieldAttr.tableW (name : Bytes) : Option (Rd FieldAttr) :=
  if name = N.deprecated then some (Rd.pure .deprecated)
  else if name = N.synthetic then some (Rd.pure .synthetic)
  else if name = N.signature then some (Rd.map .signature (rSig parseRefW))
  else if name = N.constantValue then some (Rd.map .constantValue rConstW)
  else if name = N.runtimeVisibleAnnotations then some (Rd.map .visible (rVec u16 Annotation.readW))
  else if name = N.runtimeInvisibleAnnotations then some (Rd.map .invisible (rVec u16 Annotation.readW))
  else if name = N.runtimeVisibleTypeAnnotations then
    some (Rd.map .visibleType (rVec u16 (TypeAnnotation.readW FieldTarget.read)))
  else if name = N.runtimeInvisibleTypeAnnotations then
    some (Rd.map .invisibleType (rVec u16 (TypeAnnotation.readW FieldTarget.read)))
  else none

/-- src/member.rs:51-62, as `FieldAttr.read`. -/
def FieldAttr.readW : Rd FieldAttr := rAttr FieldAttr.tableW .raw

/-- src/member.rs:64-72, as `Field.read`. -/
def Field.readW : Rd Field :=
  Rd.ap (Rd.ap (Rd.ap (Rd.map Field.mk (rFlags .field)) rUtf8) rTypeW) (rVec u16 FieldAttr.readW)

/-- src/member.rs:74-79, as `VarEntry.read`. -/
def VarEntry.readW : Rd VarEntry :=
  Rd.ap (Rd.ap (Rd.ap (Rd.ap (Rd.map VarEntry.mk (rNum u16)) (rNum u16)) rUtf8) rTypeW) (rNum u16)

/-- src/code/structure.rs:404-414, as `VarTypeEntry.read`. -/
def VarTypeEntry.readW : Rd VarTypeEntry :=
  Rd.ap (Rd.ap (Rd.ap (Rd.ap (Rd.map VarTypeEntry.mk (rNum u16)) (rNum u16)) rUtf8) (rSig parseRefW)) (rNum u16)

/-- src/code/structure.rs:416-426, as `CodeAttr.table`. -/
def CodeAttr.tableW (name : Bytes) : Option (Rd CodeAttr) :=
  if name = N.lineNumberTable then some (Rd.map .lines (rVec u16 LineEntry.read))
  else if name = N.localVariableTable then some (Rd.map .vars (rVec u16 VarEntry.readW))
  else if name = N.localVariableTypeTable then some (Rd.map .varTypes (rVec u16 VarTypeEntry.readW))
  else if name = N.runtimeInvisibleTypeAnnotations then
    some (Rd.map .invisibleType (rVec u16 (TypeAnnotation.readW CodeTarget.read)))
  else if name = N.runtimeVisibleTypeAnnotations then
    some (Rd.map .visibleType (rVec u16 (TypeAnnotation.readW CodeTarget.read)))
  else if name = N.stackMapTable then some (Rd.map .frames (rVec u16 Frame.read))
  else none

/-- src/code/structure.rs:416-426, as `CodeAttr.read`. -/
def CodeAttr.readW : Rd CodeAttr := rAttr CodeAttr.tableW .raw

/-- src/code/convert.rs:18-413, as `rPush`. -/
def rPushW (i : UInt16) : Rd Insn := Rd.map Insn.const (rLookupR Pool.constantW i)

/-- src/code/convert.rs:18-413, as `rOrDyn`. -/
def rOrDynW {α : Type} (f : Pool → UInt16 → Res (Option α)) (i : UInt16) : Rd (OrDynamic α) :=
  rLookupD (fun P i p => Pool.orDynamicW P (f P) i p) i

/-- src/code/convert.rs:18-413, as `rMember`. -/
def rMemberW (i : UInt16) : Rd (OrDynamic MemberRef) := rOrDynW Pool.memberW i

/-- src/code/convert.rs:18-413, as `rClassOr`. -/
def rClassOrW (i : UInt16) : Rd (OrDynamic Bytes) := rOrDynW (fun P i => .ok (Pool.cls P i)) i

/-- src/code/convert.rs:359, 367, as `arrayElem`. -/
def arrayElemW (c : Bytes) : Res JType :=
  match okOrNone (JType.parseTypeW c) with
  | .ok (some t) => .ok t
  | .ok none => .ok (.ref c)
  | .error e => .error e

/-- src/code/convert.rs:354-369, as `rNewArray`. -/
def rNewArrayW (i : UInt16) (dim : UInt8) : Rd Insn :=
  Rd.bind (rClassOrW i) fun c =>
    match c with
    | .dynamic d => Rd.pure (.newArray (.dynamic d) dim)
    | .static c => Rd.map (fun t => .newArray (.static t) dim) (Rd.ofRes (arrayElemW c))

/-- src/code/convert.rs:375-389, 396-410, as `toClassType`. -/
def toClassTypeW (c : Bytes) : Res ClassType :=
  if c.head? = some 0x5B then
    match JType.parseTypeW c with
    | .ok (.array dim t) => .ok (.array dim t)
    | .ok _ => .error .ub
    | .error e => .error e
  else .ok (.object c)

/-- src/code/convert.rs:371-410, as `rClassType`. -/
def rClassTypeW (i : UInt16) : Rd (OrDynamic ClassType) :=
  Rd.bind (rClassOrW i) fun c =>
    match c with
    | .dynamic d => Rd.pure (.dynamic d)
    | .static c => Rd.map OrDynamic.static (Rd.ofRes (toClassTypeW c))

/-- src/insn.rs:39-49, as `TblSwitch.read`; the subtraction and the addition wrap; a negative length is
still cast to a huge capacity, with which `Vec::with_capacity` panics. -/
def TblSwitch.readW : Reader TblSwitch :=
  Reader.bind i32.read fun low => Reader.bind i32.read fun high =>
    if 0 ≤ (high - low + 1).toInt then
      Reader.of1 (TblSwitch.mk low high) (Reader.replicate (high - low + 1).toInt.toNat i32.read)
    else Reader.fail .panic

/-- src/insn.rs:60-467, as `RInsn.read`; only the table of a `tableswitch` is read differently. -/
def RInsn.readW : Reader RInsn := fun bs =>
  match bs with
  | [] => RInsn.read []
  | o :: rest =>
    if o = opc.TABLESWITCH then Reader.of2 .TableSwitch i32.read TblSwitch.readW rest
    else RInsn.read (o :: rest)

/-- src/code/convert.rs:18-413, as `convert`; where a descriptor may be parsed; the other instructions are as
there. -/
def convertW (pos : Nat) : RInsn → Rd Insn
  | .Ldc b => rPushW b.toUInt16
  | .LdcW i => rPushW i
  | .Ldc2W i => rPushW i
  | .GetStatic m => Rd.map (.field .get .static) (rMemberW m)
  | .PutStatic m => Rd.map (.field .put .static) (rMemberW m)
  | .GetField m => Rd.map (.field .get .virtual) (rMemberW m)
  | .PutField m => Rd.map (.field .put .virtual) (rMemberW m)
  | .InvokeStatic m => Rd.map (.invokeExact .static) (rMemberW m)
  | .InvokeVirtual m => Rd.map (.invokeExact .virtual) (rMemberW m)
  | .InvokeSpecial m => Rd.map .invokeSpecial (rMemberW m)
  | .InvokeInterface m c _ => Rd.map (fun m => .invokeInterface m c) (rMemberW m)
  | .InvokeDynamic d _ => Rd.map .invokeDynamic (rLookupD Pool.invokeDynamicW d)
  | .New n => Rd.map .new (rClassOrW n)
  | .ANewArray r => rNewArrayW r 1
  | .MultiANewArray r dim => rNewArrayW r dim
  | .CheckCast r => Rd.map .checkCast (rClassTypeW r)
  | .InstanceOf r => Rd.map .instanceOf (rClassTypeW r)
  | i => convert pos i

/-- src/code.rs:94-110, as `rInsn`. -/
def rInsnW (pos : Nat) : Rd Insn := fun env st bs =>
  match bs with
  | [] => .error .panic
  | o :: _ =>
    if o = opc.TABLESWITCH ∨ o = opc.LOOKUPSWITCH then
      Rd.bind (Rd.lift RInsn.readW) (convertW pos) env st (o :: bs.drop (4 - pos % 4))
    else Rd.bind (Rd.lift RInsn.readW) (convertW pos) env st bs

/-- src/code.rs:94-111, as `readLoop`. -/
def readLoopW (len : Nat) (env : REnv) (st : RSt) (bs : Bytes) : Res (List (Nat × Insn) × RSt) :=
  if bs.length = 0 then .ok ([], st)
  else
    match rInsnW (len - bs.length) env st bs with
    | .error e => .error e
    | .ok (i, st, rest) =>
      if rest.length < bs.length then
        match readLoopW len env st rest with
        | .error e => .error e
        | .ok (is, st) => .ok ((len - bs.length, i) :: is, st)
      else .error .diverge
termination_by bs.length

/-- src/code.rs:82-112, as `readInsns`. -/
def readInsnsW (code : Bytes) : Rd (List (Nat × Insn)) := fun env st bs =>
  match readLoopW code.length env st code with
  | .error e => .error e
  | .ok (is, st) => .ok (is, st, bs)

/-- src/code.rs:165-166, 188-189, as `rangeLabels`; the sum wraps. -/
def rangeLabelsW (start len : UInt16) : Rd (Label × Label) :=
  Rd.bind (getLabel start.toUInt32) fun s => Rd.map (fun e => (s, e)) (getLabel (start + len).toUInt32)

/-- src/code.rs:164-184, as `addVars`. -/
def addVarsW (vars : List LocalVariable) : List VarEntry → Rd (List LocalVariable)
  | [] => Rd.pure vars
  | l :: ls => Rd.bind (rangeLabelsW l.start l.len) fun r =>
    addVarsW (upsert (fun w => { w with descriptor := some l.descriptor })
      ⟨r.1, r.2, l.name, some l.descriptor, none, l.index⟩ vars) ls

/-- src/code.rs:187-206, as `addVarTypes`. -/
def addVarTypesW (vars : List LocalVariable) : List VarTypeEntry → Rd (List LocalVariable)
  | [] => Rd.pure vars
  | l :: ls => Rd.bind (rangeLabelsW l.start l.len) fun r =>
    addVarTypesW (upsert (fun w => { w with signature := some l.signature })
      ⟨r.1, r.2, l.name, none, some l.signature, l.index⟩ vars) ls

/-- src/code.rs:157-217, as `AttrAcc.step`. -/
def AttrAcc.stepW (idx : Nat → Option Nat) (acc : AttrAcc) : CodeAttr → Rd AttrAcc
  | .lines ls => Rd.map (fun m => { acc with ins := m }) (Rd.ofRes (addLines idx acc.ins ls))
  | .vars vs => Rd.map (fun m => { acc with vars := m }) (addVarsW acc.vars vs)
  | .varTypes vs => Rd.map (fun m => { acc with vars := m }) (addVarTypesW acc.vars vs)
  | .frames _ => Rd.pure acc
  | .invisibleType as => Rd.pure { acc with attrs := acc.attrs ++ [.invisibleType as] }
  | .visibleType as => Rd.pure { acc with attrs := acc.attrs ++ [.visibleType as] }
  | .raw a => Rd.pure { acc with attrs := acc.attrs ++ [.raw a] }

/-- src/code.rs:156-218, as `readCodeAttrs`. -/
def readCodeAttrsW (idx : Nat → Option Nat) : Nat → AttrAcc → Rd AttrAcc
  | 0, acc => Rd.pure acc
  | n + 1, acc => Rd.bind CodeAttr.readW fun a => Rd.bind (acc.stepW idx a) fun acc => readCodeAttrsW idx n acc

/-- src/code.rs:77-247, as `Code.readIn`. -/
def Code.readInW (ord : Nat → List LocalVariable → List LocalVariable) : Rd Code :=
  Rd.bind (rNum u16) fun maxStack => Rd.bind (rNum u16) fun maxLocals =>
  Rd.bind (rNum u32) fun len => Rd.bind (rBytes len.toNat) fun code =>
  Rd.bind (readInsnsW code) fun pis =>
  let idx := indexIn (pis.map Prod.fst ++ [code.length])
  Rd.bind (rVec u16 Catch.read) fun catches =>
  Rd.bind (rNum u16) fun n =>
  Rd.bind (withCatches catches (readCodeAttrsW idx n.toNat ⟨[], fun _ => [], []⟩)) fun acc =>
  Rd.bind (placeMarkers idx acc.ins (pis.map Prod.snd)) fun is => fun _ st bs =>
    .ok (⟨maxStack, maxLocals, is, catches,
      if acc.vars.length = 0 then acc.attrs else acc.attrs ++ [.locals (ord bs.length acc.vars)]⟩, st, bs)

/-- src/code.rs:36-248, as `Code.read`. -/
def Code.readW (ord : Nat → List LocalVariable → List LocalVariable) : Rd Code := fun env st bs =>
  match Code.readInW ord { env with catches := some [] } ⟨st.pending, some []⟩ bs with
  | .error e => .error e
  | .ok (c, st', bs) => .ok (c, ⟨st'.pending, st.labels⟩, bs)

/-- src/member.rs:81-98, as `MethodAttr.table`. -/
def MethodAttr.tableW (ord : Nat → List LocalVariable → List LocalVariable) (name : Bytes) :
    Option (Rd MethodAttr) :=
  if name = N.code then some (Rd.map .code (Code.readW ord))
  else if name = N.deprecated then some (Rd.pure .deprecated)
  else if name = N.synthetic then some (Rd.pure .synthetic)
  else if name = N.signature then some (Rd.map .signature (rSig parseMethodW))
  else if name = N.runtimeVisibleAnnotations then some (Rd.map .visible (rVec u16 Annotation.readW))
  else if name = N.runtimeInvisibleAnnotations then some (Rd.map .invisible (rVec u16 Annotation.readW))
  else if name = N.runtimeVisibleTypeAnnotations then
    some (Rd.map .visibleType (rVec u16 (TypeAnnotation.readW MethodTarget.read)))
  else if name = N.runtimeInvisibleTypeAnnotations then
    some (Rd.map .invisibleType (rVec u16 (TypeAnnotation.readW MethodTarget.read)))
  else if name = N.runtimeVisibleParameterAnnotations then
    some (Rd.map .visibleParams (rVec u8 (rVec u16 Annotation.readW)))
  else if name = N.runtimeInvisibleParameterAnnotations then
    some (Rd.map .invisibleParams (rVec u8 (rVec u16 Annotation.readW)))
  else if name = N.exceptions then some (Rd.map .exceptions (rVec u16 (rStr 7)))
  else if name = N.annotationDefault then some (Rd.map .annotationDefault AnnValue.readW)
  else if name = N.methodParameters then some (Rd.map .methodParameters (rVec u8 MethodParameter.read))
  else none

/-- src/member.rs:81-98, as `MethodAttr.read`. -/
def MethodAttr.readW (ord : Order) : Rd MethodAttr := fun env st bs =>
  rAttr (MethodAttr.tableW (ord bs.length)) .raw env st bs

/-- src/member.rs:100-108, as `Method.read`. -/
def Method.readW (ord : Order) : Rd Method :=
  Rd.ap (Rd.ap (Rd.ap (Rd.map MethodOf.mk (rFlags .method)) rUtf8) rTypeW) (rVec u16 (MethodAttr.readW ord))

/-- src/clazz.rs:25-41, as `Class.readBody`. -/
def Class.readBodyW (ord : Order) (v : Version) : Rd Class :=
  Rd.ap (Rd.ap (Rd.ap (Rd.ap (Rd.ap (Rd.ap (Rd.map (ClassOf.mk v) (rFlags .cls)) (rStr 7)) rClsOpt)
    (rVec u16 (rStr 7))) (rVec u16 Field.readW)) (rVec u16 (Method.readW ord))) (rVec u16 ClassAttr.readW)

/-- src/clazz.rs:44-69, as `Class.read`. -/
def Class.readW (ord : Order) : Bytes → Res (Class × Bytes) := fun bs =>
  match u32.read bs with
  | .error e => .error e
  | .ok (magic, bs) =>
    if magic = jvmMagic then
      match Version.read bs with
      | .error e => .error e
      | .ok (v, bs) =>
        match MapCp.readW bs with
        | .error e => .error e
        | .ok (cp, bs) =>
          match Class.readBodyW ord v ⟨cp.get, none⟩ ⟨[], none⟩ bs with
          | .error e => .error e
          | .ok (c, st, bs) =>
            match resolveCells st.pending c.attrs with
            | .error e => .error e
            | .ok () => .ok (c, bs)
    else .error .invalid

end Verif
