import Verif.Model.Annotation
import Verif.Model.Misc
import Verif.Model.Mutf8

/-! # Model of attributes: src/attr.rs, src/module.rs, src/member.rs, src/dynamic.rs

Attribute enums derive their codec (coffer_macros/src/derive.rs:156-276); the name of an attribute is
the name of the variant. -/

namespace Verif
open Sig

/-! ## Names (`stringify!` of the variants, derive.rs:181, 229) -/

namespace N

/-- "Deprecated" -/
def deprecated : Bytes := [0x44, 0x65, 0x70, 0x72, 0x65, 0x63, 0x61, 0x74, 0x65, 0x64]
/-- "Synthetic" -/
def synthetic : Bytes := [0x53, 0x79, 0x6e, 0x74, 0x68, 0x65, 0x74, 0x69, 0x63]
/-- "Signature" -/
def signature : Bytes := [0x53, 0x69, 0x67, 0x6e, 0x61, 0x74, 0x75, 0x72, 0x65]
/-- "ConstantValue" -/
def constantValue : Bytes := [
  0x43, 0x6f, 0x6e, 0x73, 0x74, 0x61, 0x6e, 0x74, 0x56, 0x61, 0x6c, 0x75, 0x65]
/-- "RuntimeVisibleAnnotations" -/
def runtimeVisibleAnnotations : Bytes := [
  0x52, 0x75, 0x6e, 0x74, 0x69, 0x6d, 0x65, 0x56, 0x69, 0x73, 0x69, 0x62, 0x6c, 0x65, 0x41, 0x6e,
  0x6e, 0x6f, 0x74, 0x61, 0x74, 0x69, 0x6f, 0x6e, 0x73]
/-- "RuntimeInvisibleAnnotations" -/
def runtimeInvisibleAnnotations : Bytes := [
  0x52, 0x75, 0x6e, 0x74, 0x69, 0x6d, 0x65, 0x49, 0x6e, 0x76, 0x69, 0x73, 0x69, 0x62, 0x6c, 0x65,
  0x41, 0x6e, 0x6e, 0x6f, 0x74, 0x61, 0x74, 0x69, 0x6f, 0x6e, 0x73]
/-- "RuntimeVisibleTypeAnnotations" -/
def runtimeVisibleTypeAnnotations : Bytes := [
  0x52, 0x75, 0x6e, 0x74, 0x69, 0x6d, 0x65, 0x56, 0x69, 0x73, 0x69, 0x62, 0x6c, 0x65, 0x54, 0x79,
  0x70, 0x65, 0x41, 0x6e, 0x6e, 0x6f, 0x74, 0x61, 0x74, 0x69, 0x6f, 0x6e, 0x73]
/-- "RuntimeInvisibleTypeAnnotations" -/
def runtimeInvisibleTypeAnnotations : Bytes := [
  0x52, 0x75, 0x6e, 0x74, 0x69, 0x6d, 0x65, 0x49, 0x6e, 0x76, 0x69, 0x73, 0x69, 0x62, 0x6c, 0x65,
  0x54, 0x79, 0x70, 0x65, 0x41, 0x6e, 0x6e, 0x6f, 0x74, 0x61, 0x74, 0x69, 0x6f, 0x6e, 0x73]
/-- "Code" -/
def code : Bytes := [0x43, 0x6f, 0x64, 0x65]
/-- "RuntimeVisibleParameterAnnotations" -/
def runtimeVisibleParameterAnnotations : Bytes := [
  0x52, 0x75, 0x6e, 0x74, 0x69, 0x6d, 0x65, 0x56, 0x69, 0x73, 0x69, 0x62, 0x6c, 0x65, 0x50, 0x61,
  0x72, 0x61, 0x6d, 0x65, 0x74, 0x65, 0x72, 0x41, 0x6e, 0x6e, 0x6f, 0x74, 0x61, 0x74, 0x69, 0x6f,
  0x6e, 0x73]
/-- "RuntimeInvisibleParameterAnnotations" -/
def runtimeInvisibleParameterAnnotations : Bytes := [
  0x52, 0x75, 0x6e, 0x74, 0x69, 0x6d, 0x65, 0x49, 0x6e, 0x76, 0x69, 0x73, 0x69, 0x62, 0x6c, 0x65,
  0x50, 0x61, 0x72, 0x61, 0x6d, 0x65, 0x74, 0x65, 0x72, 0x41, 0x6e, 0x6e, 0x6f, 0x74, 0x61, 0x74,
  0x69, 0x6f, 0x6e, 0x73]
/-- "Exceptions" -/
def exceptions : Bytes := [0x45, 0x78, 0x63, 0x65, 0x70, 0x74, 0x69, 0x6f, 0x6e, 0x73]
/-- "AnnotationDefault" -/
def annotationDefault : Bytes := [
  0x41, 0x6e, 0x6e, 0x6f, 0x74, 0x61, 0x74, 0x69, 0x6f, 0x6e, 0x44, 0x65, 0x66, 0x61, 0x75, 0x6c,
  0x74]
/-- "MethodParameters" -/
def methodParameters : Bytes := [
  0x4d, 0x65, 0x74, 0x68, 0x6f, 0x64, 0x50, 0x61, 0x72, 0x61, 0x6d, 0x65, 0x74, 0x65, 0x72, 0x73]
/-- "SourceFile" -/
def sourceFile : Bytes := [0x53, 0x6f, 0x75, 0x72, 0x63, 0x65, 0x46, 0x69, 0x6c, 0x65]
/-- "InnerClasses" -/
def innerClasses : Bytes := [0x49, 0x6e, 0x6e, 0x65, 0x72, 0x43, 0x6c, 0x61, 0x73, 0x73, 0x65, 0x73]
/-- "EnclosingMethod" -/
def enclosingMethod : Bytes := [
  0x45, 0x6e, 0x63, 0x6c, 0x6f, 0x73, 0x69, 0x6e, 0x67, 0x4d, 0x65, 0x74, 0x68, 0x6f, 0x64]
/-- "SourceDebugExtension" -/
def sourceDebugExtension : Bytes := [
  0x53, 0x6f, 0x75, 0x72, 0x63, 0x65, 0x44, 0x65, 0x62, 0x75, 0x67, 0x45, 0x78, 0x74, 0x65, 0x6e,
  0x73, 0x69, 0x6f, 0x6e]
/-- "BootstrapMethods" -/
def bootstrapMethods : Bytes := [
  0x42, 0x6f, 0x6f, 0x74, 0x73, 0x74, 0x72, 0x61, 0x70, 0x4d, 0x65, 0x74, 0x68, 0x6f, 0x64, 0x73]
/-- "Module" -/
def module_ : Bytes := [0x4d, 0x6f, 0x64, 0x75, 0x6c, 0x65]
/-- "ModulePackages" -/
def modulePackages : Bytes := [
  0x4d, 0x6f, 0x64, 0x75, 0x6c, 0x65, 0x50, 0x61, 0x63, 0x6b, 0x61, 0x67, 0x65, 0x73]
/-- "ModuleMainClass" -/
def moduleMainClass : Bytes := [
  0x4d, 0x6f, 0x64, 0x75, 0x6c, 0x65, 0x4d, 0x61, 0x69, 0x6e, 0x43, 0x6c, 0x61, 0x73, 0x73]
/-- "NestHost" -/
def nestHost : Bytes := [0x4e, 0x65, 0x73, 0x74, 0x48, 0x6f, 0x73, 0x74]
/-- "NestMembers" -/
def nestMembers : Bytes := [0x4e, 0x65, 0x73, 0x74, 0x4d, 0x65, 0x6d, 0x62, 0x65, 0x72, 0x73]
/-- "LineNumberTable" -/
def lineNumberTable : Bytes := [
  0x4c, 0x69, 0x6e, 0x65, 0x4e, 0x75, 0x6d, 0x62, 0x65, 0x72, 0x54, 0x61, 0x62, 0x6c, 0x65]
/-- "LocalVariableTable" -/
def localVariableTable : Bytes := [
  0x4c, 0x6f, 0x63, 0x61, 0x6c, 0x56, 0x61, 0x72, 0x69, 0x61, 0x62, 0x6c, 0x65, 0x54, 0x61, 0x62,
  0x6c, 0x65]
/-- "LocalVariableTypeTable" -/
def localVariableTypeTable : Bytes := [
  0x4c, 0x6f, 0x63, 0x61, 0x6c, 0x56, 0x61, 0x72, 0x69, 0x61, 0x62, 0x6c, 0x65, 0x54, 0x79, 0x70,
  0x65, 0x54, 0x61, 0x62, 0x6c, 0x65]
/-- "StackMapTable" -/
def stackMapTable : Bytes := [
  0x53, 0x74, 0x61, 0x63, 0x6b, 0x4d, 0x61, 0x70, 0x54, 0x61, 0x62, 0x6c, 0x65]

end N

/-! ## Parts -/

/-- src/signature.rs:495-498: the text of the signature as a string. -/
def wSig (text : Str) : Ins Bytes := wUtf8 (text.foldl JType.pushChar [])

/-- src/signature.rs:490-493: surrogates are replaced before parsing. -/
def rSig {α : Type} (parse : Str → Res α) : Rd α := Rd.bind rUtf8 fun s =>
  match Wtf8.codepoints (Wtf8.toStringLossy s) with
  | none => Rd.fail .ub
  | some cs => Rd.ofRes (parse cs)

/-- src/helper.rs:27-40 `Normal` for flags. -/
def wFlags {t : FlagType} (f : Flags t) : Ins Bytes := pure (Flags.write f)
def rFlags (t : FlagType) : Rd (Flags t) := Rd.lift (Flags.read t)

/-- src/loadable.rs:204-215 `Constant`. -/
def wConst (c : Constant) : Ins Bytes := wIdx (insertConstant c)
def rConst : Rd Constant := rIdxR Pool.constant

/-- src/attr.rs:39-63 `Option<(Cow<Wtf8Str>, Type)>`. -/
def wNatOpt : Option (Bytes × JType) → Ins Bytes := wOpt fun p => insertNameAndType p.1 (JType.display p.2)
def rNatOpt : Rd (Option (Bytes × JType)) := rOpt (rLookupR Pool.nameAndType)

/-- src/helper.rs:63-89, `Option<Cow<Wtf8Str>>` as a class. -/
def wClsOpt : Option Bytes → Ins Bytes := wOpt (insertIndirect 7)
def rClsOpt : Rd (Option Bytes) := rOpt (rLookup fun P i => Pool.indirect P 7 i)

/-- src/ty.rs:168-192 `Option<Cow<Wtf8Str>>`. -/
def wUtf8Opt : Option Bytes → Ins Bytes := wOpt insertWtf8
def rUtf8Opt : Rd (Option Bytes) := rOpt (rLookup Pool.wtf8)

/-- src/attr.rs:66-84 `SourceDebugExtension`: the whole payload. -/
def wDebugExt (s : Bytes) : Ins Bytes := Ins.lift (Mutf8.encode s)
def rDebugExt : Rd Bytes := fun _ st bs =>
  match Mutf8.decode bs with
  | .ok s => .ok (s, st, [])
  | .error e => .error e

/-- src/dynamic.rs:33-46: the number of arguments is `len as u16`. -/
def Bsm.write (b : Bsm) : Ins Bytes :=
  wSeq [wIdx (insertMethodHandle b.handle), wNum u16 (UInt16.ofNat b.arguments.length),
    wAll (fun a => wIdx (insertOrDynamic insertConstant a.toOrDynamic)) b.arguments]

/-- The `OrDynamic` as a bootstrap argument (the model inlines the structure). -/
def OrDynamic.toArg : OrDynamic Constant → Arg
  | .dynamic d => .dynamic d.bsm d.name d.descriptor
  | .static c => .static c

/-- src/dynamic.rs:25-31. -/
def rArg : Rd Arg := Rd.bind (rNum u16) fun i =>
  Rd.map OrDynamic.toArg (rLookupD (fun P i p => Pool.orDynamic P (Pool.constant P) i p) i)

/-- src/dynamic.rs:16-33. -/
def Bsm.read : Rd Bsm := Rd.ap (Rd.map Bsm.mk (rIdxR Pool.methodHandle)) (rVec u16 rArg)

/-! ## src/module.rs -/

/-- module.rs:15-22. -/
structure Require where
  module_ : Bytes
  flags : Flags .require
  version : Option Bytes

def Require.write (x : Require) : Ins Bytes := wSeq [wStr 19 x.module_, wFlags x.flags, wUtf8Opt x.version]
def Require.read : Rd Require := Rd.ap (Rd.ap (Rd.map Require.mk (rStr 19)) (rFlags .require)) rUtf8Opt

/-- module.rs:24-30. -/
structure Provide where
  cls : Bytes
  with_ : List Bytes

def Provide.write (x : Provide) : Ins Bytes := wSeq [wStr 7 x.cls, wVec u16 (wStr 7) x.with_]
def Provide.read : Rd Provide := Rd.ap (Rd.map Provide.mk (rStr 7)) (rVec u16 (rStr 7))

/-- module.rs:51-59 `Export` and 82-90 `Open`, which have the same fields. -/
structure Export where
  package : Bytes
  flags : Flags .exOp
  to : List Bytes

def Export.write (x : Export) : Ins Bytes :=
  wSeq [wStr 20 x.package, wFlags x.flags, wVec u16 (wStr 19) x.to]
def Export.read : Rd Export :=
  Rd.ap (Rd.ap (Rd.map Export.mk (rStr 20)) (rFlags .exOp)) (rVec u16 (rStr 19))

/-- module.rs:32-49. -/
structure Module where
  name : Bytes
  flags : Flags .module
  version : Option Bytes
  requires : List Require
  exports : List Export
  opens : List Export
  uses : List Bytes
  provides : List Provide

def Module.write (x : Module) : Ins Bytes :=
  wSeq [wStr 19 x.name, wFlags x.flags, wUtf8Opt x.version, wVec u16 Require.write x.requires,
    wVec u16 Export.write x.exports, wVec u16 Export.write x.opens, wVec u16 (wStr 7) x.uses,
    wVec u16 Provide.write x.provides]

def Module.read : Rd Module :=
  Rd.ap (Rd.ap (Rd.ap (Rd.ap (Rd.ap (Rd.ap (Rd.ap (Rd.map Module.mk (rStr 19)) (rFlags .module)) rUtf8Opt)
    (rVec u16 Require.read)) (rVec u16 Export.read)) (rVec u16 Export.read)) (rVec u16 (rStr 7)))
    (rVec u16 Provide.read)

/-! ## src/attr.rs -/

/-- attr.rs:86-96. -/
structure InnerClass where
  inner : Bytes
  outer : Option Bytes
  name : Option Bytes
  access : Flags .inner

def InnerClass.write (x : InnerClass) : Ins Bytes :=
  wSeq [wStr 7 x.inner, wClsOpt x.outer, wUtf8Opt x.name, wFlags x.access]

def InnerClass.read : Rd InnerClass :=
  Rd.ap (Rd.ap (Rd.ap (Rd.map InnerClass.mk (rStr 7)) rClsOpt) rUtf8Opt) (rFlags .inner)

/-- attr.rs:98-122. -/
inductive ClassAttr where
  | signature (s : ClassSig)
  | synthetic
  | deprecated
  | sourceFile (s : Bytes)
  | innerClasses (cs : List InnerClass)
  | enclosingMethod (cls : Bytes) (m : Option (Bytes × JType))
  | debugExtension (s : Bytes)
  | bootstrapMethods (bs : List Bsm)
  | module_ (m : Module)
  | modulePackages (ps : List Bytes)
  | mainClass (c : Bytes)
  | nestHost (c : Bytes)
  | nestMembers (cs : List Bytes)
  | visible (as : List Annotation)
  | invisible (as : List Annotation)
  | visibleType (as : List (TypeAnnotation ClassTarget))
  | invisibleType (as : List (TypeAnnotation ClassTarget))
  | raw (a : RawAttribute)

def ClassAttr.write : ClassAttr → Ins Bytes
  | .signature s => wAttr N.signature (wSig (showClass s))
  | .synthetic => wAttr N.synthetic (wSeq [])
  | .deprecated => wAttr N.deprecated (wSeq [])
  | .sourceFile s => wAttr N.sourceFile (wUtf8 s)
  | .innerClasses cs => wAttr N.innerClasses (wVec u16 InnerClass.write cs)
  | .enclosingMethod c m => wAttr N.enclosingMethod (wSeq [wStr 7 c, wNatOpt m])
  | .debugExtension s => wAttr N.sourceDebugExtension (wDebugExt s)
  | .bootstrapMethods bs => wAttr N.bootstrapMethods (wVec u16 Bsm.write bs)
  | .module_ m => wAttr N.module_ m.write
  | .modulePackages ps => wAttr N.modulePackages (wVec u16 (wStr 20) ps)
  | .mainClass c => wAttr N.moduleMainClass (wStr 7 c)
  | .nestHost c => wAttr N.nestHost (wStr 7 c)
  | .nestMembers cs => wAttr N.nestMembers (wVec u16 (wStr 7) cs)
  | .visible as => wAttr N.runtimeVisibleAnnotations (wVec u16 Annotation.write as)
  | .invisible as => wAttr N.runtimeInvisibleAnnotations (wVec u16 Annotation.write as)
  | .visibleType as =>
    wAttr N.runtimeVisibleTypeAnnotations (wVec u16 (TypeAnnotation.write ClassTarget.write) as)
  | .invisibleType as =>
    wAttr N.runtimeInvisibleTypeAnnotations (wVec u16 (TypeAnnotation.write ClassTarget.write) as)
  | .raw a => wRaw a

/-- The payload readers by name (derive.rs:227-243). -/
def ClassAttr.table (name : Bytes) : Option (Rd ClassAttr) :=
  if name = N.signature then some (Rd.map .signature (rSig parseClass))
  else if name = N.synthetic then some (Rd.pure .synthetic)
  else if name = N.deprecated then some (Rd.pure .deprecated)
  else if name = N.sourceFile then some (Rd.map .sourceFile rUtf8)
  else if name = N.innerClasses then some (Rd.map .innerClasses (rVec u16 InnerClass.read))
  else if name = N.enclosingMethod then some (Rd.ap (Rd.map .enclosingMethod (rStr 7)) rNatOpt)
  else if name = N.sourceDebugExtension then some (Rd.map .debugExtension rDebugExt)
  else if name = N.bootstrapMethods then some (Rd.map .bootstrapMethods (rVec u16 Bsm.read))
  else if name = N.module_ then some (Rd.map .module_ Module.read)
  else if name = N.modulePackages then some (Rd.map .modulePackages (rVec u16 (rStr 20)))
  else if name = N.moduleMainClass then some (Rd.map .mainClass (rStr 7))
  else if name = N.nestHost then some (Rd.map .nestHost (rStr 7))
  else if name = N.nestMembers then some (Rd.map .nestMembers (rVec u16 (rStr 7)))
  else if name = N.runtimeVisibleAnnotations then some (Rd.map .visible (rVec u16 Annotation.read))
  else if name = N.runtimeInvisibleAnnotations then some (Rd.map .invisible (rVec u16 Annotation.read))
  else if name = N.runtimeVisibleTypeAnnotations then
    some (Rd.map .visibleType (rVec u16 (TypeAnnotation.read ClassTarget.read)))
  else if name = N.runtimeInvisibleTypeAnnotations then
    some (Rd.map .invisibleType (rVec u16 (TypeAnnotation.read ClassTarget.read)))
  else none

def ClassAttr.read : Rd ClassAttr := rAttr ClassAttr.table .raw

/-! ## src/member.rs: fields -/

/-- member.rs:51-62. -/
inductive FieldAttr where
  | deprecated
  | synthetic
  | signature (s : RefSig)
  | constantValue (c : Constant)
  | visible (as : List Annotation)
  | invisible (as : List Annotation)
  | visibleType (as : List (TypeAnnotation FieldTarget))
  | invisibleType (as : List (TypeAnnotation FieldTarget))
  | raw (a : RawAttribute)

def FieldAttr.write : FieldAttr → Ins Bytes
  | .deprecated => wAttr N.deprecated (wSeq [])
  | .synthetic => wAttr N.synthetic (wSeq [])
  | .signature s => wAttr N.signature (wSig (showR s))
  | .constantValue c => wAttr N.constantValue (wConst c)
  | .visible as => wAttr N.runtimeVisibleAnnotations (wVec u16 Annotation.write as)
  | .invisible as => wAttr N.runtimeInvisibleAnnotations (wVec u16 Annotation.write as)
  | .visibleType as =>
    wAttr N.runtimeVisibleTypeAnnotations (wVec u16 (TypeAnnotation.write FieldTarget.write) as)
  | .invisibleType as =>
    wAttr N.runtimeInvisibleTypeAnnotations (wVec u16 (TypeAnnotation.write FieldTarget.write) as)
  | .raw a => wRaw a

def FieldAttr.table (name : Bytes) : Option (Rd FieldAttr) :=
  if name = N.deprecated then some (Rd.pure .deprecated)
  else if name = N.synthetic then some (Rd.pure .synthetic)
  else if name = N.signature then some (Rd.map .signature (rSig parseRef))
  else if name = N.constantValue then some (Rd.map .constantValue rConst)
  else if name = N.runtimeVisibleAnnotations then some (Rd.map .visible (rVec u16 Annotation.read))
  else if name = N.runtimeInvisibleAnnotations then some (Rd.map .invisible (rVec u16 Annotation.read))
  else if name = N.runtimeVisibleTypeAnnotations then
    some (Rd.map .visibleType (rVec u16 (TypeAnnotation.read FieldTarget.read)))
  else if name = N.runtimeInvisibleTypeAnnotations then
    some (Rd.map .invisibleType (rVec u16 (TypeAnnotation.read FieldTarget.read)))
  else none

def FieldAttr.read : Rd FieldAttr := rAttr FieldAttr.table .raw

/-- member.rs:64-72. -/
structure Field where
  access : Flags .field
  name : Bytes
  descriptor : JType
  attrs : List FieldAttr

def Field.write (f : Field) : Ins Bytes :=
  wSeq [wFlags f.access, wUtf8 f.name, wType f.descriptor, wVec u16 FieldAttr.write f.attrs]

def Field.read : Rd Field :=
  Rd.ap (Rd.ap (Rd.ap (Rd.map Field.mk (rFlags .field)) rUtf8) rType) (rVec u16 FieldAttr.read)

/-- member.rs:74-79. -/
structure MethodParameter where
  name : Option Bytes
  access : Flags .param

def MethodParameter.write (x : MethodParameter) : Ins Bytes := wSeq [wUtf8Opt x.name, wFlags x.access]

def MethodParameter.read : Rd MethodParameter :=
  Rd.ap (Rd.map MethodParameter.mk rUtf8Opt) (rFlags .param)

end Verif
