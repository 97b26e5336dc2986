import Verif.Model.Class
import Verif.Model.Derive
import Verif.Model.Single

/-!
# The declarations in coffer to which the derive macros are applied

The types and helpers that occur in the declarations, the implementations that trait resolution finds
for them, and the declarations themselves as data. A type whose implementation is derived has here
the implementation of the hand-expanded model; that this is the one the macro generates from the
declaration is proved in `Props/Decls.lean`.

Not listed: `Instruction` and `Wide` (src/insn.rs:10-29, 60-), whose model is a table of tags already,
and `SwitchEntry` (src/insn.rs:7-8).
-/

namespace Verif.Derive
open Sig

/-- `stringify!(ident)`. -/
def ident (s : String) : Bytes := s.toList.map fun c => UInt8.ofNat c.toNat

/-- The types of fields. -/
inductive Ty where
  | cow | optCow | type | optNameAndType | u8 | u16 | i32 | f32 | i64 | f64
  | flags (t : FlagType)
  | classSignature | fieldSignature | methodSignature | constant | debugExtension | bootstrapMethod
  | elementValues | annotationValue | annotation | parameterAnnotations
  | label | catch_ | localVarTarget | classTarget | methodTarget | fieldTarget | codeTarget | typePath
  | classTypeAnnotation | methodTypeAnnotation | fieldTypeAnnotation | codeTypeAnnotation
  | require | provide | export | open | module | innerClass
  | fieldAttribute | field | methodParameter | code | methodAttribute | method | classAttribute
  | lineNumber | localVar | localVarType | frame | majorVersion | strRef
  | vec (t : Ty)

/-- The values of these types. -/
def Ty.Val : Ty → Type
  | .cow => Bytes
  | .optCow => Option Bytes
  | .type => JType
  | .optNameAndType => Option (Bytes × JType)
  | .u8 => UInt8
  | .u16 => UInt16
  | .i32 => Int32
  | .f32 => F32
  | .i64 => Int64
  | .f64 => F64
  | .flags t => Flags t
  | .classSignature => ClassSig
  | .fieldSignature => RefSig
  | .methodSignature => MethodSig
  | .constant => Constant
  | .debugExtension => Bytes
  | .bootstrapMethod => Bsm
  | .elementValues => Elems
  | .annotationValue => AnnValue
  | .annotation => Annotation
  | .parameterAnnotations => List Annotation
  | .label => Label
  | .catch_ => Catch
  | .localVarTarget => LocalVarTarget
  | .classTarget => ClassTarget
  | .methodTarget => MethodTarget
  | .fieldTarget => FieldTarget
  | .codeTarget => CodeTarget
  | .typePath => PathStep
  | .classTypeAnnotation => TypeAnnotation ClassTarget
  | .methodTypeAnnotation => TypeAnnotation MethodTarget
  | .fieldTypeAnnotation => TypeAnnotation FieldTarget
  | .codeTypeAnnotation => TypeAnnotation CodeTarget
  | .require => Require
  | .provide => Provide
  | .export => Export
  | .open => Export
  | .module => Module
  | .innerClass => InnerClass
  | .fieldAttribute => FieldAttr
  | .field => Field
  | .methodParameter => MethodParameter
  | .code => Code
  | .methodAttribute => MethodAttr
  | .method => Method
  | .classAttribute => ClassAttr
  | .lineNumber => LineEntry
  | .localVar => VarEntry
  | .localVarType => VarTypeEntry
  | .frame => Frame
  | .majorVersion => Major
  | .strRef => Bytes
  | .vec t => List t.Val

/-- The length types of `h::Vec8`, `h::Vec16`, `h::Vec32` (src/helper.rs:184-186). -/
inductive Len where
  | u8 | u16 | u32

/-- src/helper.rs: `Normal`, `Identity`, `StringCp<TAG>`, `VecLen<H, L>`. -/
inductive Helper where
  | normal
  | identity
  | stringCp (tag : UInt8)
  | vecLen (h : Helper) (l : Len)

/-- src/helper.rs:91-94, 184-185. -/
def Helper.cls : Helper := .stringCp 7
def Helper.module : Helper := .stringCp 19
def Helper.package : Helper := .stringCp 20
def Helper.vec8 (h : Helper := .identity) : Helper := .vecLen h .u8
def Helper.vec16 (h : Helper := .identity) : Helper := .vecLen h .u16

/-- src/helper.rs:152-182 and 122-150. -/
def vecImpl {α : Type} (I : Impl α) : Len → Impl (List α)
  | .u8 => ⟨wVec Verif.u8 I.write, rVec Verif.u8 I.read⟩
  | .u16 => ⟨wVec Verif.u16 I.write, rVec Verif.u16 I.read⟩
  | .u32 => ⟨wVec Verif.u32 I.write, rVec Verif.u32 I.read⟩

/-- `ReadWrite`: src/rw.rs:430-480, src/flags.rs:165-172, src/attr.rs:68-84, and the derived ones. -/
def normal : (t : Ty) → Option (Impl t.Val)
  | .u8 => some ⟨wNum Verif.u8, rNum Verif.u8⟩
  | .u16 => some ⟨wNum Verif.u16, rNum Verif.u16⟩
  | .i32 => some ⟨wNum Verif.i32, rNum Verif.i32⟩
  | .f32 => some ⟨wNum Verif.f32, rNum Verif.f32⟩
  | .i64 => some ⟨wNum Verif.i64, rNum Verif.i64⟩
  | .f64 => some ⟨wNum Verif.f64, rNum Verif.f64⟩
  | .cow => some ⟨fun s => Ins.lift (writeString s), Rd.lift readString⟩
  | .flags t => some ⟨wFlags, rFlags t⟩
  | .debugExtension => some ⟨wDebugExt, rDebugExt⟩
  | .classTarget => some ⟨ClassTarget.write, ClassTarget.read⟩
  | .methodTarget => some ⟨MethodTarget.write, MethodTarget.read⟩
  | .fieldTarget => some ⟨FieldTarget.write, FieldTarget.read⟩
  | .typePath => some ⟨PathStep.write, PathStep.read⟩
  | .lineNumber => some ⟨LineEntry.write, LineEntry.read⟩
  | .majorVersion => some ⟨fun m => wNum Verif.u16 m.tag, Rd.lift Major.read⟩
  | .strRef => some ⟨fun s => Ins.lift (writeStrRef s), Rd.lift readStrRef⟩
  | _ => none

/-- `ConstantPoolReadWrite`. `env` and `ord` are the parameters of the models of `Label` and `Code`;
`n` is the length of the input that remains where the attribute begins. -/
def pooled (env : WEnv) (ord : Order) (n : Nat) : (t : Ty) → Option (Impl t.Val)
  | .cow => some ⟨wUtf8, rUtf8⟩
  | .optCow => some ⟨wUtf8Opt, rUtf8Opt⟩
  | .type => some ⟨wType, rType⟩
  | .optNameAndType => some ⟨wNatOpt, rNatOpt⟩
  | .classSignature => some ⟨fun s => wSig (showClass s), rSig parseClass⟩
  | .fieldSignature => some ⟨fun s => wSig (showR s), rSig parseRef⟩
  | .methodSignature => some ⟨fun s => wSig (showMethod s), rSig parseMethod⟩
  | .constant => some ⟨wConst, rConst⟩
  | .bootstrapMethod => some ⟨Bsm.write, Bsm.read⟩
  | .elementValues => some ⟨Elems.write, Elems.read⟩
  | .annotationValue => some ⟨AnnValue.write, AnnValue.read⟩
  | .annotation => some ⟨Annotation.write, Annotation.read⟩
  | .parameterAnnotations => some ⟨wVec Verif.u16 Annotation.write, rVec Verif.u16 Annotation.read⟩
  | .label => some ⟨wLabel env, rLabel⟩
  | .catch_ => some ⟨wCatch env, rCatch⟩
  | .localVarTarget => some ⟨LocalVarTarget.write env, LocalVarTarget.read⟩
  | .codeTarget => some ⟨CodeTarget.write env, CodeTarget.read⟩
  | .classTypeAnnotation => some ⟨TypeAnnotation.write ClassTarget.write, TypeAnnotation.read ClassTarget.read⟩
  | .methodTypeAnnotation =>
    some ⟨TypeAnnotation.write MethodTarget.write, TypeAnnotation.read MethodTarget.read⟩
  | .fieldTypeAnnotation => some ⟨TypeAnnotation.write FieldTarget.write, TypeAnnotation.read FieldTarget.read⟩
  | .codeTypeAnnotation =>
    some ⟨TypeAnnotation.write (CodeTarget.write env), TypeAnnotation.read CodeTarget.read⟩
  | .require => some ⟨Require.write, Require.read⟩
  | .provide => some ⟨Provide.write, Provide.read⟩
  | .export => some ⟨Export.write, Export.read⟩
  | .open => some ⟨Export.write, Export.read⟩
  | .module => some ⟨Module.write, Module.read⟩
  | .innerClass => some ⟨InnerClass.write, InnerClass.read⟩
  | .fieldAttribute => some ⟨FieldAttr.write, FieldAttr.read⟩
  | .field => some ⟨Field.write, Field.read⟩
  | .methodParameter => some ⟨MethodParameter.write, MethodParameter.read⟩
  | .code => some ⟨Code.write, Code.read (ord n)⟩
  | .methodAttribute => some ⟨MethodAttr.write, MethodAttr.read ord⟩
  | .method => some ⟨Method.write, Method.read ord⟩
  | .classAttribute => some ⟨ClassAttr.write, ClassAttr.read⟩
  | .localVar => some ⟨VarEntry.write, VarEntry.read⟩
  | .localVarType => some ⟨VarTypeEntry.write, VarTypeEntry.read⟩
  | .frame => some ⟨Frame.write env, Frame.read⟩
  | _ => none

/-- `ReadWriteAs` (src/helper.rs:111-150). -/
def normalAs : Helper → (t : Ty) → Option (Impl t.Val)
  | .identity, t => normal t
  | .vecLen h l, .vec t => (normalAs h t).map fun I => vecImpl I l
  | _, _ => none

/-- `ConstantPoolReadWriteAs` (src/helper.rs:27-109, 152-182). -/
def pooledAs (env : WEnv) (ord : Order) (n : Nat) : Helper → (t : Ty) → Option (Impl t.Val)
  | .normal, t => normal t
  | .identity, t => pooled env ord n t
  | .stringCp tag, .cow => some ⟨wStr tag, rStr tag⟩
  | .stringCp tag, .optCow => some ⟨wOpt (insertIndirect tag), rOpt (rLookup fun P i => Pool.indirect P tag i)⟩
  | .vecLen h l, .vec t => (pooledAs env ord n h t).map fun I => vecImpl I l
  | _, _ => none

/-- Where `derive(ReadWrite)` is used. -/
def plain : Crate := ⟨Ty, Helper, Ty.Val, normal, normalAs⟩

/-- Where `derive(ConstantPoolReadWrite)` and `derive(AttributeEnum)` are used. -/
def coffer (env : WEnv) (ord : Order) (n : Nat) : Crate :=
  ⟨Ty, Helper, Ty.Val, pooled env ord n, pooledAs env ord n⟩

/-! ## The declarations -/

namespace Decl

/-- A field without `#[coffer(…)]`. -/
def bare (t : Ty) : FieldDecl plain := ⟨t, none⟩

/-- src/annotation/type_annotation.rs:12-28. -/
def classTarget : List (VariantDecl plain) :=
  [{ tag := some 0, fields := [bare .u8] },
   { tag := some 0x10, fields := [bare .u16] },
   { tag := some 0x11, fields := [bare .u8, bare .u8] }]

/-- type_annotation.rs:30-45. -/
def methodTarget : List (VariantDecl plain) :=
  [{ tag := some 0x1, fields := [bare .u8] },
   { tag := some 0x12, fields := [bare .u8, bare .u8] },
   { tag := some 0x14, fields := [] },
   { tag := some 0x15, fields := [] },
   { tag := some 0x16, fields := [bare .u8] },
   { tag := some 0x17, fields := [bare .u16] }]

/-- type_annotation.rs:142-147. -/
def fieldTarget : List (VariantDecl plain) := [{ tag := some 0x13, fields := [] }]

/-- type_annotation.rs:113-120. -/
def typePath : List (VariantDecl plain) :=
  [{ fields := [bare .u8] }, { fields := [bare .u8] }, { fields := [bare .u8] }, { fields := [bare .u8] }]

/-- src/code/structure.rs:389-390. -/
def lineNumber : List (FieldDecl plain) := [bare .u16, bare .u16]

/-- src/version.rs:22-56. -/
def majorVersion : List (VariantDecl plain) :=
  { fields := [], disc := some (.lit 45) } :: List.replicate 14 { fields := [] }

/-- src/version.rs:6-12. -/
def javaVersion : List (FieldDecl plain) := [bare .u16, bare .majorVersion]

/-- src/cp.rs:57-80. -/
def rawConstantEntry : List (VariantDecl plain) :=
  [{ tag := some 1, fields := [bare .cow] },
   { tag := some 3, fields := [bare .i32] },
   { fields := [bare .f32] },
   { fields := [bare .i64] },
   { fields := [bare .f64] },
   { fields := [bare .u16] },
   { fields := [bare .u16] },
   { fields := [bare .u16, bare .u16] },
   { fields := [bare .u16, bare .u16] },
   { fields := [bare .u16, bare .u16] },
   { fields := [bare .u16, bare .u16] },
   { tag := some 15, fields := [bare .u8, bare .u16] },
   { fields := [bare .u16] },
   { fields := [bare .u16, bare .u16] },
   { fields := [bare .u16, bare .u16] },
   { fields := [bare .u16] },
   { fields := [bare .u16] }]

/-- src/cp.rs:33-53. -/
def constEntryRef : List (VariantDecl plain) :=
  [{ fields := [bare .strRef] },
   { tag := some 3, fields := [bare .i32] },
   { fields := [bare .f32] },
   { fields := [bare .i64] },
   { fields := [bare .f64] },
   { fields := [bare .u16] },
   { fields := [bare .u16] },
   { fields := [bare .u16, bare .u16] },
   { fields := [bare .u16, bare .u16] },
   { fields := [bare .u16, bare .u16] },
   { fields := [bare .u16, bare .u16] },
   { tag := some 15, fields := [bare .u8, bare .u16] },
   { fields := [bare .u16] },
   { fields := [bare .u16, bare .u16] },
   { fields := [bare .u16, bare .u16] },
   { fields := [bare .u16] },
   { fields := [bare .u16] }]

/-- src/loadable.rs:15-37. -/
def methodHandleKind : List (VariantDecl plain) :=
  { fields := [], disc := some (.lit 1) } :: List.replicate 8 { fields := [] }

variable {env : WEnv} {ord : Order} {n : Nat}

/-- A field with a helper, or without. -/
def via (h : Helper) (t : Ty) : FieldDecl (coffer env ord n) := ⟨t, some h⟩
def own (t : Ty) : FieldDecl (coffer env ord n) := ⟨t, none⟩

/-- type_annotation.rs:83-111. -/
def codeTarget : List (VariantDecl (coffer env ord n)) :=
  [{ tag := some 0x40, fields := [via .vec16 (.vec .localVarTarget)] },
   { fields := [via .vec16 (.vec .localVarTarget)] },
   { fields := [own .catch_] },
   { fields := [own .label] },
   { fields := [own .label] },
   { fields := [own .label] },
   { fields := [own .label] },
   { fields := [own .label, via .normal .u8] },
   { fields := [own .label, via .normal .u8] },
   { fields := [own .label, via .normal .u8] },
   { fields := [own .label, via .normal .u8] },
   { fields := [own .label, via .normal .u8] }]

/-- src/code.rs:610-623. -/
def verificationType : List (VariantDecl (coffer env ord n)) :=
  [{ fields := [] }, { fields := [] }, { fields := [] }, { fields := [] }, { fields := [] },
   { fields := [] }, { fields := [] }, { fields := [via .cls .cow] }, { fields := [own .label] }]

/-- src/annotation/mod.rs:213-220. -/
def annotation : List (FieldDecl (coffer env ord n)) := [own .type, own .elementValues]

/-- src/annotation/mod.rs:18-19. -/
def parameterAnnotations : List (FieldDecl (coffer env ord n)) := [via .vec16 (.vec .annotation)]

/-- type_annotation.rs:122-130, 132-140, 149-157. -/
def typeAnnotation (target : Ty) : List (FieldDecl (coffer env ord n)) :=
  [via .normal target, via (.vec8 .normal) (.vec .typePath), own .type, own .elementValues]

/-- type_annotation.rs:159-166. -/
def codeTypeAnnotation : List (FieldDecl (coffer env ord n)) :=
  [own .codeTarget, via (.vec8 .normal) (.vec .typePath), own .type, own .elementValues]

/-- src/module.rs:15-22. -/
def require : List (FieldDecl (coffer env ord n)) :=
  [via .module .cow, via .normal (.flags .require), own .optCow]

/-- module.rs:24-30. -/
def provide : List (FieldDecl (coffer env ord n)) := [via .cls .cow, via (.vec16 .cls) (.vec .cow)]

/-- module.rs:51-59. -/
def export_ : List (FieldDecl (coffer env ord n)) :=
  [via .package .cow, via .normal (.flags .exOp), via (.vec16 .module) (.vec .cow)]

/-- module.rs:82-90. -/
def open_ : List (FieldDecl (coffer env ord n)) :=
  [via .package .cow, via .normal (.flags .exOp), via (.vec16 .module) (.vec .cow)]

/-- module.rs:32-49. -/
def module_ : List (FieldDecl (coffer env ord n)) :=
  [via .module .cow, via .normal (.flags .module), own .optCow, via .vec16 (.vec .require),
   via .vec16 (.vec .export), via .vec16 (.vec .open), via (.vec16 .cls) (.vec .cow),
   via .vec16 (.vec .provide)]

/-- src/attr.rs:86-96. -/
def innerClass : List (FieldDecl (coffer env ord n)) :=
  [via .cls .cow, via .cls .optCow, own .optCow, via .normal (.flags .inner)]

/-- src/attr.rs:98-122. -/
def classAttribute : List (AttrDecl (coffer env ord n)) :=
  [⟨ident "Signature", some [own .classSignature]⟩,
   ⟨ident "Synthetic", some []⟩,
   ⟨ident "Deprecated", some []⟩,
   ⟨ident "SourceFile", some [own .cow]⟩,
   ⟨ident "InnerClasses", some [via .vec16 (.vec .innerClass)]⟩,
   ⟨ident "EnclosingMethod", some [via .cls .cow, own .optNameAndType]⟩,
   ⟨ident "SourceDebugExtension", some [via .normal .debugExtension]⟩,
   ⟨ident "BootstrapMethods", some [via .vec16 (.vec .bootstrapMethod)]⟩,
   ⟨ident "Module", some [own .module]⟩,
   ⟨ident "ModulePackages", some [via (.vec16 .package) (.vec .cow)]⟩,
   ⟨ident "ModuleMainClass", some [via .cls .cow]⟩,
   ⟨ident "NestHost", some [via .cls .cow]⟩,
   ⟨ident "NestMembers", some [via (.vec16 .cls) (.vec .cow)]⟩,
   ⟨ident "RuntimeVisibleAnnotations", some [via .vec16 (.vec .annotation)]⟩,
   ⟨ident "RuntimeInvisibleAnnotations", some [via .vec16 (.vec .annotation)]⟩,
   ⟨ident "RuntimeVisibleTypeAnnotations", some [via .vec16 (.vec .classTypeAnnotation)]⟩,
   ⟨ident "RuntimeInvisibleTypeAnnotations", some [via .vec16 (.vec .classTypeAnnotation)]⟩,
   ⟨ident "Raw", none⟩]

/-- src/member.rs:50-62. -/
def fieldAttribute : List (AttrDecl (coffer env ord n)) :=
  [⟨ident "Deprecated", some []⟩,
   ⟨ident "Synthetic", some []⟩,
   ⟨ident "Signature", some [own .fieldSignature]⟩,
   ⟨ident "ConstantValue", some [own .constant]⟩,
   ⟨ident "RuntimeVisibleAnnotations", some [via .vec16 (.vec .annotation)]⟩,
   ⟨ident "RuntimeInvisibleAnnotations", some [via .vec16 (.vec .annotation)]⟩,
   ⟨ident "RuntimeVisibleTypeAnnotations", some [via .vec16 (.vec .fieldTypeAnnotation)]⟩,
   ⟨ident "RuntimeInvisibleTypeAnnotations", some [via .vec16 (.vec .fieldTypeAnnotation)]⟩,
   ⟨ident "Raw", none⟩]

/-- member.rs:64-72. -/
def field : List (FieldDecl (coffer env ord n)) :=
  [via .normal (.flags .field), own .cow, own .type, via .vec16 (.vec .fieldAttribute)]

/-- member.rs:74-79. -/
def methodParameter : List (FieldDecl (coffer env ord n)) := [own .optCow, via .normal (.flags .param)]

/-- member.rs:81-98. -/
def methodAttribute : List (AttrDecl (coffer env ord n)) :=
  [⟨ident "Code", some [own .code]⟩,
   ⟨ident "Deprecated", some []⟩,
   ⟨ident "Synthetic", some []⟩,
   ⟨ident "Signature", some [own .methodSignature]⟩,
   ⟨ident "RuntimeVisibleAnnotations", some [via .vec16 (.vec .annotation)]⟩,
   ⟨ident "RuntimeInvisibleAnnotations", some [via .vec16 (.vec .annotation)]⟩,
   ⟨ident "RuntimeVisibleTypeAnnotations", some [via .vec16 (.vec .methodTypeAnnotation)]⟩,
   ⟨ident "RuntimeInvisibleTypeAnnotations", some [via .vec16 (.vec .methodTypeAnnotation)]⟩,
   ⟨ident "RuntimeVisibleParameterAnnotations", some [via .vec8 (.vec .parameterAnnotations)]⟩,
   ⟨ident "RuntimeInvisibleParameterAnnotations", some [via .vec8 (.vec .parameterAnnotations)]⟩,
   ⟨ident "Exceptions", some [via (.vec16 .cls) (.vec .cow)]⟩,
   ⟨ident "AnnotationDefault", some [own .annotationValue]⟩,
   ⟨ident "MethodParameters", some [via .vec8 (.vec .methodParameter)]⟩,
   ⟨ident "Raw", none⟩]

/-- member.rs:100-108. -/
def method : List (FieldDecl (coffer env ord n)) :=
  [via .normal (.flags .method), own .cow, own .type, via .vec16 (.vec .methodAttribute)]

/-- src/clazz.rs:25-41 `ClassWrapper`; only its reader is used. -/
def classWrapper : List (FieldDecl (coffer env ord n)) :=
  [via .normal (.flags .cls), via .cls .cow, via .cls .optCow, via (.vec16 .cls) (.vec .cow),
   via .vec16 (.vec .field), via .vec16 (.vec .method), via .vec16 (.vec .classAttribute)]

/-- src/code/structure.rs:392-402. -/
def localVar : List (FieldDecl (coffer env ord n)) :=
  [via .normal .u16, via .normal .u16, own .cow, own .type, via .normal .u16]

/-- structure.rs:404-414. -/
def localVarType : List (FieldDecl (coffer env ord n)) :=
  [via .normal .u16, via .normal .u16, own .cow, own .fieldSignature, via .normal .u16]

/-- structure.rs:416-426. -/
def codeAttr : List (AttrDecl (coffer env ord n)) :=
  [⟨ident "LineNumberTable", some [via (.vec16 .normal) (.vec .lineNumber)]⟩,
   ⟨ident "LocalVariableTable", some [via .vec16 (.vec .localVar)]⟩,
   ⟨ident "LocalVariableTypeTable", some [via .vec16 (.vec .localVarType)]⟩,
   ⟨ident "RuntimeInvisibleTypeAnnotations", some [via .vec16 (.vec .codeTypeAnnotation)]⟩,
   ⟨ident "RuntimeVisibleTypeAnnotations", some [via .vec16 (.vec .codeTypeAnnotation)]⟩,
   ⟨ident "StackMapTable", some [via .vec16 (.vec .frame)]⟩,
   ⟨ident "Raw", none⟩]

end Decl
end Verif.Derive
