import Verif.Spec.Annotation
import Verif.Spec.Signature
import Verif.Spec.Mutf8
import Verif.Spec.Misc
import Verif.Spec.Instr
import Verif.Model.Attr

/-! # Attributes and fields (JVMS 4.5, 4.7) -/

namespace Verif.Spec

/-- Two lists of the same length whose elements are related one by one. -/
inductive Matched {α β : Type} (R : α → β → Prop) : List α → List β → Prop
  | nil : Matched R [] []
  | cons {x : α} {y : β} {xs : List α} {ys : List β} : R x y → Matched R xs ys → Matched R (x :: xs) (y :: ys)

/-- Only bits named by the JVMS are set. -/
def KnownFlags {t : FlagType} (f : Flags t) : Prop :=
  ∀ k, f.bits.toNat.testBit k = true → k ∈ knownBits t

/-- The index of a string with the text of a signature. -/
def IsSig {α : Type} (text : α → Str → Prop) (P : Pool) (i : UInt16) (x : α) : Prop :=
  ∃ cs, text x cs ∧ (∀ c ∈ cs, IsCodePoint c ∧ ¬ IsSurrogate c) ∧ IsUtf8 P i (encodeCps cs)

namespace Fmt

def flags (t : FlagType) : Fmt (Flags t) := fun _ f bs => KnownFlags f ∧ bs = U2 f.bits.toNat
def constant : Fmt Constant := index IsConstant
def sig {α : Type} (text : α → Str → Prop) : Fmt α := index (IsSig text)
def natOpt : Fmt (Option (Bytes × JType)) := indexOpt fun P i p => IsNat P i p.1 p.2
def clsOpt : Fmt (Option Bytes) := indexOpt IsClass
def utf8Opt : Fmt (Option Bytes) := indexOpt IsUtf8

/-- Text in modified UTF-8 without a length. -/
def text : Fmt Bytes := fun _ s bs => ∃ v, HasUtf16 s v ∧ bs = mutf8 v

/-- Uninterpreted bytes. -/
def bytes : Fmt Bytes := fun _ b bs => bs = b

end Fmt

open Fmt

/-- A bootstrap argument: a constant or a dynamically computed one. -/
def arg : Fmt Arg := fun c a bs => ∃ i : UInt16, bs = U2 i.toNat ∧ match a with
  | .static k => IsConstant c.pool i k
  | .dynamic cell n t => (∀ ps r, t ≠ .method ps r) ∧ IsDyn c i ⟨cell, n, t⟩

/-- An entry of the bootstrap table (JVMS 4.7.23). -/
def bsm : Fmt Bsm := struct [on Bsm.handle (index IsHandle), on Bsm.arguments (table2 arg)]

/-- JVMS 4.7.6. -/
def innerClass : Fmt InnerClass := struct [on InnerClass.inner cls, on InnerClass.outer clsOpt,
  on InnerClass.name utf8Opt, on InnerClass.access (flags .inner)]

/-- JVMS 4.7.25. -/
def require : Fmt Require :=
  struct [on Require.module_ module, on Require.flags (flags .require), on Require.version utf8Opt]

def export_ : Fmt Export :=
  struct [on Export.package package, on Export.flags (flags .exOp), on Export.to (table2 module)]

def provide : Fmt Provide := struct [on Provide.cls cls, on Provide.with_ (table2 cls)]

def moduleAttr : Fmt Module := struct [on Module.name module, on Module.flags (flags .module),
  on Module.version utf8Opt, on Module.requires (table2 require), on Module.exports (table2 export_),
  on Module.opens (table2 export_), on Module.uses (table2 cls), on Module.provides (table2 provide)]

/-- JVMS 4.7.24. -/
def methodParameter : Fmt MethodParameter :=
  struct [on MethodParameter.name utf8Opt, on MethodParameter.access (flags .param)]

/-- The attributes of a class (JVMS table 4.7-C). -/
def classAttr : Fmt ClassAttr
  | c, .signature s, bs => attr N.signature (sig ClassText) c s bs
  | c, .synthetic, bs => attr N.synthetic unit c () bs
  | c, .deprecated, bs => attr N.deprecated unit c () bs
  | c, .sourceFile s, bs => attr N.sourceFile utf8 c s bs
  | c, .innerClasses cs, bs => attr N.innerClasses (table2 innerClass) c cs bs
  | c, .enclosingMethod o m, bs => attr N.enclosingMethod (Fmt.pair cls natOpt) c (o, m) bs
  | c, .debugExtension s, bs => attr N.sourceDebugExtension text c s bs
  | c, .bootstrapMethods ms, bs => attr N.bootstrapMethods (table2 bsm) c ms bs
  | c, .module_ m, bs => attr N.module_ moduleAttr c m bs
  | c, .modulePackages ps, bs => attr N.modulePackages (table2 package) c ps bs
  | c, .mainClass o, bs => attr N.moduleMainClass cls c o bs
  | c, .nestHost o, bs => attr N.nestHost cls c o bs
  | c, .nestMembers cs, bs => attr N.nestMembers (table2 cls) c cs bs
  | c, .visible as, bs => attr N.runtimeVisibleAnnotations (table2 annotation) c as bs
  | c, .invisible as, bs => attr N.runtimeInvisibleAnnotations (table2 annotation) c as bs
  | c, .visibleType as, bs =>
    attr N.runtimeVisibleTypeAnnotations (table2 (typeAnnotation classTarget)) c as bs
  | c, .invisibleType as, bs =>
    attr N.runtimeInvisibleTypeAnnotations (table2 (typeAnnotation classTarget)) c as bs
  | c, .raw a, bs => attr a.name bytes c a.inner bs

def fieldAttr : Fmt FieldAttr
  | c, .deprecated, bs => attr N.deprecated unit c () bs
  | c, .synthetic, bs => attr N.synthetic unit c () bs
  | c, .signature s, bs => attr N.signature (sig RText) c s bs
  | c, .constantValue k, bs => attr N.constantValue constant c k bs
  | c, .visible as, bs => attr N.runtimeVisibleAnnotations (table2 annotation) c as bs
  | c, .invisible as, bs => attr N.runtimeInvisibleAnnotations (table2 annotation) c as bs
  | c, .visibleType as, bs =>
    attr N.runtimeVisibleTypeAnnotations (table2 (typeAnnotation fieldTarget)) c as bs
  | c, .invisibleType as, bs =>
    attr N.runtimeInvisibleTypeAnnotations (table2 (typeAnnotation fieldTarget)) c as bs
  | c, .raw a, bs => attr a.name bytes c a.inner bs

/-- JVMS 4.5. -/
def field : Fmt Field := struct [on Field.access (flags .field), on Field.name utf8,
  on Field.descriptor descr, on Field.attrs (table2 fieldAttr)]

/-! ## Values a class file can hold

`Writable`: types have descriptors, signatures have a text, names used in `Display` are free of
surrogates, flags are known. `Readable`: what is not a matter of the bytes alone. -/

/-- A signature whose text can be written as a string. -/
def SigText {α : Type} (text : α → Str → Prop) (x : α) : Prop :=
  ∃ cs, text x cs ∧ ∀ c ∈ cs, IsCodePoint c ∧ ¬ IsSurrogate c

/-- Constants whose types are printed without loss. -/
def PlainConst : Constant → Prop
  | .member m => Printable m.descriptor
  | .methodType t => Printable t
  | .methodHandle h => Printable h.member.descriptor
  | _ => True

def AnnWritable (a : Annotation) : Prop :=
  IsDescriptor a.ty ∧ a.vals.length < 65536 ∧ ExpressiblePairs true a.vals

def TypeAnnWritable {T : Type} (a : TypeAnnotation T) : Prop :=
  IsDescriptor a.ty ∧ a.vals.length < 65536 ∧ ExpressiblePairs true a.vals

/-- Bootstrap arguments that can be expressed; dynamic ones must have their bootstrap method. -/
def ArgWritable : Arg → Prop
  | .static c => PlainConst c
  | .dynamic cell _ t => Printable t ∧ (∀ ps r, t ≠ .method ps r) ∧ ∃ h as, cell = .filled h as

def BsmWritable (b : Bsm) : Prop :=
  Printable b.handle.member.descriptor ∧ b.arguments.length < 65536 ∧ ∀ a ∈ b.arguments, ArgWritable a

def ModuleWritable (m : Module) : Prop :=
  KnownFlags m.flags ∧ (∀ r ∈ m.requires, KnownFlags r.flags) ∧ (∀ e ∈ m.exports, KnownFlags e.flags) ∧
    ∀ e ∈ m.opens, KnownFlags e.flags

def _root_.Verif.ClassAttr.Writable : ClassAttr → Prop
  | .signature s => SigText ClassText s
  | .innerClasses cs => ∀ x ∈ cs, KnownFlags x.access
  | .enclosingMethod _ m => ∀ p, m = some p → Printable p.2
  | .debugExtension s => WellFormed s
  | .bootstrapMethods ms => ∀ b ∈ ms, BsmWritable b
  | .module_ m => ModuleWritable m
  | .visible as => ∀ a ∈ as, AnnWritable a
  | .invisible as => ∀ a ∈ as, AnnWritable a
  | .visibleType as => ∀ a ∈ as, TypeAnnWritable a
  | .invisibleType as => ∀ a ∈ as, TypeAnnWritable a
  | _ => True

def _root_.Verif.FieldAttr.Writable : FieldAttr → Prop
  | .signature s => SigText RText s
  | .constantValue c => PlainConst c
  | .visible as => ∀ a ∈ as, AnnWritable a
  | .invisible as => ∀ a ∈ as, AnnWritable a
  | .visibleType as => ∀ a ∈ as, TypeAnnWritable a
  | .invisibleType as => ∀ a ∈ as, TypeAnnWritable a
  | _ => True

def _root_.Verif.Field.Writable (f : Field) : Prop :=
  KnownFlags f.access ∧ IsDescriptor f.descriptor ∧ ∀ a ∈ f.attrs, a.Writable


/-! `Readable`: maps have distinct keys, signatures are among those the parser of the code reads
back, field references do not claim to be in an interface, and unrecognised attributes do not have
the name of a recognised one. -/

def StaticArg : Arg → Prop
  | .static c => c.norm = c
  | .dynamic _ _ _ => True

def BsmReadable (b : Bsm) : Prop :=
  b.handle.member.norm = b.handle.member ∧ ∀ a ∈ b.arguments, StaticArg a

def classAttrNames : List Bytes := [N.signature, N.synthetic, N.deprecated, N.sourceFile,
  N.innerClasses, N.enclosingMethod, N.sourceDebugExtension, N.bootstrapMethods, N.module_,
  N.modulePackages, N.moduleMainClass, N.nestHost, N.nestMembers, N.runtimeVisibleAnnotations,
  N.runtimeInvisibleAnnotations, N.runtimeVisibleTypeAnnotations, N.runtimeInvisibleTypeAnnotations]

def fieldAttrNames : List Bytes := [N.deprecated, N.synthetic, N.signature, N.constantValue,
  N.runtimeVisibleAnnotations, N.runtimeInvisibleAnnotations, N.runtimeVisibleTypeAnnotations,
  N.runtimeInvisibleTypeAnnotations]

def _root_.Verif.ClassAttr.Readable : ClassAttr → Prop
  | .signature s => SingleBounds s.typeParams
  | .bootstrapMethods ms => ∀ b ∈ ms, BsmReadable b
  | .visible as => ∀ a ∈ as, Keyed a.vals
  | .invisible as => ∀ a ∈ as, Keyed a.vals
  | .visibleType as => ∀ a ∈ as, Keyed a.vals
  | .invisibleType as => ∀ a ∈ as, Keyed a.vals
  | .raw a => a.name ∉ classAttrNames
  | _ => True

def _root_.Verif.FieldAttr.Readable : FieldAttr → Prop
  | .constantValue c => c.norm = c
  | .visible as => ∀ a ∈ as, Keyed a.vals
  | .invisible as => ∀ a ∈ as, Keyed a.vals
  | .visibleType as => ∀ a ∈ as, Keyed a.vals
  | .invisibleType as => ∀ a ∈ as, Keyed a.vals
  | .raw a => a.name ∉ fieldAttrNames
  | _ => True

/-! Dynamic bootstrap arguments are completed from the bootstrap table of the class. -/

def resolveArg (T : List Bsm) : Arg → Arg
  | .dynamic (.pending k) n t => match T[k.toNat]? with
    | some b => .dynamic (.filled b.handle b.arguments) n t
    | none => .dynamic (.pending k) n t
  | a => a

def resolveBsm (T : List Bsm) (b : Bsm) : Bsm := ⟨b.handle, b.arguments.map (resolveArg T)⟩

def resolveClassAttr (T : List Bsm) : ClassAttr → ClassAttr
  | .bootstrapMethods ms => .bootstrapMethods (ms.map (resolveBsm T))
  | a => a

/-- What is laid out has fewer than 2^32 bytes: what the length of an attribute can tell. -/
def Fmt.small {α : Type} (f : Fmt α) : Fmt α := fun c x bs => bs.length < 4294967296 → f c x bs

end Verif.Spec
