import Verif.Spec.Class

/-! # The strings of a class

`All… S x` says that all strings of `x` have the property `S`; a type or a signature counts with the text
that is written for it (C15, C18). -/

namespace Verif.Spec
open Sig

variable (S : Bytes → Prop)

def AllMember (m : MemberRef) : Prop := S m.owner ∧ S m.name ∧ S (JType.display m.descriptor)

def AllConst : Constant → Prop
  | .string s | .cls s => S s
  | .member m => AllMember S m
  | .methodType t => S (JType.display t)
  | .methodHandle h => AllMember S h.member
  | _ => True

def AllDyn (d : Dynamic) : Prop := S d.name ∧ S (JType.display d.descriptor)

def AllOr {α : Type} (f : α → Prop) : OrDynamic α → Prop
  | .dynamic d => AllDyn S d
  | .static a => f a

def AllInsn : Insn → Prop
  | .push c => AllOr S (AllConst S) c
  | .checkCast t | .instanceOf t => AllOr S (fun t => S t.toStr) t
  | .new t => AllOr S S t
  | .field _ _ m | .invokeExact _ m | .invokeSpecial m | .invokeInterface m _ => AllOr S (AllMember S) m
  | .invokeDynamic d => AllDyn S d
  | _ => True

mutual
/-- With the strings of bootstrap methods of arguments. -/
def AllCell : Cell → Prop
  | .pending _ => True
  | .filled h as => AllMember S h.member ∧ AllArgs as
def AllArgs : List Arg → Prop
  | [] => True
  | .static c :: as => AllConst S c ∧ AllArgs as
  | .dynamic c n t :: as => (S n ∧ S (JType.display t) ∧ AllCell c) ∧ AllArgs as
end

def AllBsm (b : Bsm) : Prop := AllMember S b.handle.member ∧ AllArgs S b.arguments

mutual
def AllValue : AnnValue → Prop
  | .string s => S s
  | .enum t n => S t.toWtf8 ∧ S n
  | .cls none => S [0x56]
  | .cls (some t) => S t.display
  | .annotation t vs => S t.toWtf8 ∧ AllElems vs
  | .array vs => AllValues vs
  | _ => True
def AllValues : List AnnValue → Prop
  | [] => True
  | v :: vs => AllValue v ∧ AllValues vs
def AllElems : List (Bytes × AnnValue) → Prop
  | [] => True
  | (k, v) :: vs => S k ∧ AllValue v ∧ AllElems vs
end

def AllAnn (a : Annotation) : Prop := S a.ty.toWtf8 ∧ AllElems S a.vals
def AllTypeAnn {T : Type} (a : TypeAnnotation T) : Prop := S a.ty.toWtf8 ∧ AllElems S a.vals

def AllOpt {α : Type} (f : α → Prop) (x : Option α) : Prop := ∀ a, x = some a → f a

/-- The text of a signature as it is stored. -/
def sigString (text : Str) : Bytes := text.foldl JType.pushChar []

def AllFieldAttr : FieldAttr → Prop
  | .signature s => S (sigString (showR s))
  | .constantValue k => AllConst S k
  | .visible as => ∀ a ∈ as, AllAnn S a
  | .invisible as => ∀ a ∈ as, AllAnn S a
  | .visibleType as => ∀ a ∈ as, AllTypeAnn S a
  | .invisibleType as => ∀ a ∈ as, AllTypeAnn S a
  | .raw a => S a.name
  | _ => True

def AllField (f : Field) : Prop := S f.name ∧ S f.descriptor.toWtf8 ∧ ∀ a ∈ f.attrs, AllFieldAttr S a

def AllModule (m : Module) : Prop := S m.name ∧ AllOpt S m.version ∧
  (∀ r ∈ m.requires, S r.module_ ∧ AllOpt S r.version) ∧
  (∀ e ∈ m.exports, S e.package ∧ ∀ s ∈ e.to, S s) ∧ (∀ e ∈ m.opens, S e.package ∧ ∀ s ∈ e.to, S s) ∧
  (∀ s ∈ m.uses, S s) ∧ ∀ p ∈ m.provides, S p.cls ∧ ∀ s ∈ p.with_, S s

/-- Without the entries of `BootstrapMethods`. -/
def AllClassAttr : ClassAttr → Prop
  | .signature s => S (sigString (showClass s))
  | .sourceFile s => S s
  | .innerClasses xs => ∀ x ∈ xs, S x.inner ∧ AllOpt S x.outer ∧ AllOpt S x.name
  | .enclosingMethod s m => S s ∧ AllOpt (fun p => S p.1 ∧ S (JType.display p.2)) m
  | .module_ m => AllModule S m
  | .modulePackages ss | .nestMembers ss => ∀ s ∈ ss, S s
  | .mainClass s | .nestHost s => S s
  | .visible as | .invisible as => ∀ a ∈ as, AllAnn S a
  | .visibleType as => ∀ a ∈ as, AllTypeAnn S a
  | .invisibleType as => ∀ a ∈ as, AllTypeAnn S a
  | .raw a => S a.name
  | _ => True

def AllVar (v : LocalVariable) : Prop := S v.name ∧ AllOpt (fun t => S (JType.toWtf8 t)) v.descriptor ∧
  AllOpt (fun s => S (sigString (showR s))) v.signature

def AllCodeAttr : CodeAttribute → Prop
  | .visibleType as => ∀ a ∈ as, AllTypeAnn S a
  | .invisibleType as => ∀ a ∈ as, AllTypeAnn S a
  | .locals vs => ∀ v ∈ vs, AllVar S v
  | .raw a => S a.name

def AllCode (x : Code) : Prop := (∀ i ∈ x.code, AllInsn S i) ∧ (∀ k ∈ x.catches, AllOpt S k.ty) ∧
  ∀ a ∈ x.attrs, AllCodeAttr S a

def AllMethodAttr : MethodAttr → Prop
  | .code x => AllCode S x
  | .signature s => S (sigString (showMethod s))
  | .visible as | .invisible as => ∀ a ∈ as, AllAnn S a
  | .visibleType as => ∀ a ∈ as, AllTypeAnn S a
  | .invisibleType as => ∀ a ∈ as, AllTypeAnn S a
  | .visibleParams ps | .invisibleParams ps => ∀ as ∈ ps, ∀ a ∈ as, AllAnn S a
  | .exceptions ss => ∀ s ∈ ss, S s
  | .annotationDefault v => AllValue S v
  | .methodParameters ps => ∀ p ∈ ps, AllOpt S p.name
  | .raw a => S a.name
  | _ => True

def AllMethod (m : Method) : Prop := S m.name ∧ S m.descriptor.toWtf8 ∧ ∀ a ∈ m.attrs, AllMethodAttr S a

/-- All strings of a class, together with those of its bootstrap methods. -/
structure AllClass (x : Class) : Prop where
  name : S x.name
  superName : AllOpt S x.superName
  interfaces : ∀ s ∈ x.interfaces, S s
  fields : ∀ f ∈ x.fields, AllField S f
  methods : ∀ m ∈ x.methods, AllMethod S m
  attrs : ∀ a ∈ x.attrs, AllClassAttr S a
  table : ∀ b ∈ usedBsms x, AllBsm S b

/-- Strings made of code points. A surrogate may be encoded with any last byte, as in what the reader of a
pool returns (C02). -/
def Legible (s : Bytes) : Prop := ∃ cs, LooseEnc cs s

/-- All strings of a class that are written are legible. -/
structure LegibleClass (x : Class) : Prop where
  all : AllClass Legible x
  debug : ∀ s, .debugExtension s ∈ x.attrs → Legible s

/-- Strings that a constant pool can hold (JVMS 4.4.7; C12). -/
def Fitting (s : Bytes) : Prop := ∃ v, HasUtf16 s v ∧ (mutf8 v).length < 65536

end Verif.Spec
