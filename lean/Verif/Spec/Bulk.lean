import Verif.Model.Class

/-! # How much a class holds

An upper bound for what the values of the library hold: every node of a tree counts one, every string one
and its bytes (a char of a signature counts four, the most that it takes in UTF-8), every list one and its
elements. Numbers, flags and labels are part of the node that they are in. -/

namespace Verif.Spec
open Verif

/-- A list. -/
def bulkL {α : Type} (f : α → Nat) : List α → Nat
  | [] => 1
  | a :: as => f a + bulkL f as

/-- An optional part. -/
def bulkO {α : Type} (f : α → Nat) : Option α → Nat
  | none => 0
  | some a => f a

/-- A string. -/
def bulkS (s : Bytes) : Nat := 1 + s.length

/-- A string of a signature. -/
def bulkT (s : Str) : Nat := 1 + 4 * s.length

mutual
def bulkType : JType → Nat
  | .byte | .char | .double | .float | .int | .long | .boolean | .short => 1
  | .ref name => 1 + bulkS name
  | .array _ t => 1 + bulkType t
  | .method ps ret => 1 + bulkTypes ps + match ret with
    | none => 0
    | some t => bulkType t
def bulkTypes : List JType → Nat
  | [] => 1
  | t :: ts => bulkType t + bulkTypes ts
end

mutual
def bulkTySig : TypeSig → Nat
  | .byte | .char | .double | .float | .int | .long | .boolean | .short => 1
  | .ref r => 1 + bulkRef r
def bulkRef : RefSig → Nat
  | .typeVar n => 1 + bulkT n
  | .array _ t => 1 + bulkTySig t
  | .cls c => 1 + bulkClsSig c
def bulkClsSig : ClassTySig → Nat
  | .mk ps n ss => 1 + bulkL bulkT ps + bulkSimple n + bulkSimples ss
def bulkSimple : SimpleSig → Nat
  | .mk n as => 1 + bulkT n + bulkArgs as
def bulkSimples : List SimpleSig → Nat
  | [] => 1
  | s :: ss => bulkSimple s + bulkSimples ss
def bulkTyArg : TypeArg → Nat
  | .ext r => 1 + bulkRef r
  | .sup r => 1 + bulkRef r
  | .exact r => 1 + bulkRef r
  | .any => 1
def bulkArgs : List TypeArg → Nat
  | [] => 1
  | a :: as => bulkTyArg a + bulkArgs as
end

def bulkParam (p : TypeParam) : Nat :=
  1 + bulkT p.name + bulkO bulkRef p.classBound + bulkL bulkRef p.interfaceBounds

def bulkThrows : ThrowsSig → Nat
  | .typeParam n => 1 + bulkT n
  | .cls c => 1 + bulkClsSig c

def bulkMethodSig (s : MethodSig) : Nat :=
  1 + bulkL bulkParam s.typeParams + bulkL bulkTySig s.params + bulkO bulkTySig s.ret + bulkL bulkThrows s.throws

def bulkClassSig (s : ClassSig) : Nat :=
  1 + bulkL bulkParam s.typeParams + bulkClsSig s.superClass + bulkL bulkClsSig s.interfaces

def bulkMember (m : MemberRef) : Nat := 1 + bulkS m.owner + bulkS m.name + bulkType m.descriptor

def bulkHandle (h : MethodHandle) : Nat := 1 + bulkMember h.member

def bulkConst : Constant → Nat
  | .i32 _ | .f32 _ | .i64 _ | .f64 _ => 1
  | .string s => 1 + bulkS s
  | .cls s => 1 + bulkS s
  | .member m => 1 + bulkMember m
  | .methodType t => 1 + bulkType t
  | .methodHandle h => 1 + bulkHandle h

mutual
/-- What a cell refers to is held once, by the table of bootstrap methods: a class that was read has only
cells of the first kind (`Class.read`). -/
def bulkCell : Cell → Nat
  | .pending _ => 1
  | .filled h as => 1 + bulkHandle h + bulkCellArgs as
def bulkArg : Arg → Nat
  | .dynamic c n t => 1 + bulkCell c + bulkS n + bulkType t
  | .static c => 1 + bulkConst c
def bulkCellArgs : List Arg → Nat
  | [] => 1
  | a :: as => bulkArg a + bulkCellArgs as
end

def bulkBsm (b : Bsm) : Nat := 1 + bulkHandle b.handle + bulkL bulkArg b.arguments

def bulkDynamic (d : Dynamic) : Nat := 1 + bulkCell d.bsm + bulkS d.name + bulkType d.descriptor

def bulkOrDyn {α : Type} (f : α → Nat) : OrDynamic α → Nat
  | .dynamic d => 1 + bulkDynamic d
  | .static a => 1 + f a

def bulkClassType : ClassType → Nat
  | .object s => 1 + bulkS s
  | .array _ t => 1 + bulkType t

def bulkInsn : Insn → Nat
  | .push c => 1 + bulkOrDyn bulkConst c
  | .checkCast t => 1 + bulkOrDyn bulkClassType t
  | .instanceOf t => 1 + bulkOrDyn bulkClassType t
  | .newArray t _ => 1 + bulkOrDyn bulkType t
  | .new c => 1 + bulkOrDyn bulkS c
  | .field _ _ m => 1 + bulkOrDyn bulkMember m
  | .invokeExact _ m => 1 + bulkOrDyn bulkMember m
  | .invokeSpecial m => 1 + bulkOrDyn bulkMember m
  | .invokeDynamic d => 1 + bulkDynamic d
  | .invokeInterface m _ => 1 + bulkOrDyn bulkMember m
  | .tableSwitch _ _ ls => 2 + ls.length
  | .lookupSwitch _ t => 2 + t.length
  | _ => 1

mutual
def bulkValue : AnnValue → Nat
  | .string s => 1 + bulkS s
  | .enum t n => 1 + bulkType t + bulkS n
  | .cls t => 1 + bulkO bulkType t
  | .annotation t vs => 1 + bulkType t + bulkElems vs
  | .array vs => 1 + bulkValues vs
  | _ => 1
def bulkValues : List AnnValue → Nat
  | [] => 1
  | v :: vs => bulkValue v + bulkValues vs
def bulkElems : List (Bytes × AnnValue) → Nat
  | [] => 1
  | (k, v) :: es => bulkS k + bulkValue v + bulkElems es
end

def bulkAnn (a : Annotation) : Nat := 1 + bulkType a.ty + bulkElems a.vals

def bulkCatch (c : Catch) : Nat := 1 + bulkO bulkS c.ty

def bulkTarget : CodeTarget → Nat
  | .localVar ts => 2 + ts.length
  | .resourceVar ts => 2 + ts.length
  | .catchParam c => 1 + bulkCatch c
  | _ => 1

def bulkTyAnn {T : Type} (f : T → Nat) (a : TypeAnnotation T) : Nat :=
  2 + f a.target + a.path.length + bulkType a.ty + bulkElems a.vals

def bulkVar (v : LocalVariable) : Nat := 1 + bulkS v.name + bulkO bulkType v.descriptor + bulkO bulkRef v.signature

def bulkRaw (a : RawAttribute) : Nat := 1 + bulkS a.name + bulkS a.inner

def bulkCodeAttr : CodeAttribute → Nat
  | .visibleType as => 1 + bulkL (bulkTyAnn bulkTarget) as
  | .invisibleType as => 1 + bulkL (bulkTyAnn bulkTarget) as
  | .locals vs => 1 + bulkL bulkVar vs
  | .raw a => 1 + bulkRaw a

def bulkCode (c : Code) : Nat := 1 + bulkL bulkInsn c.code + bulkL bulkCatch c.catches + bulkL bulkCodeAttr c.attrs

def bulkMethodParam (p : MethodParameter) : Nat := 1 + bulkO bulkS p.name

def bulkMethodAttr : MethodAttr → Nat
  | .code x => 1 + bulkCode x
  | .deprecated => 1
  | .synthetic => 1
  | .signature s => 1 + bulkMethodSig s
  | .visible as => 1 + bulkL bulkAnn as
  | .invisible as => 1 + bulkL bulkAnn as
  | .visibleType as => 1 + bulkL (bulkTyAnn fun _ => 1) as
  | .invisibleType as => 1 + bulkL (bulkTyAnn fun _ => 1) as
  | .visibleParams ps => 1 + bulkL (bulkL bulkAnn) ps
  | .invisibleParams ps => 1 + bulkL (bulkL bulkAnn) ps
  | .exceptions cs => 1 + bulkL bulkS cs
  | .annotationDefault v => 1 + bulkValue v
  | .methodParameters ps => 1 + bulkL bulkMethodParam ps
  | .raw a => 1 + bulkRaw a

def bulkMethod (m : Method) : Nat := 1 + bulkS m.name + bulkType m.descriptor + bulkL bulkMethodAttr m.attrs

def bulkFieldAttr : FieldAttr → Nat
  | .deprecated => 1
  | .synthetic => 1
  | .signature s => 1 + bulkRef s
  | .constantValue c => 1 + bulkConst c
  | .visible as => 1 + bulkL bulkAnn as
  | .invisible as => 1 + bulkL bulkAnn as
  | .visibleType as => 1 + bulkL (bulkTyAnn fun _ => 1) as
  | .invisibleType as => 1 + bulkL (bulkTyAnn fun _ => 1) as
  | .raw a => 1 + bulkRaw a

def bulkField (f : Field) : Nat := 1 + bulkS f.name + bulkType f.descriptor + bulkL bulkFieldAttr f.attrs

def bulkRequire (r : Require) : Nat := 1 + bulkS r.module_ + bulkO bulkS r.version

def bulkProvide (p : Provide) : Nat := 1 + bulkS p.cls + bulkL bulkS p.with_

def bulkExport (e : Export) : Nat := 1 + bulkS e.package + bulkL bulkS e.to

def bulkModule (m : Module) : Nat :=
  1 + bulkS m.name + bulkO bulkS m.version + bulkL bulkRequire m.requires + bulkL bulkExport m.exports +
    bulkL bulkExport m.opens + bulkL bulkS m.uses + bulkL bulkProvide m.provides

def bulkInner (c : InnerClass) : Nat := 1 + bulkS c.inner + bulkO bulkS c.outer + bulkO bulkS c.name

def bulkClassAttr : ClassAttr → Nat
  | .signature s => 1 + bulkClassSig s
  | .synthetic => 1
  | .deprecated => 1
  | .sourceFile s => 1 + bulkS s
  | .innerClasses cs => 1 + bulkL bulkInner cs
  | .enclosingMethod c m => 1 + bulkS c + bulkO (fun p => bulkS p.1 + bulkType p.2) m
  | .debugExtension s => 1 + bulkS s
  | .bootstrapMethods bs => 1 + bulkL bulkBsm bs
  | .module_ m => 1 + bulkModule m
  | .modulePackages ps => 1 + bulkL bulkS ps
  | .mainClass c => 1 + bulkS c
  | .nestHost c => 1 + bulkS c
  | .nestMembers cs => 1 + bulkL bulkS cs
  | .visible as => 1 + bulkL bulkAnn as
  | .invisible as => 1 + bulkL bulkAnn as
  | .visibleType as => 1 + bulkL (bulkTyAnn fun _ => 1) as
  | .invisibleType as => 1 + bulkL (bulkTyAnn fun _ => 1) as
  | .raw a => 1 + bulkRaw a

def bulkClass (x : Class) : Nat :=
  1 + bulkS x.name + bulkO bulkS x.superName + bulkL bulkS x.interfaces + bulkL bulkField x.fields +
    bulkL bulkMethod x.methods + bulkL bulkClassAttr x.attrs

end Verif.Spec
