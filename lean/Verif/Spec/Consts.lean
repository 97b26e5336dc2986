import Verif.Spec.Strings

/-! # The constants of a class

A constant is described by its content instead of by indices, so that two constants are the same exactly when
they need only one entry of a constant pool (JVMS 4.4). `consts… x` lists the constants that are needed to write
`x`, with repetitions and in no particular order; `Fits… x` is what the class file format asks of `x` besides. -/

namespace Verif.Spec
open Sig

/-- A constant that is not dynamic. -/
inductive Sym where
  | utf8 (s : Bytes)
  | int (i : Int32)
  | float (f : F32)
  | long (l : Int64)
  | double (d : F64)
  | cls (s : Bytes)
  | str (s : Bytes)
  | mtype (s : Bytes)
  | module (s : Bytes)
  | package (s : Bytes)
  | nat (n d : Bytes)
  | field (o n d : Bytes)
  | method (o n d : Bytes)
  | imethod (o n d : Bytes)
  | handle (k : UInt8) (m : Sym)
  deriving DecidableEq

namespace Sym

/-- The number of indices a constant takes up (JVMS 4.4.5). -/
def slots : Sym → Nat
  | .long _ => 2
  | .double _ => 2
  | _ => 1

/-- A constant with all constants it is made of. -/
def all : Sym → List Sym
  | .cls s => [.utf8 s, .cls s]
  | .str s => [.utf8 s, .str s]
  | .mtype s => [.utf8 s, .mtype s]
  | .module s => [.utf8 s, .module s]
  | .package s => [.utf8 s, .package s]
  | .nat n d => [.utf8 n, .utf8 d, .nat n d]
  | .field o n d => [.utf8 o, .cls o, .utf8 n, .utf8 d, .nat n d, .field o n d]
  | .method o n d => [.utf8 o, .cls o, .utf8 n, .utf8 d, .nat n d, .method o n d]
  | .imethod o n d => [.utf8 o, .cls o, .utf8 n, .utf8 d, .nat n d, .imethod o n d]
  | .handle k m => m.all ++ [.handle k m]
  | s => [s]

end Sym

/-- `i` is the index of a string, of a class, of a name with a descriptor. -/
def TextAt (es : List Entry) (i : UInt16) (s : Bytes) : Prop := At es i.toNat (.utf8 s)
def ClassAt (es : List Entry) (i : UInt16) (s : Bytes) : Prop :=
  ∃ j : UInt16, TextAt es j s ∧ At es i.toNat (.cls j)
def NatAt (es : List Entry) (i : UInt16) (n d : Bytes) : Prop :=
  ∃ j k : UInt16, TextAt es j n ∧ TextAt es k d ∧ At es i.toNat (.nat j k)

/-- The entry `i` of a pool with these entries is this constant. -/
def Sym.Is (es : List Entry) (i : UInt16) : Sym → Prop
  | .utf8 s => TextAt es i s
  | .int x => At es i.toNat (.int x)
  | .float x => At es i.toNat (.float x)
  | .long x => At es i.toNat (.long x)
  | .double x => At es i.toNat (.double x)
  | .cls s => ClassAt es i s
  | .str s => ∃ j : UInt16, TextAt es j s ∧ At es i.toNat (.str j)
  | .mtype s => ∃ j : UInt16, TextAt es j s ∧ At es i.toNat (.mtype j)
  | .module s => ∃ j : UInt16, TextAt es j s ∧ At es i.toNat (.module j)
  | .package s => ∃ j : UInt16, TextAt es j s ∧ At es i.toNat (.package j)
  | .nat n d => NatAt es i n d
  | .field o n d => ∃ c t : UInt16, ClassAt es c o ∧ NatAt es t n d ∧ At es i.toNat (.field c t)
  | .method o n d => ∃ c t : UInt16, ClassAt es c o ∧ NatAt es t n d ∧ At es i.toNat (.method c t)
  | .imethod o n d => ∃ c t : UInt16, ClassAt es c o ∧ NatAt es t n d ∧ At es i.toNat (.imethod c t)
  | .handle k m => ∃ j : UInt16, m.Is es j ∧ At es i.toNat (.handle k j)

/-- Dynamic constants and call sites. -/
def isDyn : Entry → Prop
  | .dyn _ _ => True
  | .indy _ _ => True
  | _ => False

instance : DecidablePred isDyn := fun e => by cases e <;> unfold isDyn <;> infer_instance

/-- How many of the entries are dynamic. -/
def dyns (es : List Entry) : Nat := (es.filter fun e => isDyn e).length

/-- The number of indices that some constants take up together. -/
def symSize (c : List Sym) : Nat := (c.map Sym.slots).sum

/-! ## Constants -/

def memberSym (m : MemberRef) : Sym :=
  if JType.isMethod m.descriptor then
    if m.itfs then .imethod m.owner m.name (JType.display m.descriptor)
    else .method m.owner m.name (JType.display m.descriptor)
  else .field m.owner m.name (JType.display m.descriptor)

def handleSym (h : MethodHandle) : Sym := .handle h.kind.toU8 (memberSym h.member)

def constSym : Constant → Sym
  | .i32 i => .int i
  | .f32 f => .float f
  | .i64 l => .long l
  | .f64 d => .double d
  | .string s => .str s
  | .cls s => .cls s
  | .member m => memberSym m
  | .methodType t => .mtype (JType.display t)
  | .methodHandle h => handleSym h

/-- The name and type of a dynamic constant; the constant itself is not a `Sym`. -/
def constsDyn (d : Dynamic) : List Sym := (Sym.nat d.name (JType.display d.descriptor)).all

def constsOr {α : Type} (f : α → List Sym) : OrDynamic α → List Sym
  | .dynamic d => constsDyn d
  | .static a => f a

/-- Constants for which there is an instruction that holds them (JVMS 6.5 `iconst`, `bipush`, `sipush`, `lconst`,
`fconst`, `dconst`). -/
def Inline : Constant → Prop
  | .i32 i => -32768 ≤ i.toInt ∧ i.toInt ≤ 32767
  | .i64 l => l = 0 ∨ l = 1
  | .f32 f => f.bits = 0 ∨ f.bits = 0x3F800000 ∨ f.bits = 0x40000000
  | .f64 d => d.bits = 0 ∨ d.bits = 0x3FF0000000000000
  | _ => False

instance : DecidablePred Inline := fun c => by cases c <;> unfold Inline <;> infer_instance

def constsInsn : Insn → List Sym
  | .push c => constsOr (fun k => if Inline k then [] else (constSym k).all) c
  | .checkCast t | .instanceOf t => constsOr (fun t => (Sym.cls t.toStr).all) t
  | .new t => constsOr (fun s => (Sym.cls s).all) t
  | .field _ _ m | .invokeExact _ m | .invokeSpecial m | .invokeInterface m _ =>
    constsOr (fun m => (memberSym m).all) m
  | .invokeDynamic d => constsDyn d
  | _ => []

def constsArg (a : Arg) : List Sym := constsOr (fun k => (constSym k).all) a.toOrDynamic

def constsBsm (b : Bsm) : List Sym := (handleSym b.handle).all ++ b.arguments.flatMap constsArg

def constsOpt {α : Type} (f : α → List Sym) : Option α → List Sym
  | none => []
  | some a => f a

/-! ## Annotations -/

mutual
def constsValue : AnnValue → List Sym
  | .byte x => [.int x.toInt32]
  | .char x => [.int (Int32.ofNat x.toNat)]
  | .double x => [.double x]
  | .float x => [.float x]
  | .int x => [.int x]
  | .long x => [.long x]
  | .short x => [.int x.toInt32]
  | .boolean x => [.int (if x then 1 else 0)]
  | .string s => [.utf8 s]
  | .enum t n => [.utf8 t.toWtf8, .utf8 n]
  | .cls none => [.utf8 [0x56]]
  | .cls (some t) => [.utf8 t.display]
  | .annotation t vs => .utf8 t.toWtf8 :: constsElems vs
  | .array vs => constsValues vs
def constsValues : List AnnValue → List Sym
  | [] => []
  | v :: vs => constsValue v ++ constsValues vs
def constsElems : List (Bytes × AnnValue) → List Sym
  | [] => []
  | (k, v) :: vs => .utf8 k :: (constsValue v ++ constsElems vs)
end

def constsAnn (a : Annotation) : List Sym := .utf8 a.ty.toWtf8 :: constsElems a.vals
def constsTypeAnn {T : Type} (a : TypeAnnotation T) : List Sym := .utf8 a.ty.toWtf8 :: constsElems a.vals

/-- A table of fewer than 65536 entries. -/
def Table {α : Type} (xs : List α) : Prop := xs.length < 65536

instance {α : Type} (xs : List α) : Decidable (Table xs) := by unfold Table; infer_instance

def FitsTypeAnns {T : Type} (as : List (TypeAnnotation T)) : Prop := Table as ∧ ∀ a ∈ as, a.path.length < 256

/-! ## Fields -/

def constsFieldAttr : FieldAttr → List Sym
  | .deprecated => [.utf8 N.deprecated]
  | .synthetic => [.utf8 N.synthetic]
  | .signature s => [.utf8 N.signature, .utf8 (sigString (showR s))]
  | .constantValue k => .utf8 N.constantValue :: (constSym k).all
  | .visible as => .utf8 N.runtimeVisibleAnnotations :: as.flatMap constsAnn
  | .invisible as => .utf8 N.runtimeInvisibleAnnotations :: as.flatMap constsAnn
  | .visibleType as => .utf8 N.runtimeVisibleTypeAnnotations :: as.flatMap constsTypeAnn
  | .invisibleType as => .utf8 N.runtimeInvisibleTypeAnnotations :: as.flatMap constsTypeAnn
  | .raw a => [.utf8 a.name]

def FitsFieldAttr : FieldAttr → Prop
  | .visible as => Table as
  | .invisible as => Table as
  | .visibleType as => FitsTypeAnns as
  | .invisibleType as => FitsTypeAnns as
  | _ => True

def constsField (f : Field) : List Sym :=
  .utf8 f.name :: .utf8 f.descriptor.toWtf8 :: f.attrs.flatMap constsFieldAttr

def FitsField (f : Field) : Prop := Table f.attrs ∧ ∀ a ∈ f.attrs, FitsFieldAttr a

/-! ## Bodies of methods -/

/-- In the code the label `s` is placed, and the label `t` after it or in the same place. -/
def Precedes (is : List Insn) (s t : Label) : Prop :=
  ∃ k m : Nat, is[k]? = some (.label s) ∧ is[m]? = some (.label t) ∧ k ≤ m

def constsVar (v : LocalVariable) : List Sym :=
  constsOpt (fun d => [.utf8 N.localVariableTable, .utf8 v.name, .utf8 (JType.toWtf8 d)]) v.descriptor ++
    constsOpt (fun g => [.utf8 N.localVariableTypeTable, .utf8 v.name, .utf8 (sigString (showR g))]) v.signature

def constsCodeAttr : CodeAttribute → List Sym
  | .visibleType as => .utf8 N.runtimeVisibleTypeAnnotations :: as.flatMap constsTypeAnn
  | .invisibleType as => .utf8 N.runtimeInvisibleTypeAnnotations :: as.flatMap constsTypeAnn
  | .locals vs => vs.flatMap constsVar
  | .raw a => [.utf8 a.name]

def FitsRanges (is : List Insn) (ts : List LocalVarTarget) : Prop :=
  Table ts ∧ ∀ t ∈ ts, Precedes is t.start t.stop

def FitsTarget (is : List Insn) : CodeTarget → Prop
  | .localVar ts => FitsRanges is ts
  | .resourceVar ts => FitsRanges is ts
  | t => ∀ l ∈ targetLabels t, .label l ∈ is

def FitsCodeAttr (is : List Insn) : CodeAttribute → Prop
  | .visibleType as => FitsTypeAnns as ∧ ∀ a ∈ as, FitsTarget is a.target
  | .invisibleType as => FitsTypeAnns as ∧ ∀ a ∈ as, FitsTarget is a.target
  | .locals vs => Table vs ∧ (∀ v ∈ vs, Precedes is v.start v.stop) ∧
      ∃ v ∈ vs, v.descriptor.isSome ∨ v.signature.isSome
  | .raw _ => True

/-- The number of attributes that are written for an attribute: variables may need two tables. -/
def attrCount : CodeAttribute → Nat
  | .locals vs => (if vs.any (fun v => v.descriptor.isSome) then 1 else 0) +
      if vs.any (fun v => v.signature.isSome) then 1 else 0
  | _ => 1

def constsCode (x : Code) : List Sym :=
  x.code.flatMap constsInsn ++ (x.catches.flatMap (fun k => constsOpt (fun s => (Sym.cls s).all) k.ty) ++
    x.attrs.flatMap constsCodeAttr)

/-- A dynamic constant that has a bootstrap method. -/
def Filled (d : Dynamic) : Prop := ∃ h as, d.bsm = .filled h as

structure FitsCode (x : Code) : Prop where
  dynamics : ∀ i ∈ x.code, ∀ d ∈ insnDynamics i, Filled d
  labels : (placed x.code).Nodup
  targets : ∀ i ∈ x.code, ∀ l ∈ targets i, .label l ∈ x.code
  size : (x.code.map room).sum < 65536
  tables : ∀ d low ls, Insn.tableSwitch d low ls ∈ x.code → ls ≠ [] ∧ low.toInt + ls.length ≤ 2 ^ 31
  catches : ∀ k ∈ x.catches, ∀ l ∈ catchLabels k, .label l ∈ x.code
  attrs : ∀ a ∈ x.attrs, FitsCodeAttr x.code a
  count : (x.attrs.map attrCount).sum < 65536

/-! ## Methods -/

def constsMethodAttr : MethodAttr → List Sym
  | .code x => .utf8 N.code :: constsCode x
  | .deprecated => [.utf8 N.deprecated]
  | .synthetic => [.utf8 N.synthetic]
  | .signature s => [.utf8 N.signature, .utf8 (sigString (showMethod s))]
  | .visible as => .utf8 N.runtimeVisibleAnnotations :: as.flatMap constsAnn
  | .invisible as => .utf8 N.runtimeInvisibleAnnotations :: as.flatMap constsAnn
  | .visibleType as => .utf8 N.runtimeVisibleTypeAnnotations :: as.flatMap constsTypeAnn
  | .invisibleType as => .utf8 N.runtimeInvisibleTypeAnnotations :: as.flatMap constsTypeAnn
  | .visibleParams ps => .utf8 N.runtimeVisibleParameterAnnotations :: ps.flatMap (fun as => as.flatMap constsAnn)
  | .invisibleParams ps => .utf8 N.runtimeInvisibleParameterAnnotations :: ps.flatMap (fun as => as.flatMap constsAnn)
  | .exceptions ss => .utf8 N.exceptions :: ss.flatMap (fun s => (Sym.cls s).all)
  | .annotationDefault v => .utf8 N.annotationDefault :: constsValue v
  | .methodParameters ps => .utf8 N.methodParameters :: ps.flatMap (fun p => constsOpt (fun s => [.utf8 s]) p.name)
  | .raw a => [.utf8 a.name]

def FitsMethodAttr : MethodAttr → Prop
  | .code x => FitsCode x
  | .visible as => Table as
  | .invisible as => Table as
  | .visibleType as => FitsTypeAnns as
  | .invisibleType as => FitsTypeAnns as
  | .visibleParams ps => ps.length < 256 ∧ ∀ as ∈ ps, Table as
  | .invisibleParams ps => ps.length < 256 ∧ ∀ as ∈ ps, Table as
  | .exceptions ss => Table ss
  | .methodParameters ps => ps.length < 256
  | _ => True

def constsMethod (m : Method) : List Sym :=
  .utf8 m.name :: .utf8 m.descriptor.toWtf8 :: m.attrs.flatMap constsMethodAttr

def FitsMethod (m : Method) : Prop := Table m.attrs ∧ ∀ a ∈ m.attrs, FitsMethodAttr a

/-! ## Classes -/

def constsModule (m : Module) : List Sym :=
  (Sym.module m.name).all ++ (constsOpt (fun s => [.utf8 s]) m.version ++
    (m.requires.flatMap (fun r => (Sym.module r.module_).all ++ constsOpt (fun s => [.utf8 s]) r.version) ++
    (m.exports.flatMap (fun e => (Sym.package e.package).all ++ e.to.flatMap (fun s => (Sym.module s).all)) ++
    (m.opens.flatMap (fun e => (Sym.package e.package).all ++ e.to.flatMap (fun s => (Sym.module s).all)) ++
    (m.uses.flatMap (fun s => (Sym.cls s).all) ++
    m.provides.flatMap (fun p => (Sym.cls p.cls).all ++ p.with_.flatMap (fun s => (Sym.cls s).all)))))))

def FitsModule (m : Module) : Prop := Table m.requires ∧ Table m.exports ∧ Table m.opens ∧ Table m.uses ∧
  Table m.provides ∧ (∀ e ∈ m.exports, Table e.to) ∧ (∀ e ∈ m.opens, Table e.to) ∧ ∀ p ∈ m.provides, Table p.with_

/-- `BootstrapMethods` is written apart. -/
def constsClassAttr : ClassAttr → List Sym
  | .signature s => [.utf8 N.signature, .utf8 (sigString (showClass s))]
  | .synthetic => [.utf8 N.synthetic]
  | .deprecated => [.utf8 N.deprecated]
  | .sourceFile s => [.utf8 N.sourceFile, .utf8 s]
  | .innerClasses xs => .utf8 N.innerClasses :: xs.flatMap (fun x => (Sym.cls x.inner).all ++
      (constsOpt (fun s => (Sym.cls s).all) x.outer ++ constsOpt (fun s => [.utf8 s]) x.name))
  | .enclosingMethod c m => .utf8 N.enclosingMethod :: ((Sym.cls c).all ++
      constsOpt (fun p => (Sym.nat p.1 (JType.display p.2)).all) m)
  | .debugExtension _ => [.utf8 N.sourceDebugExtension]
  | .bootstrapMethods _ => []
  | .module_ m => .utf8 N.module_ :: constsModule m
  | .modulePackages ss => .utf8 N.modulePackages :: ss.flatMap (fun s => (Sym.package s).all)
  | .mainClass s => .utf8 N.moduleMainClass :: (Sym.cls s).all
  | .nestHost s => .utf8 N.nestHost :: (Sym.cls s).all
  | .nestMembers ss => .utf8 N.nestMembers :: ss.flatMap (fun s => (Sym.cls s).all)
  | .visible as => .utf8 N.runtimeVisibleAnnotations :: as.flatMap constsAnn
  | .invisible as => .utf8 N.runtimeInvisibleAnnotations :: as.flatMap constsAnn
  | .visibleType as => .utf8 N.runtimeVisibleTypeAnnotations :: as.flatMap constsTypeAnn
  | .invisibleType as => .utf8 N.runtimeInvisibleTypeAnnotations :: as.flatMap constsTypeAnn
  | .raw a => [.utf8 a.name]

def FitsClassAttr : ClassAttr → Prop
  | .innerClasses xs => Table xs
  | .debugExtension s => Legible s
  | .module_ m => FitsModule m
  | .modulePackages ss => Table ss
  | .nestMembers ss => Table ss
  | .visible as => Table as
  | .invisible as => Table as
  | .visibleType as => FitsTypeAnns as
  | .invisibleType as => FitsTypeAnns as
  | _ => True

/-- All constants of a class. -/
def consts (x : Class) : List Sym :=
  (Sym.cls x.name).all ++ (constsOpt (fun s => (Sym.cls s).all) x.superName ++
    (x.interfaces.flatMap (fun s => (Sym.cls s).all) ++ (x.fields.flatMap constsField ++
    (x.methods.flatMap constsMethod ++ (x.attrs.flatMap constsClassAttr ++
    ((writtenBsms x).flatMap constsBsm ++ if (usedBsms x).isEmpty then [] else [.utf8 N.bootstrapMethods]))))))

/-- How often dynamic constants and call sites are used. -/
def dynamicUses (x : Class) : Nat :=
  (classDynamics x).length + ((writtenBsms x).flatMap fun b => b.arguments.flatMap fun a => orDynamics a.toOrDynamic).length

structure FitsClass (x : Class) : Prop where
  fields : ∀ f ∈ x.fields, FitsField f
  methods : ∀ m ∈ x.methods, FitsMethod m
  attrs : ∀ a ∈ x.attrs, FitsClassAttr a
  table : Table (writtenBsms x)
  arguments : ∀ b ∈ writtenBsms x, ∀ a ∈ b.arguments, ∀ d ∈ orDynamics a.toOrDynamic, Filled d
  tableSize : ((writtenBsms x).map fun b => 4 + 2 * b.arguments.length).sum + 2 < 2 ^ 32
  strings : ∀ s, .utf8 s ∈ consts x → Legible s

end Verif.Spec
