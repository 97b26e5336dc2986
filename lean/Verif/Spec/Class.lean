import Verif.Spec.Code
import Verif.Model.Class

/-! # Methods and classes (JVMS 4.1, 4.6)

Methods and classes are described for any description `C` of method bodies with a layout. -/

namespace Verif.Spec
open Fmt

variable {C : Type}

/-! ## Layouts -/

/-- The attributes of a method (JVMS table 4.7-C). -/
def methodAttr (code : Fmt C) : Fmt (MethodAttrOf C)
  | c, .code x, bs => attr N.code code c x bs
  | c, .deprecated, bs => attr N.deprecated unit c () bs
  | c, .synthetic, bs => attr N.synthetic unit c () bs
  | c, .signature s, bs => attr N.signature (sig MethodText) c s bs
  | c, .visible as, bs => attr N.runtimeVisibleAnnotations (table2 annotation) c as bs
  | c, .invisible as, bs => attr N.runtimeInvisibleAnnotations (table2 annotation) c as bs
  | c, .visibleType as, bs =>
    attr N.runtimeVisibleTypeAnnotations (table2 (typeAnnotation methodTarget)) c as bs
  | c, .invisibleType as, bs =>
    attr N.runtimeInvisibleTypeAnnotations (table2 (typeAnnotation methodTarget)) c as bs
  | c, .visibleParams ps, bs =>
    attr N.runtimeVisibleParameterAnnotations (table1 (table2 annotation)) c ps bs
  | c, .invisibleParams ps, bs =>
    attr N.runtimeInvisibleParameterAnnotations (table1 (table2 annotation)) c ps bs
  | c, .exceptions cs, bs => attr N.exceptions (table2 cls) c cs bs
  | c, .annotationDefault v, bs => attr N.annotationDefault (fun c v bs => value c v bs) c v bs
  | c, .methodParameters ps, bs => attr N.methodParameters (table1 methodParameter) c ps bs
  | c, .raw a, bs => attr a.name bytes c a.inner bs

/-- JVMS 4.6. -/
def method (code : Fmt C) : Fmt (MethodOf C) := struct [on MethodOf.access (flags .method),
  on MethodOf.name utf8, on MethodOf.descriptor descr, on MethodOf.attrs (table2 (methodAttr code))]

/-- Everything after the constant pool (JVMS 4.1). -/
def classBody (code : Fmt C) : Fmt (ClassOf C) := struct [on ClassOf.access (flags .cls),
  on ClassOf.name cls, on ClassOf.superName clsOpt, on ClassOf.interfaces (table2 cls),
  on ClassOf.fields (table2 field), on ClassOf.methods (table2 (method code)),
  on ClassOf.attrs (table2 classAttr)]

/-- The bootstrap methods of a class: the table of its attribute `BootstrapMethods`. The JVMS allows one
such attribute; of several the first is meant. -/
def bsmTable (as : List ClassAttr) : List Bsm :=
  (as.findSome? fun
    | .bootstrapMethods ms => some ms
    | _ => none).getD []

/-- A class file (JVMS 4.1). -/
def classFile (code : Fmt C) (x : ClassOf C) (bs : Bytes) : Prop :=
  ∃ (es : List Entry) (P : Pool) (pool body : Bytes), PoolBytes es pool ∧
    (∀ i e, P i = some e ↔ At es i.toNat e) ∧
    classBody code ⟨P, bsmTable x.attrs, fun _ => none, fun _ => none⟩ x body ∧
    bs = U4 0xCAFEBABE ++ (U2 x.version.minor.toNat ++ U2 (majorNumber x.version.major)) ++ pool ++ body

/-! ## What is asked of a value -/

def methodAttrNames : List Bytes := [N.code, N.deprecated, N.synthetic, N.signature,
  N.runtimeVisibleAnnotations, N.runtimeInvisibleAnnotations, N.runtimeVisibleTypeAnnotations,
  N.runtimeInvisibleTypeAnnotations, N.runtimeVisibleParameterAnnotations,
  N.runtimeInvisibleParameterAnnotations, N.exceptions, N.annotationDefault, N.methodParameters]

/-- In addition to C43: only exceptions that are classes are declared in signatures (C19). -/
def _root_.Verif.MethodAttrOf.Readable (ok : C → Prop) : MethodAttrOf C → Prop
  | .code x => ok x
  | .signature s => SingleBounds s.typeParams ∧ ∀ n, ThrowsSig.typeParam n ∉ s.throws
  | .visible as => ∀ a ∈ as, Keyed a.vals
  | .invisible as => ∀ a ∈ as, Keyed a.vals
  | .visibleType as => ∀ a ∈ as, Keyed a.vals
  | .invisibleType as => ∀ a ∈ as, Keyed a.vals
  | .visibleParams ps => ∀ as ∈ ps, ∀ a ∈ as, Keyed a.vals
  | .invisibleParams ps => ∀ as ∈ ps, ∀ a ∈ as, Keyed a.vals
  | .annotationDefault v => Distinct v
  | .raw a => a.name ∉ methodAttrNames
  | _ => True

def _root_.Verif.MethodAttrOf.Writable (ok : C → Prop) : MethodAttrOf C → Prop
  | .code x => ok x
  | .signature s => SigText MethodText s ∧ ∀ n, ThrowsSig.typeParam n ∉ s.throws
  | .visible as => ∀ a ∈ as, AnnWritable a
  | .invisible as => ∀ a ∈ as, AnnWritable a
  | .visibleType as => ∀ a ∈ as, TypeAnnWritable a
  | .invisibleType as => ∀ a ∈ as, TypeAnnWritable a
  | .visibleParams ps => ∀ as ∈ ps, ∀ a ∈ as, AnnWritable a
  | .invisibleParams ps => ∀ as ∈ ps, ∀ a ∈ as, AnnWritable a
  | .annotationDefault v => Expressible true v
  | .methodParameters ps => ∀ p ∈ ps, KnownFlags p.access
  | _ => True

def _root_.Verif.MethodOf.Readable (ok : C → Prop) (m : MethodOf C) : Prop := ∀ a ∈ m.attrs, a.Readable ok

def _root_.Verif.MethodOf.Writable (ok : C → Prop) (m : MethodOf C) : Prop :=
  KnownFlags m.access ∧ IsDescriptor m.descriptor ∧ ∀ a ∈ m.attrs, a.Writable ok

/-- The table of the class has at most 65535 entries by its layout. -/
structure _root_.Verif.ClassOf.Readable (ok : C → Prop) (x : ClassOf C) : Prop where
  fields : ∀ f ∈ x.fields, ∀ a ∈ f.attrs, a.Readable
  methods : ∀ m ∈ x.methods, m.Readable ok
  attrs : ∀ a ∈ x.attrs, a.Readable

/-! ## Equality up to method bodies -/

def SameAttr {D : Type} (R : C → D → Prop) : MethodAttrOf C → MethodAttrOf D → Prop
  | .code x, .code y => R x y
  | .deprecated, .deprecated => True
  | .synthetic, .synthetic => True
  | .signature s, .signature t => s = t
  | .visible as, .visible bs => as = bs
  | .invisible as, .invisible bs => as = bs
  | .visibleType as, .visibleType bs => as = bs
  | .invisibleType as, .invisibleType bs => as = bs
  | .visibleParams ps, .visibleParams qs => ps = qs
  | .invisibleParams ps, .invisibleParams qs => ps = qs
  | .exceptions cs, .exceptions ds => cs = ds
  | .annotationDefault v, .annotationDefault w => v = w
  | .methodParameters ps, .methodParameters qs => ps = qs
  | .raw a, .raw b => a = b
  | _, _ => False

structure SameMethod {D : Type} (R : C → D → Prop) (x : MethodOf C) (y : MethodOf D) : Prop where
  access : y.access = x.access
  name : y.name = x.name
  descriptor : y.descriptor = x.descriptor
  attrs : Matched (SameAttr R) x.attrs y.attrs

/-- `T` completes the dynamic arguments in the table of `y`. -/
structure SameClass (T : List Bsm) (R : C → Code → Prop) (x : ClassOf C) (y : Class) : Prop where
  version : y.version = x.version
  access : y.access = x.access
  name : y.name = x.name
  superName : y.superName = x.superName
  interfaces : y.interfaces = x.interfaces
  fields : y.fields = x.fields
  methods : Matched (SameMethod R) x.methods y.methods
  attrs : y.attrs.map (resolveClassAttr T) = x.attrs

/-! ## Bodies of any origin -/

/-- A method body in a class file: what it says, with the positions of the labels and the numbers of the
handlers, the code array, and the instructions with their positions. -/
structure PlacedBody where
  body : Body
  pos : Label → Option Nat
  handler : Catch → Option Nat
  code : Bytes
  insns : List (Nat × Insn)

def PlacedBody.ctx (x : PlacedBody) (c : Ctx) : Ctx := ⟨c.pool, c.bsm, x.pos, x.handler⟩

/-- The body is laid out as its code array and its positions say, and fit to be read (C52). -/
def placedBody : Fmt PlacedBody := fun c x bs =>
  bodyWith x.code (x.ctx c) x.body bs ∧ Positioned (x.ctx c) 0 x.body.code x.code x.insns ∧
    x.body.Ok (x.ctx c) x.code.length x.insns

/-- `y` says what the body says, with the bootstrap table `T`. The pool does not matter for this. -/
def Reproduces (T : List Bsm) (x : PlacedBody) (y : Code) : Prop :=
  ∃ ν ρ, Describes ⟨fun _ => none, T, x.pos, x.handler⟩ x.code.length x.body x.insns ν ρ y

/-! ## Dynamic constants and call sites -/

def orDynamics {α : Type} : OrDynamic α → List Dynamic
  | .dynamic d => [d]
  | .static _ => []

/-- The dynamic constant or call site that is written with an instruction. (Nothing is written for
`newArray`, C34.) -/
def insnDynamics : Insn → List Dynamic
  | .push x => orDynamics x
  | .checkCast x => orDynamics x
  | .instanceOf x => orDynamics x
  | .new x => orDynamics x
  | .field _ _ x => orDynamics x
  | .invokeExact _ x => orDynamics x
  | .invokeSpecial x => orDynamics x
  | .invokeDynamic d => [d]
  | .invokeInterface x _ => orDynamics x
  | _ => []

def attrDynamics : MethodAttr → List Dynamic
  | .code x => x.code.flatMap insnDynamics
  | _ => []

/-- All uses in a class, in order. -/
def classDynamics (x : Class) : List Dynamic :=
  x.methods.flatMap fun m => m.attrs.flatMap attrDynamics

/-- The bootstrap method of a dynamic constant, if it has been given one. -/
def ownBsm (d : Dynamic) : List Bsm :=
  match d.bsm with
  | .filled h as => [⟨h, as⟩]
  | .pending _ => []

def isBootstrap : ClassAttr → Bool
  | .bootstrapMethods _ => true
  | _ => false

/-- The entries of all attributes `BootstrapMethods` of a class, in order. -/
def givenBsms (as : List ClassAttr) : List Bsm := as.flatMap fun
  | .bootstrapMethods ms => ms
  | _ => []

/-- The bootstrap methods of a class: the entries it has, and one more for every use. -/
def usedBsms (x : Class) : List Bsm := givenBsms x.attrs ++ (classDynamics x).flatMap ownBsm

/-- The bootstrap methods of the arguments of a bootstrap method. -/
def argBsms (b : Bsm) : List Bsm := b.arguments.flatMap fun a => (orDynamics a.toOrDynamic).flatMap ownBsm

/-- Bootstrap methods, then those of their arguments, and so on `n` times. -/
def rounds : Nat → List Bsm → List Bsm
  | 0, _ => []
  | n + 1, ts => ts ++ rounds n (ts.flatMap argBsms)

/-- The bootstrap table that is written for a class. There are at most as many rounds as there are bootstrap
methods in bootstrap methods. -/
def writtenBsms (x : Class) : List Bsm := rounds (bsmNodes (usedBsms x)) (usedBsms x)

/-- The class with this table, as its last attribute. -/
def withTable (x : Class) : Class :=
  { x with attrs := x.attrs.filter (fun a => !isBootstrap a) ++
      if (usedBsms x).isEmpty then [] else [.bootstrapMethods (writtenBsms x)] }

/-- The bootstrap methods of arguments, in order, are the first entries of the table. This is so when no
argument is dynamic. -/
def Ordered (ts : List Bsm) : Prop := ts.flatMap argBsms <+: ts

/-- Classes for which C47 is proved: the parts are writable, tables have no more than 65535 entries, the
number of attributes is the number that is written, and bootstrap methods of arguments come first in the
bootstrap table. -/
structure _root_.Verif.ClassOf.Writable (x : Class) : Prop where
  access : KnownFlags x.access
  interfaces : x.interfaces.length < 65536
  fields : x.fields.length < 65536 ∧ ∀ f ∈ x.fields, f.Writable
  methods : x.methods.length < 65536 ∧ ∀ m ∈ x.methods,
    m.Writable fun b => CodeWritable b ∧ Compact b.code
  attrs : x.attrs.length < 65536 ∧ ∀ a ∈ x.attrs, a.Writable
  count : (x.attrs.filter isBootstrap).length = if (usedBsms x).isEmpty then 0 else 1
  table : (writtenBsms x).length < 65536 ∧ ∀ b ∈ writtenBsms x, BsmWritable b
  ordered : Ordered (usedBsms x)

end Verif.Spec
