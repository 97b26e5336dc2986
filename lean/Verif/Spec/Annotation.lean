import Verif.Spec.Fmt
import Verif.Model.Annotation

/-! # Annotations (JVMS 4.7.16 – 4.7.20) -/

namespace Verif.Spec

namespace Fmt

/-- A byte that tells what follows. -/
def tagged {α : Type} (t : Nat) (f : Fmt α) : Fmt α := fun c x bs => ∃ b, bs = U1 t ++ b ∧ f c x b

/-- An index of an integer entry. -/
def integer : Fmt Int := index fun P i n => ∃ x : Int32, P i = some (.int x) ∧ x.toInt = n

/-- Two parts. -/
def pair {α β : Type} (f : Fmt α) (g : Fmt β) : Fmt (α × β) := fun c x bs =>
  ∃ b b', bs = b ++ b' ∧ f c x.1 b ∧ g c x.2 b'

/-- Nothing. -/
def unit : Fmt Unit := fun _ _ bs => bs = []

end Fmt

open Fmt

mutual

/-- `element_value` (JVMS 4.7.16.1). -/
def value (c : Ctx) : AnnValue → Bytes → Prop
  | .byte x, bs => tagged 0x42 integer c x.toInt bs
  | .char x, bs => tagged 0x43 integer c x.toNat bs
  | .double x, bs => tagged 0x44 (index fun P i x => P i = some (.double x)) c x bs
  | .float x, bs => tagged 0x46 (index fun P i x => P i = some (.float x)) c x bs
  | .int x, bs => tagged 0x49 integer c x.toInt bs
  | .long x, bs => tagged 0x4a (index fun P i x => P i = some (.long x)) c x bs
  | .short x, bs => tagged 0x53 integer c x.toInt bs
  | .boolean x, bs => tagged 0x5a integer c (if x then 1 else 0) bs
  | .string s, bs => tagged 0x73 utf8 c s bs
  | .enum t s, bs => tagged 0x65 (pair descr utf8) c (t, s) bs
  | .cls none, bs => tagged 0x63 utf8 c [0x56] bs
  | .cls (some t), bs => tagged 0x63 descr c t bs
  | .annotation t es, bs => ∃ b b', bs = U1 0x40 ++ b ++ U2 es.length ++ b' ∧ descr c t b ∧
      es.length < 65536 ∧ pairs c es b'
  | .array vs, bs => ∃ b, bs = U1 0x5b ++ U2 vs.length ++ b ∧ vs.length < 65536 ∧ values c vs b

def values (c : Ctx) : List AnnValue → Bytes → Prop
  | [], bs => bs = []
  | v :: vs, bs => ∃ b b', bs = b ++ b' ∧ value c v b ∧ values c vs b'

/-- `element_value_pairs`. -/
def pairs (c : Ctx) : List (Bytes × AnnValue) → Bytes → Prop
  | [], bs => bs = []
  | (k, v) :: es, bs => ∃ b b' b'', bs = b ++ b' ++ b'' ∧ utf8 c k b ∧ value c v b' ∧ pairs c es b''

end

/-- The number of pairs and the pairs. -/
def elems : Fmt Elems := fun c es bs => es.length < 65536 ∧ ∃ b, bs = U2 es.length ++ b ∧ pairs c es b

/-- `annotation` (JVMS 4.7.16). -/
def annotation : Fmt Annotation := struct [on Annotation.ty descr, on Annotation.vals elems]

mutual

/-- Every map in the value has distinct keys, as maps have. -/
def Distinct : AnnValue → Prop
  | .annotation _ es => (es.map Prod.fst).Nodup ∧ DistinctPairs es
  | .array vs => DistinctAll vs
  | _ => True

def DistinctAll : List AnnValue → Prop
  | [] => True
  | v :: vs => Distinct v ∧ DistinctAll vs

def DistinctPairs : List (Bytes × AnnValue) → Prop
  | [] => True
  | (_, v) :: es => Distinct v ∧ DistinctPairs es

end

/-- An element map is a map all of whose values hold maps. -/
def Keyed (es : Elems) : Prop := (es.map Prod.fst).Nodup ∧ DistinctPairs es

mutual

/-- Values a class file can hold: types have descriptors, class names are free of surrogates when
`plain`, and no list has more than 65535 entries. -/
def Expressible (plain : Bool) : AnnValue → Prop
  | .enum t _ => IsDescriptor t
  | .cls (some t) => IsDescriptor t ∧ (plain = true → Printable t)
  | .annotation t es => IsDescriptor t ∧ es.length < 65536 ∧ ExpressiblePairs plain es
  | .array vs => vs.length < 65536 ∧ ExpressibleAll plain vs
  | _ => True

def ExpressibleAll (plain : Bool) : List AnnValue → Prop
  | [] => True
  | v :: vs => Expressible plain v ∧ ExpressibleAll plain vs

def ExpressiblePairs (plain : Bool) : List (Bytes × AnnValue) → Prop
  | [] => True
  | (_, v) :: es => Expressible plain v ∧ ExpressiblePairs plain es

end

/-! ## Type annotations (JVMS 4.7.20) -/

/-- JVMS table 4.7.20-A. -/
def classTarget : Fmt ClassTarget
  | c, .typeParam i, bs => tagged 0x00 byte c i bs
  | c, .supertype i, bs => tagged 0x10 word c i bs
  | c, .bound i j, bs => tagged 0x11 (pair byte byte) c (i, j) bs

def methodTarget : Fmt MethodTarget
  | c, .typeParam i, bs => tagged 0x01 byte c i bs
  | c, .bound i j, bs => tagged 0x12 (pair byte byte) c (i, j) bs
  | c, .ret, bs => tagged 0x14 unit c () bs
  | c, .receiver, bs => tagged 0x15 unit c () bs
  | c, .param i, bs => tagged 0x16 byte c i bs
  | c, .throws i, bs => tagged 0x17 word c i bs

def fieldTarget : Fmt FieldTarget
  | c, .field, bs => tagged 0x13 unit c () bs

/-- JVMS 4.7.20.1 `localvar_target`: start, length, index of the variable. -/
def localTarget : Fmt LocalVarTarget := fun c t bs =>
  ∃ s e, c.pos t.start = some s ∧ c.pos t.stop = some e ∧ s ≤ e ∧ e < 65536 ∧
    bs = U2 s ++ U2 (e - s) ++ U2 t.idx.toNat

/-- The index of a handler in the exception table. -/
def catchIndex : Fmt Catch := fun c k bs => ∃ n, c.handler k = some n ∧ n < 65536 ∧ bs = U2 n

/-- JVMS table 4.7.20-B. -/
def codeTarget : Fmt CodeTarget
  | c, .localVar ts, bs => tagged 0x40 (table2 localTarget) c ts bs
  | c, .resourceVar ts, bs => tagged 0x41 (table2 localTarget) c ts bs
  | c, .catchParam k, bs => tagged 0x42 catchIndex c k bs
  | c, .instanceOf l, bs => tagged 0x43 label c l bs
  | c, .new l, bs => tagged 0x44 label c l bs
  | c, .newRef l, bs => tagged 0x45 label c l bs
  | c, .methodRef l, bs => tagged 0x46 label c l bs
  | c, .cast l i, bs => tagged 0x47 (pair label byte) c (l, i) bs
  | c, .newArg l i, bs => tagged 0x48 (pair label byte) c (l, i) bs
  | c, .methodArg l i, bs => tagged 0x49 (pair label byte) c (l, i) bs
  | c, .newRefArg l i, bs => tagged 0x4a (pair label byte) c (l, i) bs
  | c, .methodRefArg l i, bs => tagged 0x4b (pair label byte) c (l, i) bs

/-- JVMS 4.7.20.2: kind and argument. -/
def pathStep : Fmt PathStep
  | c, .array i, bs => tagged 0 byte c i bs
  | c, .nested i, bs => tagged 1 byte c i bs
  | c, .bound i, bs => tagged 2 byte c i bs
  | c, .arg i, bs => tagged 3 byte c i bs

def typeAnnotation {T : Type} (f : Fmt T) : Fmt (TypeAnnotation T) :=
  struct [on TypeAnnotation.target f, on TypeAnnotation.path (table1 pathStep),
    on TypeAnnotation.ty descr, on TypeAnnotation.vals elems]

/-- The labels of a target. -/
def targetLabels : CodeTarget → List Label
  | .localVar ts | .resourceVar ts => ts.flatMap fun t => [t.start, t.stop]
  | .catchParam _ => []
  | .instanceOf l | .new l | .newRef l | .methodRef l => [l]
  | .cast l _ | .newArg l _ | .methodArg l _ | .newRefArg l _ | .methodRefArg l _ => [l]

/-- Renaming of labels and handlers. -/
def renTarget (f : Label → Label) (g : Catch → Catch) : CodeTarget → CodeTarget
  | .localVar ts => .localVar (ts.map fun t => ⟨f t.start, f t.stop, t.idx⟩)
  | .resourceVar ts => .resourceVar (ts.map fun t => ⟨f t.start, f t.stop, t.idx⟩)
  | .catchParam k => .catchParam (g k)
  | .instanceOf l => .instanceOf (f l)
  | .new l => .new (f l)
  | .newRef l => .newRef (f l)
  | .methodRef l => .methodRef (f l)
  | .cast l i => .cast (f l) i
  | .newArg l i => .newArg (f l) i
  | .methodArg l i => .methodArg (f l) i
  | .newRefArg l i => .newRefArg (f l) i
  | .methodRefArg l i => .methodRefArg (f l) i

end Verif.Spec

namespace Verif
open Spec

/-- Type annotations whose parts can be expressed. -/
structure TypeAnnOk {T : Type} (a : TypeAnnotation T) : Prop where
  ty : IsDescriptor a.ty
  len : a.vals.length < 65536
  vals : ExpressiblePairs true a.vals

def targetCatches : CodeTarget → List Catch
  | .catchParam k => [k]
  | _ => []

end Verif
