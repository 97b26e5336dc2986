import Verif.Spec.Tables

/-! # Equality of classes

What `==` says of two classes. Everything is compared part by part, except that two maps are equal if they have as many
entries and each entry of one is found in the other: the order in which a map lists its entries does not matter. There
are two kinds of maps: the elements of an annotation (`HashMap`) and the table of a `lookupswitch` (`IndexMap`). -/

namespace Verif.Spec
open Verif

mutual
/-- `AnnotationValue == AnnotationValue`. -/
def EqValue : AnnValue → AnnValue → Prop
  | .annotation t es, w => ∃ es', w = .annotation t es' ∧ es'.length = es.length ∧ EqEntries es es'
  | .array vs, w => ∃ vs', w = .array vs' ∧ EqValues vs vs'
  | v, w => w = v
def EqValues : List AnnValue → List AnnValue → Prop
  | [], ws => ws = []
  | v :: vs, ws => ∃ w ws', ws = w :: ws' ∧ EqValue v w ∧ EqValues vs ws'
/-- Each entry of the first map is found in the second one. -/
def EqEntries : List (Bytes × AnnValue) → List (Bytes × AnnValue) → Prop
  | [], _ => True
  | (k, v) :: es, m => (∃ w, m.lookup k = some w ∧ EqValue v w) ∧ EqEntries es m
end

/-- Equality of two maps. -/
def EqMap (es es' : Elems) : Prop := es'.length = es.length ∧ EqEntries es es'

structure EqAnn (a b : Annotation) : Prop where
  ty : b.ty = a.ty
  vals : EqMap a.vals b.vals

structure EqTypeAnn {T : Type} (a b : TypeAnnotation T) : Prop where
  target : b.target = a.target
  path : b.path = a.path
  ty : b.ty = a.ty
  vals : EqMap a.vals b.vals

inductive EqFieldAttr : FieldAttr → FieldAttr → Prop
  | visible {as bs} : Matched EqAnn as bs → EqFieldAttr (.visible as) (.visible bs)
  | invisible {as bs} : Matched EqAnn as bs → EqFieldAttr (.invisible as) (.invisible bs)
  | visibleType {as bs} : Matched EqTypeAnn as bs → EqFieldAttr (.visibleType as) (.visibleType bs)
  | invisibleType {as bs} : Matched EqTypeAnn as bs → EqFieldAttr (.invisibleType as) (.invisibleType bs)
  | same (a) : EqFieldAttr a a

structure EqField (f g : Field) : Prop where
  access : g.access = f.access
  name : g.name = f.name
  descriptor : g.descriptor = f.descriptor
  attrs : Matched EqFieldAttr f.attrs g.attrs

/-- The tables of two `lookupswitch` instructions are maps. -/
inductive EqInsn : Insn → Insn → Prop
  | lookup {d t t'} : t'.length = t.length → (∀ e ∈ t, t'.lookup e.1 = some e.2) →
      EqInsn (.lookupSwitch d t) (.lookupSwitch d t')
  | same (i) : EqInsn i i

inductive EqCodeAttr : CodeAttribute → CodeAttribute → Prop
  | visibleType {as bs} : Matched EqTypeAnn as bs → EqCodeAttr (.visibleType as) (.visibleType bs)
  | invisibleType {as bs} : Matched EqTypeAnn as bs → EqCodeAttr (.invisibleType as) (.invisibleType bs)
  | same (a) : EqCodeAttr a a

structure EqCode (x y : Code) : Prop where
  maxStack : y.maxStack = x.maxStack
  maxLocals : y.maxLocals = x.maxLocals
  code : Matched EqInsn x.code y.code
  catches : y.catches = x.catches
  attrs : Matched EqCodeAttr x.attrs y.attrs

inductive EqMethodAttr : MethodAttr → MethodAttr → Prop
  | code {x y} : EqCode x y → EqMethodAttr (.code x) (.code y)
  | visible {as bs} : Matched EqAnn as bs → EqMethodAttr (.visible as) (.visible bs)
  | invisible {as bs} : Matched EqAnn as bs → EqMethodAttr (.invisible as) (.invisible bs)
  | visibleType {as bs} : Matched EqTypeAnn as bs → EqMethodAttr (.visibleType as) (.visibleType bs)
  | invisibleType {as bs} : Matched EqTypeAnn as bs → EqMethodAttr (.invisibleType as) (.invisibleType bs)
  | visibleParams {ps qs} : Matched (Matched EqAnn) ps qs → EqMethodAttr (.visibleParams ps) (.visibleParams qs)
  | invisibleParams {ps qs} : Matched (Matched EqAnn) ps qs → EqMethodAttr (.invisibleParams ps) (.invisibleParams qs)
  | annotationDefault {v w} : EqValue v w → EqMethodAttr (.annotationDefault v) (.annotationDefault w)
  | same (a) : EqMethodAttr a a

structure EqMethod (m n : Method) : Prop where
  access : n.access = m.access
  name : n.name = m.name
  descriptor : n.descriptor = m.descriptor
  attrs : Matched EqMethodAttr m.attrs n.attrs

inductive EqClassAttr : ClassAttr → ClassAttr → Prop
  | visible {as bs} : Matched EqAnn as bs → EqClassAttr (.visible as) (.visible bs)
  | invisible {as bs} : Matched EqAnn as bs → EqClassAttr (.invisible as) (.invisible bs)
  | visibleType {as bs} : Matched EqTypeAnn as bs → EqClassAttr (.visibleType as) (.visibleType bs)
  | invisibleType {as bs} : Matched EqTypeAnn as bs → EqClassAttr (.invisibleType as) (.invisibleType bs)
  | same (a) : EqClassAttr a a

/-- `Class == Class`. -/
structure EqClass (x y : Class) : Prop where
  version : y.version = x.version
  access : y.access = x.access
  name : y.name = x.name
  superName : y.superName = x.superName
  interfaces : y.interfaces = x.interfaces
  fields : Matched EqField x.fields y.fields
  methods : Matched EqMethod x.methods y.methods
  attrs : Matched EqClassAttr x.attrs y.attrs

/-- No annotation of the class has more than one element. -/
def OneElement (x : Class) : Prop := ∀ p ∈ parts x, p.kind = .elements → p.count ≤ 1

/-- The tables of the `lookupswitch` instructions of a class are maps: no key occurs twice. -/
def TablesOnly (x : Class) : Prop := ∀ m ∈ x.methods, ∀ b : Code, .code b ∈ m.attrs →
  ∀ i ∈ b.code, match i with
    | .lookupSwitch _ t => (t.map Prod.fst).Nodup
    | _ => True

end Verif.Spec
