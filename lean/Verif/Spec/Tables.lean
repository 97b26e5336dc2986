import Verif.Spec.Consts

/-! # The tables of a class

Every list of a class that is stored in a class file as a number and so many entries (JVMS 4.1 – 4.7), with the number
of its entries. Code and strings, which are sequences of bytes, are not among them. -/

namespace Verif.Spec

inductive TableKind where
  | interfaces | fields | methods | classAttributes | fieldAttributes | methodAttributes | codeAttributes
  | handlers | exceptions | methodParameters
  | annotations | parameterAnnotations | elements | array | typeAnnotations | typePath | localTargets
  | localVariables | localVariableTypes
  | innerClasses | nestMembers | modulePackages | requires | exports | opens | uses | provides
  | exportsTo | opensTo | providesWith
  | bootstrapMethods | bootstrapArguments
  deriving DecidableEq

/-- The largest number of entries that can be stored: the number has two bytes, or one (JVMS 4.7.18, 4.7.20.2,
4.7.24). -/
def TableKind.limit : TableKind → Nat
  | .parameterAnnotations | .typePath | .methodParameters => 255
  | _ => 65535

/-- The kinds for which too many entries are refused (C88). -/
def TableKind.checked : TableKind → Bool
  | .interfaces | .fields | .methods | .classAttributes | .codeAttributes | .handlers | .array | .bootstrapMethods
  | .bootstrapArguments => false
  | _ => true

/-- A table of a class. The keys are those of the elements of an annotation. -/
structure Part where
  kind : TableKind
  count : Nat
  keys : List Bytes := []
  deriving DecidableEq

/-! ## Annotations -/

mutual
def partsValue : AnnValue → List Part
  | .annotation _ vs => ⟨.elements, vs.length, vs.map Prod.fst⟩ :: partsElems vs
  | .array vs => ⟨.array, vs.length, []⟩ :: partsValues vs
  | _ => []
def partsValues : List AnnValue → List Part
  | [] => []
  | v :: vs => partsValue v ++ partsValues vs
def partsElems : List (Bytes × AnnValue) → List Part
  | [] => []
  | (_, v) :: vs => partsValue v ++ partsElems vs
end

def partsMap (vs : Elems) : List Part := ⟨.elements, vs.length, vs.map Prod.fst⟩ :: partsElems vs

def partsAnns (as : List Annotation) : List Part :=
  ⟨.annotations, as.length, []⟩ :: as.flatMap fun a => partsMap a.vals

def partsParams (ps : List (List Annotation)) : List Part :=
  ⟨.parameterAnnotations, ps.length, []⟩ :: ps.flatMap partsAnns

def partsTypeAnns {T : Type} (target : T → List Part) (as : List (TypeAnnotation T)) : List Part :=
  ⟨.typeAnnotations, as.length, []⟩ :: as.flatMap fun a =>
    target a.target ++ ⟨.typePath, a.path.length, []⟩ :: partsMap a.vals

/-! ## Fields and methods -/

def partsFieldAttr : FieldAttr → List Part
  | .visible as | .invisible as => partsAnns as
  | .visibleType as | .invisibleType as => partsTypeAnns (fun _ => []) as
  | _ => []

def partsField (f : Field) : List Part := ⟨.fieldAttributes, f.attrs.length, []⟩ :: f.attrs.flatMap partsFieldAttr

def partsTarget : CodeTarget → List Part
  | .localVar ts | .resourceVar ts => [⟨.localTargets, ts.length, []⟩]
  | _ => []

/-- A variable has an entry in one table if it has a descriptor, in another one if it has a signature. -/
def partsCodeAttr : CodeAttribute → List Part
  | .visibleType as | .invisibleType as => partsTypeAnns partsTarget as
  | .locals vs => [⟨.localVariables, (vs.filter fun v => v.descriptor.isSome).length, []⟩,
      ⟨.localVariableTypes, (vs.filter fun v => v.signature.isSome).length, []⟩]
  | .raw _ => []

def partsCode (x : Code) : List Part :=
  ⟨.handlers, x.catches.length, []⟩ :: ⟨.codeAttributes, (x.attrs.map attrCount).sum, []⟩ :: x.attrs.flatMap partsCodeAttr

def partsMethodAttr : MethodAttr → List Part
  | .code x => partsCode x
  | .visible as | .invisible as => partsAnns as
  | .visibleType as | .invisibleType as => partsTypeAnns (fun _ => []) as
  | .visibleParams ps | .invisibleParams ps => partsParams ps
  | .exceptions ss => [⟨.exceptions, ss.length, []⟩]
  | .annotationDefault v => partsValue v
  | .methodParameters ps => [⟨.methodParameters, ps.length, []⟩]
  | _ => []

def partsMethod (m : Method) : List Part := ⟨.methodAttributes, m.attrs.length, []⟩ :: m.attrs.flatMap partsMethodAttr

/-! ## Classes -/

def partsModule (m : Module) : List Part :=
  ⟨.requires, m.requires.length, []⟩ :: ⟨.exports, m.exports.length, []⟩ :: ⟨.opens, m.opens.length, []⟩ ::
    ⟨.uses, m.uses.length, []⟩ :: ⟨.provides, m.provides.length, []⟩ ::
    (m.exports.map (fun e => ⟨.exportsTo, e.to.length, []⟩) ++ (m.opens.map (fun e => ⟨.opensTo, e.to.length, []⟩) ++
    m.provides.map fun p => ⟨.providesWith, p.with_.length, []⟩))

/-- All bootstrap methods are stored in one table, see `parts`. -/
def partsClassAttr : ClassAttr → List Part
  | .innerClasses xs => [⟨.innerClasses, xs.length, []⟩]
  | .module_ m => partsModule m
  | .modulePackages ss => [⟨.modulePackages, ss.length, []⟩]
  | .nestMembers ss => [⟨.nestMembers, ss.length, []⟩]
  | .visible as | .invisible as => partsAnns as
  | .visibleType as | .invisibleType as => partsTypeAnns (fun _ => []) as
  | _ => []

/-- All tables of a class. The bootstrap methods are those that are written for the class (C46, C83). -/
def parts (x : Class) : List Part :=
  ⟨.interfaces, x.interfaces.length, []⟩ :: ⟨.fields, x.fields.length, []⟩ :: ⟨.methods, x.methods.length, []⟩ ::
    ⟨.classAttributes, (withTable x).attrs.length, []⟩ :: ⟨.bootstrapMethods, (writtenBsms x).length, []⟩ ::
    (x.fields.flatMap partsField ++ (x.methods.flatMap partsMethod ++ (x.attrs.flatMap partsClassAttr ++
    (writtenBsms x).map fun b => ⟨.bootstrapArguments, b.arguments.length, []⟩)))

/-- The elements of an annotation are a map: no key occurs twice. -/
def MapsOnly (x : Class) : Prop := ∀ p ∈ parts x, p.keys.Nodup

end Verif.Spec
