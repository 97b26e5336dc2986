import Verif.Spec.Class

/-! # Classes that differ only in what a class file does not tell

The numbers of labels, labels in the same place, labels that nothing refers to, line numbers (C40) and the order of
the variables of a method (C77). -/

namespace Verif.Spec

/-- `ρ` and `ρ'` are common names for the labels: labels with the same name are in the same place. -/
structure AlikeBody (x y : Code) (ρ ρ' : Label → Label) : Prop where
  maxStack : x.maxStack = y.maxStack
  maxLocals : x.maxLocals = y.maxLocals
  insns : (x.code.filterMap normal).map (renI ρ) = (y.code.filterMap normal).map (renI ρ')
  places : ∀ l ∈ codeLabels x, ∀ l' ∈ codeLabels y, ρ l = ρ' l' → place l x.code = place l' y.code
  catches : x.catches.map (renCatch ρ) = y.catches.map (renCatch ρ')
  attrs : x.attrs.flatMap (renCodeAttr ρ) = y.attrs.flatMap (renCodeAttr ρ')
  vars : ((x.attrs.flatMap attrVars).map (renVar ρ)).Perm ((y.attrs.flatMap attrVars).map (renVar ρ'))

structure AlikeClass (x y : Class) : Prop where
  version : x.version = y.version
  access : x.access = y.access
  name : x.name = y.name
  superName : x.superName = y.superName
  interfaces : x.interfaces = y.interfaces
  fields : x.fields = y.fields
  methods : Matched (SameMethod fun b b' : Code => ∃ ρ ρ', AlikeBody b b' ρ ρ') x.methods y.methods
  attrs : x.attrs.filter (fun a => !isBootstrap a) = y.attrs.filter fun a => !isBootstrap a
  table : writtenBsms x = writtenBsms y

end Verif.Spec
