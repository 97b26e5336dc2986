import Verif.Spec.Reread
import Verif.Spec.Strings

/-! # Classes that are put together from parts

A program that changes a class reads it, adds, replaces, moves or removes fields, methods and attributes, and writes
it. The parts come from classes that were read, with their cells filled, or are new. -/

namespace Verif.Spec

/-- `x` is a class that was read from a file, and no part of it is one of those of C34, C37, C45 and C46. -/
def FromFile (x : Class) : Prop := ∃ (ord : Order) (input rest : Bytes) (y : Class),
  (∀ k n l, (ord k n l).Perm l) ∧ Class.read ord input = .ok (y, rest) ∧ input.length < 2 ^ 31 ∧ Regular y ∧
    x = completed y

/-! ## New parts -/

/-- Without dynamic arguments (C46). -/
structure NewBsm (b : Bsm) : Prop where
  write : BsmWritable b
  read : BsmReadable b
  strings : AllBsm Fitting b
  static : ∀ a ∈ b.arguments, ∃ c, a = .static c

structure NewField (f : Field) : Prop where
  write : f.Writable
  read : ∀ a ∈ f.attrs, a.Readable
  strings : AllField Fitting f

structure NewMethod (m : Method) : Prop where
  write : m.Writable fun b => CodeWritable b ∧ Compact b.code
  read : m.Readable CodeReadable
  strings : AllMethod Fitting m
  bsms : ∀ b ∈ (m.attrs.flatMap attrDynamics).flatMap ownBsm, NewBsm b

structure NewAttr (a : ClassAttr) : Prop where
  write : a.Writable
  read : a.Readable
  strings : AllClassAttr Fitting a
  bsms : ∀ ms, a = .bootstrapMethods ms → ∀ b ∈ ms, NewBsm b

/-! ## The class -/

/-- Every part is one of a class that was read, or new. -/
structure FromParts (y : Class) : Prop where
  fields : ∀ f ∈ y.fields, (∃ x, FromFile x ∧ f ∈ x.fields) ∨ NewField f
  methods : ∀ m ∈ y.methods, (∃ x, FromFile x ∧ m ∈ x.methods) ∨ NewMethod m
  attrs : ∀ a ∈ y.attrs, (∃ x, FromFile x ∧ a ∈ x.attrs) ∨ NewAttr a
  access : (∃ x, FromFile x ∧ y.access = x.access) ∨ KnownFlags y.access
  name : (∃ x, FromFile x ∧ y.name = x.name) ∨ Fitting y.name
  superName : (∃ x, FromFile x ∧ y.superName = x.superName) ∨ AllOpt Fitting y.superName
  interfaces : ∀ s ∈ y.interfaces, (∃ x, FromFile x ∧ s ∈ x.interfaces) ∨ Fitting s

/-- What is asked of the parts together. -/
structure Together (y : Class) : Prop where
  fields : y.fields.length < 65536
  methods : y.methods.length < 65536
  attrs : y.attrs.length < 65536
  interfaces : y.interfaces.length < 65536
  /-- There is an attribute `BootstrapMethods` if and only if there is something to write in it, and only one (C45). -/
  one : (y.attrs.filter isBootstrap).length = if (usedBsms y).isEmpty then 0 else 1
  /-- There is room for a copy of a bootstrap method for every use (C56). -/
  room : (usedBsms y).length < 65536

end Verif.Spec
