import Verif.Lemmas.Decls

/-!
# What the derive macros make of the declarations in coffer (C65)

The models of classes, attributes, annotations, versions and constants have readers and writers
written out by hand. Here each of them is shown to be what the model of the macro generates from the
declaration in the source: there is a bijection between the values of the declaration and those of
the model under which the two writers are the same function and the two readers are the same function.
-/

namespace Verif.Props
open Verif.Spec Verif.Derive

/-- The macro accepts the declaration, and what it generates is `m` but for the names of the
constructors. -/
structure Same {α β : Type} (d : Option (Impl α)) (m : Impl β) (f : α → β) (g : β → α) : Prop where
  left : ∀ a, g (f a) = a
  right : ∀ b, f (g b) = b
  same : ∃ i, d = some i ∧ (∀ a, i.write a = m.write (f a)) ∧ Rd.map f i.read = m.read

/-! ## Structures -/

/-- src/annotation/mod.rs:213-220. -/
theorem C65_annotation (env : WEnv) (ord : Order) (n : Nat) :
    Same (deriveStruct (K := coffer env ord n) Decl.annotation) ⟨Annotation.write, Annotation.read⟩
      (fun x => ⟨x.1, x.2.1⟩)
      (fun x => (x.ty, x.vals, ())) := by
  refine ⟨fun _ => rfl, fun _ => rfl, _, rfl, fun _ => rfl, ?_⟩
  conv => rhs; simp only [Annotation.read, Rd.ap, Rd.map, rbind_assoc, rpure_bind]
  iterate 2 refine rd_step fun _ => ?_
  rfl

/-- src/annotation/type_annotation.rs `ClassTypeAnnotation`. -/
theorem C65_classTypeAnnotation (env : WEnv) (ord : Order) (n : Nat) :
    Same (deriveStruct (K := coffer env ord n) (Decl.typeAnnotation .classTarget)) 
      ⟨TypeAnnotation.write ClassTarget.write, TypeAnnotation.read ClassTarget.read⟩
      (fun x => ⟨x.1, x.2.1, x.2.2.1, x.2.2.2.1⟩)
      (fun x => (x.target, x.path, x.ty, x.vals, ())) := by
  refine ⟨fun _ => rfl, fun _ => rfl, _, rfl, fun _ => rfl, ?_⟩
  conv => rhs; simp only [TypeAnnotation.read, Rd.ap, Rd.map, rbind_assoc, rpure_bind]
  iterate 4 refine rd_step fun _ => ?_
  rfl

/-- src/annotation/type_annotation.rs `MethodTypeAnnotation`. -/
theorem C65_methodTypeAnnotation (env : WEnv) (ord : Order) (n : Nat) :
    Same (deriveStruct (K := coffer env ord n) (Decl.typeAnnotation .methodTarget)) 
      ⟨TypeAnnotation.write MethodTarget.write, TypeAnnotation.read MethodTarget.read⟩
      (fun x => ⟨x.1, x.2.1, x.2.2.1, x.2.2.2.1⟩)
      (fun x => (x.target, x.path, x.ty, x.vals, ())) := by
  refine ⟨fun _ => rfl, fun _ => rfl, _, rfl, fun _ => rfl, ?_⟩
  conv => rhs; simp only [TypeAnnotation.read, Rd.ap, Rd.map, rbind_assoc, rpure_bind]
  iterate 4 refine rd_step fun _ => ?_
  rfl

/-- src/annotation/type_annotation.rs `FieldTypeAnnotation`. -/
theorem C65_fieldTypeAnnotation (env : WEnv) (ord : Order) (n : Nat) :
    Same (deriveStruct (K := coffer env ord n) (Decl.typeAnnotation .fieldTarget)) 
      ⟨TypeAnnotation.write FieldTarget.write, TypeAnnotation.read FieldTarget.read⟩
      (fun x => ⟨x.1, x.2.1, x.2.2.1, x.2.2.2.1⟩)
      (fun x => (x.target, x.path, x.ty, x.vals, ())) := by
  refine ⟨fun _ => rfl, fun _ => rfl, _, rfl, fun _ => rfl, ?_⟩
  conv => rhs; simp only [TypeAnnotation.read, Rd.ap, Rd.map, rbind_assoc, rpure_bind]
  iterate 4 refine rd_step fun _ => ?_
  rfl

/-- type_annotation.rs:159-166. -/
theorem C65_codeTypeAnnotation (env : WEnv) (ord : Order) (n : Nat) :
    Same (deriveStruct (K := coffer env ord n) Decl.codeTypeAnnotation) 
      ⟨TypeAnnotation.write (CodeTarget.write env), TypeAnnotation.read CodeTarget.read⟩
      (fun x => ⟨x.1, x.2.1, x.2.2.1, x.2.2.2.1⟩)
      (fun x => (x.target, x.path, x.ty, x.vals, ())) := by
  refine ⟨fun _ => rfl, fun _ => rfl, _, rfl, fun _ => rfl, ?_⟩
  conv => rhs; simp only [TypeAnnotation.read, Rd.ap, Rd.map, rbind_assoc, rpure_bind]
  iterate 4 refine rd_step fun _ => ?_
  rfl

/-- src/module.rs:15-22. -/
theorem C65_require (env : WEnv) (ord : Order) (n : Nat) :
    Same (deriveStruct (K := coffer env ord n) Decl.require) ⟨Require.write, Require.read⟩
      (fun x => ⟨x.1, x.2.1, x.2.2.1⟩)
      (fun x => (x.module_, x.flags, x.version, ())) := by
  refine ⟨fun _ => rfl, fun _ => rfl, _, rfl, fun _ => rfl, ?_⟩
  conv => rhs; simp only [Require.read, Rd.ap, Rd.map, rbind_assoc, rpure_bind]
  iterate 3 refine rd_step fun _ => ?_
  rfl

/-- module.rs:24-30. -/
theorem C65_provide (env : WEnv) (ord : Order) (n : Nat) :
    Same (deriveStruct (K := coffer env ord n) Decl.provide) ⟨Provide.write, Provide.read⟩
      (fun x => ⟨x.1, x.2.1⟩)
      (fun x => (x.cls, x.with_, ())) := by
  refine ⟨fun _ => rfl, fun _ => rfl, _, rfl, fun _ => rfl, ?_⟩
  conv => rhs; simp only [Provide.read, Rd.ap, Rd.map, rbind_assoc, rpure_bind]
  iterate 2 refine rd_step fun _ => ?_
  rfl

/-- module.rs:51-59. -/
theorem C65_export (env : WEnv) (ord : Order) (n : Nat) :
    Same (deriveStruct (K := coffer env ord n) Decl.export_) ⟨Export.write, Export.read⟩
      (fun x => ⟨x.1, x.2.1, x.2.2.1⟩)
      (fun x => (x.package, x.flags, x.to, ())) := by
  refine ⟨fun _ => rfl, fun _ => rfl, _, rfl, fun _ => rfl, ?_⟩
  conv => rhs; simp only [Export.read, Rd.ap, Rd.map, rbind_assoc, rpure_bind]
  iterate 3 refine rd_step fun _ => ?_
  rfl

/-- module.rs:82-90. -/
theorem C65_open (env : WEnv) (ord : Order) (n : Nat) :
    Same (deriveStruct (K := coffer env ord n) Decl.open_) ⟨Export.write, Export.read⟩
      (fun x => ⟨x.1, x.2.1, x.2.2.1⟩)
      (fun x => (x.package, x.flags, x.to, ())) := by
  refine ⟨fun _ => rfl, fun _ => rfl, _, rfl, fun _ => rfl, ?_⟩
  conv => rhs; simp only [Export.read, Rd.ap, Rd.map, rbind_assoc, rpure_bind]
  iterate 3 refine rd_step fun _ => ?_
  rfl

/-- module.rs:32-49. -/
theorem C65_module (env : WEnv) (ord : Order) (n : Nat) :
    Same (deriveStruct (K := coffer env ord n) Decl.module_) ⟨Module.write, Module.read⟩
      (fun x => ⟨x.1, x.2.1, x.2.2.1, x.2.2.2.1, x.2.2.2.2.1, x.2.2.2.2.2.1, x.2.2.2.2.2.2.1, x.2.2.2.2.2.2.2.1⟩)
      (fun x => (x.name, x.flags, x.version, x.requires, x.exports, x.opens, x.uses, x.provides, ())) := by
  refine ⟨fun _ => rfl, fun _ => rfl, _, rfl, fun _ => rfl, ?_⟩
  conv => rhs; simp only [Module.read, Rd.ap, Rd.map, rbind_assoc, rpure_bind]
  iterate 8 refine rd_step fun _ => ?_
  rfl

/-- src/attr.rs:86-96. -/
theorem C65_innerClass (env : WEnv) (ord : Order) (n : Nat) :
    Same (deriveStruct (K := coffer env ord n) Decl.innerClass) ⟨InnerClass.write, InnerClass.read⟩
      (fun x => ⟨x.1, x.2.1, x.2.2.1, x.2.2.2.1⟩)
      (fun x => (x.inner, x.outer, x.name, x.access, ())) := by
  refine ⟨fun _ => rfl, fun _ => rfl, _, rfl, fun _ => rfl, ?_⟩
  conv => rhs; simp only [InnerClass.read, Rd.ap, Rd.map, rbind_assoc, rpure_bind]
  iterate 4 refine rd_step fun _ => ?_
  rfl

/-- src/member.rs:64-72. -/
theorem C65_field (env : WEnv) (ord : Order) (n : Nat) :
    Same (deriveStruct (K := coffer env ord n) Decl.field) ⟨Field.write, Field.read⟩
      (fun x => ⟨x.1, x.2.1, x.2.2.1, x.2.2.2.1⟩)
      (fun x => (x.access, x.name, x.descriptor, x.attrs, ())) := by
  refine ⟨fun _ => rfl, fun _ => rfl, _, rfl, fun _ => rfl, ?_⟩
  conv => rhs; simp only [Field.read, Rd.ap, Rd.map, rbind_assoc, rpure_bind]
  iterate 4 refine rd_step fun _ => ?_
  rfl

/-- member.rs:74-79. -/
theorem C65_methodParameter (env : WEnv) (ord : Order) (n : Nat) :
    Same (deriveStruct (K := coffer env ord n) Decl.methodParameter) 
      ⟨MethodParameter.write, MethodParameter.read⟩
      (fun x => ⟨x.1, x.2.1⟩)
      (fun x => (x.name, x.access, ())) := by
  refine ⟨fun _ => rfl, fun _ => rfl, _, rfl, fun _ => rfl, ?_⟩
  conv => rhs; simp only [MethodParameter.read, Rd.ap, Rd.map, rbind_assoc, rpure_bind]
  iterate 2 refine rd_step fun _ => ?_
  rfl

/-- member.rs:100-108. -/
theorem C65_method (env : WEnv) (ord : Order) (n : Nat) :
    Same (deriveStruct (K := coffer env ord n) Decl.method) ⟨Method.write, Method.read ord⟩
      (fun x => ⟨x.1, x.2.1, x.2.2.1, x.2.2.2.1⟩)
      (fun x => (x.access, x.name, x.descriptor, x.attrs, ())) := by
  refine ⟨fun _ => rfl, fun _ => rfl, _, rfl, fun _ => rfl, ?_⟩
  conv => rhs; simp only [Method.read, Rd.ap, Rd.map, rbind_assoc, rpure_bind]
  iterate 4 refine rd_step fun _ => ?_
  rfl

/-- src/code/structure.rs:389-390. -/
theorem C65_lineNumber:
    Same (deriveStruct (K := plain) Decl.lineNumber) ⟨LineEntry.write, LineEntry.read⟩
      (fun x => ⟨x.1, x.2.1⟩)
      (fun x => (x.pc, x.line, ())) := by
  refine ⟨fun _ => rfl, fun _ => rfl, _, rfl, fun _ => rfl, ?_⟩
  conv => rhs; simp only [LineEntry.read, Rd.ap, Rd.map, rbind_assoc, rpure_bind]
  iterate 2 refine rd_step fun _ => ?_
  rfl

/-- structure.rs:392-402. -/
theorem C65_localVar (env : WEnv) (ord : Order) (n : Nat) :
    Same (deriveStruct (K := coffer env ord n) Decl.localVar) ⟨VarEntry.write, VarEntry.read⟩
      (fun x => ⟨x.1, x.2.1, x.2.2.1, x.2.2.2.1, x.2.2.2.2.1⟩)
      (fun x => (x.start, x.len, x.name, x.descriptor, x.index, ())) := by
  refine ⟨fun _ => rfl, fun _ => rfl, _, rfl, fun _ => rfl, ?_⟩
  conv => rhs; simp only [VarEntry.read, Rd.ap, Rd.map, rbind_assoc, rpure_bind]
  iterate 5 refine rd_step fun _ => ?_
  rfl

/-- structure.rs:404-414. -/
theorem C65_localVarType (env : WEnv) (ord : Order) (n : Nat) :
    Same (deriveStruct (K := coffer env ord n) Decl.localVarType) ⟨VarTypeEntry.write, VarTypeEntry.read⟩
      (fun x => ⟨x.1, x.2.1, x.2.2.1, x.2.2.2.1, x.2.2.2.2.1⟩)
      (fun x => (x.start, x.len, x.name, x.signature, x.index, ())) := by
  refine ⟨fun _ => rfl, fun _ => rfl, _, rfl, fun _ => rfl, ?_⟩
  conv => rhs; simp only [VarTypeEntry.read, Rd.ap, Rd.map, rbind_assoc, rpure_bind]
  iterate 5 refine rd_step fun _ => ?_
  rfl

/-- src/annotation/mod.rs:18-19, a structure with one field. -/
theorem C65_parameterAnnotations (env : WEnv) (ord : Order) (n : Nat) :
    Same (deriveStruct (K := coffer env ord n) Decl.parameterAnnotations)
      ⟨wVec u16 Annotation.write, rVec u16 Annotation.read⟩ (fun x => x.1) (fun x => (x, ())) := by
  refine ⟨fun _ => rfl, fun _ => rfl, _, rfl, fun _ => wSeq_one _, ?_⟩
  refine Eq.trans (rd_step fun _ => rfl) (rmap_id _)

/-- src/clazz.rs:25-41 `ClassWrapper`, of which only the reader is used (57-69). -/
theorem C65_classWrapper (env : WEnv) (ord : Order) (n : Nat) (v : Version) :
    ∃ i, deriveStruct (K := coffer env ord n) Decl.classWrapper = some i ∧
      Rd.map (fun x => ⟨v, x.1, x.2.1, x.2.2.1, x.2.2.2.1, x.2.2.2.2.1, x.2.2.2.2.2.1, x.2.2.2.2.2.2.1⟩)
        i.read = Class.readBody ord v := by
  refine ⟨_, rfl, ?_⟩
  conv => rhs; simp only [Class.readBody, Rd.ap, Rd.map, rbind_assoc, rpure_bind]
  iterate 7 refine rd_step fun _ => ?_
  rfl

/-! ## Enums -/

/-- src/annotation/type_annotation.rs:12-28. -/
theorem C65_classTarget:
    Same (deriveEnum (K := plain) (some .u8) Decl.classTarget) ⟨ClassTarget.write, ClassTarget.read⟩
      (fun
        | .inl x => .typeParam x.1
        | .inr (.inl x) => .supertype x.1
        | .inr (.inr (.inl x)) => .bound x.1 x.2.1)
      (fun
        | .typeParam a => .inl (a, ())
        | .supertype a => .inr (.inl (a, ()))
        | .bound a b => .inr (.inr (.inl (a, b, ())))) := by
  refine ⟨?_, ?_, _, rfl, ?_, ?_⟩
  · rintro (x | x | x | x)
    iterate 3 rfl
    cases x
  · rintro (_ | _ | _)
    all_goals rfl
  · rintro (x | x | x | x)
    iterate 3 rfl
    cases x
  · refine enum8 fun n => ?_
    conv => rhs; simp only [Rd.ap, Rd.map, rbind_assoc, rpure_bind]
    iterate 3 read_arm8
    rfl

/-- type_annotation.rs:30-45. -/
theorem C65_methodTarget:
    Same (deriveEnum (K := plain) (some .u8) Decl.methodTarget) ⟨MethodTarget.write, MethodTarget.read⟩
      (fun
        | .inl x => .typeParam x.1
        | .inr (.inl x) => .bound x.1 x.2.1
        | .inr (.inr (.inl _)) => .ret
        | .inr (.inr (.inr (.inl _))) => .receiver
        | .inr (.inr (.inr (.inr (.inl x)))) => .param x.1
        | .inr (.inr (.inr (.inr (.inr (.inl x))))) => .throws x.1)
      (fun
        | .typeParam a => .inl (a, ())
        | .bound a b => .inr (.inl (a, b, ()))
        | .ret => .inr (.inr (.inl ()))
        | .receiver => .inr (.inr (.inr (.inl ())))
        | .param a => .inr (.inr (.inr (.inr (.inl (a, ())))))
        | .throws a => .inr (.inr (.inr (.inr (.inr (.inl (a, ()))))))) := by
  refine ⟨?_, ?_, _, rfl, ?_, ?_⟩
  · rintro (x | x | x | x | x | x | x)
    iterate 6 rfl
    cases x
  · rintro (_ | _ | _ | _ | _ | _)
    all_goals rfl
  · rintro (x | x | x | x | x | x | x)
    iterate 6 rfl
    cases x
  · refine enum8 fun n => ?_
    conv => rhs; simp only [Rd.ap, Rd.map, rbind_assoc, rpure_bind]
    iterate 6 read_arm8
    rfl

/-- type_annotation.rs:142-147. -/
theorem C65_fieldTarget:
    Same (deriveEnum (K := plain) (some .u8) Decl.fieldTarget) ⟨FieldTarget.write, FieldTarget.read⟩
      (fun
        | .inl _ => .field)
      (fun
        | .field => .inl ()) := by
  refine ⟨?_, ?_, _, rfl, ?_, ?_⟩
  · rintro (x | x)
    iterate 1 rfl
    cases x
  · rintro (_)
    all_goals rfl
  · rintro (x | x)
    iterate 1 rfl
    cases x
  · refine enum8 fun n => ?_
    conv => rhs; simp only [Rd.ap, Rd.map, rbind_assoc, rpure_bind]
    iterate 1 read_arm8
    rfl

/-- type_annotation.rs:113-120. -/
theorem C65_typePath:
    Same (deriveEnum (K := plain) (some .u8) Decl.typePath) ⟨PathStep.write, PathStep.read⟩
      (fun
        | .inl x => .array x.1
        | .inr (.inl x) => .nested x.1
        | .inr (.inr (.inl x)) => .bound x.1
        | .inr (.inr (.inr (.inl x))) => .arg x.1)
      (fun
        | .array a => .inl (a, ())
        | .nested a => .inr (.inl (a, ()))
        | .bound a => .inr (.inr (.inl (a, ())))
        | .arg a => .inr (.inr (.inr (.inl (a, ()))))) := by
  refine ⟨?_, ?_, _, rfl, ?_, ?_⟩
  · rintro (x | x | x | x | x)
    iterate 4 rfl
    cases x
  · rintro (_ | _ | _ | _)
    all_goals rfl
  · rintro (x | x | x | x | x)
    iterate 4 rfl
    cases x
  · refine enum8 fun n => ?_
    conv => rhs; simp only [Rd.ap, Rd.map, rbind_assoc, rpure_bind]
    iterate 4 read_arm8
    rfl

/-- type_annotation.rs:83-111. -/
theorem C65_codeTarget (env : WEnv) (ord : Order) (n : Nat) :
    Same (deriveEnum (K := coffer env ord n) (some .u8) Decl.codeTarget) ⟨CodeTarget.write env, CodeTarget.read⟩
      (fun
        | .inl x => .localVar x.1
        | .inr (.inl x) => .resourceVar x.1
        | .inr (.inr (.inl x)) => .catchParam x.1
        | .inr (.inr (.inr (.inl x))) => .instanceOf x.1
        | .inr (.inr (.inr (.inr (.inl x)))) => .new x.1
        | .inr (.inr (.inr (.inr (.inr (.inl x))))) => .newRef x.1
        | .inr (.inr (.inr (.inr (.inr (.inr (.inl x)))))) => .methodRef x.1
        | .inr (.inr (.inr (.inr (.inr (.inr (.inr (.inl x))))))) => .cast x.1 x.2.1
        | .inr (.inr (.inr (.inr (.inr (.inr (.inr (.inr (.inl x)))))))) => .newArg x.1 x.2.1
        | .inr (.inr (.inr (.inr (.inr (.inr (.inr (.inr (.inr (.inl x))))))))) => .methodArg x.1 x.2.1
        | .inr (.inr (.inr (.inr (.inr (.inr (.inr (.inr (.inr (.inr (.inl x)))))))))) => .newRefArg x.1 x.2.1
        | .inr (.inr (.inr (.inr (.inr (.inr (.inr (.inr (.inr (.inr (.inr (.inl x))))))))))) => .methodRefArg x.1 x.2.1)
      (fun
        | .localVar a => .inl (a, ())
        | .resourceVar a => .inr (.inl (a, ()))
        | .catchParam a => .inr (.inr (.inl (a, ())))
        | .instanceOf a => .inr (.inr (.inr (.inl (a, ()))))
        | .new a => .inr (.inr (.inr (.inr (.inl (a, ())))))
        | .newRef a => .inr (.inr (.inr (.inr (.inr (.inl (a, ()))))))
        | .methodRef a => .inr (.inr (.inr (.inr (.inr (.inr (.inl (a, ())))))))
        | .cast a b => .inr (.inr (.inr (.inr (.inr (.inr (.inr (.inl (a, b, ()))))))))
        | .newArg a b => .inr (.inr (.inr (.inr (.inr (.inr (.inr (.inr (.inl (a, b, ())))))))))
        | .methodArg a b => .inr (.inr (.inr (.inr (.inr (.inr (.inr (.inr (.inr (.inl (a, b, ()))))))))))
        | .newRefArg a b => .inr (.inr (.inr (.inr (.inr (.inr (.inr (.inr (.inr (.inr (.inl (a, b, ())))))))))))
        | .methodRefArg a b => .inr (.inr (.inr (.inr (.inr (.inr (.inr (.inr (.inr (.inr (.inr (.inl (a, b, ()))))))))))))) := by
  refine ⟨?_, ?_, _, rfl, ?_, ?_⟩
  · rintro (x | x | x | x | x | x | x | x | x | x | x | x | x)
    iterate 12 rfl
    cases x
  · rintro (_ | _ | _ | _ | _ | _ | _ | _ | _ | _ | _ | _)
    all_goals rfl
  · rintro (x | x | x | x | x | x | x | x | x | x | x | x | x)
    iterate 12 rfl
    cases x
  · refine enum8 fun n => ?_
    conv => rhs; simp only [Rd.ap, Rd.map, rbind_assoc, rpure_bind]
    iterate 12 read_arm8
    rfl

/-- src/code.rs:610-623. -/
theorem C65_verificationType (env : WEnv) (ord : Order) (n : Nat) :
    Same (deriveEnum (K := coffer env ord n) (some .u8) Decl.verificationType) ⟨VType.write env, VType.read⟩
      (fun
        | .inl _ => .top
        | .inr (.inl _) => .int
        | .inr (.inr (.inl _)) => .float
        | .inr (.inr (.inr (.inl _))) => .long
        | .inr (.inr (.inr (.inr (.inl _)))) => .double
        | .inr (.inr (.inr (.inr (.inr (.inl _))))) => .null
        | .inr (.inr (.inr (.inr (.inr (.inr (.inl _)))))) => .uninitThis
        | .inr (.inr (.inr (.inr (.inr (.inr (.inr (.inl x))))))) => .object x.1
        | .inr (.inr (.inr (.inr (.inr (.inr (.inr (.inr (.inl x)))))))) => .uninit x.1)
      (fun
        | .top => .inl ()
        | .int => .inr (.inl ())
        | .float => .inr (.inr (.inl ()))
        | .long => .inr (.inr (.inr (.inl ())))
        | .double => .inr (.inr (.inr (.inr (.inl ()))))
        | .null => .inr (.inr (.inr (.inr (.inr (.inl ())))))
        | .uninitThis => .inr (.inr (.inr (.inr (.inr (.inr (.inl ()))))))
        | .object a => .inr (.inr (.inr (.inr (.inr (.inr (.inr (.inl (a, ()))))))))
        | .uninit a => .inr (.inr (.inr (.inr (.inr (.inr (.inr (.inr (.inl (a, ())))))))))) := by
  refine ⟨?_, ?_, _, rfl, ?_, ?_⟩
  · rintro (x | x | x | x | x | x | x | x | x | x)
    iterate 9 rfl
    cases x
  · rintro (_ | _ | _ | _ | _ | _ | _ | _ | _)
    all_goals rfl
  · rintro (x | x | x | x | x | x | x | x | x | x)
    iterate 9 rfl
    cases x
  · refine enum8 fun n => ?_
    rw [readTag_chain]
    iterate 9 read_arm8
    rfl

/-- src/version.rs:22-56. -/
theorem C65_majorVersion:
    Same (deriveEnum (K := plain) (some .u16) Decl.majorVersion) ⟨fun m => wNum u16 m.tag, Rd.lift Major.read⟩
      (fun
        | .inl _ => .j1
        | .inr (.inl _) => .j1_2
        | .inr (.inr (.inl _)) => .j1_3
        | .inr (.inr (.inr (.inl _))) => .j1_4
        | .inr (.inr (.inr (.inr (.inl _)))) => .j5
        | .inr (.inr (.inr (.inr (.inr (.inl _))))) => .j6
        | .inr (.inr (.inr (.inr (.inr (.inr (.inl _)))))) => .j7
        | .inr (.inr (.inr (.inr (.inr (.inr (.inr (.inl _))))))) => .j8
        | .inr (.inr (.inr (.inr (.inr (.inr (.inr (.inr (.inl _)))))))) => .j9
        | .inr (.inr (.inr (.inr (.inr (.inr (.inr (.inr (.inr (.inl _))))))))) => .j10
        | .inr (.inr (.inr (.inr (.inr (.inr (.inr (.inr (.inr (.inr (.inl _)))))))))) => .j11
        | .inr (.inr (.inr (.inr (.inr (.inr (.inr (.inr (.inr (.inr (.inr (.inl _))))))))))) => .j12
        | .inr (.inr (.inr (.inr (.inr (.inr (.inr (.inr (.inr (.inr (.inr (.inr (.inl _)))))))))))) => .j13
        | .inr (.inr (.inr (.inr (.inr (.inr (.inr (.inr (.inr (.inr (.inr (.inr (.inr (.inl _))))))))))))) => .j14
        | .inr (.inr (.inr (.inr (.inr (.inr (.inr (.inr (.inr (.inr (.inr (.inr (.inr (.inr (.inl _)))))))))))))) => .j15)
      (fun
        | .j1 => .inl ()
        | .j1_2 => .inr (.inl ())
        | .j1_3 => .inr (.inr (.inl ()))
        | .j1_4 => .inr (.inr (.inr (.inl ())))
        | .j5 => .inr (.inr (.inr (.inr (.inl ()))))
        | .j6 => .inr (.inr (.inr (.inr (.inr (.inl ())))))
        | .j7 => .inr (.inr (.inr (.inr (.inr (.inr (.inl ()))))))
        | .j8 => .inr (.inr (.inr (.inr (.inr (.inr (.inr (.inl ())))))))
        | .j9 => .inr (.inr (.inr (.inr (.inr (.inr (.inr (.inr (.inl ()))))))))
        | .j10 => .inr (.inr (.inr (.inr (.inr (.inr (.inr (.inr (.inr (.inl ())))))))))
        | .j11 => .inr (.inr (.inr (.inr (.inr (.inr (.inr (.inr (.inr (.inr (.inl ()))))))))))
        | .j12 => .inr (.inr (.inr (.inr (.inr (.inr (.inr (.inr (.inr (.inr (.inr (.inl ())))))))))))
        | .j13 => .inr (.inr (.inr (.inr (.inr (.inr (.inr (.inr (.inr (.inr (.inr (.inr (.inl ()))))))))))))
        | .j14 => .inr (.inr (.inr (.inr (.inr (.inr (.inr (.inr (.inr (.inr (.inr (.inr (.inr (.inl ())))))))))))))
        | .j15 => .inr (.inr (.inr (.inr (.inr (.inr (.inr (.inr (.inr (.inr (.inr (.inr (.inr (.inr (.inl ()))))))))))))))) := by
  refine ⟨?_, ?_, _, rfl, ?_, ?_⟩
  · rintro (x | x | x | x | x | x | x | x | x | x | x | x | x | x | x | x)
    iterate 15 rfl
    cases x
  · rintro (_ | _ | _ | _ | _ | _ | _ | _ | _ | _ | _ | _ | _ | _ | _)
    all_goals rfl
  · rintro (x | x | x | x | x | x | x | x | x | x | x | x | x | x | x | x)
    iterate 15 rfl
    cases x
  · dsimp only
    rw [readMajor_chain]
    refine enum16 fun n => ?_
    iterate 15 read_arm16
    rfl

/-- src/cp.rs:57-80. -/
theorem C65_rawConstantEntry:
    Same (deriveEnum (K := plain) (some .u8) Decl.rawConstantEntry) ⟨fun e => Ins.lift e.write, Rd.lift Entry.read⟩
      (fun
        | .inl x => .utf8 x.1
        | .inr (.inl x) => .int x.1
        | .inr (.inr (.inl x)) => .float x.1
        | .inr (.inr (.inr (.inl x))) => .long x.1
        | .inr (.inr (.inr (.inr (.inl x)))) => .double x.1
        | .inr (.inr (.inr (.inr (.inr (.inl x))))) => .cls x.1
        | .inr (.inr (.inr (.inr (.inr (.inr (.inl x)))))) => .str x.1
        | .inr (.inr (.inr (.inr (.inr (.inr (.inr (.inl x))))))) => .field x.1 x.2.1
        | .inr (.inr (.inr (.inr (.inr (.inr (.inr (.inr (.inl x)))))))) => .method x.1 x.2.1
        | .inr (.inr (.inr (.inr (.inr (.inr (.inr (.inr (.inr (.inl x))))))))) => .imethod x.1 x.2.1
        | .inr (.inr (.inr (.inr (.inr (.inr (.inr (.inr (.inr (.inr (.inl x)))))))))) => .nat x.1 x.2.1
        | .inr (.inr (.inr (.inr (.inr (.inr (.inr (.inr (.inr (.inr (.inr (.inl x))))))))))) => .handle x.1 x.2.1
        | .inr (.inr (.inr (.inr (.inr (.inr (.inr (.inr (.inr (.inr (.inr (.inr (.inl x)))))))))))) => .mtype x.1
        | .inr (.inr (.inr (.inr (.inr (.inr (.inr (.inr (.inr (.inr (.inr (.inr (.inr (.inl x))))))))))))) => .dyn x.1 x.2.1
        | .inr (.inr (.inr (.inr (.inr (.inr (.inr (.inr (.inr (.inr (.inr (.inr (.inr (.inr (.inl x)))))))))))))) => .indy x.1 x.2.1
        | .inr (.inr (.inr (.inr (.inr (.inr (.inr (.inr (.inr (.inr (.inr (.inr (.inr (.inr (.inr (.inl x))))))))))))))) => .module x.1
        | .inr (.inr (.inr (.inr (.inr (.inr (.inr (.inr (.inr (.inr (.inr (.inr (.inr (.inr (.inr (.inr (.inl x)))))))))))))))) => .package x.1)
      (fun
        | .utf8 a => .inl (a, ())
        | .int a => .inr (.inl (a, ()))
        | .float a => .inr (.inr (.inl (a, ())))
        | .long a => .inr (.inr (.inr (.inl (a, ()))))
        | .double a => .inr (.inr (.inr (.inr (.inl (a, ())))))
        | .cls a => .inr (.inr (.inr (.inr (.inr (.inl (a, ()))))))
        | .str a => .inr (.inr (.inr (.inr (.inr (.inr (.inl (a, ())))))))
        | .field a b => .inr (.inr (.inr (.inr (.inr (.inr (.inr (.inl (a, b, ()))))))))
        | .method a b => .inr (.inr (.inr (.inr (.inr (.inr (.inr (.inr (.inl (a, b, ())))))))))
        | .imethod a b => .inr (.inr (.inr (.inr (.inr (.inr (.inr (.inr (.inr (.inl (a, b, ()))))))))))
        | .nat a b => .inr (.inr (.inr (.inr (.inr (.inr (.inr (.inr (.inr (.inr (.inl (a, b, ())))))))))))
        | .handle a b => .inr (.inr (.inr (.inr (.inr (.inr (.inr (.inr (.inr (.inr (.inr (.inl (a, b, ()))))))))))))
        | .mtype a => .inr (.inr (.inr (.inr (.inr (.inr (.inr (.inr (.inr (.inr (.inr (.inr (.inl (a, ())))))))))))))
        | .dyn a b => .inr (.inr (.inr (.inr (.inr (.inr (.inr (.inr (.inr (.inr (.inr (.inr (.inr (.inl (a, b, ()))))))))))))))
        | .indy a b => .inr (.inr (.inr (.inr (.inr (.inr (.inr (.inr (.inr (.inr (.inr (.inr (.inr (.inr (.inl (a, b, ())))))))))))))))
        | .module a => .inr (.inr (.inr (.inr (.inr (.inr (.inr (.inr (.inr (.inr (.inr (.inr (.inr (.inr (.inr (.inl (a, ()))))))))))))))))
        | .package a => .inr (.inr (.inr (.inr (.inr (.inr (.inr (.inr (.inr (.inr (.inr (.inr (.inr (.inr (.inr (.inr (.inl (a, ())))))))))))))))))) := by
  refine ⟨?_, ?_, _, rfl, ?_, ?_⟩
  · rintro (x | x | x | x | x | x | x | x | x | x | x | x | x | x | x | x | x | x)
    iterate 17 rfl
    cases x
  · rintro (_ | _ | _ | _ | _ | _ | _ | _ | _ | _ | _ | _ | _ | _ | _ | _ | _)
    all_goals rfl
  · rintro (x | x | x | x | x | x | x | x | x | x | x | x | x | x | x | x | x | x)
    · exact entry_utf8 _
    · exact entry_one _ _
    · exact entry_one _ _
    · exact entry_one _ _
    · exact entry_one _ _
    · exact entry_one _ _
    · exact entry_one _ _
    · exact entry_two _ _ _
    · exact entry_two _ _ _
    · exact entry_two _ _ _
    · exact entry_two _ _ _
    · exact entry_two _ _ _
    · exact entry_one _ _
    · exact entry_two _ _ _
    · exact entry_two _ _ _
    · exact entry_one _ _
    · exact entry_one _ _
    cases x
  · dsimp only
    rw [readEntry_chain]
    refine enum8 fun n => ?_
    conv => rhs; simp only [Rd.ap, Rd.map, rbind_assoc, rpure_bind]
    iterate 17 read_arm8
    rfl

/-- src/cp.rs:33-53. -/
theorem C65_constEntryRef:
    Same (deriveEnum (K := plain) (some .u8) Decl.constEntryRef) ⟨fun e => Ins.lift e.writeRef, Rd.lift Entry.readRef⟩
      (fun
        | .inl x => .utf8 x.1
        | .inr (.inl x) => .int x.1
        | .inr (.inr (.inl x)) => .float x.1
        | .inr (.inr (.inr (.inl x))) => .long x.1
        | .inr (.inr (.inr (.inr (.inl x)))) => .double x.1
        | .inr (.inr (.inr (.inr (.inr (.inl x))))) => .cls x.1
        | .inr (.inr (.inr (.inr (.inr (.inr (.inl x)))))) => .str x.1
        | .inr (.inr (.inr (.inr (.inr (.inr (.inr (.inl x))))))) => .field x.1 x.2.1
        | .inr (.inr (.inr (.inr (.inr (.inr (.inr (.inr (.inl x)))))))) => .method x.1 x.2.1
        | .inr (.inr (.inr (.inr (.inr (.inr (.inr (.inr (.inr (.inl x))))))))) => .imethod x.1 x.2.1
        | .inr (.inr (.inr (.inr (.inr (.inr (.inr (.inr (.inr (.inr (.inl x)))))))))) => .nat x.1 x.2.1
        | .inr (.inr (.inr (.inr (.inr (.inr (.inr (.inr (.inr (.inr (.inr (.inl x))))))))))) => .handle x.1 x.2.1
        | .inr (.inr (.inr (.inr (.inr (.inr (.inr (.inr (.inr (.inr (.inr (.inr (.inl x)))))))))))) => .mtype x.1
        | .inr (.inr (.inr (.inr (.inr (.inr (.inr (.inr (.inr (.inr (.inr (.inr (.inr (.inl x))))))))))))) => .dyn x.1 x.2.1
        | .inr (.inr (.inr (.inr (.inr (.inr (.inr (.inr (.inr (.inr (.inr (.inr (.inr (.inr (.inl x)))))))))))))) => .indy x.1 x.2.1
        | .inr (.inr (.inr (.inr (.inr (.inr (.inr (.inr (.inr (.inr (.inr (.inr (.inr (.inr (.inr (.inl x))))))))))))))) => .module x.1
        | .inr (.inr (.inr (.inr (.inr (.inr (.inr (.inr (.inr (.inr (.inr (.inr (.inr (.inr (.inr (.inr (.inl x)))))))))))))))) => .package x.1)
      (fun
        | .utf8 a => .inl (a, ())
        | .int a => .inr (.inl (a, ()))
        | .float a => .inr (.inr (.inl (a, ())))
        | .long a => .inr (.inr (.inr (.inl (a, ()))))
        | .double a => .inr (.inr (.inr (.inr (.inl (a, ())))))
        | .cls a => .inr (.inr (.inr (.inr (.inr (.inl (a, ()))))))
        | .str a => .inr (.inr (.inr (.inr (.inr (.inr (.inl (a, ())))))))
        | .field a b => .inr (.inr (.inr (.inr (.inr (.inr (.inr (.inl (a, b, ()))))))))
        | .method a b => .inr (.inr (.inr (.inr (.inr (.inr (.inr (.inr (.inl (a, b, ())))))))))
        | .imethod a b => .inr (.inr (.inr (.inr (.inr (.inr (.inr (.inr (.inr (.inl (a, b, ()))))))))))
        | .nat a b => .inr (.inr (.inr (.inr (.inr (.inr (.inr (.inr (.inr (.inr (.inl (a, b, ())))))))))))
        | .handle a b => .inr (.inr (.inr (.inr (.inr (.inr (.inr (.inr (.inr (.inr (.inr (.inl (a, b, ()))))))))))))
        | .mtype a => .inr (.inr (.inr (.inr (.inr (.inr (.inr (.inr (.inr (.inr (.inr (.inr (.inl (a, ())))))))))))))
        | .dyn a b => .inr (.inr (.inr (.inr (.inr (.inr (.inr (.inr (.inr (.inr (.inr (.inr (.inr (.inl (a, b, ()))))))))))))))
        | .indy a b => .inr (.inr (.inr (.inr (.inr (.inr (.inr (.inr (.inr (.inr (.inr (.inr (.inr (.inr (.inl (a, b, ())))))))))))))))
        | .module a => .inr (.inr (.inr (.inr (.inr (.inr (.inr (.inr (.inr (.inr (.inr (.inr (.inr (.inr (.inr (.inl (a, ()))))))))))))))))
        | .package a => .inr (.inr (.inr (.inr (.inr (.inr (.inr (.inr (.inr (.inr (.inr (.inr (.inr (.inr (.inr (.inr (.inl (a, ())))))))))))))))))) := by
  refine ⟨?_, ?_, _, rfl, ?_, ?_⟩
  · rintro (x | x | x | x | x | x | x | x | x | x | x | x | x | x | x | x | x | x)
    iterate 17 rfl
    cases x
  · rintro (_ | _ | _ | _ | _ | _ | _ | _ | _ | _ | _ | _ | _ | _ | _ | _ | _)
    all_goals rfl
  · rintro (x | x | x | x | x | x | x | x | x | x | x | x | x | x | x | x | x | x)
    · exact entry_ref _
    · exact entry_one _ _
    · exact entry_one _ _
    · exact entry_one _ _
    · exact entry_one _ _
    · exact entry_one _ _
    · exact entry_one _ _
    · exact entry_two _ _ _
    · exact entry_two _ _ _
    · exact entry_two _ _ _
    · exact entry_two _ _ _
    · exact entry_two _ _ _
    · exact entry_one _ _
    · exact entry_two _ _ _
    · exact entry_two _ _ _
    · exact entry_one _ _
    · exact entry_one _ _
    cases x
  · dsimp only
    rw [readRef_chain]
    refine enum8 fun n => ?_
    conv => rhs; simp only [Rd.ap, Rd.map, rbind_assoc, rpure_bind]
    iterate 17 read_arm8
    rfl

/-- src/loadable.rs:15-37. -/
theorem C65_methodHandleKind :
    Same (deriveEnum (K := plain) (some .u8) Decl.methodHandleKind)
      ⟨fun k => pure k.write, Rd.lift HandleKind.read⟩
      (fun
        | .inl _ => .getField
        | .inr (.inl _) => .getStatic
        | .inr (.inr (.inl _)) => .putField
        | .inr (.inr (.inr (.inl _))) => .putStatic
        | .inr (.inr (.inr (.inr (.inl _)))) => .invokeVirtual
        | .inr (.inr (.inr (.inr (.inr (.inl _))))) => .invokeStatic
        | .inr (.inr (.inr (.inr (.inr (.inr (.inl _)))))) => .invokeSpecial
        | .inr (.inr (.inr (.inr (.inr (.inr (.inr (.inl _))))))) => .newInvokeSpecial
        | .inr (.inr (.inr (.inr (.inr (.inr (.inr (.inr (.inl _)))))))) => .invokeInterface)
      (fun
        | .getField => .inl ()
        | .getStatic => .inr (.inl ())
        | .putField => .inr (.inr (.inl ()))
        | .putStatic => .inr (.inr (.inr (.inl ())))
        | .invokeVirtual => .inr (.inr (.inr (.inr (.inl ()))))
        | .invokeStatic => .inr (.inr (.inr (.inr (.inr (.inl ())))))
        | .invokeSpecial => .inr (.inr (.inr (.inr (.inr (.inr (.inl ()))))))
        | .newInvokeSpecial => .inr (.inr (.inr (.inr (.inr (.inr (.inr (.inl ())))))))
        | .invokeInterface => .inr (.inr (.inr (.inr (.inr (.inr (.inr (.inr (.inl ()))))))))) := by
  refine ⟨?_, ?_, _, rfl, ?_, ?_⟩
  · rintro (x | x | x | x | x | x | x | x | x | x)
    iterate 9 rfl
    cases x
  · rintro (_ | _ | _ | _ | _ | _ | _ | _ | _)
    all_goals rfl
  · rintro (x | x | x | x | x | x | x | x | x | x)
    iterate 9 rfl
    cases x
  · dsimp only
    rw [readKind_chain]
    refine enum8 fun n => ?_
    iterate 9 read_arm8
    rfl

/-- src/version.rs:6-12. -/
theorem C65_javaVersion :
    Same (deriveStruct (K := plain) Decl.javaVersion) ⟨fun v => pure v.write, Rd.lift Version.read⟩
      (fun x => ⟨x.1, x.2.1⟩) (fun x => (x.minor, x.major, ())) := by
  refine ⟨fun _ => rfl, fun _ => rfl, _, rfl, fun x => wSeq_two _ _, ?_⟩
  dsimp only
  rw [Version.read, rlift_map2]
  read_fields

/-! ## Attributes -/

/-- src/member.rs:50-62. -/
theorem C65_fieldAttribute (env : WEnv) (ord : Order) (n : Nat) :
    Same (deriveAttr (K := coffer env ord n) Decl.fieldAttribute) ⟨FieldAttr.write, FieldAttr.read⟩
      (fun
        | .inl _ => .deprecated
        | .inr (.inl _) => .synthetic
        | .inr (.inr (.inl x)) => .signature x.1
        | .inr (.inr (.inr (.inl x))) => .constantValue x.1
        | .inr (.inr (.inr (.inr (.inl x)))) => .visible x.1
        | .inr (.inr (.inr (.inr (.inr (.inl x))))) => .invisible x.1
        | .inr (.inr (.inr (.inr (.inr (.inr (.inl x)))))) => .visibleType x.1
        | .inr (.inr (.inr (.inr (.inr (.inr (.inr (.inl x))))))) => .invisibleType x.1
        | .inr (.inr (.inr (.inr (.inr (.inr (.inr (.inr (.inl x)))))))) => .raw x)
      (fun
        | .deprecated => .inl ()
        | .synthetic => .inr (.inl ())
        | .signature a => .inr (.inr (.inl (a, ())))
        | .constantValue a => .inr (.inr (.inr (.inl (a, ()))))
        | .visible a => .inr (.inr (.inr (.inr (.inl (a, ())))))
        | .invisible a => .inr (.inr (.inr (.inr (.inr (.inl (a, ()))))))
        | .visibleType a => .inr (.inr (.inr (.inr (.inr (.inr (.inl (a, ())))))))
        | .invisibleType a => .inr (.inr (.inr (.inr (.inr (.inr (.inr (.inl (a, ()))))))))
        | .raw x => .inr (.inr (.inr (.inr (.inr (.inr (.inr (.inr (.inl x))))))))) := by
  refine ⟨?_, ?_, _, rfl, ?_, ?_⟩
  · rintro (x | x | x | x | x | x | x | x | x | x)
    iterate 9 rfl
    cases x
  · rintro (_ | _ | _ | _ | _ | _ | _ | _ | _)
    all_goals rfl
  · rintro (x | x | x | x | x | x | x | x | x | x)
    · rfl
    · rfl
    · exact congrArg (wAttr _) (wSeq_one _)
    · exact congrArg (wAttr _) (wSeq_one _)
    · exact congrArg (wAttr _) (wSeq_one _)
    · exact congrArg (wAttr _) (wSeq_one _)
    · exact congrArg (wAttr _) (wSeq_one _)
    · exact congrArg (wAttr _) (wSeq_one _)
    · rfl
    · cases x
  · dsimp only
    refine attr_table (table' := FieldAttr.table) (raw' := .raw) (fun name => ?_) ?_
    conv => rhs; simp only [FieldAttr.table, Rd.ap, Rd.map, rbind_assoc, rpure_bind]
    iterate 8 read_arm
    · rfl
    · exact fun _ => rfl

/-- src/attr.rs:98-122. -/
theorem C65_classAttribute (env : WEnv) (ord : Order) (n : Nat) :
    Same (deriveAttr (K := coffer env ord n) Decl.classAttribute) ⟨ClassAttr.write, ClassAttr.read⟩
      (fun
        | .inl x => .signature x.1
        | .inr (.inl _) => .synthetic
        | .inr (.inr (.inl _)) => .deprecated
        | .inr (.inr (.inr (.inl x))) => .sourceFile x.1
        | .inr (.inr (.inr (.inr (.inl x)))) => .innerClasses x.1
        | .inr (.inr (.inr (.inr (.inr (.inl x))))) => .enclosingMethod x.1 x.2.1
        | .inr (.inr (.inr (.inr (.inr (.inr (.inl x)))))) => .debugExtension x.1
        | .inr (.inr (.inr (.inr (.inr (.inr (.inr (.inl x))))))) => .bootstrapMethods x.1
        | .inr (.inr (.inr (.inr (.inr (.inr (.inr (.inr (.inl x)))))))) => .module_ x.1
        | .inr (.inr (.inr (.inr (.inr (.inr (.inr (.inr (.inr (.inl x))))))))) => .modulePackages x.1
        | .inr (.inr (.inr (.inr (.inr (.inr (.inr (.inr (.inr (.inr (.inl x)))))))))) => .mainClass x.1
        | .inr (.inr (.inr (.inr (.inr (.inr (.inr (.inr (.inr (.inr (.inr (.inl x))))))))))) => .nestHost x.1
        | .inr (.inr (.inr (.inr (.inr (.inr (.inr (.inr (.inr (.inr (.inr (.inr (.inl x)))))))))))) => .nestMembers x.1
        | .inr (.inr (.inr (.inr (.inr (.inr (.inr (.inr (.inr (.inr (.inr (.inr (.inr (.inl x))))))))))))) => .visible x.1
        | .inr (.inr (.inr (.inr (.inr (.inr (.inr (.inr (.inr (.inr (.inr (.inr (.inr (.inr (.inl x)))))))))))))) => .invisible x.1
        | .inr (.inr (.inr (.inr (.inr (.inr (.inr (.inr (.inr (.inr (.inr (.inr (.inr (.inr (.inr (.inl x))))))))))))))) => .visibleType x.1
        | .inr (.inr (.inr (.inr (.inr (.inr (.inr (.inr (.inr (.inr (.inr (.inr (.inr (.inr (.inr (.inr (.inl x)))))))))))))))) => .invisibleType x.1
        | .inr (.inr (.inr (.inr (.inr (.inr (.inr (.inr (.inr (.inr (.inr (.inr (.inr (.inr (.inr (.inr (.inr (.inl x))))))))))))))))) => .raw x)
      (fun
        | .signature a => .inl (a, ())
        | .synthetic => .inr (.inl ())
        | .deprecated => .inr (.inr (.inl ()))
        | .sourceFile a => .inr (.inr (.inr (.inl (a, ()))))
        | .innerClasses a => .inr (.inr (.inr (.inr (.inl (a, ())))))
        | .enclosingMethod a b => .inr (.inr (.inr (.inr (.inr (.inl (a, b, ()))))))
        | .debugExtension a => .inr (.inr (.inr (.inr (.inr (.inr (.inl (a, ())))))))
        | .bootstrapMethods a => .inr (.inr (.inr (.inr (.inr (.inr (.inr (.inl (a, ()))))))))
        | .module_ a => .inr (.inr (.inr (.inr (.inr (.inr (.inr (.inr (.inl (a, ())))))))))
        | .modulePackages a => .inr (.inr (.inr (.inr (.inr (.inr (.inr (.inr (.inr (.inl (a, ()))))))))))
        | .mainClass a => .inr (.inr (.inr (.inr (.inr (.inr (.inr (.inr (.inr (.inr (.inl (a, ())))))))))))
        | .nestHost a => .inr (.inr (.inr (.inr (.inr (.inr (.inr (.inr (.inr (.inr (.inr (.inl (a, ()))))))))))))
        | .nestMembers a => .inr (.inr (.inr (.inr (.inr (.inr (.inr (.inr (.inr (.inr (.inr (.inr (.inl (a, ())))))))))))))
        | .visible a => .inr (.inr (.inr (.inr (.inr (.inr (.inr (.inr (.inr (.inr (.inr (.inr (.inr (.inl (a, ()))))))))))))))
        | .invisible a => .inr (.inr (.inr (.inr (.inr (.inr (.inr (.inr (.inr (.inr (.inr (.inr (.inr (.inr (.inl (a, ())))))))))))))))
        | .visibleType a => .inr (.inr (.inr (.inr (.inr (.inr (.inr (.inr (.inr (.inr (.inr (.inr (.inr (.inr (.inr (.inl (a, ()))))))))))))))))
        | .invisibleType a => .inr (.inr (.inr (.inr (.inr (.inr (.inr (.inr (.inr (.inr (.inr (.inr (.inr (.inr (.inr (.inr (.inl (a, ())))))))))))))))))
        | .raw x => .inr (.inr (.inr (.inr (.inr (.inr (.inr (.inr (.inr (.inr (.inr (.inr (.inr (.inr (.inr (.inr (.inr (.inl x)))))))))))))))))) := by
  refine ⟨?_, ?_, _, rfl, ?_, ?_⟩
  · rintro (x | x | x | x | x | x | x | x | x | x | x | x | x | x | x | x | x | x | x)
    iterate 18 rfl
    cases x
  · rintro (_ | _ | _ | _ | _ | _ | _ | _ | _ | _ | _ | _ | _ | _ | _ | _ | _ | _)
    all_goals rfl
  · rintro (x | x | x | x | x | x | x | x | x | x | x | x | x | x | x | x | x | x | x)
    · exact congrArg (wAttr _) (wSeq_one _)
    · rfl
    · rfl
    · exact congrArg (wAttr _) (wSeq_one _)
    · exact congrArg (wAttr _) (wSeq_one _)
    · rfl
    · exact congrArg (wAttr _) (wSeq_one _)
    · exact congrArg (wAttr _) (wSeq_one _)
    · exact congrArg (wAttr _) (wSeq_one _)
    · exact congrArg (wAttr _) (wSeq_one _)
    · exact congrArg (wAttr _) (wSeq_one _)
    · exact congrArg (wAttr _) (wSeq_one _)
    · exact congrArg (wAttr _) (wSeq_one _)
    · exact congrArg (wAttr _) (wSeq_one _)
    · exact congrArg (wAttr _) (wSeq_one _)
    · exact congrArg (wAttr _) (wSeq_one _)
    · exact congrArg (wAttr _) (wSeq_one _)
    · rfl
    · cases x
  · dsimp only
    refine attr_table (table' := ClassAttr.table) (raw' := .raw) (fun name => ?_) ?_
    conv => rhs; simp only [ClassAttr.table, Rd.ap, Rd.map, rbind_assoc, rpure_bind]
    iterate 17 read_arm
    · rfl
    · exact fun _ => rfl

/-- src/code/structure.rs:416-426. -/
theorem C65_codeAttr (env : WEnv) (ord : Order) (n : Nat) :
    Same (deriveAttr (K := coffer env ord n) Decl.codeAttr) ⟨CodeAttr.write env, CodeAttr.read⟩
      (fun
        | .inl x => .lines x.1
        | .inr (.inl x) => .vars x.1
        | .inr (.inr (.inl x)) => .varTypes x.1
        | .inr (.inr (.inr (.inl x))) => .invisibleType x.1
        | .inr (.inr (.inr (.inr (.inl x)))) => .visibleType x.1
        | .inr (.inr (.inr (.inr (.inr (.inl x))))) => .frames x.1
        | .inr (.inr (.inr (.inr (.inr (.inr (.inl x)))))) => .raw x)
      (fun
        | .lines a => .inl (a, ())
        | .vars a => .inr (.inl (a, ()))
        | .varTypes a => .inr (.inr (.inl (a, ())))
        | .invisibleType a => .inr (.inr (.inr (.inl (a, ()))))
        | .visibleType a => .inr (.inr (.inr (.inr (.inl (a, ())))))
        | .frames a => .inr (.inr (.inr (.inr (.inr (.inl (a, ()))))))
        | .raw x => .inr (.inr (.inr (.inr (.inr (.inr (.inl x))))))) := by
  refine ⟨?_, ?_, _, rfl, ?_, ?_⟩
  · rintro (x | x | x | x | x | x | x | x)
    iterate 7 rfl
    cases x
  · rintro (_ | _ | _ | _ | _ | _ | _)
    all_goals rfl
  · rintro (x | x | x | x | x | x | x | x)
    · exact congrArg (wAttr _) (wSeq_one _)
    · exact congrArg (wAttr _) (wSeq_one _)
    · exact congrArg (wAttr _) (wSeq_one _)
    · exact congrArg (wAttr _) (wSeq_one _)
    · exact congrArg (wAttr _) (wSeq_one _)
    · exact congrArg (wAttr _) (wSeq_one _)
    · rfl
    · cases x
  · dsimp only
    refine attr_table (table' := CodeAttr.table) (raw' := .raw) (fun name => ?_) ?_
    conv => rhs; simp only [CodeAttr.table, Rd.ap, Rd.map, rbind_assoc, rpure_bind]
    iterate 6 read_arm
    · rfl
    · exact fun _ => rfl

/-- src/member.rs:81-98. The order in which the local variables of a body come out is looked up with the
length of the input, here `n`. -/
theorem C65_methodAttribute (env : WEnv) (ord : Order) (n : Nat) :
    Same (deriveAttr (K := coffer env ord n) Decl.methodAttribute) 
      ⟨MethodAttr.write, rAttr (MethodAttr.table (ord n)) .raw⟩
      (fun
        | .inl x => .code x.1
        | .inr (.inl _) => .deprecated
        | .inr (.inr (.inl _)) => .synthetic
        | .inr (.inr (.inr (.inl x))) => .signature x.1
        | .inr (.inr (.inr (.inr (.inl x)))) => .visible x.1
        | .inr (.inr (.inr (.inr (.inr (.inl x))))) => .invisible x.1
        | .inr (.inr (.inr (.inr (.inr (.inr (.inl x)))))) => .visibleType x.1
        | .inr (.inr (.inr (.inr (.inr (.inr (.inr (.inl x))))))) => .invisibleType x.1
        | .inr (.inr (.inr (.inr (.inr (.inr (.inr (.inr (.inl x)))))))) => .visibleParams x.1
        | .inr (.inr (.inr (.inr (.inr (.inr (.inr (.inr (.inr (.inl x))))))))) => .invisibleParams x.1
        | .inr (.inr (.inr (.inr (.inr (.inr (.inr (.inr (.inr (.inr (.inl x)))))))))) => .exceptions x.1
        | .inr (.inr (.inr (.inr (.inr (.inr (.inr (.inr (.inr (.inr (.inr (.inl x))))))))))) => .annotationDefault x.1
        | .inr (.inr (.inr (.inr (.inr (.inr (.inr (.inr (.inr (.inr (.inr (.inr (.inl x)))))))))))) => .methodParameters x.1
        | .inr (.inr (.inr (.inr (.inr (.inr (.inr (.inr (.inr (.inr (.inr (.inr (.inr (.inl x))))))))))))) => .raw x)
      (fun
        | .code a => .inl (a, ())
        | .deprecated => .inr (.inl ())
        | .synthetic => .inr (.inr (.inl ()))
        | .signature a => .inr (.inr (.inr (.inl (a, ()))))
        | .visible a => .inr (.inr (.inr (.inr (.inl (a, ())))))
        | .invisible a => .inr (.inr (.inr (.inr (.inr (.inl (a, ()))))))
        | .visibleType a => .inr (.inr (.inr (.inr (.inr (.inr (.inl (a, ())))))))
        | .invisibleType a => .inr (.inr (.inr (.inr (.inr (.inr (.inr (.inl (a, ()))))))))
        | .visibleParams a => .inr (.inr (.inr (.inr (.inr (.inr (.inr (.inr (.inl (a, ())))))))))
        | .invisibleParams a => .inr (.inr (.inr (.inr (.inr (.inr (.inr (.inr (.inr (.inl (a, ()))))))))))
        | .exceptions a => .inr (.inr (.inr (.inr (.inr (.inr (.inr (.inr (.inr (.inr (.inl (a, ())))))))))))
        | .annotationDefault a => .inr (.inr (.inr (.inr (.inr (.inr (.inr (.inr (.inr (.inr (.inr (.inl (a, ()))))))))))))
        | .methodParameters a => .inr (.inr (.inr (.inr (.inr (.inr (.inr (.inr (.inr (.inr (.inr (.inr (.inl (a, ())))))))))))))
        | .raw x => .inr (.inr (.inr (.inr (.inr (.inr (.inr (.inr (.inr (.inr (.inr (.inr (.inr (.inl x)))))))))))))) := by
  refine ⟨?_, ?_, _, rfl, ?_, ?_⟩
  · rintro (x | x | x | x | x | x | x | x | x | x | x | x | x | x | x)
    iterate 14 rfl
    cases x
  · rintro (_ | _ | _ | _ | _ | _ | _ | _ | _ | _ | _ | _ | _ | _)
    all_goals rfl
  · rintro (x | x | x | x | x | x | x | x | x | x | x | x | x | x | x)
    · exact congrArg (wAttr _) (wSeq_one _)
    · rfl
    · rfl
    · exact congrArg (wAttr _) (wSeq_one _)
    · exact congrArg (wAttr _) (wSeq_one _)
    · exact congrArg (wAttr _) (wSeq_one _)
    · exact congrArg (wAttr _) (wSeq_one _)
    · exact congrArg (wAttr _) (wSeq_one _)
    · exact congrArg (wAttr _) (wSeq_one _)
    · exact congrArg (wAttr _) (wSeq_one _)
    · exact congrArg (wAttr _) (wSeq_one _)
    · exact congrArg (wAttr _) (wSeq_one _)
    · exact congrArg (wAttr _) (wSeq_one _)
    · rfl
    · cases x
  · dsimp only
    refine attr_table (table' := MethodAttr.table (ord n)) (raw' := .raw) (fun name => ?_) ?_
    conv => rhs; simp only [MethodAttr.table, Rd.ap, Rd.map, rbind_assoc, rpure_bind]
    iterate 13 read_arm
    · rfl
    · exact fun _ => rfl

/-- This is the reader of the model at an input of that length. -/
example (ord : Order) (env : REnv) (st : RSt) (bs : Bytes) :
    MethodAttr.read ord env st bs = rAttr (MethodAttr.table (ord bs.length)) .raw env st bs := rfl

end Verif.Props
