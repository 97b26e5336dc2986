import Verif.Model.Io

/-!
# Model of the derive macros: coffer_macros/src/derive.rs

The macros turn a declaration into an implementation. A declaration names the types of its fields and
the helpers in `#[coffer(as = "…")]`; which implementations these names have is a matter of the crate
in which the macro is used (`Crate`). `none` stands for a declaration that does not compile: a panic
of the macro, or a missing implementation.

`derive(ReadWrite)` (derive.rs:278-430) generates the same code as `derive(ConstantPoolReadWrite)`
(derive.rs:432-581) without the argument `cp`; it is the case of implementations that do not use the
pool.
-/

namespace Verif.Derive

/-- An implementation of `ConstantPoolReadWrite` (src/rw.rs:370-377) or `ConstantPoolReadWriteAs`
(src/helper.rs:13-20). -/
structure Impl (α : Type) where
  write : α → Ins Bytes
  read : Rd α

/-- What trait resolution finds: names of types with their values, names of helpers, and the
implementations `<ty as ConstantPoolReadWrite>` and `<helper as ConstantPoolReadWriteAs<ty>>`. -/
structure Crate where
  Ty : Type
  Helper : Type
  val : Ty → Type
  own : (t : Ty) → Option (Impl (val t))
  as_ : Helper → (t : Ty) → Option (Impl (val t))

/-! ## Declarations -/

/-- A field with its configuration (derive.rs:20-23 `FieldConfig`, 136-154). -/
structure FieldDecl (K : Crate) where
  ty : K.Ty
  as_ : Option K.Helper := none

/-- The discriminant `= …` of a variant: an integer literal, or another expression with a value. -/
inductive Disc where
  | lit (n : Nat)
  | expr (n : Nat)
  deriving DecidableEq, Repr

/-- A variant with its configuration (derive.rs:13-18 `VariantConfig`, 99-134). -/
structure VariantDecl (K : Crate) where
  fields : List (FieldDecl K)
  tag : Option Nat := none
  disc : Option Disc := none

/-- A variant of an attribute enum: its name and its fields, or `#[coffer(raw_variant)]` with the
single field `RawAttribute` (`none`). -/
structure AttrDecl (K : Crate) where
  name : Bytes
  fields : Option (List (FieldDecl K))

/-- The integer types that can be `tag_type` (src/rw.rs:447). -/
inductive IntTy where
  | u8 | i8 | u16 | i16 | u32 | i32 | u64 | i64 | u128 | i128
  deriving DecidableEq, Repr

def IntTy.size : IntTy → Nat
  | .u8 | .i8 => 1
  | .u16 | .i16 => 2
  | .u32 | .i32 => 4
  | .u64 | .i64 => 8
  | .u128 | .i128 => 16

/-- Literals up to here compile; larger ones are refused (`overflowing_literals`). The macro itself computes `tag + 1` as a
`u128` (derive.rs:350, 505), which panics for the largest one. -/
def IntTy.limit : IntTy → Nat
  | .u8 => 2 ^ 8 | .i8 => 2 ^ 7
  | .u16 => 2 ^ 16 | .i16 => 2 ^ 15
  | .u32 => 2 ^ 32 | .i32 => 2 ^ 31
  | .u64 => 2 ^ 64 | .i64 => 2 ^ 63
  | .u128 => 2 ^ 128 - 1 | .i128 => 2 ^ 127

/-- The `ReadWrite` of the integer type (src/rw.rs:430-448), a number being given by its bits. For a
literal the bits are the literal. -/
def IntTy.codec (t : IntTy) : NumCodec Nat := ⟨t.size, id, id⟩

/-! ## Values -/

/-- The fields of a structure or a variant. -/
def Tuple (K : Crate) : List (FieldDecl K) → Type
  | [] => Unit
  | f :: fs => K.val f.ty × Tuple K fs

/-- The values of an enum. -/
def Sum (K : Crate) : List (VariantDecl K) → Type
  | [] => Empty
  | v :: vs => Tuple K v.fields ⊕ Sum K vs

/-- The content of a variant of an attribute enum. -/
def AttrDecl.Val {K : Crate} (v : AttrDecl K) : Type :=
  match v.fields with
  | none => RawAttribute
  | some fs => Tuple K fs

/-- The values of an attribute enum. -/
def AttrSum (K : Crate) : List (AttrDecl K) → Type
  | [] => Empty
  | v :: vs => v.Val ⊕ AttrSum K vs

/-! ## Fields -/

variable {K : Crate}

/-- derive.rs:187-195, 218-226, 291-312, 366-374, 392-400, 446-467, 521-529, 543-551: the implementation a field uses. -/
def resolve (t : K.Ty) : Option K.Helper → Option (Impl (K.val t))
  | some h => K.as_ h t
  | none => K.own t

/-- The statements that write the fields, in order; `cfg.fields[idx]` is the configuration of field
`idx`, an index out of bounds is a panic of the macro. -/
def wFields : (fs : List (FieldDecl K)) → (cfg : List (Option K.Helper)) →
    Option (Tuple K fs → List (Ins Bytes))
  | [], _ => some fun _ => []
  | _ :: _, [] => none
  | f :: fs, c :: cs => do
    let i ← resolve f.ty c
    let k ← wFields fs cs
    some fun x => i.write x.1 :: k x.2

/-- The expression that constructs a value; the fields are read in order (`variant.construct`). -/
def rFields : (fs : List (FieldDecl K)) → (cfg : List (Option K.Helper)) → Option (Rd (Tuple K fs))
  | [], _ => some (Rd.pure ())
  | _ :: _, [] => none
  | f :: fs, c :: cs => do
    let i ← resolve f.ty c
    let k ← rFields fs cs
    some (Rd.bind i.read fun a => Rd.map (Prod.mk a) k)

/-- derive.rs:128-130: one configuration for each field. -/
def config (fs : List (FieldDecl K)) : List (Option K.Helper) := fs.map FieldDecl.as_

/-! ## Structures -/

/-- derive.rs:283-328 and 438-483. -/
def deriveStruct (fs : List (FieldDecl K)) : Option (Impl (Tuple K fs)) := do
  let w ← wFields fs (config fs)
  let r ← rFields fs (config fs)
  some ⟨fun x => wSeq (w x), r⟩

/-! ## Tagged enums -/

/-- derive.rs:331-353 and 486-508: the attribute, a literal discriminant, or one more than the tag
before. -/
def tags (fallback : Nat) : List (VariantDecl K) → List Nat
  | [] => []
  | v :: vs =>
    let tag := match v.tag with
      | some t => t
      | none => match v.disc with
        | some (.lit n) => n
        | _ => fallback
    tag :: tags (tag + 1) vs

/-- derive.rs:355-380 and 510-535: the arms of `match self`. -/
def wArms (ty : IntTy) : (vs : List (VariantDecl K)) → List Nat → Option (Sum K vs → Ins Bytes)
  | [], _ => some fun x => nomatch x
  | _ :: _, [] => none
  | v :: vs, t :: ts => do
    let w ← wFields v.fields (config v.fields)
    let k ← wArms ty vs ts
    some fun
      | .inl x => wSeq (wNum ty.codec t :: w x)
      | .inr y => k y

/-- derive.rs:381-417 and 536-568: the arms of the match on the tag that was read. -/
def rArms : (vs : List (VariantDecl K)) → List Nat → Option (Nat → Rd (Sum K vs))
  | [], _ => some fun _ => Rd.fail .invalid
  | _ :: _, [] => none
  | v :: vs, t :: ts => do
    let r ← rFields v.fields (config v.fields)
    let k ← rArms vs ts
    some fun n => if n = t then Rd.map Sum.inl r else Rd.map Sum.inr (k n)

/-- derive.rs:329-427 and 484-578; without `tag_type` the macro panics (354, 509). -/
def deriveEnum (ty : Option IntTy) (vs : List (VariantDecl K)) : Option (Impl (Sum K vs)) := do
  let ty ← ty
  if (tags 0 vs).all fun t => t < ty.limit then
    let w ← wArms ty vs (tags 0 vs)
    let r ← rArms vs (tags 0 vs)
    some ⟨w, Rd.bind (rNum ty.codec) r⟩
  else none

/-! ## Attribute enums -/

/-- The configuration of a variant; the raw variant has a field, too. -/
def AttrDecl.config (v : AttrDecl K) : List (Option K.Helper) :=
  match v.fields with
  | none => [none]
  | some fs => Derive.config fs

/-- derive.rs:165-209: the arms of `match self`. The counter runs over all variants. -/
def wAttrArms : (vs : List (AttrDecl K)) → (cfg : List (List (Option K.Helper))) →
    Option (AttrSum K vs → Ins Bytes)
  | [], _ => some fun x => nomatch x
  | _ :: _, [] => none
  | ⟨_, none⟩ :: vs, _ :: cs => do
    let k ← wAttrArms vs cs
    some fun
      | .inl a => wRaw a
      | .inr y => k y
  | ⟨name, some fs⟩ :: vs, c :: cs => do
    let w ← wFields fs c
    let k ← wAttrArms vs cs
    some fun
      | .inl x => wAttr name (wSeq (w x))
      | .inr y => k y

/-- derive.rs:210-247: the arms of the match on the name. The counter starts at zero again, but runs
over the variants that are not raw. -/
def rAttrArms : (vs : List (AttrDecl K)) → (cfg : List (List (Option K.Helper))) →
    Option (Bytes → Option (Rd (AttrSum K vs)))
  | [], _ => some fun _ => none
  | ⟨_, none⟩ :: vs, cs => do
    let k ← rAttrArms vs cs
    some fun n => (k n).map (Rd.map Sum.inr)
  | ⟨_, some _⟩ :: _, [] => none
  | ⟨name, some fs⟩ :: vs, c :: cs => do
    let r ← rFields fs c
    let k ← rAttrArms vs cs
    some fun n => if n = name then some (Rd.map Sum.inl r) else (k n).map (Rd.map Sum.inr)

/-- The constructor of the raw variant (derive.rs:261); `None` panics (160), a second one is refused
(84-92). -/
def rawCtor : (vs : List (AttrDecl K)) → Option (RawAttribute → AttrSum K vs)
  | [] => none
  | ⟨_, none⟩ :: vs => if vs.all fun v => v.fields.isSome then some Sum.inl else none
  | ⟨_, some _⟩ :: vs => do
    let k ← rawCtor vs
    some fun a => Sum.inr (k a)

/-- derive.rs:156-276 `attr_enum`. -/
def deriveAttr (vs : List (AttrDecl K)) : Option (Impl (AttrSum K vs)) := do
  let raw ← rawCtor vs
  let w ← wAttrArms vs (vs.map AttrDecl.config)
  let r ← rAttrArms vs (vs.map AttrDecl.config)
  some ⟨w, rAttr r raw⟩

end Verif.Derive
