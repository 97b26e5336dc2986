import Verif.Model.Derive
import Verif.Spec.Fmt

/-!
# What the derive macros are documented to do (coffer_macros/src/lib.rs:7-66)

Fields are written and read in the order of their declaration, with the helper that is declared for
the field. An enum is preceded by the tag of the variant, an attribute by its name and length.
-/

namespace Verif.Spec
open Verif.Derive

variable {K : Crate}

/-! ## Fields -/

/-- The implementation declared for a field. -/
def declared (f : FieldDecl K) : Option (Impl (K.val f.ty)) :=
  match f.as_ with
  | some h => K.as_ h f.ty
  | none => K.own f.ty

/-- All fields have the implementation that is declared. -/
def Compiles (fs : List (FieldDecl K)) : Prop := ∀ f ∈ fs, (declared f).isSome

/-- The fields are written one after the other. -/
inductive FieldsWritten : (fs : List (FieldDecl K)) → Tuple K fs → VecCp → Bytes → VecCp → Prop
  | nil {cp} : FieldsWritten [] () cp [] cp
  | cons {f fs x xs i a b cp cp' cp''} : declared f = some i → i.write x cp = .ok (a, cp') →
      FieldsWritten fs xs cp' b cp'' → FieldsWritten (f :: fs) (x, xs) cp (a ++ b) cp''

/-- The fields are read one after the other. -/
inductive FieldsRead (env : REnv) :
    (fs : List (FieldDecl K)) → RSt → Bytes → Tuple K fs → RSt → Bytes → Prop
  | nil {st bs} : FieldsRead env [] st bs () st bs
  | cons {f fs x xs i st st' st'' bs bs' bs''} : declared f = some i →
      i.read env st bs = .ok (x, st', bs') → FieldsRead env fs st' bs' xs st'' bs'' →
      FieldsRead env (f :: fs) st bs (x, xs) st'' bs''

/-! ## Enums -/

/-- The value of a discriminant, however it is written. -/
def _root_.Verif.Derive.Disc.value : Disc → Nat
  | .lit n => n
  | .expr n => n

/-- The tag attribute, or else the discriminant. -/
def ownTag (v : VariantDecl K) : Option Nat := v.tag.or (v.disc.map Disc.value)

/-- "When both the tag attribute and a discriminant is missing, the tag is incremented from the last
variant." -/
def docTag (vs : List (VariantDecl K)) : Nat → Nat
  | 0 => ((vs[0]?).bind ownTag).getD 0
  | i + 1 => ((vs[i + 1]?).bind ownTag).getD (docTag vs i + 1)

/-- A number in `size` bytes, the highest first. -/
def bigEndian (size n : Nat) : Bytes :=
  (List.range size).map fun k => UInt8.ofNat (n / 256 ^ (size - 1 - k))

/-- The constructors of an enum. -/
def ctors : (vs : List (VariantDecl K)) → List ((v : VariantDecl K) × (Tuple K v.fields → Sum K vs))
  | [] => []
  | v :: vs => ⟨v, Sum.inl⟩ :: (ctors vs).map fun c => ⟨c.1, fun t => Sum.inr (c.2 t)⟩

/-! ## Attribute enums -/

/-- The constructors of an attribute enum. -/
def attrCtors : (vs : List (AttrDecl K)) → List ((v : AttrDecl K) × (v.Val → AttrSum K vs))
  | [] => []
  | v :: vs => ⟨v, Sum.inl⟩ :: (attrCtors vs).map fun c => ⟨c.1, fun t => Sum.inr (c.2 t)⟩

/-- The names of the attributes that are known. -/
def attrNames (vs : List (AttrDecl K)) : List Bytes :=
  (vs.filter fun v => v.fields.isSome).map AttrDecl.name

/-! ## What was written can be read -/

/-- A pool that is reached by insertions from an empty one, some bootstrap methods being given. -/
def Built (cp : VecCp) : Prop := ∃ bsm, Steps { VecCp.new with bsm := bsm } cp

/-- Whatever pool a value is written with, reading the bytes returns the value and leaves what
follows. -/
def Returns {α : Type} (I : Impl α) (x : α) : Prop :=
  ∀ cp bs cp', Built cp → I.write x cp = .ok (bs, cp') →
    Steps cp cp' ∧ ∀ W : World, W.Fits cp' → ∀ catches st rest,
      ∃ st', I.read ⟨W.pool, catches⟩ st (bs ++ rest) = .ok (x, st', rest)

/-- This holds for all fields. -/
def FieldsReturn : (fs : List (FieldDecl K)) → Tuple K fs → Prop
  | [], _ => True
  | f :: fs, x => (∀ i, declared f = some i → Returns i x.1) ∧ FieldsReturn fs x.2

end Verif.Spec
