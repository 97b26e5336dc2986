import Verif.Model.DeriveConfig

/-! # What the attributes of a declaration say -/

namespace Verif.DeriveConfig

/-- A path that is one identifier. -/
def name (s : String) : Path := ⟨false, [s]⟩

/-- The items of all attributes `#[coffer(…)]`, in order; all of them are lists without literals. -/
inductive Items : List Attr → List Meta → Prop
  | nil : Items [] []
  | other {a : Attr} {as : List Attr} {ms : List Meta} : a.path ≠ name "coffer" → Items as ms →
      Items (a :: as) ms
  | coffer {p : Path} {as : List Attr} {ns ms : List Meta} : Items as ms →
      Items (⟨name "coffer", some (.list p (ns.map some))⟩ :: as) (ns ++ ms)

/-- `tag_type(i)`, or `tag_type(path)` with a path that is not an identifier. -/
inductive TagType : Meta → Option String → Prop
  | ident (i : String) : TagType (.list (name "tag_type") [some (.path (name i))]) (some i)
  | path {q : Path} : (∀ i, q ≠ name i) → TagType (.list (name "tag_type") [some (.path q)]) none

/-- What an item of a variant can say. -/
inductive Setting where
  | raw
  | tag (n : Nat)
  | size (n : Nat)
  deriving DecidableEq

/-- `raw_variant`, `tag = n`, `estimated_size = n`. -/
inductive VariantItem : Meta → Setting → Prop
  | raw : VariantItem (.path (name "raw_variant")) .raw
  | tag {n : Nat} : n < 2 ^ 128 → VariantItem (.nameValue (name "tag") (.int n)) (.tag n)
  | size {n : Nat} : n < 2 ^ 64 → VariantItem (.nameValue (name "estimated_size") (.int n)) (.size n)

/-- `as = "…"`. -/
inductive FieldItem {Ty : Type} (parseTy : String → Option Ty) : Meta → Ty → Prop
  | as_ {s : String} {t : Ty} : parseTy s = some t → FieldItem parseTy (.nameValue (name "as") (.str s)) t

/-- Two lists, element by element. -/
inductive Both {α β : Type} (R : α → β → Prop) : List α → List β → Prop
  | nil : Both R [] []
  | cons {a : α} {b : β} {as : List α} {bs : List β} : R a b → Both R as bs → Both R (a :: as) (b :: bs)

def Setting.tag? : Setting → Option Nat
  | .tag n => some n
  | _ => none

def Setting.size? : Setting → Option Nat
  | .size n => some n
  | _ => none

/-- `c` is what the settings say, where a later one replaces an earlier one. -/
structure SaysFlags (ss : List Setting) (c : Flags) : Prop where
  raw : c.raw = true ↔ Setting.raw ∈ ss
  tag : c.tag = (ss.filterMap Setting.tag?).getLast?
  size : c.estimatedSize = (ss.filterMap Setting.size?).getLast?

/-- An attribute of a variant says that its tag is `n`, in one of the ways that are documented
(coffer_macros/src/lib.rs:18-20, 63): as an item of `coffer`, or by itself. -/
inductive SaysTag : Attr → Nat → Prop
  | coffer {p : Path} {ns : List (Option Meta)} {n : Nat} :
      some (.nameValue (name "tag") (.int n)) ∈ ns → SaysTag ⟨name "coffer", some (.list p ns)⟩ n
  | value {n : Nat} : SaysTag ⟨name "tag", some (.nameValue (name "tag") (.int n))⟩ n

end Verif.DeriveConfig
