/-!
# Model of the configuration of the derive macros: coffer_macros/src/derive.rs:1-154

Attributes are given as `syn` presents them: a path, and the meta item in it if the tokens have that
form. `none` as a result is a compile error. Spans and messages are left out, and so are the arguments
of path segments (`a<b>`), which `parse_meta` does not accept. `parseTy` stands for
`syn::parse_str::<Type>`.
-/

namespace Verif.DeriveConfig

/-- `syn::Path`: whether it begins with `::`, and its segments. -/
structure Path where
  leading : Bool
  segments : List String
  deriving DecidableEq

/-- `Path::get_ident`. -/
def Path.getIdent : Path → Option String
  | ⟨false, [s]⟩ => some s
  | _ => none

/-- `Path::is_ident`. -/
def Path.isIdent (p : Path) (s : String) : Bool := p.getIdent == some s

/-- `syn::Lit`: an integer with its value, a string, or any other literal. -/
inductive Lit where
  | int (n : Nat)
  | str (s : String)
  | other
  deriving DecidableEq

/-- `syn::Meta`; in a list `none` is a literal (`NestedMeta::Lit`). -/
inductive Meta where
  | path (p : Path)
  | list (p : Path) (nested : List (Option Meta))
  | nameValue (p : Path) (lit : Lit)

/-- `syn::Attribute`; `item` is what `parse_meta` gives. -/
structure Attr where
  path : Path
  item : Option Meta

variable {σ Ty : Type}

/-- derive.rs:46-52: the loop over the items of one attribute. -/
def eachItem (f : σ → Meta → Option σ) : List (Option Meta) → σ → Option σ
  | [], s => some s
  | none :: _, _ => none
  | some m :: ms, s =>
    match f s m with
    | some s => eachItem f ms s
    | none => none

/-- derive.rs:31-55 `parse_common`; the closure changes the state `σ`. -/
def parseCommon (f : σ → Meta → Option σ) : List Attr → σ → Option σ
  | [], s => some s
  | a :: as, s =>
    if a.path.isIdent "coffer" then
      match a.item with
      | some (.list _ ns) =>
        match eachItem f ns s with
        | some s => parseCommon f as s
        | none => none
      | _ => none
    else parseCommon f as s

/-- derive.rs:60-79: the closure of `DeriveConfig::parse`. -/
def containerItem (tagType : Option String) : Meta → Option (Option String)
  | .list p nested =>
    if p.isIdent "tag_type" then
      match nested with
      | [some (.path q)] =>
        match q.getIdent with
        | some i => some (some i)
        | none => some tagType
      | _ => none
    else none
  | _ => none

/-- derive.rs:13-18 `VariantConfig` without the fields, and whether the variant is raw. -/
structure Flags where
  estimatedSize : Option Nat := none
  tag : Option Nat := none
  raw : Bool := false
  deriving DecidableEq

/-- derive.rs:104-126: the closure of `VariantConfig::parse`. `base10_parse` fails for values that do
not fit `u128` and `usize` (of 64 bits). -/
def variantItem (c : Flags) : Meta → Option Flags
  | .path p => if p.isIdent "raw_variant" then some { c with raw := true } else none
  | .nameValue p (.int n) =>
    if p.isIdent "tag" then if n < 2 ^ 128 then some { c with tag := some n } else none
    else if p.isIdent "estimated_size" then
      if n < 2 ^ 64 then some { c with estimatedSize := some n } else none
    else none
  | _ => none

/-- derive.rs:139-151: the closure of `FieldConfig::parse`. -/
def fieldItem (parseTy : String → Option Ty) (_ : Option Ty) : Meta → Option (Option Ty)
  | .nameValue p (.str s) =>
    if p.isIdent "as" then
      match parseTy s with
      | some t => some (some t)
      | none => none
    else none
  | _ => none

/-- derive.rs:136-153 `FieldConfig::parse`. -/
def parseField (parseTy : String → Option Ty) (as : List Attr) : Option (Option Ty) :=
  parseCommon (fieldItem parseTy) as none

/-- The attributes of a variant and of its fields. -/
structure Variant where
  attrs : List Attr
  fields : List (List Attr)

/-- The attributes of a declaration. `synstructure` presents a structure as a declaration with one
variant, which has the attributes of the structure (`Decl.struct`). -/
structure Decl where
  attrs : List Attr
  variants : List Variant

def Decl.struct (attrs : List Attr) (fields : List (List Attr)) : Decl := ⟨attrs, [⟨attrs, fields⟩]⟩

/-- derive.rs:128-130. -/
def parseFields (parseTy : String → Option Ty) : List (List Attr) → Option (List (Option Ty))
  | [] => some []
  | f :: fs =>
    match parseField parseTy f with
    | none => none
    | some c =>
      match parseFields parseTy fs with
      | none => none
      | some cs => some (c :: cs)

/-- derive.rs:99-133 `VariantConfig::parse`. -/
def parseVariant (parseTy : String → Option Ty) (v : Variant) : Option (Flags × List (Option Ty)) :=
  match parseCommon variantItem v.attrs {} with
  | none => none
  | some c =>
    match parseFields parseTy v.fields with
    | none => none
    | some fs => some (c, fs)

/-- derive.rs:7-11 `DeriveConfig`. -/
structure Config (Ty : Type) where
  variants : List (Flags × List (Option Ty))
  rawVariant : Option Nat
  tagType : Option String

/-- derive.rs:80-94: the loop over the variants; `i` is the index of the first. -/
def parseVariants (parseTy : String → Option Ty) : Nat → List Variant → Option Nat →
    Option (List (Flags × List (Option Ty)) × Option Nat)
  | _, [], raw => some ([], raw)
  | i, v :: vs, raw =>
    match parseVariant parseTy v with
    | none => none
    | some c =>
      let raw' : Option (Option Nat) :=
        if c.1.raw then
          match raw with
          | some _ => none
          | none => some (some i)
        else some raw
      match raw' with
      | none => none
      | some raw =>
        match parseVariants parseTy (i + 1) vs raw with
        | none => none
        | some (cs, raw) => some (c :: cs, raw)

/-- derive.rs:57-96 `DeriveConfig::parse`. -/
def parseDecl (parseTy : String → Option Ty) (d : Decl) : Option (Config Ty) :=
  match parseCommon containerItem d.attrs none with
  | none => none
  | some t =>
    match parseVariants parseTy 0 d.variants none with
    | none => none
    | some (vs, raw) => some ⟨vs, raw, t⟩

end Verif.DeriveConfig
