import Verif.Spec.Class

/-! # Classes whose bootstrap arguments are dynamic constants: how these are numbered

The loop that writes the bootstrap table goes in rounds: the entries known, then the bootstrap methods of
their dynamic arguments, then those of the arguments of these. -/

namespace Verif.Spec
open Fmt

/-- Arguments with the dynamic ones referring by number, from `n` on. -/
def numberArgs : Nat → List Arg → List Arg
  | _, [] => []
  | n, .static c :: as => .static c :: numberArgs n as
  | n, .dynamic _ nm t :: as => .dynamic (.pending (UInt16.ofNat n)) nm t :: numberArgs (n + 1) as

/-- The same through all entries of a round. -/
def numberBsms : Nat → List Bsm → List Bsm
  | _, [] => []
  | n, b :: ts => ⟨b.handle, numberArgs n b.arguments⟩ :: numberBsms (n + (argBsms b).length) ts

/-- Every round begins with zero again. -/
def numberRounds : Nat → List Bsm → List Bsm
  | 0, _ => []
  | k + 1, ts => numberBsms 0 ts ++ numberRounds k (ts.flatMap argBsms)

/-- The bootstrap table as it is written for a class, with references as numbers. -/
def numberedBsms (x : Class) : List Bsm := numberRounds (bsmNodes (usedBsms x)) (usedBsms x)

/-- The class with this table. -/
def withNumbers (x : Class) : Class :=
  { x with attrs := x.attrs.filter (fun a => !isBootstrap a) ++
      if (usedBsms x).isEmpty then [] else [.bootstrapMethods (numberedBsms x)] }

/-- As `Writable`, without the condition on the order of the table. -/
structure _root_.Verif.ClassOf.Unordered (x : Class) : Prop where
  access : KnownFlags x.access
  interfaces : x.interfaces.length < 65536
  fields : x.fields.length < 65536 ∧ ∀ f ∈ x.fields, f.Writable
  methods : x.methods.length < 65536 ∧ ∀ m ∈ x.methods,
    m.Writable fun b => CodeWritable b ∧ Compact b.code
  attrs : x.attrs.length < 65536 ∧ ∀ a ∈ x.attrs, a.Writable
  count : (x.attrs.filter isBootstrap).length = if (usedBsms x).isEmpty then 0 else 1
  table : (writtenBsms x).length < 65536 ∧ ∀ b ∈ writtenBsms x, BsmWritable b

/-- An argument with its reference given as a number. -/
def argRef : Fmt Arg := fun c a bs => ∃ i : UInt16, bs = U2 i.toNat ∧ match a with
  | .static k => IsConstant c.pool i k
  | .dynamic (.pending k) n t => (∀ ps r, t ≠ .method ps r) ∧ IsDynamic c.pool i k n t
  | .dynamic (.filled _ _) _ _ => False

/-- An entry of the bootstrap table (JVMS 4.7.23), with references as numbers. -/
def bsmRef : Fmt Bsm := struct [on Bsm.handle (index IsHandle), on Bsm.arguments (table2 argRef)]

end Verif.Spec
