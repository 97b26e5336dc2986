import Verif.Model.Cp

/-! # Tables of bootstrap methods that refer to themselves

An argument of a bootstrap method may be a dynamic constant (JVMS 4.7.23), and a dynamic constant names an entry of
the table (JVMS 4.4.10). -/

namespace Verif.Spec

/-- Entry `i` of the table has an argument that is a dynamic constant made with entry `j`. -/
def UsesEntry (T : List Bsm) (i j : Nat) : Prop :=
  ∃ b k n t, T[i]? = some b ∧ Arg.dynamic (.pending k) n t ∈ b.arguments ∧ k.toNat = j

/-- Following such arguments one gets from entry `i` to entry `j`, in one step or more. -/
inductive Reaches (T : List Bsm) : Nat → Nat → Prop
  | one {i j} (h : UsesEntry T i j) : Reaches T i j
  | step {i j k} (h : UsesEntry T i j) (hs : Reaches T j k) : Reaches T i k

/-- Some entry leads back to itself. -/
def Circular (T : List Bsm) : Prop := ∃ i, Reaches T i i

end Verif.Spec
