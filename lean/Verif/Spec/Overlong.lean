import Verif.Spec.Input
import Verif.Spec.Class

/-! # Attributes that claim to be longer than they are -/

namespace Verif.Spec

/-- Of the lengths the attribute with the name at `i` could have, its payload being a beginning of `w`, `used` is the
one with which it is accepted. -/
def OnlyLength {α : Type} (read : Rd α) (P : Pool) (i : UInt16) (w : Bytes) (used : Nat) : Prop := ∃ cs st,
  (∃ a st', read ⟨P, cs⟩ st (U2 i.toNat ++ U4 used ++ w.take used) = .ok (a, st', [])) ∧
  ∀ k, k ≤ w.length → k ≠ used → ∃ e, read ⟨P, cs⟩ st (U2 i.toNat ++ U4 k ++ w.take k) = .error e

/-- The same for an attribute `name` as it may stand in a class, a field, a method or a method body. -/
def RightLength (P : Pool) (i : UInt16) (name w : Bytes) (used : Nat) : Prop :=
  (name ∈ classAttrNames ∧ OnlyLength ClassAttr.read P i w used) ∨
  (name ∈ fieldAttrNames ∧ OnlyLength FieldAttr.read P i w used) ∨
  (name ∈ methodAttrNames ∧ ∀ ord : Order, (∀ n k vs, (ord n k vs).Perm vs) →
    OnlyLength (MethodAttr.read ord) P i w used) ∨
  (name ∈ codeAttrNames ∧ OnlyLength CodeAttr.read P i w used)

/-- Behind its pool the class file holds an attribute `name` of `claimed` bytes, of which only the first `used` make a
correct attribute of that name. -/
def Overlong (input : Bytes) (claimed used : UInt32) (name : Bytes) : Prop :=
  ∃ cp rest i w, MapCp.read (input.drop 8) = .ok (cp, rest) ∧ IsUtf8 cp.get i name ∧
    U2 i.toNat ++ U4 claimed.toNat ++ w <:+: rest ∧ w.length = claimed.toNat ∧ used < claimed ∧
    RightLength cp.get i name w used.toNat

end Verif.Spec
