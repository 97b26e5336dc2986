import Verif.Spec.Cp

/-! # Where the parts of a class file end (JVMS 4.1, 4.5 – 4.7)

Only counts and lengths are looked at, nothing is interpreted. Every function gives what follows. -/

namespace Verif.Spec

/-- `n` attributes: name, length, content. -/
def walkAttrs : Nat → Bytes → Option Bytes
  | 0, bs => some bs
  | n + 1, _ :: _ :: a :: b :: c :: d :: bs =>
    let len := ((a.toNat * 256 + b.toNat) * 256 + c.toNat) * 256 + d.toNat
    if len ≤ bs.length then walkAttrs n (bs.drop len) else none
  | _ + 1, _ => none

/-- A 16-bit number, then so many things. -/
def walkTable (things : Nat → Bytes → Option Bytes) : Bytes → Option Bytes
  | a :: b :: bs => things (a.toNat * 256 + b.toNat) bs
  | _ => none

/-- `n` fields or methods: access flags, name, descriptor, attributes. -/
def walkMembers : Nat → Bytes → Option Bytes
  | 0, bs => some bs
  | n + 1, bs => if 6 ≤ bs.length then (walkTable walkAttrs (bs.drop 6)).bind (walkMembers n) else none

/-- `n` indices. -/
def walkIndices (n : Nat) (bs : Bytes) : Option Bytes :=
  if 2 * n ≤ bs.length then some (bs.drop (2 * n)) else none

/-- Everything after the constant pool: access flags, this class, super class, interfaces, fields,
methods, attributes. -/
def walkBody (bs : Bytes) : Option Bytes :=
  if 6 ≤ bs.length then
    (((walkTable walkIndices (bs.drop 6)).bind (walkTable walkMembers)).bind (walkTable walkMembers)).bind
      (walkTable walkAttrs)
  else none

/-- The counts and lengths of the class file are right: its last attribute ends with the file. -/
def Delimited (bs : Bytes) : Prop := ∃ es head pool body, PoolBytes es pool ∧ head.length = 8 ∧
  bs = head ++ pool ++ body ∧ walkBody body = some []

end Verif.Spec
