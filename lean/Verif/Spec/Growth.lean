import Verif.Spec.Rewrite
import Verif.Spec.Skeleton

/-! # How many bootstrap methods a copy has

A class that was read shares the entries of its bootstrap table; a class file shares them too, by their numbers
(JVMS 4.7.23). Here the entries are counted that are needed when nothing is shared. -/

namespace Verif.Spec

/-- The numbers of the entries with which the dynamic arguments of an entry are made, one for each argument. -/
def argEntries (b : Bsm) : List Nat := b.arguments.filterMap fun
  | .dynamic (.pending k) _ _ => some k.toNat
  | _ => none

/-- Entry `k` of the table, the entries of its arguments, those of their arguments, and so on to depth `d`: each as
often as it occurs. -/
def entrySize (T : List Bsm) : Nat → Nat → Nat
  | 0, _ => 0
  | d + 1, k => match T[k]? with
    | none => 0
    | some b => 1 + ((argEntries b).map (entrySize T d)).sum

/-- The number of the entry with which a dynamic constant of a class that was read is made. -/
def dynEntry (d : Dynamic) : List Nat :=
  match d.bsm with
  | .pending k => [k.toNat]
  | .filled _ _ => []

/-- The entries of the class, and for every use of one, by an instruction or by an argument, all that belongs to it
once more. In a table that is not circular the depth is enough. -/
def copySize (x : Class) : Nat :=
  (givenBsms x.attrs).length +
    (((givenBsms x.attrs).flatMap argEntries).map (entrySize (bsmTable x.attrs) (bsmTable x.attrs).length)).sum +
    (((classDynamics x).flatMap dynEntry).map (entrySize (bsmTable x.attrs) ((bsmTable x.attrs).length + 1))).sum

/-- The entries of the class, and one more for every use of one. -/
def usesSize (x : Class) : Nat :=
  (givenBsms x.attrs).length + ((givenBsms x.attrs).flatMap argEntries).length + (classDynamics x).length

/-- From entry `i` one gets to others in `m` steps, each time through an entry that is used at least twice. -/
def Doubles (T : List Bsm) : Nat → Nat → Prop
  | 0, i => i < T.length
  | m + 1, i => ∃ b j, T[i]? = some b ∧ 2 ≤ (argEntries b).count j ∧ Doubles T m j

/-- Everything after the constant pool, up to and with the first `k` attributes of the class. -/
def walkUpTo (k : Nat) (bs : Bytes) : Option Bytes :=
  if 6 ≤ bs.length then
    (((walkTable walkIndices (bs.drop 6)).bind (walkTable walkMembers)).bind (walkTable walkMembers)).bind
      (walkTable fun _ => walkAttrs k)
  else none

/-- The attribute after the first `k` attributes of a class file is the last one, is called `BootstrapMethods` and
says that it has `n` entries (JVMS 4.7.23). -/
def TableCount (k : Nat) (bs : Bytes) (n : Nat) : Prop := ∃ es head pool body name content,
  PoolBytes es pool ∧ head.length = 8 ∧ bs = head ++ pool ++ body ∧
    walkUpTo k body = some (U2 name ++ U4 (content.length + 2) ++ U2 n ++ content) ∧
    At es name (.utf8 N.bootstrapMethods)

end Verif.Spec
