import Verif.Model.Shared
import Verif.Model.Misc

/-! # Comparing and hashing dynamic constants

The cell of a dynamic constant is shared (`Arc<OnceCell<BootstrapMethod>>`, src/dynamic.rs:54-61), and comparing
looks at whether two cells are the same one. So here a dynamic constant holds the address of its cell and a heap says
what is in the cells. The methods of src/dynamic.rs recurse without a limit; `fuel` is the depth at which the model gives
up, with `diverge`. -/

namespace Verif

/-! ## The derived `PartialEq` of types and constants -/

mutual
/-- derived, src/ty.rs:10: the variants, then the fields in order. -/
def JType.eq : JType → JType → Bool
  | .byte, .byte => true
  | .char, .char => true
  | .double, .double => true
  | .float, .float => true
  | .int, .int => true
  | .long, .long => true
  | .boolean, .boolean => true
  | .short, .short => true
  | .ref n, .ref n' => n == n'
  | .array d t, .array d' t' => d == d' && t.eq t'
  | .method ps r, .method ps' r' => JType.eqs ps ps' && JType.eqOpt r r'
  | _, _ => false
/-- `Vec<Type>`. -/
def JType.eqs : List JType → List JType → Bool
  | [], [] => true
  | t :: ts, t' :: ts' => t.eq t' && JType.eqs ts ts'
  | _, _ => false
/-- `Option<Box<Type>>`. -/
def JType.eqOpt : Option JType → Option JType → Bool
  | none, none => true
  | some t, some t' => t.eq t'
  | _, _ => false
end

/-- derived, src/member.rs:14. -/
def MemberRef.eq (a b : MemberRef) : Bool :=
  a.owner == b.owner && a.name == b.name && a.descriptor.eq b.descriptor && a.itfs == b.itfs

/-- derived, src/loadable.rs:62. -/
def MethodHandle.eq (a b : MethodHandle) : Bool := a.kind == b.kind && a.member.eq b.member

/-- derived, src/loadable.rs:166, with `PartialEq` of total_floats.rs. -/
def Constant.eq : Constant → Constant → Bool
  | .i32 a, .i32 b => a == b
  | .f32 a, .f32 b => a.eq b
  | .i64 a, .i64 b => a == b
  | .f64 a, .f64 b => a.eq b
  | .string a, .string b => a == b
  | .cls a, .cls b => a == b
  | .member a, .member b => a.eq b
  | .methodType a, .methodType b => a.eq b
  | .methodHandle a, .methodHandle b => a.eq b
  | _, _ => false

/-! ## Cells with addresses -/

/-- src/dynamic.rs:54-61; `α` is the type of addresses. -/
structure HDynamic (α : Type) where
  cell : α
  name : Bytes
  descriptor : JType

/-- `OrDynamic<Constant>`, src/dynamic.rs:100-104. -/
inductive HArg (α : Type) where
  | dynamic (d : HDynamic α)
  | static (c : Constant)

/-- src/dynamic.rs:9-13. -/
structure HBsm (α : Type) where
  handle : MethodHandle
  arguments : List (HArg α)

/-- What is in the cells; `none` for a cell that is empty. -/
abbrev Heap (α : Type) := α → Option (HBsm α)

section
variable {α : Type} [DecidableEq α]

/-- src/dynamic.rs:82-88, where `cells` compares two cells. -/
def HDynamic.eq (cells : α → α → Res Bool) (a b : HDynamic α) : Res Bool :=
  match cells a.cell b.cell with
  | .error e => .error e
  | .ok false => .ok false
  | .ok true => .ok (a.name == b.name && a.descriptor.eq b.descriptor)

/-- derived, src/dynamic.rs:100. -/
def HArg.eq (cells : α → α → Res Bool) : HArg α → HArg α → Res Bool
  | .dynamic a, .dynamic b => a.eq cells b
  | .static a, .static b => .ok (a.eq b)
  | _, _ => .ok false

/-- The elements of two vectors of the same length, up to the first difference. -/
def HArg.eqs (cells : α → α → Res Bool) : List (HArg α) → List (HArg α) → Res Bool
  | a :: as, b :: bs => match a.eq cells b with
    | .error e => .error e
    | .ok false => .ok false
    | .ok true => HArg.eqs cells as bs
  | _, _ => .ok true

/-- derived, src/dynamic.rs:9; vectors of different lengths are different. -/
def HBsm.eq (cells : α → α → Res Bool) (a b : HBsm α) : Res Bool :=
  if a.handle.eq b.handle then
    if a.arguments.length = b.arguments.length then HArg.eqs cells a.arguments b.arguments else .ok false
  else .ok false

/-- `Arc::eq` (the same allocation is equal without looking, because `OnceCell<BootstrapMethod>` is `Eq`) and
`OnceCell::eq` (compares the contents as `Option`s). -/
def Heap.eq (H : Heap α) : Nat → α → α → Res Bool
  | 0, _, _ => .error .diverge
  | n + 1, a, b =>
    if a = b then .ok true
    else match H a, H b with
      | none, none => .ok true
      | some x, some y => x.eq (H.eq n) y
      | _, _ => .ok false

end

/-- What is fed to the hasher: discriminants, lengths, and the values that hold no cell. -/
inductive Hashed where
  | variant (n : Nat)
  | length (n : Nat)
  | handle (h : MethodHandle)
  | constant (c : Constant)
  | name (b : Bytes)
  | descriptor (t : JType)

section
variable {α : Type}

/-- src/dynamic.rs:92-98. -/
def HDynamic.hash (cells : α → Res (List Hashed)) (d : HDynamic α) : Res (List Hashed) :=
  match cells d.cell with
  | .error e => .error e
  | .ok ts => .ok (ts ++ [.name d.name, .descriptor d.descriptor])

/-- derived, src/dynamic.rs:100. -/
def HArg.hash (cells : α → Res (List Hashed)) : HArg α → Res (List Hashed)
  | .dynamic d => match d.hash cells with
    | .error e => .error e
    | .ok ts => .ok (.variant 0 :: ts)
  | .static c => .ok [.variant 1, .constant c]

def HArg.hashes (cells : α → Res (List Hashed)) : List (HArg α) → Res (List Hashed)
  | [] => .ok []
  | a :: as => match a.hash cells with
    | .error e => .error e
    | .ok ts => match HArg.hashes cells as with
      | .error e => .error e
      | .ok us => .ok (ts ++ us)

/-- derived, src/dynamic.rs:9. -/
def HBsm.hash (cells : α → Res (List Hashed)) (b : HBsm α) : Res (List Hashed) :=
  match HArg.hashes cells b.arguments with
  | .error e => .error e
  | .ok ts => .ok (.handle b.handle :: .length b.arguments.length :: ts)

/-- src/dynamic.rs:94: the `Option` in the cell. -/
def Heap.hash (H : Heap α) : Nat → α → Res (List Hashed)
  | 0, _ => .error .diverge
  | n + 1, a => match H a with
    | none => .ok [.variant 0]
    | some x => match x.hash (H.hash n) with
      | .error e => .error e
      | .ok ts => .ok (.variant 1 :: ts)

/-! ## The cells of a class that was read -/

/-- Cell `(k, j)` belongs to argument `j` of entry `k` of the table, or to dynamic constant `j` of the code if there is no
entry `k`. Every occurrence has a cell of its own (src/rw.rs:276-305). -/
def cellAt (T : List Bsm) (ds : List Dynamic) (p : Nat × Nat) : Option Cell :=
  match T[p.1]? with
  | some b => match b.arguments[p.2]? with
    | some (.dynamic c _ _) => some c
    | _ => none
  | none => match ds[p.2]? with
    | some d => some d.bsm
    | none => none

/-- The argument with the address of its cell. -/
def Arg.placed (p : Nat × Nat) : Arg → HArg (Nat × Nat)
  | .dynamic _ n t => .dynamic ⟨p, n, t⟩
  | .static c => .static c

/-- A copy of entry `k`: cloning shares the cells of the arguments (src/cp.rs:184-191). -/
def Bsm.placed (k : Nat) (b : Bsm) : HBsm (Nat × Nat) :=
  ⟨b.handle, b.arguments.mapIdx fun j a => a.placed (k, j)⟩

/-- src/cp.rs:184-191: every cell waiting for entry `k` gets a copy of it. -/
def readHeap (T : List Bsm) (ds : List Dynamic) : Heap (Nat × Nat) := fun p =>
  match cellAt T ds p with
  | some (.pending k) => match T[k.toNat]? with
    | some b => some (b.placed k.toNat)
    | none => none
  | _ => none

/-- The cells of two classes. -/
def HArg.moved {β : Type} (f : α → β) : HArg α → HArg β
  | .dynamic d => .dynamic ⟨f d.cell, d.name, d.descriptor⟩
  | .static c => .static c

def HBsm.moved {β : Type} (f : α → β) (b : HBsm α) : HBsm β := ⟨b.handle, b.arguments.map (HArg.moved f)⟩

def Heap.both {β : Type} (H : Heap α) (K : Heap β) : Heap (α ⊕ β)
  | .inl a => (H a).map (HBsm.moved .inl)
  | .inr b => (K b).map (HBsm.moved .inr)

end

end Verif
