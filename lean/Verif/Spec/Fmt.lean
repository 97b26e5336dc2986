import Verif.Spec.Cp
import Verif.Model.Io

/-!
# Class-file layouts (JVMS 4.3 – 4.7)

A layout says which byte strings represent a value in a class file with a given constant pool. Only
data types are taken from the model.
-/

namespace Verif.Spec

/-- What a layout may refer to: the constant pool, the bootstrap methods of the class, the code
positions of the labels, and the places of the handlers in the exception table. -/
structure Ctx where
  pool : Pool
  bsm : List Bsm
  pos : Label → Option Nat
  handler : Catch → Option Nat

/-- A layout. -/
def Fmt (α : Type) := Ctx → α → Bytes → Prop

namespace Fmt

/-- Numbers. -/
def byte : Fmt UInt8 := fun _ x bs => bs = U1 x.toNat
def word : Fmt UInt16 := fun _ x bs => bs = U2 x.toNat
def dword : Fmt UInt32 := fun _ x bs => bs = U4 x.toNat

/-- The layout of a part. -/
def on {α β : Type} (p : α → β) (f : Fmt β) : Fmt α := fun c x bs => f c (p x) bs

/-- A constant number. -/
def tag {α : Type} (n : Nat) : Fmt α := fun _ _ bs => bs = U1 n

/-- Parts one after the other. -/
def struct {α : Type} : List (Fmt α) → Fmt α
  | [] => fun _ _ bs => bs = []
  | f :: fs => fun c x bs => ∃ b b', bs = b ++ b' ∧ f c x b ∧ struct fs c x b'

/-- All elements one after the other. -/
def all {α : Type} (f : Fmt α) : Fmt (List α)
  | _, [], bs => bs = []
  | c, x :: xs, bs => ∃ b b', bs = b ++ b' ∧ f c x b ∧ all f c xs b'

/-- A table with an 8-bit or 16-bit number of entries. -/
def table1 {α : Type} (f : Fmt α) : Fmt (List α) := fun c xs bs =>
  xs.length < 256 ∧ ∃ b, bs = U1 xs.length ++ b ∧ all f c xs b
def table2 {α : Type} (f : Fmt α) : Fmt (List α) := fun c xs bs =>
  xs.length < 65536 ∧ ∃ b, bs = U2 xs.length ++ b ∧ all f c xs b

/-- An index into the constant pool of an entry standing for the value. -/
def index {α : Type} (is : Pool → UInt16 → α → Prop) : Fmt α := fun c x bs =>
  ∃ i : UInt16, is c.pool i x ∧ bs = U2 i.toNat

/-- An index, or zero when there is nothing. -/
def indexOpt {α : Type} (is : Pool → UInt16 → α → Prop) : Fmt (Option α)
  | _, none, bs => bs = U2 0
  | c, some x, bs => ∃ i : UInt16, i ≠ 0 ∧ is c.pool i x ∧ bs = U2 i.toNat

def utf8 : Fmt Bytes := index IsUtf8
def cls : Fmt Bytes := index IsClass
def module : Fmt Bytes := index IsModule
def package : Fmt Bytes := index IsPackage
def descr : Fmt JType := index IsDescr

/-- The code position of a label. -/
def label : Fmt Label := fun c l bs => ∃ n, c.pos l = some n ∧ n < 65536 ∧ bs = U2 n

/-- An attribute (JVMS 4.7): name, length of the payload, payload. -/
def attr {α : Type} (name : Bytes) (f : Fmt α) : Fmt α := fun c x bs =>
  ∃ (i : UInt16) (body : Bytes), IsUtf8 c.pool i name ∧ f c x body ∧ body.length < 4294967296 ∧
    bs = U2 i.toNat ++ U4 body.length ++ body

end Fmt

/-- References to bootstrap methods: those of `p` and further ones, all to entries of the table. -/
def Grown (T : List Bsm) (p q : List UInt16) : Prop := ∃ t, q = p ++ t ∧ ∀ k ∈ t, k.toNat < T.length

/-! ## What has been written -/

/-- A constant pool with a bootstrap table. -/
structure World where
  pool : Pool
  bsm : List Bsm

/-- The world contains everything inserted so far. -/
structure World.Fits (W : World) (cp : VecCp) : Prop where
  agrees : Agrees W.pool cp.entries
  bsm : cp.bsm <+: W.bsm

/-- The layout context in which something is written. -/
def _root_.Verif.WEnv.ctx (env : WEnv) (W : World) : Ctx where
  pool := W.pool
  bsm := W.bsm
  pos l := match env.label l with
    | .ok o => some o.toNat
    | .error _ => none
  handler c := match env.catch_ c with
    | .ok (some i) => some i.toNat
    | _ => none

end Verif.Spec
