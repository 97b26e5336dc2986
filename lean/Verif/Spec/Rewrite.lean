import Verif.Spec.Class

/-! # Classes that were read, with their cells filled

The reader shares the cells of dynamic constants with the bootstrap table (`Class.read`). Here the cells are
replaced by what they hold, to a given depth; if bootstrap methods do not refer to each other in a circle then
the depth `T.length` is enough for a table `T`. -/

namespace Verif.Spec

def fillArg (T : List Bsm) : Nat → Arg → Arg
  | 0, a => a
  | n + 1, .dynamic (.pending k) nm t => match T[k.toNat]? with
    | some b => .dynamic (.filled b.handle (b.arguments.map (fillArg T n))) nm t
    | none => .dynamic (.pending k) nm t
  | _ + 1, a => a

def fillBsm (T : List Bsm) (n : Nat) (b : Bsm) : Bsm := ⟨b.handle, b.arguments.map (fillArg T n)⟩

def fillMethodAttr (T : List Bsm) : MethodAttr → MethodAttr
  | .code x => .code { x with code := x.code.map (resolveI T) }
  | a => a

def fillClassAttr (T : List Bsm) (n : Nat) : ClassAttr → ClassAttr
  | .bootstrapMethods ms => .bootstrapMethods (ms.map (fillBsm T n))
  | a => a

/-- The class with its cells filled to depth `n` from its first bootstrap table. -/
def filled (n : Nat) (x : Class) : Class :=
  let T := (bsmTable x.attrs).map (fillBsm (bsmTable x.attrs) n)
  { x with
    methods := x.methods.map fun m => { m with attrs := m.attrs.map (fillMethodAttr T) }
    attrs := x.attrs.map (fillClassAttr (bsmTable x.attrs) n) }

/-- The class after reading. -/
def completed (x : Class) : Class := filled (bsmTable x.attrs).length x

end Verif.Spec
