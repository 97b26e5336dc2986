import Verif.Model.Instr

/-! # Model of the constructor functions: src/code/structure.rs:327-376, src/ty.rs:50-88,
src/loadable.rs:199-201, 217-221, src/dynamic.rs:118-137 -/

namespace Verif

/-- dynamic.rs:118-137 `From<Dynamic>`, `From<Constant>`, `From<MemberRef>`: what can be given where something or
a dynamic constant is expected (`Into<OrDynamic<T>>`, which includes `OrDynamic<T>` itself). -/
inductive IntoOrDynamic (α : Type) where
  | value (a : α)
  | dyn (d : Dynamic)
  | same (x : OrDynamic α)

def IntoOrDynamic.into {α : Type} : IntoOrDynamic α → OrDynamic α
  | .value a => .static a
  | .dyn d => .dynamic d
  | .same x => x

/-- dynamic.rs:106-116 `map_static`. -/
def OrDynamic.mapStatic {α β : Type} (f : α → β) : OrDynamic α → OrDynamic β
  | .dynamic d => .dynamic d
  | .static a => .static (f a)

/-- loadable.rs:217-221 `From<i32> for Constant`. -/
def Constant.ofI32 (i : Int32) : Constant := .i32 i

/-- loadable.rs:199-201 `Constant::string`. -/
def Constant.ofString (s : Bytes) : Constant := .string s

namespace Insn

/-- structure.rs:328-330. -/
def getstatic (r : IntoOrDynamic MemberRef) : Insn := .field .get .static r.into
/-- structure.rs:331-333. -/
def invokevirtual (r : IntoOrDynamic MemberRef) : Insn := .invokeExact .virtual r.into
/-- structure.rs:334-336. -/
def invokestatic (r : IntoOrDynamic MemberRef) : Insn := .invokeExact .static r.into
/-- structure.rs:337-339. -/
def store (t : LocalType) (i : UInt16) : Insn := .localVariable .store t i
/-- structure.rs:340-342. -/
def load (t : LocalType) (i : UInt16) : Insn := .localVariable .load t i
/-- structure.rs:343-345. -/
def iop (o : IntOp) : Insn := .intOperation .int o
/-- structure.rs:346-348. -/
def iadd : Insn := iop .add
/-- structure.rs:349-351. -/
def isub : Insn := iop .sub
/-- structure.rs:352-354. -/
def irem : Insn := iop .rem
/-- structure.rs:355-357. -/
def imul : Insn := iop .mul
/-- structure.rs:358-360. -/
def ineg : Insn := iop .neg
/-- structure.rs:361-363. -/
def ifeq (l : Label) : Insn := .jump .eqZ l
/-- structure.rs:364-366. -/
def if_icmpeq (l : Label) : Insn := .jump .intEq l
/-- structure.rs:367-369. -/
def if_icmpne (l : Label) : Insn := .jump .intNe l
/-- structure.rs:370-372. -/
def if_icmple (l : Label) : Insn := .jump .intLe l
/-- structure.rs:373-375. -/
def if_icmpgt (l : Label) : Insn := .jump .intGt l

end Insn

/-- ty.rs:50-55 `as_method`. -/
def JType.asMethod : JType → Option (List JType × Option JType)
  | .method ps r => some (ps, r)
  | _ => none

/-- ty.rs:65-70 `Type::method`. -/
def JType.mkMethod (ps : List JType) (r : Option JType) : JType := .method ps r

/-- ty.rs:73-78 `Type::reference`. -/
def JType.mkRef (name : Bytes) : JType := .ref name

end Verif
