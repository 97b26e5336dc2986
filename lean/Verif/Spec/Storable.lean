import Verif.Spec.Consts
import Verif.Spec.Circular
import Verif.Spec.Rewrite

/-! # Classes that were read and can be written

What a class file may contain that the reader accepts and the writer does not. -/

namespace Verif.Spec

/-- Bodies that surely fit in 65535 bytes, without empty tables of jumps; the variables fit in one table, although
they may come from several. -/
structure StorableBody (x : Code) : Prop where
  size : (x.code.map room).sum < 65536
  switches : ∀ d low, Insn.tableSwitch d low [] ∉ x.code
  vars : ∀ vs, .locals vs ∈ x.attrs → Table vs

/-- If dynamic constants and call sites are used there is a bootstrap table, it is not circular (C66), and it fits
in one attribute with the copies that are written (C56). -/
structure Storable (x : Class) : Prop where
  bodies : ∀ m ∈ x.methods, ∀ b, .code b ∈ m.attrs → StorableBody b
  cells : classDynamics x = [] ∨ ∃ a ∈ x.attrs, isBootstrap a = true
  acyclic : ¬ Circular (bsmTable x.attrs)
  table : Table (writtenBsms (completed x))
  tableSize : ((writtenBsms (completed x)).map fun b => 4 + 2 * b.arguments.length).sum + 2 < 2 ^ 32

end Verif.Spec
