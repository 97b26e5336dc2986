import Verif.Spec.Bulk

/-! # What a constant pool takes in a file -/

namespace Verif.Spec
open Verif

/-- What an entry takes at most: a tag, and a length with the text, or eight bytes. -/
def heftEntry : Entry → Nat
  | .utf8 s => 3 + 6 * s.length
  | _ => 9

/-- What the pool takes at most, with the bootstrap methods that wait to be written (`bsm`, src/cp.rs:111-117). -/
def heft (cp : VecCp) : Nat := (cp.entries.map heftEntry).sum + 8192 * (cp.bsm.map bulkBsm).sum

end Verif.Spec
