import Verif.Spec.Fmt
import Verif.Model.Frame

/-! # Stack map frames (JVMS 4.7.4) -/

namespace Verif.Spec

/-- JVMS 4.7.4: the values of `ITEM_Top`, …. -/
def vtypeTag : VType → Nat
  | .top => 0
  | .int => 1
  | .float => 2
  | .double => 3
  | .long => 4
  | .null => 5
  | .uninitThis => 6
  | .object _ => 7
  | .uninit _ => 8

/-- `verification_type_info`. -/
def vtype : Fmt VType := fun c v bs => ∃ b, bs = U1 (vtypeTag v) ++ b ∧
  match v with
  | .object s => Fmt.cls c s b
  | .uninit l => Fmt.label c l b
  | _ => b = []

/-- `stack_map_frame`. The forms with a small offset in the tag and the forms with an explicit offset
are both legal for a small offset. -/
inductive frame (c : Ctx) : Frame → Bytes → Prop
  | same {n : Nat} : n ≤ 63 → frame c (.same (UInt16.ofNat n)) (U1 n)
  | sameExt {off : UInt16} : frame c (.same off) (U1 251 ++ U2 off.toNat)
  | one {n : Nat} {v : VType} {b : Bytes} : n ≤ 63 → vtype c v b →
      frame c (.one (UInt16.ofNat n) v) (U1 (64 + n) ++ b)
  | oneExt {off : UInt16} {v : VType} {b : Bytes} : vtype c v b →
      frame c (.one off v) (U1 247 ++ U2 off.toNat ++ b)
  | chop {off : UInt16} {k : Nat} : 1 ≤ k → k ≤ 3 →
      frame c (.chop off (UInt8.ofNat k)) (U1 (251 - k) ++ U2 off.toNat)
  | append {off : UInt16} {vs : List VType} {b : Bytes} : 1 ≤ vs.length → vs.length ≤ 3 →
      Fmt.all vtype c vs b → frame c (.append off vs) (U1 (251 + vs.length) ++ U2 off.toNat ++ b)
  | full {off : UInt16} {ls ss : List VType} {b b' : Bytes} : Fmt.table2 vtype c ls b →
      Fmt.table2 vtype c ss b' → frame c (.full off ls ss) (U1 255 ++ U2 off.toNat ++ b ++ b')

/-- The same verification type with the tags of long and double exchanged. -/
def swapV : VType → VType
  | .long => .double
  | .double => .long
  | v => v

def swapF : Frame → Frame
  | .same off => .same off
  | .one off v => .one off (swapV v)
  | .chop off n => .chop off n
  | .append off vs => .append off (vs.map swapV)
  | .full off ls ss => .full off (ls.map swapV) (ss.map swapV)

/-- Renaming of labels. -/
def renV (f : Label → Label) : VType → VType
  | .uninit l => .uninit (f l)
  | v => v

def renF (f : Label → Label) : Frame → Frame
  | .same off => .same off
  | .one off v => .one off (renV f v)
  | .chop off n => .chop off n
  | .append off vs => .append off (vs.map (renV f))
  | .full off ls ss => .full off (ls.map (renV f)) (ss.map (renV f))

end Verif.Spec
