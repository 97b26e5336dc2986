import Verif.Spec.Class

/-! # Where stack map frames are needed (JVMS 4.7.4, 4.10.1)

Only data types are taken from the model. -/

namespace Verif.Spec

/-- `offset_delta`. -/
def offsetDelta : Frame → Nat
  | .same o | .one o _ | .chop o _ | .append o _ | .full o _ _ => o.toNat

/-- The positions of frames when the next one counts from `n`: one more than the position before it. -/
def spots : Nat → List Frame → List Nat
  | _, [] => []
  | n, f :: fs => (n + offsetDelta f) :: spots (n + offsetDelta f + 1) fs

/-- The positions for which the attributes of a body have a frame. -/
def framesAt (as : List CodeAttr) : List Nat := as.flatMap fun
  | .frames fs => spots 0 fs
  | _ => []

/-- Instructions that are never followed by the next one. -/
def Stops : Insn → Prop
  | .jump .always _ | .jsr _ | .ret _ | .tableSwitch _ _ _ | .lookupSwitch _ _ | .return _ | .throw => True
  | _ => False

/-- JVMS 4.10.1.6, 4.10.1.9: the verifier asks for a frame at every target of a branch, at every handler, and for every
instruction after one that is not followed by it. -/
inductive NeedsFrame (x : PlacedBody) : Nat → Prop
  | target {p q : Nat} {i : Insn} {l : Label} : (p, i) ∈ x.insns → l ∈ targets i → x.pos l = some q → NeedsFrame x q
  | handler {k : Catch} {q : Nat} : k ∈ x.body.catches → x.pos k.handler = some q → NeedsFrame x q
  | after {pre post : List (Nat × Insn)} {p q : Nat} {i j : Insn} : x.insns = pre ++ (p, i) :: (q, j) :: post →
      Stops i → NeedsFrame x q

/-- A body has all frames it needs. -/
def Covered (x : PlacedBody) : Prop := ∀ q, NeedsFrame x q → q ∈ framesAt x.body.attrs

/-- JVMS 4.10: class files of version 51 and above are verified with frames, without exception. -/
def Framed (x : ClassOf PlacedBody) : Prop := 51 ≤ majorNumber x.version.major →
  ∀ m ∈ x.methods, ∀ b, .code b ∈ m.attrs → Covered b

/-- Code without branches, handlers, and instructions after the end of a path. -/
structure Straight (is : List Insn) (ks : List Catch) : Prop where
  targets : ∀ i ∈ is, targets i = []
  catches : ks = []
  stops : ∀ pre i j post, is = pre ++ i :: j :: post → ¬ Stops i

end Verif.Spec
