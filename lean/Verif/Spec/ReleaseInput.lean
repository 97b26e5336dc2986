import Verif.Spec.Input
import Verif.Model.Release

/-! # Input of unknown origin in a build without overflow checks: where the reader is known to panic

There the dimensions of types, the numbers of the entries of the pool and the ends of ranges wrap, and so does the number
of targets of a `tableswitch`. -/

namespace Verif.Spec

/-- `n` is the number of targets of a `tableswitch` with these bounds, as it is computed with 32 bits. -/
def Targets (low high : Int32) (n : Nat) : Prop :=
  n < 2 ^ 31 ∧ ∃ k : Int, (n : Int) = high.toInt - low.toInt + 1 + k * 2 ^ 32

/-- As `RawOk`, with the number of targets modulo 2^32. -/
def RawOkW : RInsn → Prop
  | .TableSwitch _ b => Targets b.low b.high b.offsets.length
  | i => RawOk i

/-- As `RawAt`. -/
def RawAtW (p : Nat) (r : RInsn) (b : Bytes) : Prop :=
  RawOkW r ∧ ∃ pad, b = U1 (rawOp r).code ++ pad ++ rawArgs r ∧
    if rawOp r = .tableswitch ∨ rawOp r = .lookupswitch then pad.length < 4 ∧ (p + 1 + pad.length) % 4 = 0
    else pad = []

/-- The bytes are these instructions, at these positions. -/
inductive DecodesW : Nat → Bytes → List (Nat × RInsn) → Prop
  | nil {p : Nat} : DecodesW p [] []
  | cons {p : Nat} {r : RInsn} {b bs : Bytes} {rs : List (Nat × RInsn)} : RawAtW p r b →
      DecodesW (p + b.length) bs rs → DecodesW p (b ++ bs) ((p, r) :: rs)

/-- A `tableswitch` at the position `pos` whose number of targets is negative as a number with 32 bits. -/
def BadSwitchW (pos : Nat) (bs : Bytes) : Prop := ∃ (pad dflt : Bytes) (low high : Int32) (rest : Bytes),
  bs = 0xAA :: (pad ++ (dflt ++ (i32.write low ++ (i32.write high ++ rest)))) ∧ pad.length = 3 - pos % 4 ∧
    dflt.length = 4 ∧ ∀ n, ¬ Targets low high n

/-- A bad switch after some complete instructions. -/
def BadCodeW (code : Bytes) : Prop := ∃ (pre suf : Bytes) (rs : List (Nat × RInsn)),
  code = pre ++ suf ∧ DecodesW 0 pre rs ∧ BadSwitchW pre.length suf

/-- A line number for a position that is not the beginning of an instruction or the end. -/
def BadLine (P : Pool) (positions : List Nat) (tail : Bytes) : Prop :=
  ∃ (pc line : UInt16), Listed P (· <:+: tail) N.lineNumberTable 4 (U2 pc.toNat ++ U2 line.toNat) ∧
    pc.toNat ∉ positions

/-- The payload of a `Code` attribute with bad code, or with a bad line number behind good code. -/
def BadBodyW (P : Pool) (payload : Bytes) : Prop := ∃ (stack locals : UInt16) (code tail : Bytes),
  payload = U2 stack.toNat ++ (U2 locals.toNat ++ (U4 code.length ++ (code ++ tail))) ∧
    (BadCodeW code ∨ ∃ rs, DecodesW 0 code rs ∧ BadLine P (rs.map Prod.fst ++ [code.length]) tail)

/-- The only feature of an input without which reading it does not panic: a bad method body behind the pool. -/
def HazardW (input : Bytes) : Prop := ∃ (cp : MapCp) (rest : Bytes) (i : UInt16) (payload : Bytes),
  MapCp.readW (input.drop 8) = .ok (cp, rest) ∧ IsUtf8 cp.get i N.code ∧
    U2 i.toNat ++ (U4 payload.length ++ payload) <:+: rest ∧ BadBodyW cp.get payload

end Verif.Spec
