import Verif.Spec.Code
import Verif.Model.Class

/-! # Input of unknown origin: where the reader is known to panic, and which cells it leaves open -/

namespace Verif.Spec

/-- 256 opening brackets in a row. -/
def Run (s : Bytes) : Prop := List.replicate 256 (0x5B : UInt8) <:+: s

/-- A `tableswitch` at the position `pos` (opcode, padding, default target, bounds) whose bounds do not
give a number of targets between 0 and 2^31 - 1. -/
def BadSwitch (pos : Nat) (bs : Bytes) : Prop := ∃ (pad dflt : Bytes) (low high : Int32) (rest : Bytes),
  bs = 0xAA :: (pad ++ (dflt ++ (i32.write low ++ (i32.write high ++ rest)))) ∧ pad.length = 3 - pos % 4 ∧
    dflt.length = 4 ∧ ¬ (0 ≤ high.toInt - low.toInt + 1 ∧ high.toInt - low.toInt + 1 < 2 ^ 31)

/-- A bad switch after some complete instructions. -/
def BadCode (code : Bytes) : Prop := ∃ (pre suf : Bytes) (rs : List (Nat × RInsn)),
  code = pre ++ suf ∧ Decodes 0 pre rs ∧ BadSwitch pre.length suf

/-- `entry` is an entry of a table, that is an attribute with this name, a number of entries and so many
entries of the given size. `here` says where the bytes of the attribute are. -/
def Listed (P : Pool) (here : Bytes → Prop) (name : Bytes) (size : Nat) (entry : Bytes) : Prop :=
  ∃ (i : UInt16) (es : List Bytes), IsUtf8 P i name ∧ (∀ e ∈ es, e.length = size) ∧ entry ∈ es ∧
    here (U2 i.toNat ++ (U4 (U2 es.length ++ es.flatten).length ++ (U2 es.length ++ es.flatten)))

/-- In the part of a method body behind the code: a line number for a position that is not the beginning
of an instruction or the end, or a variable whose range ends behind position 65535. -/
def BadTable (P : Pool) (positions : List Nat) (tail : Bytes) : Prop :=
  (∃ (pc line : UInt16), Listed P (· <:+: tail) N.lineNumberTable 4 (U2 pc.toNat ++ U2 line.toNat) ∧
    pc.toNat ∉ positions) ∨
  (∃ (name : Bytes) (start len : UInt16) (more : Bytes),
    (name = N.localVariableTable ∨ name = N.localVariableTypeTable) ∧
    Listed P (· <:+: tail) name 10 (U2 start.toNat ++ U2 len.toNat ++ more) ∧
    65536 ≤ start.toNat + len.toNat)

/-- The payload of a `Code` attribute with bad code, or with a bad table behind good code. -/
def BadBody (P : Pool) (payload : Bytes) : Prop := ∃ (stack locals : UInt16) (code tail : Bytes),
  payload = U2 stack.toNat ++ (U2 locals.toNat ++ (U4 code.length ++ (code ++ tail))) ∧
    (BadCode code ∨ ∃ rs, Decodes 0 code rs ∧ BadTable P (rs.map Prod.fst ++ [code.length]) tail)

/-- The features of an input without which reading it does not panic: a pool that claims to be as large
as possible, 256 brackets in a row, or, somewhere behind the pool, a bad method body. -/
inductive Hazard (input : Bytes) : Prop
  | pool (head rest : Bytes) : input = head ++ [0xFF, 0xFF] ++ rest → head.length = 8 → Hazard input
  | brackets : Run input → Hazard input
  | body (cp : MapCp) (rest : Bytes) (i : UInt16) (payload : Bytes) :
      MapCp.read (input.drop 8) = .ok (cp, rest) → IsUtf8 cp.get i N.code →
      U2 i.toNat ++ (U4 payload.length ++ payload) <:+: rest → BadBody cp.get payload → Hazard input

/-! ## Cells that were filled with nothing yet: the indices into the bootstrap table -/

def openD (d : Dynamic) : List UInt16 :=
  match d.bsm with
  | .pending k => [k]
  | .filled _ _ => []

def openO {α : Type} : OrDynamic α → List UInt16
  | .dynamic d => openD d
  | .static _ => []

def openI : Insn → List UInt16
  | .push c => openO c
  | .checkCast t => openO t
  | .instanceOf t => openO t
  | .newArray t _ => openO t
  | .new t => openO t
  | .field _ _ m => openO m
  | .invokeExact _ m => openO m
  | .invokeSpecial m => openO m
  | .invokeInterface m _ => openO m
  | .invokeDynamic d => openD d
  | _ => []

def openArg : Arg → List UInt16
  | .dynamic (.pending k) _ _ => [k]
  | _ => []

def openBsm (b : Bsm) : List UInt16 := b.arguments.flatMap openArg

def openMethodAttr : MethodAttr → List UInt16
  | .code x => x.code.flatMap openI
  | _ => []

def openClassAttr : ClassAttr → List UInt16
  | .bootstrapMethods ms => ms.flatMap openBsm
  | _ => []

/-- All cells of a class, in the order of the class file. -/
def openClass (x : Class) : List UInt16 :=
  x.methods.flatMap (fun m => m.attrs.flatMap openMethodAttr) ++ x.attrs.flatMap openClassAttr

end Verif.Spec
