import Verif.Model.Misc

/-!
# Specification of float comparison, access flags, versions, method handles and jump conditions

Only the data types are taken from the model.
-/

namespace Verif.Spec

/-! ## IEEE 754-2008 totalOrder (5.10) on bit patterns

A pattern is a sign and a magnitude (exponent and fraction read as one number). Positive patterns
are ordered by magnitude, negative ones by descending magnitude, and negative ones come first (so
-0 < +0, and NaNs are at the two ends). -/

def negative32 (x : F32) : Prop := 2 ^ 31 ≤ x.bits.toNat
def magnitude32 (x : F32) : Nat := x.bits.toNat % 2 ^ 31
def negative64 (x : F64) : Prop := 2 ^ 63 ≤ x.bits.toNat
def magnitude64 (x : F64) : Nat := x.bits.toNat % 2 ^ 63

/-- `x` comes before `y`. -/
inductive Less32 (x y : F32) : Prop
  | signs : negative32 x → ¬ negative32 y → Less32 x y
  | neg : negative32 x → negative32 y → magnitude32 y < magnitude32 x → Less32 x y
  | pos : ¬ negative32 x → ¬ negative32 y → magnitude32 x < magnitude32 y → Less32 x y

inductive Less64 (x y : F64) : Prop
  | signs : negative64 x → ¬ negative64 y → Less64 x y
  | neg : negative64 x → negative64 y → magnitude64 y < magnitude64 x → Less64 x y
  | pos : ¬ negative64 x → ¬ negative64 y → magnitude64 x < magnitude64 y → Less64 x y

/-! ## Access flags: the bit numbers of the JVMS tables 4.1-B, 4.5-A, 4.6-A, 4.7.6-A, and of
4.7.24 and 4.7.25 -/

def knownBits : FlagType → List Nat
  -- public final super interface abstract synthetic annotation enum module
  | .cls => [0, 4, 5, 9, 10, 12, 13, 14, 15]
  -- public private protected static final volatile transient synthetic enum
  | .field => [0, 1, 2, 3, 4, 6, 7, 12, 14]
  -- public private protected static final synchronized bridge varargs native abstract strict synthetic
  | .method => [0, 1, 2, 3, 4, 5, 6, 7, 8, 10, 11, 12]
  -- public private protected static final interface abstract synthetic annotation enum
  | .inner => [0, 1, 2, 3, 4, 9, 10, 12, 13, 14]
  -- final synthetic mandated
  | .param => [4, 12, 15]
  -- open synthetic mandated
  | .module => [5, 12, 15]
  -- transitive static_phase synthetic mandated
  | .require => [5, 6, 12, 15]
  -- synthetic mandated
  | .exOp => [12, 15]

/-! ## Versions: JVMS table 4.1-A -/

def majorNumber : Major → Nat
  | .j1 => 45 | .j1_2 => 46 | .j1_3 => 47 | .j1_4 => 48 | .j5 => 49 | .j6 => 50 | .j7 => 51
  | .j8 => 52 | .j9 => 53 | .j10 => 54 | .j11 => 55 | .j12 => 56 | .j13 => 57 | .j14 => 58
  | .j15 => 59

/-! ## Method handles -/

def IsFieldKind (k : HandleKind) : Prop := 1 ≤ refKind' k ∧ refKind' k ≤ 4
where
  /-- JVMS table 5.4.3.5-A -/
  refKind' : HandleKind → Nat
    | .getField => 1 | .getStatic => 2 | .putField => 3 | .putStatic => 4 | .invokeVirtual => 5
    | .invokeStatic => 6 | .invokeSpecial => 7 | .newInvokeSpecial => 8 | .invokeInterface => 9

def IsMethodType (t : JType) : Prop := ∃ ps r, t = .method ps r

/-- The text `s` (ASCII) as bytes. -/
def ascii (s : List Char) : Bytes := s.map fun c => UInt8.ofNat c.toNat

/-- The rules documented at src/loadable.rs:73-78. -/
structure DocumentedHandle (h : MethodHandle) : Prop where
  field : IsFieldKind h.kind → ¬ IsMethodType h.member.descriptor
  method : ¬ IsFieldKind h.kind → IsMethodType h.member.descriptor
  not_clinit : h.member.name ≠ ascii ['<', 'c', 'l', 'i', 'n', 'i', 't', '>']
  init : h.kind = .newInvokeSpecial → h.member.name = ascii ['<', 'i', 'n', 'i', 't', '>']
  not_init : h.kind ≠ .newInvokeSpecial → h.member.name ≠ ascii ['<', 'i', 'n', 'i', 't', '>']

/-- The rules of JVMS 4.4.8 on top: virtual invocation and instance creation need a class method,
interface invocation an interface method, and a constructor returns nothing. -/
structure JvmsHandle (h : MethodHandle) : Prop extends DocumentedHandle h where
  virtual : h.kind = .invokeVirtual ∨ h.kind = .newInvokeSpecial → h.member.itfs = false
  interface : h.kind = .invokeInterface → h.member.itfs = true
  void : h.kind = .newInvokeSpecial → ∃ ps, h.member.descriptor = .method ps none

/-! ## Jump conditions: JVMS 6.5 (`if_acmp<cond>`, `if_icmp<cond>`, `if<cond>`, `ifnull`, `ifnonnull`)

The operands: two ints, two references (`none` is null), where the one-operand forms use the first. -/

structure Operands where
  int1 : Int32
  int2 : Int32
  ref1 : Option Nat
  ref2 : Option Nat

def Jumps (o : Operands) : Cond → Prop
  | .refEq => o.ref1 = o.ref2
  | .refNe => o.ref1 ≠ o.ref2
  | .intEq => o.int1 = o.int2
  | .intNe => o.int1 ≠ o.int2
  | .intLt => o.int1.toInt < o.int2.toInt
  | .intGt => o.int1.toInt > o.int2.toInt
  | .intLe => o.int1.toInt ≤ o.int2.toInt
  | .intGe => o.int1.toInt ≥ o.int2.toInt
  | .eqZ => o.int1 = 0
  | .neZ => o.int1 ≠ 0
  | .ltZ => o.int1.toInt < 0
  | .gtZ => o.int1.toInt > 0
  | .leZ => o.int1.toInt ≤ 0
  | .geZ => o.int1.toInt ≥ 0
  | .isNull => o.ref1 = none
  | .isNonNull => o.ref1 ≠ none
  | .always => True

/-- The meaning of the branch opcodes (JVMS 6.5), independent of the names used by the library. -/
inductive OpcodeJumps (o : Operands) : Nat → Prop → Prop
  | ifeq : OpcodeJumps o 153 (o.int1.toInt = 0)
  | ifne : OpcodeJumps o 154 (o.int1.toInt ≠ 0)
  | iflt : OpcodeJumps o 155 (o.int1.toInt < 0)
  | ifge : OpcodeJumps o 156 (o.int1.toInt ≥ 0)
  | ifgt : OpcodeJumps o 157 (o.int1.toInt > 0)
  | ifle : OpcodeJumps o 158 (o.int1.toInt ≤ 0)
  | if_icmpeq : OpcodeJumps o 159 (o.int1.toInt = o.int2.toInt)
  | if_icmpne : OpcodeJumps o 160 (o.int1.toInt ≠ o.int2.toInt)
  | if_icmplt : OpcodeJumps o 161 (o.int1.toInt < o.int2.toInt)
  | if_icmpge : OpcodeJumps o 162 (o.int1.toInt ≥ o.int2.toInt)
  | if_icmpgt : OpcodeJumps o 163 (o.int1.toInt > o.int2.toInt)
  | if_icmple : OpcodeJumps o 164 (o.int1.toInt ≤ o.int2.toInt)
  | if_acmpeq : OpcodeJumps o 165 (o.ref1 = o.ref2)
  | if_acmpne : OpcodeJumps o 166 (o.ref1 ≠ o.ref2)
  | goto : OpcodeJumps o 167 True
  | ifnull : OpcodeJumps o 198 (o.ref1 = none)
  | ifnonnull : OpcodeJumps o 199 (o.ref1 ≠ none)

end Verif.Spec
