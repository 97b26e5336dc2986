import Verif.Lemmas.Misc

/-!
# Properties C27 – C31

Float comparison, access flags, versions, method handle checking, jump conditions.
-/

namespace Verif.Props
open Verif Spec

/-! ## C27: float constants compare by bit pattern and are totally ordered -/

/-- Equality of `TotalF32` is equality of bit patterns. -/
theorem C27_eq32 (x y : F32) : F32.eq x y = true ↔ x.bits = y.bits := F32.eq_iff x y

theorem C27_eq64 (x y : F64) : F64.eq x y = true ↔ x.bits = y.bits := F64.eq_iff x y

/-- A NaN equals itself, and the two zeros differ. -/
example : F32.eq ⟨0x7FC00001⟩ ⟨0x7FC00001⟩ = true ∧ F32.eq ⟨0x7FC00001⟩ ⟨0x7FC00002⟩ = false ∧
    F32.eq ⟨0⟩ ⟨0x80000000⟩ = false := by decide

/-- Equal values feed the hasher the same data, unequal ones different data. -/
theorem C27_hash (x y : F32) (a b : F64) :
    (F32.eq x y = true ↔ F32.hashed x = F32.hashed y) ∧
    (F64.eq a b = true ↔ F64.hashed a = F64.hashed b) :=
  ⟨C27_eq32 x y, C27_eq64 a b⟩

/-- The order is the IEEE total order. -/
theorem C27_order32 (x y : F32) :
    (F32.cmp x y = .lt ↔ Less32 x y) ∧ (F32.cmp x y = .gt ↔ Less32 y x) ∧
    (F32.cmp x y = .eq ↔ x = y) := by
  have hx := x.bits.toNat_lt
  have hy := y.bits.toNat_lt
  have key : ∀ a b : F32, a.key.toInt < b.key.toInt ↔ Less32 a b := by
    intro a b
    have ha := a.bits.toNat_lt
    have hb := b.bits.toNat_lt
    rw [F32.key_eq, F32.key_eq]
    constructor
    · intro h
      by_cases h1 : negative32 a <;> by_cases h2 : negative32 b
      · refine .neg h1 h2 ?_
        unfold negative32 at h1 h2; unfold magnitude32; omega
      · exact .signs h1 h2
      · unfold negative32 at h1 h2; omega
      · refine .pos h1 h2 ?_
        unfold negative32 at h1 h2; unfold magnitude32; omega
    · rintro (⟨h1, h2⟩ | ⟨h1, h2, h3⟩ | ⟨h1, h2, h3⟩) <;>
        simp only [negative32, magnitude32] at * <;> omega
  refine ⟨?_, ?_, ?_⟩
  · rw [F32.cmp, cmpInt_lt]; exact key x y
  · rw [F32.cmp, cmpInt_gt]; exact key y x
  · have := C27_eq32 x y
    unfold F32.eq at this
    rw [show (F32.cmp x y = .eq) ↔ (F32.cmp x y).isEq = true by cases F32.cmp x y <;> simp, this]
    cases x; cases y; simp

theorem C27_order64 (x y : F64) :
    (F64.cmp x y = .lt ↔ Less64 x y) ∧ (F64.cmp x y = .gt ↔ Less64 y x) ∧
    (F64.cmp x y = .eq ↔ x = y) := by
  have key : ∀ a b : F64, a.key.toInt < b.key.toInt ↔ Less64 a b := by
    intro a b
    have ha := a.bits.toNat_lt
    have hb := b.bits.toNat_lt
    rw [F64.key_eq, F64.key_eq]
    constructor
    · intro h
      by_cases h1 : negative64 a <;> by_cases h2 : negative64 b
      · refine .neg h1 h2 ?_
        unfold negative64 at h1 h2; unfold magnitude64; omega
      · exact .signs h1 h2
      · unfold negative64 at h1 h2; omega
      · refine .pos h1 h2 ?_
        unfold negative64 at h1 h2; unfold magnitude64; omega
    · rintro (⟨h1, h2⟩ | ⟨h1, h2, h3⟩ | ⟨h1, h2, h3⟩) <;>
        simp only [negative64, magnitude64] at * <;> omega
  refine ⟨?_, ?_, ?_⟩
  · rw [F64.cmp, cmpInt_lt]; exact key x y
  · rw [F64.cmp, cmpInt_gt]; exact key y x
  · have := C27_eq64 x y
    unfold F64.eq at this
    rw [show (F64.cmp x y = .eq) ↔ (F64.cmp x y).isEq = true by cases F64.cmp x y <;> simp, this]
    cases x; cases y; simp

/-- -1.0 < -0.0 < 0.0 < NaN. -/
example : F32.cmp ⟨0xBF800000⟩ ⟨0x80000000⟩ = .lt ∧ F32.cmp ⟨0x80000000⟩ ⟨0⟩ = .lt ∧
    F32.cmp ⟨0⟩ ⟨0x7FC00000⟩ = .lt := by decide

/-- The order is transitive (totality and antisymmetry are in `C27_order32`). -/
theorem C27_trans (x y z : F32) (a b c : F64) :
    (F32.cmp x y = .lt → F32.cmp y z = .lt → F32.cmp x z = .lt) ∧
    (F64.cmp a b = .lt → F64.cmp b c = .lt → F64.cmp a c = .lt) := by
  constructor
  · rw [F32.cmp, F32.cmp, F32.cmp, cmpInt_lt, cmpInt_lt, cmpInt_lt]; omega
  · rw [F64.cmp, F64.cmp, F64.cmp, cmpInt_lt, cmpInt_lt, cmpInt_lt]; omega

/-! ## C28: access flags -/

/-- Bit `k` of the mask is set iff the JVMS names it. -/
theorem all_testBit (t : FlagType) : ∀ k, k < 16 → t.all.toNat.testBit k = decide (k ∈ knownBits t) := by
  cases t <;> decide +kernel

/-- Reading keeps exactly the bits the JVMS names and drops the others, consuming two bytes. -/
theorem C28_read (t : FlagType) (w : UInt16) (rest : Bytes) :
    ∃ f : Flags t, Flags.read t (U2 w.toNat ++ rest) = .ok (f, rest) ∧
      ∀ k, f.bits.toNat.testBit k = (w.toNat.testBit k && decide (k ∈ knownBits t)) := by
  refine ⟨Flags.ofBitsTruncate t w, (readsU2 w).map rest, ?_⟩
  intro k
  show (w &&& t.all).toNat.testBit k = _
  rw [UInt16.toNat_and, Nat.testBit_and]
  by_cases hk : k < 16
  · rw [all_testBit t k hk]
  · have h1 : w.toNat.testBit k = false :=
      Nat.testBit_lt_two_pow (Nat.lt_of_lt_of_le w.toNat_lt (Nat.pow_le_pow_right (by omega) (by omega)))
    simp [h1]

/-- The `Flags` values that safe code can build: only declared bits. -/
def FlagsOk {t : FlagType} (f : Flags t) : Prop := ∀ k, f.bits.toNat.testBit k = true → k ∈ knownBits t

/-- Writing gives the two bytes of the word, and reading them back gives the same flags. -/
theorem C28_roundtrip (t : FlagType) (f : Flags t) (h : FlagsOk f) (rest : Bytes) :
    Flags.write f = U2 f.bits.toNat ∧ Flags.read t (Flags.write f ++ rest) = .ok (f, rest) := by
  have hw : Flags.write f = U2 f.bits.toNat := u16_write _
  refine ⟨hw, ?_⟩
  rw [hw]
  obtain ⟨g, h1, h2⟩ := C28_read t f.bits rest
  rw [h1]
  have : g.bits = f.bits := by
    apply UInt16.toNat_inj.mp
    apply Nat.eq_of_testBit_eq
    intro k
    rw [h2 k]
    by_cases hk : f.bits.toNat.testBit k = true
    · simp [hk, h k hk]
    · simp [hk]
  cases f; cases g; simp_all

/-- What is read is a legal value, and writing it and reading again changes nothing. -/
theorem C28_idempotent (t : FlagType) (bs rest : Bytes) (f : Flags t)
    (h : Flags.read t bs = .ok (f, rest)) :
    FlagsOk f ∧ Flags.read t (Flags.write f ++ rest) = .ok (f, rest) := by
  have hok : FlagsOk f := by
    unfold Flags.read Reader.map Reader.bind at h
    split at h
    · rename_i w rest' e
      cases h
      intro k hk
      have hk' : (w &&& t.all).toNat.testBit k = true := hk
      rw [UInt16.toNat_and, Nat.testBit_and, Bool.and_eq_true] at hk'
      by_cases hlt : k < 16
      · have := all_testBit t k hlt
        rw [hk'.2] at this
        simpa using this.symm
      · have h1 : w.toNat.testBit k = false :=
          Nat.testBit_lt_two_pow (Nat.lt_of_lt_of_le w.toNat_lt
            (Nat.pow_le_pow_right (by omega) (by omega)))
        rw [h1] at hk'
        simp at hk'
    · simp at h
  exact ⟨hok, (C28_roundtrip t f hok rest).2⟩

/-- An input shorter than two bytes is refused. -/
theorem C28_short (t : FlagType) (bs : Bytes) (h : bs.length < 2) : Flags.read t bs = .error .io := by
  unfold Flags.read Reader.map Reader.bind NumCodec.read readExact
  rw [if_neg (by show ¬ 2 ≤ bs.length; omega)]

/-- A class word with an unknown bit (0x0002): the bit is dropped. -/
example : Flags.read .cls [0x12, 0x23, 0xFF] = .ok (⟨0x1221⟩, [0xFF]) := by decide

example : FlagsOk (t := .method) ⟨0x0409⟩ := by
  intro k hk
  by_cases h : k < 16
  · revert hk; revert k; decide
  · rw [show (⟨0x0409⟩ : Flags .method).bits.toNat = 0x409 from rfl,
      Nat.testBit_lt_two_pow (Nat.lt_of_lt_of_le (by decide : 0x409 < 2 ^ 16)
      (Nat.pow_le_pow_right (by omega) (by omega)))] at hk
    simp at hk

/-! ## C29: class file versions -/

theorem ofTag_some (m : UInt16) (h : 45 ≤ m.toNat ∧ m.toNat ≤ 59) :
    ∃ v, Major.ofTag m = some v ∧ majorNumber v = m.toNat := by
  obtain ⟨n, hn, rfl⟩ : ∃ n : Nat, n < 15 ∧ m = UInt16.ofNat (45 + n) := ⟨m.toNat - 45, by omega, by
    rw [Nat.add_sub_cancel' h.1]; simp⟩
  clear h
  have key : ∀ n, n < 15 → (Major.ofTag (UInt16.ofNat (45 + n))).map majorNumber =
      some (UInt16.ofNat (45 + n)).toNat := by decide
  have := key n hn
  cases hv : Major.ofTag (UInt16.ofNat (45 + n)) with
  | none => rw [hv] at this; simp at this
  | some v => rw [hv] at this; exact ⟨v, rfl, by simpa using this⟩

theorem ofTag_none (m : UInt16) (h : ¬ (45 ≤ m.toNat ∧ m.toNat ≤ 59)) : Major.ofTag m = none := by
  unfold Major.ofTag
  split
  all_goals first | rfl | (exact absurd (by decide) h)

/-- A version is accepted iff its major number is that of a supported release, whatever the minor
number; the value read is the one the numbers stand for, and exactly four bytes are consumed. -/
theorem C29_read (minor major : UInt16) (rest : Bytes) (r : Res (Version × Bytes))
    (h : Version.read (U2 minor.toNat ++ U2 major.toNat ++ rest) = r) :
    (45 ≤ major.toNat ∧ major.toNat ≤ 59 →
      ∃ v, r = .ok (v, rest) ∧ v.minor = minor ∧ majorNumber v.major = major.toNat) ∧
    (¬ (45 ≤ major.toNat ∧ major.toNat ≤ 59) → r = .error .invalid) := by
  subst h
  unfold Version.read Reader.map2
  rw [List.append_assoc]
  unfold Reader.bind
  rw [readsU2]
  simp only
  unfold Major.read Reader.bind
  rw [readsU2]
  simp only
  constructor
  · intro h
    obtain ⟨v, e1, e2⟩ := ofTag_some major h
    rw [e1]
    exact ⟨⟨minor, v⟩, rfl, rfl, e2⟩
  · intro h
    rw [ofTag_none major h]
    rfl

/-- A version is written as the minor number, then the major number, and read back. -/
theorem C29_write (v : Version) (rest : Bytes) :
    Version.write v = U2 v.minor.toNat ++ U2 (majorNumber v.major) ∧
    Version.read (Version.write v ++ rest) = .ok (v, rest) := by
  have hw : Version.write v = U2 v.minor.toNat ++ U2 v.major.tag.toNat := by
    unfold Version.write; rw [u16_write, u16_write]
  have ht : v.major.tag.toNat = majorNumber v.major := by cases v.major <;> rfl
  refine ⟨by rw [hw, ht], ?_⟩
  rw [hw]
  obtain ⟨v', e1, e2, e3⟩ := (C29_read v.minor v.major.tag rest _ rfl).1 (by
    rw [ht]; cases v.major <;> decide)
  rw [e1]
  have : v'.major = v.major := by
    rw [ht] at e3
    revert e3
    cases v'.major <;> cases v.major <;> simp [majorNumber]
  cases v; cases v'; simp_all

/-- Java 8 is `00 00 00 34`. -/
example : Version.write ⟨0, .j8⟩ = [0, 0, 0, 52] := by decide

/-! ## C30: method handle checking -/

/-- The full claim: `check` accepts exactly the handles that obey the documented rules and those of
the JVMS. -/
def C30_full : Prop := ∀ h : MethodHandle, MethodHandle.check h = .ok () ↔ JvmsHandle h

/-- A handle that reads a field named `<clinit>`. -/
def clinitField : MethodHandle := ⟨.getField, ⟨[0x41], nameClinit, .int, false⟩⟩

/-- `check` accepts a field handle that names `<clinit>`, against the documented rule "Handles cannot
refer to static initializers, i.e. `MemberRef` with a name of `<clinit>`". -/
theorem C30_violated_documented : ¬ ∀ h : MethodHandle, MethodHandle.check h = .ok () → DocumentedHandle h := by
  intro h
  exact (h clinitField (by decide)).not_clinit (by decide)

/-- `check` accepts an `invokeInterface` handle to a class method (against JVMS 4.4.8). -/
theorem C30_violated : ¬ C30_full := by
  intro h
  have := ((h ⟨.invokeInterface, ⟨[0x41], [0x66], .method [] none, false⟩⟩).mp (by rfl)).interface rfl
  simp at this

theorem isFieldKind_iff (k : HandleKind) : IsFieldKind k ↔
    (k = .getField ∨ k = .getStatic ∨ k = .putField ∨ k = .putStatic) := by
  cases k <;> simp [IsFieldKind, IsFieldKind.refKind']

theorem isMethodType_iff (t : JType) : IsMethodType t ↔ t.isMethod = true := by
  cases t <;> simp [IsMethodType, JType.isMethod]

theorem nameInit_eq : nameInit = ascii ['<', 'i', 'n', 'i', 't', '>'] := by decide
theorem nameClinit_eq : nameClinit = ascii ['<', 'c', 'l', 'i', 'n', 'i', 't', '>'] := by decide

/-- What `check` decides: the documented rules, with those on names applied to methods only. -/
theorem C30_check_partial (h : MethodHandle) : MethodHandle.check h = .ok () ↔
    (IsFieldKind h.kind → ¬ IsMethodType h.member.descriptor) ∧
    (¬ IsFieldKind h.kind → IsMethodType h.member.descriptor) ∧
    (¬ IsFieldKind h.kind → h.member.name ≠ ascii ['<', 'c', 'l', 'i', 'n', 'i', 't', '>']) ∧
    (h.kind = .newInvokeSpecial → h.member.name = ascii ['<', 'i', 'n', 'i', 't', '>']) ∧
    (¬ IsFieldKind h.kind → h.kind ≠ .newInvokeSpecial →
      h.member.name ≠ ascii ['<', 'i', 'n', 'i', 't', '>']) := by
  rw [isMethodType_iff, isFieldKind_iff, ← nameInit_eq, ← nameClinit_eq]
  have hne : nameInit ≠ nameClinit := by decide
  obtain ⟨k, m⟩ := h
  unfold MethodHandle.check
  cases k <;> cases hm : m.descriptor.isMethod <;> simp_all <;> grind

/-- It never panics. -/
theorem C30_total (h : MethodHandle) : MethodHandle.check h = .ok () ∨ MethodHandle.check h = .error .invalid := by
  unfold MethodHandle.check
  simp only
  repeat' split
  all_goals simp

/-- Every handle that the JVMS allows is accepted. -/
theorem C30_accepts_partial (h : MethodHandle) (hj : JvmsHandle h) : MethodHandle.check h = .ok () :=
  (C30_check_partial h).mpr ⟨hj.field, hj.method, fun _ => hj.not_clinit, hj.init, fun _ => hj.not_init⟩

/-- For a handle to a method, `check` decides the documented rules. -/
theorem C30_documented_partial (h : MethodHandle) (hk : ¬ IsFieldKind h.kind) :
    MethodHandle.check h = .ok () ↔ DocumentedHandle h := by
  rw [C30_check_partial]
  constructor
  · rintro ⟨h1, h2, h3, h4, h5⟩
    exact ⟨h1, h2, h3 hk, h4, h5 hk⟩
  · rintro ⟨h1, h2, h3, h4, h5⟩
    exact ⟨h1, h2, fun _ => h3, h4, fun _ => h5⟩

/-- A constructor handle `new Foo(I)`. -/
example : JvmsHandle ⟨.newInvokeSpecial, ⟨[0x46, 0x6F, 0x6F], nameInit, .method [.int] none, false⟩⟩ where
  field h := by simp [isFieldKind_iff] at h
  method _ := ⟨_, _, rfl⟩
  not_clinit := by decide
  init _ := by decide
  not_init h := absurd rfl h
  virtual _ := rfl
  interface h := by simp at h
  void _ := ⟨_, rfl⟩

/-! ## C31: jump conditions -/

/-- The negated condition jumps on exactly the operands on which the condition does not. -/
theorem C31_neg (c d : Cond) (h : c.neg = some d) (o : Operands) : Jumps o d ↔ ¬ Jumps o c := by
  cases c <;> simp only [Cond.neg, Option.some.injEq, reduceCtorEq] at h <;> subst h <;>
    simp [Jumps] <;> first | omega | skip

/-- Every condition but `Always` has a negation, and negating twice gives the condition back. -/
theorem C31_involution (c : Cond) : (c.neg = none ↔ c = .always) ∧ ∀ d, c.neg = some d → d.neg = some c := by
  cases c <;> simp [Cond.neg]

/-- The opcode of a condition is the JVMS instruction that jumps when the condition holds. -/
theorem C31_opcode (c : Cond) (o : Operands) : ∃ p, OpcodeJumps o c.opcode.toNat p ∧ (p ↔ Jumps o c) := by
  have hz : (o.int1 = 0) ↔ o.int1.toInt = 0 := by rw [← Int32.toInt_inj]; rfl
  have he : (o.int1 = o.int2) ↔ o.int1.toInt = o.int2.toInt := by rw [← Int32.toInt_inj]
  cases c
  · exact ⟨_, .if_acmpeq, Iff.rfl⟩
  · exact ⟨_, .if_acmpne, Iff.rfl⟩
  · exact ⟨_, .if_icmpeq, he.symm⟩
  · exact ⟨_, .if_icmpne, not_congr he.symm⟩
  · exact ⟨_, .if_icmplt, Iff.rfl⟩
  · exact ⟨_, .if_icmpgt, Iff.rfl⟩
  · exact ⟨_, .if_icmple, Iff.rfl⟩
  · exact ⟨_, .if_icmpge, Iff.rfl⟩
  · exact ⟨_, .ifeq, hz.symm⟩
  · exact ⟨_, .ifne, not_congr hz.symm⟩
  · exact ⟨_, .iflt, Iff.rfl⟩
  · exact ⟨_, .ifgt, Iff.rfl⟩
  · exact ⟨_, .ifle, Iff.rfl⟩
  · exact ⟨_, .ifge, Iff.rfl⟩
  · exact ⟨_, .ifnull, Iff.rfl⟩
  · exact ⟨_, .ifnonnull, Iff.rfl⟩
  · exact ⟨_, .goto, Iff.rfl⟩

/-- Different conditions have different opcodes. -/
theorem C31_injective (c d : Cond) (h : c.opcode = d.opcode) : c = d := by
  revert h; revert d; revert c
  have : ∀ c d : Cond, c.opcode = d.opcode → c = d := by
    intro c d; cases c <;> cases d <;> decide
  exact this

/-- `if_icmplt` on 3 < 5 jumps, its negation does not. -/
example : Jumps ⟨3, 5, none, none⟩ .intLt ∧ Cond.neg .intLt = some .intGe ∧
    ¬ Jumps ⟨3, 5, none, none⟩ .intGe := by
  refine ⟨?_, rfl, ?_⟩ <;> simp [Jumps] <;> decide

end Verif.Props
