import Verif.Model.Build
import Verif.Props.Ty
import Verif.Spec.Instr

/-!
# Constructor functions (C73)

What the constructors make, in terms of the bytes that JVMS 6.5 and 4.3 give to the instruction or the type of
that name. That the library writes instructions as `Spec.Enc` says is C34, C36 and C37.
-/

namespace Verif.Props
open Verif.Spec Verif.Wtf8 Verif.JType

/-! ## Instructions -/

/-- JVMS 6.5: the instruction that does the operation on ints. -/
def intOpcode : IntOp → Nat
  | .add => 96 | .sub => 100 | .mul => 104 | .div => 108 | .rem => 112 | .neg => 116
  | .shl => 120 | .shr => 122 | .ushr => 124 | .and => 126 | .or => 128 | .xor => 130

/-- `iop` makes the instruction of the operation, and no other. -/
theorem C73_iop (c : Ctx) (p : Nat) (o : IntOp) (bs : Bytes) :
    Enc c p (Insn.iop o) bs ↔ bs = [UInt8.ofNat (intOpcode o)] := by
  constructor
  · intro h
    unfold Insn.iop at h
    cases h with
    | noArg h =>
      rename_i op
      cases op <;> cases h <;> rfl
  · rintro rfl
    cases o
    · exact .noArg (o := .idiv) rfl
    · exact .noArg (o := .iadd) rfl
    · exact .noArg (o := .isub) rfl
    · exact .noArg (o := .imul) rfl
    · exact .noArg (o := .irem) rfl
    · exact .noArg (o := .ineg) rfl
    · exact .noArg (o := .ixor) rfl
    · exact .noArg (o := .ior) rfl
    · exact .noArg (o := .iand) rfl
    · exact .noArg (o := .ishl) rfl
    · exact .noArg (o := .ishr) rfl
    · exact .noArg (o := .iushr) rfl

/-- The named operations. -/
theorem C73_int (c : Ctx) (p : Nat) (bs : Bytes) :
    (Enc c p Insn.iadd bs ↔ bs = [0x60]) ∧ (Enc c p Insn.isub bs ↔ bs = [0x64]) ∧
    (Enc c p Insn.imul bs ↔ bs = [0x68]) ∧ (Enc c p Insn.irem bs ↔ bs = [0x70]) ∧
    (Enc c p Insn.ineg bs ↔ bs = [0x74]) :=
  ⟨C73_iop c p .add bs, C73_iop c p .sub bs, C73_iop c p .mul bs, C73_iop c p .rem bs, C73_iop c p .neg bs⟩

theorem enc_cond (c : Ctx) (p : Nat) (k : Cond) (hk : k ≠ .always) (l : Label) (bs : Bytes) :
    Enc c p (.jump k l) bs ↔ ∃ n : Int, Dist c p l n ∧ -2 ^ 15 ≤ n ∧ n < 2 ^ 15 ∧
      bs = U1 (condOp k).code ++ S2 n := by
  constructor
  · intro h
    cases h with
    | noArg h => rename_i op; cases op <;> cases h
    | jump h => obtain ⟨n, h1, h2, h3, rfl⟩ := h; exact ⟨n, h1, h2, h3, rfl⟩
    | gotoWide h => exact absurd rfl hk
  · rintro ⟨n, h1, h2, h3, rfl⟩
    exact .jump ⟨n, h1, h2, h3, rfl⟩

/-- The conditional branches: the opcode of the name, and the distance to the label. -/
theorem C73_branch (c : Ctx) (p : Nat) (l : Label) (bs : Bytes) :
    (Enc c p (Insn.ifeq l) bs ↔
      ∃ n : Int, Dist c p l n ∧ -2 ^ 15 ≤ n ∧ n < 2 ^ 15 ∧ bs = U1 153 ++ S2 n) ∧
    (Enc c p (Insn.if_icmpeq l) bs ↔
      ∃ n : Int, Dist c p l n ∧ -2 ^ 15 ≤ n ∧ n < 2 ^ 15 ∧ bs = U1 159 ++ S2 n) ∧
    (Enc c p (Insn.if_icmpne l) bs ↔
      ∃ n : Int, Dist c p l n ∧ -2 ^ 15 ≤ n ∧ n < 2 ^ 15 ∧ bs = U1 160 ++ S2 n) ∧
    (Enc c p (Insn.if_icmpgt l) bs ↔
      ∃ n : Int, Dist c p l n ∧ -2 ^ 15 ≤ n ∧ n < 2 ^ 15 ∧ bs = U1 163 ++ S2 n) ∧
    (Enc c p (Insn.if_icmple l) bs ↔
      ∃ n : Int, Dist c p l n ∧ -2 ^ 15 ≤ n ∧ n < 2 ^ 15 ∧ bs = U1 164 ++ S2 n) :=
  ⟨enc_cond c p .eqZ (by decide) l bs, enc_cond c p .intEq (by decide) l bs,
    enc_cond c p .intNe (by decide) l bs, enc_cond c p .intGt (by decide) l bs,
    enc_cond c p .intLe (by decide) l bs⟩

/-- A member, given as it is, as a dynamic constant, or as either. -/
def MemberAt (c : Ctx) (i : UInt16) : IntoOrDynamic MemberRef → Prop
  | .value m => IsMember c.pool i m
  | .dyn d | .same (.dynamic d) => (∀ ps r, d.descriptor ≠ .method ps r) ∧ IsDyn c i d
  | .same (.static m) => IsMember c.pool i m

theorem memberAt_iff (c : Ctx) (i : UInt16) (r : IntoOrDynamic MemberRef) :
    IsOrDyn IsMember c i r.into ↔ MemberAt c i r := by
  cases r with
  | value m => exact Iff.rfl
  | dyn d => exact Iff.rfl
  | same x => cases x <;> exact Iff.rfl

/-- Access to members: the opcode of the name, and an index of the member. -/
theorem C73_member (c : Ctx) (p : Nat) (r : IntoOrDynamic MemberRef) (bs : Bytes) :
    (Enc c p (Insn.getstatic r) bs ↔ ∃ i, MemberAt c i r ∧ bs = U1 178 ++ U2 i.toNat) ∧
    (Enc c p (Insn.invokevirtual r) bs ↔ ∃ i, MemberAt c i r ∧ bs = U1 182 ++ U2 i.toNat) ∧
    (Enc c p (Insn.invokestatic r) bs ↔ ∃ i, MemberAt c i r ∧ bs = U1 184 ++ U2 i.toNat) := by
  simp only [← memberAt_iff]
  refine ⟨⟨?_, ?_⟩, ⟨?_, ?_⟩, ⟨?_, ?_⟩⟩
  · intro h
    unfold Insn.getstatic at h
    cases h with
    | noArg h => rename_i op; cases op <;> cases h
    | field h => exact ⟨_, h, rfl⟩
  · rintro ⟨i, h, rfl⟩
    exact .field h
  · intro h
    unfold Insn.invokevirtual at h
    cases h with
    | noArg h => rename_i op; cases op <;> cases h
    | call h => exact ⟨_, h, rfl⟩
  · rintro ⟨i, h, rfl⟩
    exact .call h
  · intro h
    unfold Insn.invokestatic at h
    cases h with
    | noArg h => rename_i op; cases op <;> cases h
    | call h => exact ⟨_, h, rfl⟩
  · rintro ⟨i, h, rfl⟩
    exact .call h

/-- JVMS 6.5: `iload`, `lload`, `fload`, `dload`, `aload` are 21 to 25, the stores 54 to 58. -/
def typeNo : LocalType → Nat
  | .int => 0 | .long => 1 | .float => 2 | .double => 3 | .ref => 4

/-- The forms of a load: with the number of the variable in a byte, the forms for variables 0 to 3, and the wide
form. -/
theorem C73_load (c : Ctx) (p : Nat) (t : LocalType) (n : UInt16) (bs : Bytes) :
    Enc c p (Insn.load t n) bs ↔
      (n.toNat < 256 ∧ bs = U1 (21 + typeNo t) ++ U1 n.toNat) ∨
      (n.toNat < 4 ∧ bs = U1 (26 + 4 * typeNo t + n.toNat)) ∨
      bs = U1 196 ++ U1 (21 + typeNo t) ++ U2 n.toNat := by
  constructor
  · intro h
    unfold Insn.load at h
    cases h with
    | noArg h =>
      rename_i op
      right; left
      cases op <;> cases h <;> exact ⟨by decide, rfl⟩
    | var h =>
      rename_i k
      left
      have e : (UInt16.ofNat k).toNat = k := by simp; omega
      rw [e]
      exact ⟨h, by cases t <;> rfl⟩
    | varWide => right; right; cases t <;> rfl
  · rintro (⟨h, rfl⟩ | ⟨h, rfl⟩ | rfl)
    · have e : UInt16.ofNat n.toNat = n := by simp
      have := Enc.var (c := c) (p := p) (m := .load) (t := t) h
      rw [e] at this
      cases t <;> exact this
    · have hn : n = 0 ∨ n = 1 ∨ n = 2 ∨ n = 3 := by
        have : n.toNat = 0 ∨ n.toNat = 1 ∨ n.toNat = 2 ∨ n.toNat = 3 := by omega
        rcases this with h | h | h | h
        · exact .inl (UInt16.toNat_inj.mp h)
        · exact .inr (.inl (UInt16.toNat_inj.mp h))
        · exact .inr (.inr (.inl (UInt16.toNat_inj.mp h)))
        · exact .inr (.inr (.inr (UInt16.toNat_inj.mp h)))
      rcases hn with rfl | rfl | rfl | rfl <;> cases t
      · exact .noArg (o := .iload_0) rfl
      · exact .noArg (o := .lload_0) rfl
      · exact .noArg (o := .fload_0) rfl
      · exact .noArg (o := .dload_0) rfl
      · exact .noArg (o := .aload_0) rfl
      · exact .noArg (o := .iload_1) rfl
      · exact .noArg (o := .lload_1) rfl
      · exact .noArg (o := .fload_1) rfl
      · exact .noArg (o := .dload_1) rfl
      · exact .noArg (o := .aload_1) rfl
      · exact .noArg (o := .iload_2) rfl
      · exact .noArg (o := .lload_2) rfl
      · exact .noArg (o := .fload_2) rfl
      · exact .noArg (o := .dload_2) rfl
      · exact .noArg (o := .aload_2) rfl
      · exact .noArg (o := .iload_3) rfl
      · exact .noArg (o := .lload_3) rfl
      · exact .noArg (o := .fload_3) rfl
      · exact .noArg (o := .dload_3) rfl
      · exact .noArg (o := .aload_3) rfl
    · have := Enc.varWide (c := c) (p := p) (m := .load) (t := t) (n := n)
      cases t <;> exact this

/-- The forms of a store. -/
theorem C73_store (c : Ctx) (p : Nat) (t : LocalType) (n : UInt16) (bs : Bytes) :
    Enc c p (Insn.store t n) bs ↔
      (n.toNat < 256 ∧ bs = U1 (54 + typeNo t) ++ U1 n.toNat) ∨
      (n.toNat < 4 ∧ bs = U1 (59 + 4 * typeNo t + n.toNat)) ∨
      bs = U1 196 ++ U1 (54 + typeNo t) ++ U2 n.toNat := by
  constructor
  · intro h
    unfold Insn.store at h
    cases h with
    | noArg h =>
      rename_i op
      right; left
      cases op <;> cases h <;> exact ⟨by decide, rfl⟩
    | var h =>
      rename_i k
      left
      have e : (UInt16.ofNat k).toNat = k := by simp; omega
      rw [e]
      exact ⟨h, by cases t <;> rfl⟩
    | varWide => right; right; cases t <;> rfl
  · rintro (⟨h, rfl⟩ | ⟨h, rfl⟩ | rfl)
    · have e : UInt16.ofNat n.toNat = n := by simp
      have := Enc.var (c := c) (p := p) (m := .store) (t := t) h
      rw [e] at this
      cases t <;> exact this
    · have hn : n = 0 ∨ n = 1 ∨ n = 2 ∨ n = 3 := by
        have : n.toNat = 0 ∨ n.toNat = 1 ∨ n.toNat = 2 ∨ n.toNat = 3 := by omega
        rcases this with h | h | h | h
        · exact .inl (UInt16.toNat_inj.mp h)
        · exact .inr (.inl (UInt16.toNat_inj.mp h))
        · exact .inr (.inr (.inl (UInt16.toNat_inj.mp h)))
        · exact .inr (.inr (.inr (UInt16.toNat_inj.mp h)))
      rcases hn with rfl | rfl | rfl | rfl <;> cases t
      · exact .noArg (o := .istore_0) rfl
      · exact .noArg (o := .lstore_0) rfl
      · exact .noArg (o := .fstore_0) rfl
      · exact .noArg (o := .dstore_0) rfl
      · exact .noArg (o := .astore_0) rfl
      · exact .noArg (o := .istore_1) rfl
      · exact .noArg (o := .lstore_1) rfl
      · exact .noArg (o := .fstore_1) rfl
      · exact .noArg (o := .dstore_1) rfl
      · exact .noArg (o := .astore_1) rfl
      · exact .noArg (o := .istore_2) rfl
      · exact .noArg (o := .lstore_2) rfl
      · exact .noArg (o := .fstore_2) rfl
      · exact .noArg (o := .dstore_2) rfl
      · exact .noArg (o := .astore_2) rfl
      · exact .noArg (o := .istore_3) rfl
      · exact .noArg (o := .lstore_3) rfl
      · exact .noArg (o := .fstore_3) rfl
      · exact .noArg (o := .dstore_3) rfl
      · exact .noArg (o := .astore_3) rfl
    · have := Enc.varWide (c := c) (p := p) (m := .store) (t := t) (n := n)
      cases t <;> exact this

/-- `astore 300`, `aload_2`. -/
example (c : Ctx) : Enc c 0 (Insn.store .ref 300) [196, 58, 1, 44] ∧ Enc c 0 (Insn.load .ref 2) [44] :=
  ⟨(C73_store c 0 .ref 300 _).mpr (.inr (.inr rfl)), (C73_load c 0 .ref 2 _).mpr (.inr (.inl ⟨by decide, rfl⟩))⟩

/-! ## Types -/

/-- The number of dimensions of a type. -/
def dims : JType → Nat
  | .array d _ => d.toNat
  | _ => 0

/-- The documentation of `Type::array`: a descriptor with so many dimensions more, which the format can hold. -/
def C73_full : Prop := ∀ (dim : UInt8) (t : JType), IsField t →
  ∃ u, mkArray dim t = .ok u ∧ parseType (toWtf8 u) = .ok u

/-- An array without dimensions is written like its element type. -/
theorem C73_violated : ¬ C73_full := by
  intro h
  obtain ⟨u, h1, h2⟩ := h 0 .int .int
  cases h1
  have h3 : parseType (toWtf8 (.array 0 .int)) = .ok .int := by with_unfolding_all rfl
  rw [h3] at h2
  cases h2

/-- Too many dimensions: a panic in a build with overflow checks. -/
theorem C73_array_panics (dim : UInt8) (t : JType) :
    (∀ u, mkArray dim t ≠ .ok u) ↔ 255 < dims t + dim.toNat := by
  constructor
  · intro h
    cases t with
    | array d t =>
      rw [mkArray] at h
      simp only [dims]
      refine Nat.lt_of_not_le fun hc => ?_
      rw [if_pos (by omega)] at h
      exact h _ rfl
    | _ => exact absurd rfl (h _)
  · intro h u
    have hd : dim.toNat < 256 := dim.toNat_lt
    cases t with
    | array d t =>
      simp only [dims] at h
      rw [mkArray, if_neg (by omega)]
      intro e
      cases e
    | _ => simp only [dims] at h; omega

/-- In all other cases: the result is a field type with so many dimensions more, its text is that of the type
after so many brackets, and it is read back as itself. -/
theorem C73_array_partial (dim : UInt8) (t : JType) (ht : IsField t) (h0 : dim ≠ 0)
    (h : dims t + dim.toNat ≤ 255) :
    ∃ u, mkArray dim t = .ok u ∧ IsField u ∧ dims u = dims t + dim.toNat ∧
      (∀ cs, Desc t cs → Desc u (List.replicate dim.toNat 0x5B ++ cs)) ∧ parseType (toWtf8 u) = .ok u := by
  have key : ∃ u, mkArray dim t = .ok u ∧ IsField u ∧ dims u = dims t + dim.toNat ∧
      (∀ cs, Desc t cs → Desc u (List.replicate dim.toNat 0x5B ++ cs)) := by
    cases ht with
    | array hd ht hn =>
      rename_i d e
      simp only [dims] at h ⊢
      have hs : (d + dim).toNat = d.toNat + dim.toNat := by
        rw [UInt8.toNat_add]
        omega
      refine ⟨.array (d + dim) e, ?_, .array ?_ ht hn, hs, ?_⟩
      · rw [mkArray, if_pos (by omega)]
      · intro e0
        rw [e0] at hs
        have h1 : dim.toNat ≠ 0 := fun h1 => h0 (UInt8.toNat_inj.mp h1)
        have h2 : (0 : UInt8).toNat = 0 := rfl
        omega
      · intro cs hc
        cases hc with
        | array hc =>
          have := Desc.array (d := d + dim) hc
          rw [hs, Nat.add_comm, ← List.replicate_append_replicate, List.append_assoc] at this
          exact this
    | ref hv hs => exact ⟨_, rfl, .array h0 (.ref hv hs) (by intros; simp), by simp [dims], fun _ hc => .array hc⟩
    | byte => exact ⟨_, rfl, .array h0 .byte (by intros; simp), by simp [dims], fun _ hc => .array hc⟩
    | char => exact ⟨_, rfl, .array h0 .char (by intros; simp), by simp [dims], fun _ hc => .array hc⟩
    | double => exact ⟨_, rfl, .array h0 .double (by intros; simp), by simp [dims], fun _ hc => .array hc⟩
    | float => exact ⟨_, rfl, .array h0 .float (by intros; simp), by simp [dims], fun _ hc => .array hc⟩
    | int => exact ⟨_, rfl, .array h0 .int (by intros; simp), by simp [dims], fun _ hc => .array hc⟩
    | long => exact ⟨_, rfl, .array h0 .long (by intros; simp), by simp [dims], fun _ hc => .array hc⟩
    | boolean => exact ⟨_, rfl, .array h0 .boolean (by intros; simp), by simp [dims], fun _ hc => .array hc⟩
    | short => exact ⟨_, rfl, .array h0 .short (by intros; simp), by simp [dims], fun _ hc => .array hc⟩
  obtain ⟨u, h1, h2, h3, h4⟩ := key
  exact ⟨u, h1, h2, h3, h4, C15_write_parse u (.field h2)⟩

/-- Two dimensions more for `[[D`: `[[[[D`. -/
example : ∃ u, mkArray 2 (.array 2 .double) = .ok u ∧ parseType (toWtf8 u) = .ok u ∧ dims u = 4 := by
  obtain ⟨u, h1, _, h2, _, h3⟩ := C73_array_partial 2 (.array 2 .double) (.array (by decide) .double (by intros; simp))
    (by decide) (by decide)
  exact ⟨u, h1, h3, h2⟩

/-- Method types and class types. -/
theorem C73_types (ps : List JType) (r : Option JType) (cs : List Nat) (hp : DescList ps cs) :
    (mkMethod ps r).asMethod = some (ps, r) ∧
    (r = none → Desc (mkMethod ps r) ([0x28] ++ cs ++ [0x29] ++ [0x56])) ∧
    (∀ t ds, r = some t → Desc t ds → Desc (mkMethod ps r) ([0x28] ++ cs ++ [0x29] ++ ds)) ∧
    (∀ ns, ValidCps ns → Desc (mkRef (encodeCps ns)) ([0x4C] ++ ns ++ [0x3B])) ∧
    (∀ t, JType.asMethod t = none ↔ JType.isMethod t = false) := by
  refine ⟨rfl, ?_, ?_, ?_, ?_⟩
  · rintro rfl
    have := Desc.void hp
    simpa [mkMethod] using this
  · rintro t ds rfl ht
    have := Desc.method hp ht
    simpa [mkMethod] using this
  · intro ns hn
    have := Desc.ref hn
    simpa [mkRef] using this
  · intro t
    cases t <;> simp [JType.asMethod, JType.isMethod]

example : parseType (toWtf8 (mkMethod [.int, mkRef [0x41]] (some .long))) =
    .ok (mkMethod [.int, mkRef [0x41]] (some .long)) := by with_unfolding_all rfl

/-- `map_static` changes what is given directly, keeps dynamic constants, and composes. -/
theorem C73_map {α β γ : Type} (f : α → β) (g : β → γ) (x : OrDynamic α) :
    (∀ a, x = .static a → x.mapStatic f = .static (f a)) ∧ (∀ d, x = .dynamic d → x.mapStatic f = .dynamic d) ∧
    (x.mapStatic f).mapStatic g = x.mapStatic (g ∘ f) ∧ x.mapStatic id = x := by
  cases x
  · exact ⟨fun _ h => (nomatch h), fun _ h => (by cases h; rfl), rfl, rfl⟩
  · exact ⟨fun _ h => (by cases h; rfl), fun _ h => (nomatch h), rfl, rfl⟩

end Verif.Props
