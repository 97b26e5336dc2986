import Verif.Lemmas.Rw

/-!
# Properties of fixed-width numbers and counted lists (C13, C14)
-/

namespace Verif.Props

/-! ## C13 -/

/-- What it means for a codec to be the big-endian codec of an `n`-byte type whose bit pattern is
given by `bits`. -/
structure BigEndian {α : Type} (n : Nat) (bits : α → Nat) (write : α → Bytes) (read : Reader α) :
    Prop where
  length : ∀ x, (write x).length = n
  digits : ∀ x i, i < n → ((write x)[i]?).map UInt8.toNat = some (bits x / 256 ^ (n - 1 - i) % 256)
  roundtrip : ∀ x rest, read (write x ++ rest) = .ok (x, rest)
  short : ∀ bs : Bytes, bs.length < n → read bs = .error .io
  onto : ∀ bs : Bytes, bs.length = n → ∃ x, write x = bs ∧ ∀ y, write y = bs → y = x

theorem toBe_getElem (n v i : Nat) (h : i < n) :
    ((toBe n v)[i]?).map UInt8.toNat = some (v / 256 ^ (n - 1 - i) % 256) := by
  induction n generalizing i with
  | zero => omega
  | succ n ih =>
    cases i with
    | zero => simp [toBe]
    | succ i =>
      simp only [toBe, List.getElem?_cons_succ]
      rw [ih i (by omega)]
      have : n + 1 - 1 - (i + 1) = n - 1 - i := by omega
      rw [this]

theorem lawful_bigEndian {α : Type} (c : NumCodec α) (h : c.Lawful) :
    BigEndian c.size c.bits c.write c.read where
  length x := toBe_length _ _
  digits x i hi := toBe_getElem _ _ _ hi
  roundtrip x rest := NumCodec.reads h x rest
  short bs hb := by
    unfold NumCodec.read readExact
    rw [if_neg (by omega)]
  onto bs hb := by
    refine ⟨c.ofBits (fromBe bs), ?_, ?_⟩
    · unfold NumCodec.write
      rw [h.right _ (by rw [← hb]; exact fromBe_lt bs), ← hb, toBe_fromBe]
    · rintro y rfl
      unfold NumCodec.write
      rw [fromBe_toBe, Nat.mod_eq_of_lt (h.lt y), h.left]

theorem C13_u8 : BigEndian 1 UInt8.toNat u8.write u8.read := lawful_bigEndian u8 u8_lawful
theorem C13_u16 : BigEndian 2 UInt16.toNat u16.write u16.read := lawful_bigEndian u16 u16_lawful
theorem C13_u32 : BigEndian 4 UInt32.toNat u32.write u32.read := lawful_bigEndian u32 u32_lawful
theorem C13_u64 : BigEndian 8 UInt64.toNat u64.write u64.read := lawful_bigEndian u64 u64_lawful
/-- Two's complement: the bit pattern is the value modulo `2 ^ n`. -/
theorem bits_of_bitVec (n : Nat) (v : BitVec n) : (v.toInt % (2 ^ n : Nat)).toNat = v.toNat := by
  rw [BitVec.toInt_eq_toNat_bmod, Int.bmod_emod, ← Int.natCast_emod, Int.toNat_natCast,
    Nat.mod_eq_of_lt v.isLt]

theorem C13_i8 : BigEndian 1 (fun x : Int8 => (x.toInt % 256).toNat) i8.write i8.read := by
  have e : (fun x : Int8 => (x.toInt % 256).toNat) = i8.bits :=
    funext fun x => bits_of_bitVec 8 x.toBitVec
  rw [e]; exact lawful_bigEndian i8 i8_lawful
theorem C13_i16 : BigEndian 2 (fun x : Int16 => (x.toInt % 65536).toNat) i16.write i16.read := by
  have e : (fun x : Int16 => (x.toInt % 65536).toNat) = i16.bits :=
    funext fun x => bits_of_bitVec 16 x.toBitVec
  rw [e]; exact lawful_bigEndian i16 i16_lawful
theorem C13_i32 : BigEndian 4 (fun x : Int32 => (x.toInt % 4294967296).toNat) i32.write i32.read := by
  have e : (fun x : Int32 => (x.toInt % 4294967296).toNat) = i32.bits :=
    funext fun x => bits_of_bitVec 32 x.toBitVec
  rw [e]; exact lawful_bigEndian i32 i32_lawful
theorem C13_i64 : BigEndian 8 (fun x : Int64 => (x.toInt % 18446744073709551616).toNat) i64.write i64.read := by
  have e : (fun x : Int64 => (x.toInt % 18446744073709551616).toNat) = i64.bits :=
    funext fun x => bits_of_bitVec 64 x.toBitVec
  rw [e]; exact lawful_bigEndian i64 i64_lawful
theorem C13_u128 : BigEndian 16 (fun x : BitVec 128 => x.toNat) u128.write u128.read := lawful_bigEndian u128 u128_lawful
theorem C13_i128 : BigEndian 16 (fun x : BitVec 128 => (x.toInt % 340282366920938463463374607431768211456).toNat) i128.write i128.read := by
  have e : (fun x : BitVec 128 => (x.toInt % 340282366920938463463374607431768211456).toNat) = i128.bits :=
    funext fun x => bits_of_bitVec 128 x
  rw [e]; exact lawful_bigEndian i128 i128_lawful
theorem C13_f32 : BigEndian 4 (fun x : F32 => x.bits.toNat) f32.write f32.read :=
  lawful_bigEndian f32 f32_lawful
theorem C13_f64 : BigEndian 8 (fun x : F64 => x.bits.toNat) f64.write f64.read :=
  lawful_bigEndian f64 f64_lawful

example : i32.write (-2) = [0xFF, 0xFF, 0xFF, 0xFE] := by decide
example : u16.read [0x12, 0x34, 0x56] = .ok (0x1234, [0x56]) := by decide

/-! ## C14 -/

/-- A list written with a count prefix is read back, with the continuation untouched, whenever each
element is. -/
theorem C14_roundtrip {ℓ α : Type} (l : NumCodec ℓ) (hl : l.Lawful) (r : Reader α)
    (w : α → Res Bytes) (xs : List α) (bs : Bytes)
    (h : ∀ x ∈ xs, ∀ b, w x = .ok b → ReadsTo r b x)
    (hw : writeVec l w xs = .ok bs) : ReadsTo (readVec l r) bs xs :=
  readVec_writeVec hl r w xs bs h hw

/-- The three prefix types used by the library meet the hypothesis of `C14_roundtrip`. -/
theorem C14_prefixes : u8.Lawful ∧ u16.Lawful ∧ u32.Lawful := ⟨u8_lawful, u16_lawful, u32_lawful⟩

/-- A list that fits is written as its count followed by its elements, and one that does not fit is
refused. -/
theorem C14_overflow {ℓ α : Type} (l : NumCodec ℓ) (w : α → Res Bytes) (xs : List α) :
    (256 ^ l.size ≤ xs.length → writeVec l w xs = .error .invalid) ∧
    (∀ bs, l.Lawful → writeVec l w xs = .ok bs →
      ∃ ws : List Bytes, xs.map w = ws.map .ok ∧ bs = toBe l.size xs.length ++ ws.flatten) := by
  constructor
  · intro h
    unfold writeVec
    rw [if_neg (by omega)]
  · intro bs hl h
    unfold writeVec at h
    split at h
    · rename_i hlen
      cases h2 : writeAll w xs with
      | error e => rw [h2] at h; simp [bind, Except.bind] at h
      | ok b2 =>
        rw [h2] at h
        simp [bind, Except.bind, pure, Except.pure] at h
        obtain ⟨ws, e1, rfl, e3⟩ := writeAll_ok w xs b2 h2
        refine ⟨ws, e3, ?_⟩
        rw [← h, NumCodec.write, hl.right _ hlen]
    · simp at h

/-- `r` run exactly `n` times, consuming `bs` down to `rest`. -/
inductive Runs {α : Type} (r : Reader α) : List α → Bytes → Bytes → Prop
  | nil (bs) : Runs r [] bs bs
  | cons {x xs bs bs' rest} : r bs = .ok (x, bs') → Runs r xs bs' rest → Runs r (x :: xs) bs rest

/-- Reading succeeds with exactly the announced number of elements, read one after the other. -/
theorem C14_read_exact {ℓ α : Type} (l : NumCodec ℓ) (r : Reader α) (bs rest : Bytes) (xs : List α)
    (h : readVec l r bs = .ok (xs, rest)) :
    ∃ n mid, l.read bs = .ok (n, mid) ∧ xs.length = l.bits n ∧ Runs r xs mid rest := by
  unfold readVec Reader.bind at h
  cases h1 : l.read bs with
  | error e => rw [h1] at h; simp at h
  | ok p =>
    obtain ⟨n, mid⟩ := p
    rw [h1] at h
    simp only at h
    refine ⟨n, mid, rfl, ?_⟩
    generalize l.bits n = k at h
    clear h1
    induction k generalizing mid xs with
    | zero =>
      simp [Reader.replicate, Reader.pure] at h
      obtain ⟨rfl, rfl⟩ := h
      exact ⟨rfl, .nil _⟩
    | succ k ih =>
      unfold Reader.replicate Reader.bind at h
      cases h2 : r mid with
      | error e => rw [h2] at h; simp at h
      | ok p =>
        obtain ⟨x, mid'⟩ := p
        rw [h2] at h
        simp only [Reader.bind] at h
        cases h3 : Reader.replicate k r mid' with
        | error e => rw [h3] at h; simp at h
        | ok p =>
          obtain ⟨ys, rest'⟩ := p
          rw [h3] at h
          simp [Reader.pure] at h
          obtain ⟨rfl, rfl⟩ := h
          have := ih ys mid' h3
          exact ⟨by simp [this.1], .cons h2 this.2⟩

example : writeVec u8 (fun x : UInt16 => .ok (u16.write x)) [1, 0x203] = .ok [2, 0, 1, 2, 3] := by decide
example : readVec u8 u16.read [2, 0, 1, 2, 3, 9] = .ok ([1, 0x203], [9]) := by decide

end Verif.Props
