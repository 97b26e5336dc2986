import Verif.Model.Rw
import Verif.Lemmas.Mutf8Inv

namespace Verif

/-- `w` is read back as `x` whatever follows. -/
def ReadsTo {α : Type} (r : Reader α) (w : Bytes) (x : α) : Prop := ∀ rest, r (w ++ rest) = .ok (x, rest)

theorem readExact_append (n : Nat) (a rest : Bytes) (h : a.length = n) :
    readExact n (a ++ rest) = .ok (a, rest) := by
  unfold readExact
  rw [if_pos (by simp; omega)]
  subst h
  simp

theorem toBe_length (n v : Nat) : (toBe n v).length = n := by
  induction n generalizing v with
  | zero => rfl
  | succ n ih => simp [toBe, ih]

theorem fromBe_append (a : Bytes) (b : UInt8) : fromBe (a ++ [b]) = fromBe a * 256 + b.toNat := by
  simp [fromBe]

theorem foldl_acc (bs : Bytes) (acc : Nat) :
    bs.foldl (fun acc b => acc * 256 + b.toNat) acc = acc * 256 ^ bs.length + fromBe bs := by
  induction bs generalizing acc with
  | nil => simp [fromBe]
  | cons b bs ih =>
    unfold fromBe
    rw [List.foldl_cons, List.foldl_cons, ih, ih (0 * 256 + b.toNat), List.length_cons, Nat.pow_succ]
    rw [Nat.zero_mul, Nat.zero_add, Nat.add_mul, Nat.mul_assoc, Nat.mul_comm 256, Nat.add_assoc]

theorem fromBe_cons (b : UInt8) (bs : Bytes) : fromBe (b :: bs) = b.toNat * 256 ^ bs.length + fromBe bs := by
  conv => lhs; unfold fromBe
  rw [List.foldl_cons, foldl_acc]
  simp

theorem fromBe_toBe (n v : Nat) : fromBe (toBe n v) = v % 256 ^ n := by
  induction n generalizing v with
  | zero => simp [toBe, fromBe, Nat.mod_one]
  | succ n ih =>
    rw [toBe, fromBe_cons, toBe_length, ih]
    have h1 : (UInt8.ofNat (v / 256 ^ n)).toNat = v / 256 ^ n % 256 := by simp
    rw [h1, Nat.mod_pow_succ]
    rw [Nat.mul_comm, Nat.add_comm]

theorem fromBe_lt (bs : Bytes) : fromBe bs < 256 ^ bs.length := by
  induction bs with
  | nil => simp [fromBe]
  | cons b bs ih =>
    rw [fromBe_cons, List.length_cons, Nat.pow_succ]
    have hb : b.toNat < 256 := b.toNat_lt
    have : (b.toNat + 1) * 256 ^ bs.length ≤ 256 * 256 ^ bs.length := Nat.mul_le_mul_right _ hb
    rw [Nat.add_mul, Nat.one_mul] at this
    rw [Nat.mul_comm (256 ^ bs.length)]
    omega

theorem toBe_mod (n v : Nat) : toBe n (v % 256 ^ n) = toBe n v := by
  suffices ∀ m, n ≤ m → toBe n (v % 256 ^ m) = toBe n v from this n (Nat.le_refl _)
  induction n with
  | zero => intro m _; rfl
  | succ n ih =>
    intro m hm
    rw [toBe, toBe, ih m (by omega)]
    congr 1
    apply UInt8.toNat_inj.mp
    simp only [UInt8.toNat_ofNat']
    obtain ⟨k, rfl⟩ : ∃ k, m = n + (k + 1) := ⟨m - n - 1, by omega⟩
    rw [Nat.pow_add, Nat.mod_mul_right_div_self, Nat.pow_succ, Nat.mod_mod_of_dvd]
    exact Nat.dvd_mul_left _ _

theorem toBe_fromBe (bs : Bytes) : toBe bs.length (fromBe bs) = bs := by
  induction bs with
  | nil => rfl
  | cons b bs ih =>
    rw [List.length_cons, toBe, fromBe_cons]
    have hlt := fromBe_lt bs
    have h1 : (b.toNat * 256 ^ bs.length + fromBe bs) / 256 ^ bs.length = b.toNat := by
      rw [Nat.mul_comm, Nat.mul_add_div (Nat.pow_pos (by omega)), Nat.div_eq_of_lt hlt, Nat.add_zero]
    rw [h1]
    have h2 : toBe bs.length (b.toNat * 256 ^ bs.length + fromBe bs) = bs := by
      rw [← toBe_mod, Nat.mul_comm, Nat.mul_add_mod, Nat.mod_eq_of_lt hlt, ih]
    rw [h2]
    simp

/-- A codec whose bit-pattern functions are a bijection with `[0, 256^size)`. -/
structure NumCodec.Lawful {α : Type} (c : NumCodec α) : Prop where
  lt : ∀ x, c.bits x < 256 ^ c.size
  left : ∀ x, c.ofBits (c.bits x) = x
  right : ∀ n, n < 256 ^ c.size → c.bits (c.ofBits n) = n

theorem u8_lawful : u8.Lawful where
  lt x := by have := x.toNat_lt; simpa [u8] using this
  left x := by simp [u8]
  right n h := by simp [u8] at *; omega
theorem u16_lawful : u16.Lawful where
  lt x := by have := x.toNat_lt; simpa [u16] using this
  left x := by simp [u16]
  right n h := by simp [u16] at *; omega
theorem u32_lawful : u32.Lawful where
  lt x := by have := x.toNat_lt; simpa [u32] using this
  left x := by simp [u32]
  right n h := by simp [u32] at *; omega
theorem u64_lawful : u64.Lawful where
  lt x := by have := x.toNat_lt; simpa [u64] using this
  left x := by simp [u64]
  right n h := by simp [u64] at *; omega
theorem i8_lawful : i8.Lawful where
  lt x := by have := x.toUInt8.toNat_lt; simpa [i8] using this
  left x := by
    show (UInt8.ofNat x.toUInt8.toNat).toInt8 = x
    rw [UInt8.ofNat_toNat]; rfl
  right n h := by simp [i8] at *; omega
theorem i16_lawful : i16.Lawful where
  lt x := by have := x.toUInt16.toNat_lt; simpa [i16] using this
  left x := by
    show (UInt16.ofNat x.toUInt16.toNat).toInt16 = x
    rw [UInt16.ofNat_toNat]; rfl
  right n h := by simp [i16] at *; omega
theorem i32_lawful : i32.Lawful where
  lt x := by have := x.toUInt32.toNat_lt; simpa [i32] using this
  left x := by
    show (UInt32.ofNat x.toUInt32.toNat).toInt32 = x
    rw [UInt32.ofNat_toNat]; rfl
  right n h := by simp [i32] at *; omega
theorem i64_lawful : i64.Lawful where
  lt x := by have := x.toUInt64.toNat_lt; simpa [i64] using this
  left x := by
    show (UInt64.ofNat x.toUInt64.toNat).toInt64 = x
    rw [UInt64.ofNat_toNat]; rfl
  right n h := by simp [i64] at *; omega
theorem u128_lawful : u128.Lawful where
  lt x := x.isLt
  left x := BitVec.eq_of_toNat_eq (Nat.mod_eq_of_lt x.isLt)
  right n h := Nat.mod_eq_of_lt h
theorem i128_lawful : i128.Lawful where
  lt x := x.isLt
  left x := BitVec.eq_of_toNat_eq (Nat.mod_eq_of_lt x.isLt)
  right n h := Nat.mod_eq_of_lt h
theorem f32_lawful : f32.Lawful where
  lt x := by have := x.bits.toNat_lt; simpa [f32] using this
  left x := by simp [f32]
  right n h := by simp [f32] at *; omega
theorem f64_lawful : f64.Lawful where
  lt x := by have := x.bits.toNat_lt; simpa [f64] using this
  left x := by simp [f64]
  right n h := by simp [f64] at *; omega

theorem NumCodec.reads {α : Type} {c : NumCodec α} (h : c.Lawful) (x : α) :
    ReadsTo c.read (c.write x) x := by
  intro rest
  unfold NumCodec.read NumCodec.write
  rw [readExact_append _ _ _ (toBe_length _ _)]
  simp only
  rw [fromBe_toBe, Nat.mod_eq_of_lt (h.lt x), h.left]

theorem Reader.replicate_reads {α : Type} (r : Reader α) (ws : List (Bytes × α))
    (h : ∀ p ∈ ws, ReadsTo r p.1 p.2) :
    ReadsTo (Reader.replicate ws.length r) (ws.map (·.1)).flatten (ws.map (·.2)) := by
  induction ws with
  | nil => intro rest; rfl
  | cons p ws ih =>
    intro rest
    have h1 := h p (by simp)
    have ih := ih (fun q hq => h q (by simp [hq]))
    simp only [List.length_cons, Reader.replicate, List.map_cons, List.flatten_cons, List.append_assoc]
    unfold Reader.bind
    rw [h1]
    simp only
    rw [ih]
    rfl

theorem writeAll_ok {α : Type} (w : α → Res Bytes) (xs : List α) (bs : Bytes)
    (h : writeAll w xs = .ok bs) :
    ∃ ws : List Bytes, ws.length = xs.length ∧ bs = ws.flatten ∧ xs.map w = ws.map .ok := by
  induction xs generalizing bs with
  | nil => exact ⟨[], rfl, by simpa [writeAll] using h.symm, rfl⟩
  | cons x xs ih =>
    rw [writeAll] at h
    cases h1 : w x with
    | error e => rw [h1] at h; simp [bind, Except.bind] at h
    | ok b =>
      cases h2 : writeAll w xs with
      | error e => rw [h1, h2] at h; simp [bind, Except.bind] at h
      | ok b2 =>
        rw [h1, h2] at h
        simp [bind, Except.bind, pure, Except.pure] at h
        obtain ⟨ws, e1, e2, e3⟩ := ih b2 h2
        exact ⟨b :: ws, by simp [e1], by simp [e2, ← h], by simp [e3, h1]⟩

theorem readVec_writeVec {ℓ α : Type} {l : NumCodec ℓ} (hl : l.Lawful) (r : Reader α)
    (w : α → Res Bytes) (xs : List α) (bs : Bytes)
    (h : ∀ x ∈ xs, ∀ b, w x = .ok b → ReadsTo r b x)
    (hw : writeVec l w xs = .ok bs) : ReadsTo (readVec l r) bs xs := by
  unfold writeVec at hw
  split at hw
  · rename_i hlen
    cases h2 : writeAll w xs with
    | error e => rw [h2] at hw; simp [bind, Except.bind] at hw
    | ok b2 =>
      rw [h2] at hw
      simp [bind, Except.bind, pure, Except.pure] at hw
      subst hw
      obtain ⟨ws, e1, rfl, e3⟩ := writeAll_ok w xs b2 h2
      intro rest
      unfold readVec Reader.bind
      rw [List.append_assoc, NumCodec.reads hl]
      simp only
      rw [hl.right _ hlen]
      have key := Reader.replicate_reads r (ws.zip xs) (by
        intro p hp
        obtain ⟨i, hi, rfl⟩ := List.mem_iff_getElem.mp hp
        simp only [List.length_zip] at hi
        simp only [List.getElem_zip]
        apply h _ (List.getElem_mem _)
        have := List.getElem_of_eq e3 (i := i) (by simp; omega)
        simpa using this)
      simp only [List.length_zip, e1, Nat.min_self, List.map_fst_zip (Nat.le_of_eq e1),
        List.map_snd_zip (Nat.le_of_eq e1.symm)] at key
      exact key rest
  · simp at hw

theorem readString_writeString (s bs : Bytes) (h : Spec.WellFormed s) (hw : writeString s = .ok bs)
    (hlen : bs.length ≤ 65537) : ReadsTo readString bs s := by
  obtain ⟨cs, hv, rfl⟩ := h
  unfold writeString at hw
  rw [Mutf8.encode_eq cs hv.1] at hw
  simp [bind, Except.bind, pure, Except.pure] at hw
  subst hw
  intro rest
  have hl : (Spec.mutf8 (Spec.utf16All cs)).length < 65536 := by
    simp [NumCodec.write, toBe_length, u16] at hlen; omega
  unfold readString
  rw [List.append_assoc, NumCodec.reads u16_lawful]
  simp only
  rw [readExact_append _ _ _ (by simp; omega)]
  simp only
  rw [Mutf8.decode_mcp cs hv]

end Verif
