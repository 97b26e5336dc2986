import Verif.Lemmas.Cp
import Verif.Spec.Insn

/-! # Lemmas about raw instructions -/

namespace Verif
open Spec

theorem toBe1 (n : Nat) : toBe 1 n = U1 n := by simp [toBe, U1]

theorem toBe2 (n : Nat) : toBe 2 n = U2 n := by simp [toBe, U2]

theorem toBe_congr {n a b : Nat} (h : a % 256 ^ n = b % 256 ^ n) : toBe n a = toBe n b := by
  rw [← toBe_mod n a, h, toBe_mod]

theorem i8_write (x : Int8) : i8.write x = S1 x.toInt := by
  show toBe 1 _ = U1 _
  rw [← toBe1]
  have h := x.toBitVec.toInt_eq_toNat_bmod
  refine toBe_congr ?_
  show x.toBitVec.toNat % 256 ^ 1 = (x.toBitVec.toInt % 2 ^ 8).toNat % 256 ^ 1
  have h1 := x.toBitVec.isLt
  have h2 := BitVec.toInt_eq_toNat_cond x.toBitVec
  split at h2 <;> omega

theorem i16_write (x : Int16) : i16.write x = S2 x.toInt := by
  show toBe 2 _ = U2 _
  rw [← toBe2]
  refine toBe_congr ?_
  show x.toBitVec.toNat % 256 ^ 2 = (x.toBitVec.toInt % 2 ^ 16).toNat % 256 ^ 2
  have h1 := x.toBitVec.isLt
  have h2 := BitVec.toInt_eq_toNat_cond x.toBitVec
  split at h2 <;> omega

theorem i32_write' (x : Int32) : i32.write x = S4 x.toInt := by
  show toBe 4 _ = U4 _
  rw [← toBe4]
  refine toBe_congr ?_
  show x.toBitVec.toNat % 256 ^ 4 = (x.toBitVec.toInt % 2 ^ 32).toNat % 256 ^ 4
  have h1 := x.toBitVec.isLt
  have h2 := BitVec.toInt_eq_toNat_cond x.toBitVec
  split at h2 <;> omega

/-! ## Readers -/

theorem reads_tagged {α : Type} {table : List (Nat × Reader α)} {t : UInt8} {r : Reader α} {b : Bytes}
    {x : α} (hl : table.lookup t.toNat = some r) (hr : ReadsTo r b x) :
    ReadsTo (Reader.tagged table) (u8.write t ++ b) x :=
  ReadsTo.bind (NumCodec.reads u8_lawful t) (by simp only [hl]; exact hr)

theorem reads_tagged0 {α : Type} {table : List (Nat × Reader α)} {t : UInt8} {x : α}
    (hl : table.lookup t.toNat = some (Reader.pure x)) : ReadsTo (Reader.tagged table) (u8.write t) x := by
  have := reads_tagged (b := []) hl (x := x) (fun _ => rfl)
  rwa [List.append_nil] at this

theorem reads_of1 {α β : Type} {f : α → β} {r : Reader α} {b : Bytes} {x : α} (h : ReadsTo r b x) :
    ReadsTo (Reader.of1 f r) b (f x) := by
  have := ReadsTo.bind (f := fun a => Reader.pure (f a)) (b := []) h (fun _ => rfl)
  rwa [List.append_nil] at this

theorem reads_of2 {α β γ : Type} {f : α → β → γ} {r : Reader α} {s : Reader β} {b b' : Bytes} {x : α}
    {y : β} (h : ReadsTo r b x) (h' : ReadsTo s b' y) : ReadsTo (Reader.of2 f r s) (b ++ b') (f x y) :=
  ReadsTo.bind h (reads_of1 h')

theorem reads_of3 {α β γ δ : Type} {f : α → β → γ → δ} {r : Reader α} {s : Reader β} {t : Reader γ}
    {b b' b'' : Bytes} {x : α} {y : β} {z : γ} (h : ReadsTo r b x) (h' : ReadsTo s b' y)
    (h'' : ReadsTo t b'' z) : ReadsTo (Reader.of3 f r s t) (b ++ (b' ++ b'')) (f x y z) :=
  ReadsTo.bind h (reads_of2 h' h'')

theorem wide_reads (w : Wide) : ReadsTo Wide.read w.write w := by
  cases w <;>
  first
  | exact reads_tagged rfl (reads_of1 (NumCodec.reads u16_lawful _))
  | exact reads_tagged rfl (reads_of2 (NumCodec.reads u16_lawful _) (NumCodec.reads i16_lawful _))

theorem wide_write (w : Wide) : w.write = U1 (wideOp w).code ++ wideArgs w := by
  cases w <;> simp only [Wide.write, wideArgs, u8_write, u16_write, i16_write] <;> rfl

theorem writeAll_flatMap {α : Type} (f : α → Bytes) (xs : List α) :
    writeAll (fun x => .ok (f x)) xs = .ok (xs.flatMap f) := by
  induction xs with
  | nil => rfl
  | cons x xs ih =>
    rw [writeAll, ih]
    rfl

theorem replicate_flatMap {α : Type} {r : Reader α} {f : α → Bytes} (h : ∀ x, ReadsTo r (f x) x)
    (xs : List α) : ReadsTo (Reader.replicate xs.length r) (xs.flatMap f) xs := by
  induction xs with
  | nil => exact fun _ => rfl
  | cons x xs ih => exact reads_of2 (f := fun a as => a :: as) (h x) ih

theorem tbl_reads (t : TblSwitch) (h : (t.offsets.length : Int) = t.high.toInt - t.low.toInt + 1)
    (hl : t.offsets.length < 2 ^ 31) :
    ReadsTo TblSwitch.read (i32.write t.low ++ (i32.write t.high ++ t.offsets.flatMap i32.write)) t := by
  refine ReadsTo.bind (NumCodec.reads i32_lawful _) (ReadsTo.bind (NumCodec.reads i32_lawful _) ?_)
  have h1 : (0 : Int) ≤ t.high.toInt - t.low.toInt + 1 ∧ t.high.toInt - t.low.toInt + 1 < 2 ^ 31 := by
    omega
  simp only [h1, and_self, if_true]
  have h2 : (t.high.toInt - t.low.toInt + 1).toNat = t.offsets.length := by omega
  rw [h2]
  exact reads_of1 (replicate_flatMap (NumCodec.reads i32_lawful) _)

theorem entry_reads' (e : SwitchEntry) : ReadsTo SwitchEntry.read e.write e :=
  reads_of2 (NumCodec.reads i32_lawful _) (NumCodec.reads i32_lawful _)

theorem raw_reads (i : RInsn) (h : RawOk i) : ∃ b, i.write = .ok b ∧ ReadsTo RInsn.read b i := by
  cases i with
  | TableSwitch a t =>
    refine ⟨_, ?_, reads_tagged (t := 0xAA) rfl (reads_of2 (NumCodec.reads i32_lawful a)
      (tbl_reads t h.1 h.2))⟩
    simp only [RInsn.write, TblSwitch.write, writeAll_flatMap]
    rfl
  | LookupSwitch a t =>
    have h' : t.length < 2 ^ 32 := h
    have hl : ReadsTo (readVec u32 SwitchEntry.read)
        (u32.write (u32.ofBits t.length) ++ t.flatMap SwitchEntry.write) t := by
      refine ReadsTo.bind (NumCodec.reads u32_lawful _) ?_
      rw [u32_lawful.right _ (by simpa [u32] using h')]
      exact replicate_flatMap entry_reads' t
    refine ⟨_, ?_, reads_tagged (t := 0xAB) rfl (reads_of2 (NumCodec.reads i32_lawful a) hl)⟩
    simp only [RInsn.write, writeVec, writeAll_flatMap]
    rw [if_pos (by simpa [u32] using h')]
    rfl
  | Wide w => exact ⟨_, rfl, reads_tagged (t := 0xC4) (r := Reader.of1 .Wide Wide.read) rfl
      (reads_of1 (wide_reads w))⟩
  | Nop => exact ⟨_, rfl, reads_tagged0 (t := 0x00) rfl⟩
  | AConstNull => exact ⟨_, rfl, reads_tagged0 (t := 0x01) rfl⟩
  | IConstM1 => exact ⟨_, rfl, reads_tagged0 (t := 0x02) rfl⟩
  | IConst0 => exact ⟨_, rfl, reads_tagged0 (t := 0x03) rfl⟩
  | IConst1 => exact ⟨_, rfl, reads_tagged0 (t := 0x04) rfl⟩
  | IConst2 => exact ⟨_, rfl, reads_tagged0 (t := 0x05) rfl⟩
  | IConst3 => exact ⟨_, rfl, reads_tagged0 (t := 0x06) rfl⟩
  | IConst4 => exact ⟨_, rfl, reads_tagged0 (t := 0x07) rfl⟩
  | IConst5 => exact ⟨_, rfl, reads_tagged0 (t := 0x08) rfl⟩
  | LConst0 => exact ⟨_, rfl, reads_tagged0 (t := 0x09) rfl⟩
  | LConst1 => exact ⟨_, rfl, reads_tagged0 (t := 0x0A) rfl⟩
  | FConst0 => exact ⟨_, rfl, reads_tagged0 (t := 0x0B) rfl⟩
  | FConst1 => exact ⟨_, rfl, reads_tagged0 (t := 0x0C) rfl⟩
  | FConst2 => exact ⟨_, rfl, reads_tagged0 (t := 0x0D) rfl⟩
  | DConst0 => exact ⟨_, rfl, reads_tagged0 (t := 0x0E) rfl⟩
  | DConst1 => exact ⟨_, rfl, reads_tagged0 (t := 0x0F) rfl⟩
  | Bipush a => exact ⟨_, rfl, reads_tagged (t := 0x10) (r := Reader.of1 .Bipush i8.read) rfl
      (reads_of1 (NumCodec.reads i8_lawful _))⟩
  | Sipush a => exact ⟨_, rfl, reads_tagged (t := 0x11) (r := Reader.of1 .Sipush i16.read) rfl
      (reads_of1 (NumCodec.reads i16_lawful _))⟩
  | Ldc a => exact ⟨_, rfl, reads_tagged (t := 0x12) (r := Reader.of1 .Ldc u8.read) rfl
      (reads_of1 (NumCodec.reads u8_lawful _))⟩
  | LdcW a => exact ⟨_, rfl, reads_tagged (t := 0x13) (r := Reader.of1 .LdcW u16.read) rfl
      (reads_of1 (NumCodec.reads u16_lawful _))⟩
  | Ldc2W a => exact ⟨_, rfl, reads_tagged (t := 0x14) (r := Reader.of1 .Ldc2W u16.read) rfl
      (reads_of1 (NumCodec.reads u16_lawful _))⟩
  | ILoad a => exact ⟨_, rfl, reads_tagged (t := 0x15) (r := Reader.of1 .ILoad u8.read) rfl
      (reads_of1 (NumCodec.reads u8_lawful _))⟩
  | LLoad a => exact ⟨_, rfl, reads_tagged (t := 0x16) (r := Reader.of1 .LLoad u8.read) rfl
      (reads_of1 (NumCodec.reads u8_lawful _))⟩
  | FLoad a => exact ⟨_, rfl, reads_tagged (t := 0x17) (r := Reader.of1 .FLoad u8.read) rfl
      (reads_of1 (NumCodec.reads u8_lawful _))⟩
  | DLoad a => exact ⟨_, rfl, reads_tagged (t := 0x18) (r := Reader.of1 .DLoad u8.read) rfl
      (reads_of1 (NumCodec.reads u8_lawful _))⟩
  | ALoad a => exact ⟨_, rfl, reads_tagged (t := 0x19) (r := Reader.of1 .ALoad u8.read) rfl
      (reads_of1 (NumCodec.reads u8_lawful _))⟩
  | ILoad0 => exact ⟨_, rfl, reads_tagged0 (t := 0x1A) rfl⟩
  | ILoad1 => exact ⟨_, rfl, reads_tagged0 (t := 0x1B) rfl⟩
  | ILoad2 => exact ⟨_, rfl, reads_tagged0 (t := 0x1C) rfl⟩
  | ILoad3 => exact ⟨_, rfl, reads_tagged0 (t := 0x1D) rfl⟩
  | LLoad0 => exact ⟨_, rfl, reads_tagged0 (t := 0x1E) rfl⟩
  | LLoad1 => exact ⟨_, rfl, reads_tagged0 (t := 0x1F) rfl⟩
  | LLoad2 => exact ⟨_, rfl, reads_tagged0 (t := 0x20) rfl⟩
  | LLoad3 => exact ⟨_, rfl, reads_tagged0 (t := 0x21) rfl⟩
  | FLoad0 => exact ⟨_, rfl, reads_tagged0 (t := 0x22) rfl⟩
  | FLoad1 => exact ⟨_, rfl, reads_tagged0 (t := 0x23) rfl⟩
  | FLoad2 => exact ⟨_, rfl, reads_tagged0 (t := 0x24) rfl⟩
  | FLoad3 => exact ⟨_, rfl, reads_tagged0 (t := 0x25) rfl⟩
  | DLoad0 => exact ⟨_, rfl, reads_tagged0 (t := 0x26) rfl⟩
  | DLoad1 => exact ⟨_, rfl, reads_tagged0 (t := 0x27) rfl⟩
  | DLoad2 => exact ⟨_, rfl, reads_tagged0 (t := 0x28) rfl⟩
  | DLoad3 => exact ⟨_, rfl, reads_tagged0 (t := 0x29) rfl⟩
  | ALoad0 => exact ⟨_, rfl, reads_tagged0 (t := 0x2A) rfl⟩
  | ALoad1 => exact ⟨_, rfl, reads_tagged0 (t := 0x2B) rfl⟩
  | ALoad2 => exact ⟨_, rfl, reads_tagged0 (t := 0x2C) rfl⟩
  | ALoad3 => exact ⟨_, rfl, reads_tagged0 (t := 0x2D) rfl⟩
  | IALoad => exact ⟨_, rfl, reads_tagged0 (t := 0x2E) rfl⟩
  | LALoad => exact ⟨_, rfl, reads_tagged0 (t := 0x2F) rfl⟩
  | FALoad => exact ⟨_, rfl, reads_tagged0 (t := 0x30) rfl⟩
  | DALoad => exact ⟨_, rfl, reads_tagged0 (t := 0x31) rfl⟩
  | AALoad => exact ⟨_, rfl, reads_tagged0 (t := 0x32) rfl⟩
  | BALoad => exact ⟨_, rfl, reads_tagged0 (t := 0x33) rfl⟩
  | CALoad => exact ⟨_, rfl, reads_tagged0 (t := 0x34) rfl⟩
  | SALoad => exact ⟨_, rfl, reads_tagged0 (t := 0x35) rfl⟩
  | IStore a => exact ⟨_, rfl, reads_tagged (t := 0x36) (r := Reader.of1 .IStore u8.read) rfl
      (reads_of1 (NumCodec.reads u8_lawful _))⟩
  | LStore a => exact ⟨_, rfl, reads_tagged (t := 0x37) (r := Reader.of1 .LStore u8.read) rfl
      (reads_of1 (NumCodec.reads u8_lawful _))⟩
  | FStore a => exact ⟨_, rfl, reads_tagged (t := 0x38) (r := Reader.of1 .FStore u8.read) rfl
      (reads_of1 (NumCodec.reads u8_lawful _))⟩
  | DStore a => exact ⟨_, rfl, reads_tagged (t := 0x39) (r := Reader.of1 .DStore u8.read) rfl
      (reads_of1 (NumCodec.reads u8_lawful _))⟩
  | AStore a => exact ⟨_, rfl, reads_tagged (t := 0x3A) (r := Reader.of1 .AStore u8.read) rfl
      (reads_of1 (NumCodec.reads u8_lawful _))⟩
  | IStore0 => exact ⟨_, rfl, reads_tagged0 (t := 0x3B) rfl⟩
  | IStore1 => exact ⟨_, rfl, reads_tagged0 (t := 0x3C) rfl⟩
  | IStore2 => exact ⟨_, rfl, reads_tagged0 (t := 0x3D) rfl⟩
  | IStore3 => exact ⟨_, rfl, reads_tagged0 (t := 0x3E) rfl⟩
  | LStore0 => exact ⟨_, rfl, reads_tagged0 (t := 0x3F) rfl⟩
  | LStore1 => exact ⟨_, rfl, reads_tagged0 (t := 0x40) rfl⟩
  | LStore2 => exact ⟨_, rfl, reads_tagged0 (t := 0x41) rfl⟩
  | LStore3 => exact ⟨_, rfl, reads_tagged0 (t := 0x42) rfl⟩
  | FStore0 => exact ⟨_, rfl, reads_tagged0 (t := 0x43) rfl⟩
  | FStore1 => exact ⟨_, rfl, reads_tagged0 (t := 0x44) rfl⟩
  | FStore2 => exact ⟨_, rfl, reads_tagged0 (t := 0x45) rfl⟩
  | FStore3 => exact ⟨_, rfl, reads_tagged0 (t := 0x46) rfl⟩
  | DStore0 => exact ⟨_, rfl, reads_tagged0 (t := 0x47) rfl⟩
  | DStore1 => exact ⟨_, rfl, reads_tagged0 (t := 0x48) rfl⟩
  | DStore2 => exact ⟨_, rfl, reads_tagged0 (t := 0x49) rfl⟩
  | DStore3 => exact ⟨_, rfl, reads_tagged0 (t := 0x4A) rfl⟩
  | AStore0 => exact ⟨_, rfl, reads_tagged0 (t := 0x4B) rfl⟩
  | AStore1 => exact ⟨_, rfl, reads_tagged0 (t := 0x4C) rfl⟩
  | AStore2 => exact ⟨_, rfl, reads_tagged0 (t := 0x4D) rfl⟩
  | AStore3 => exact ⟨_, rfl, reads_tagged0 (t := 0x4E) rfl⟩
  | IAStore => exact ⟨_, rfl, reads_tagged0 (t := 0x4F) rfl⟩
  | LAStore => exact ⟨_, rfl, reads_tagged0 (t := 0x50) rfl⟩
  | FAStore => exact ⟨_, rfl, reads_tagged0 (t := 0x51) rfl⟩
  | DAStore => exact ⟨_, rfl, reads_tagged0 (t := 0x52) rfl⟩
  | AAStore => exact ⟨_, rfl, reads_tagged0 (t := 0x53) rfl⟩
  | BAStore => exact ⟨_, rfl, reads_tagged0 (t := 0x54) rfl⟩
  | CAStore => exact ⟨_, rfl, reads_tagged0 (t := 0x55) rfl⟩
  | SAStore => exact ⟨_, rfl, reads_tagged0 (t := 0x56) rfl⟩
  | Pop => exact ⟨_, rfl, reads_tagged0 (t := 0x57) rfl⟩
  | Pop2 => exact ⟨_, rfl, reads_tagged0 (t := 0x58) rfl⟩
  | Dup => exact ⟨_, rfl, reads_tagged0 (t := 0x59) rfl⟩
  | Dupx1 => exact ⟨_, rfl, reads_tagged0 (t := 0x5A) rfl⟩
  | Dupx2 => exact ⟨_, rfl, reads_tagged0 (t := 0x5B) rfl⟩
  | Dup2 => exact ⟨_, rfl, reads_tagged0 (t := 0x5C) rfl⟩
  | Dup2x1 => exact ⟨_, rfl, reads_tagged0 (t := 0x5D) rfl⟩
  | Dup2x2 => exact ⟨_, rfl, reads_tagged0 (t := 0x5E) rfl⟩
  | Swap => exact ⟨_, rfl, reads_tagged0 (t := 0x5F) rfl⟩
  | IAdd => exact ⟨_, rfl, reads_tagged0 (t := 0x60) rfl⟩
  | LAdd => exact ⟨_, rfl, reads_tagged0 (t := 0x61) rfl⟩
  | FAdd => exact ⟨_, rfl, reads_tagged0 (t := 0x62) rfl⟩
  | DAdd => exact ⟨_, rfl, reads_tagged0 (t := 0x63) rfl⟩
  | ISub => exact ⟨_, rfl, reads_tagged0 (t := 0x64) rfl⟩
  | LSub => exact ⟨_, rfl, reads_tagged0 (t := 0x65) rfl⟩
  | FSub => exact ⟨_, rfl, reads_tagged0 (t := 0x66) rfl⟩
  | DSub => exact ⟨_, rfl, reads_tagged0 (t := 0x67) rfl⟩
  | IMul => exact ⟨_, rfl, reads_tagged0 (t := 0x68) rfl⟩
  | LMul => exact ⟨_, rfl, reads_tagged0 (t := 0x69) rfl⟩
  | FMul => exact ⟨_, rfl, reads_tagged0 (t := 0x6A) rfl⟩
  | DMul => exact ⟨_, rfl, reads_tagged0 (t := 0x6B) rfl⟩
  | IDiv => exact ⟨_, rfl, reads_tagged0 (t := 0x6C) rfl⟩
  | LDiv => exact ⟨_, rfl, reads_tagged0 (t := 0x6D) rfl⟩
  | FDiv => exact ⟨_, rfl, reads_tagged0 (t := 0x6E) rfl⟩
  | DDiv => exact ⟨_, rfl, reads_tagged0 (t := 0x6F) rfl⟩
  | IRem => exact ⟨_, rfl, reads_tagged0 (t := 0x70) rfl⟩
  | LRem => exact ⟨_, rfl, reads_tagged0 (t := 0x71) rfl⟩
  | FRem => exact ⟨_, rfl, reads_tagged0 (t := 0x72) rfl⟩
  | DRem => exact ⟨_, rfl, reads_tagged0 (t := 0x73) rfl⟩
  | INeg => exact ⟨_, rfl, reads_tagged0 (t := 0x74) rfl⟩
  | LNeg => exact ⟨_, rfl, reads_tagged0 (t := 0x75) rfl⟩
  | FNeg => exact ⟨_, rfl, reads_tagged0 (t := 0x76) rfl⟩
  | DNeg => exact ⟨_, rfl, reads_tagged0 (t := 0x77) rfl⟩
  | IShl => exact ⟨_, rfl, reads_tagged0 (t := 0x78) rfl⟩
  | LShl => exact ⟨_, rfl, reads_tagged0 (t := 0x79) rfl⟩
  | IShr => exact ⟨_, rfl, reads_tagged0 (t := 0x7A) rfl⟩
  | LShr => exact ⟨_, rfl, reads_tagged0 (t := 0x7B) rfl⟩
  | IUshr => exact ⟨_, rfl, reads_tagged0 (t := 0x7C) rfl⟩
  | LUshr => exact ⟨_, rfl, reads_tagged0 (t := 0x7D) rfl⟩
  | IAnd => exact ⟨_, rfl, reads_tagged0 (t := 0x7E) rfl⟩
  | LAnd => exact ⟨_, rfl, reads_tagged0 (t := 0x7F) rfl⟩
  | IOr => exact ⟨_, rfl, reads_tagged0 (t := 0x80) rfl⟩
  | LOr => exact ⟨_, rfl, reads_tagged0 (t := 0x81) rfl⟩
  | IXor => exact ⟨_, rfl, reads_tagged0 (t := 0x82) rfl⟩
  | LXor => exact ⟨_, rfl, reads_tagged0 (t := 0x83) rfl⟩
  | IInc a b => exact ⟨_, rfl, reads_tagged (t := 0x84) (r := Reader.of2 .IInc u8.read i8.read) rfl
      (reads_of2 (NumCodec.reads u8_lawful _) (NumCodec.reads i8_lawful _))⟩
  | I2L => exact ⟨_, rfl, reads_tagged0 (t := 0x85) rfl⟩
  | I2F => exact ⟨_, rfl, reads_tagged0 (t := 0x86) rfl⟩
  | I2D => exact ⟨_, rfl, reads_tagged0 (t := 0x87) rfl⟩
  | L2I => exact ⟨_, rfl, reads_tagged0 (t := 0x88) rfl⟩
  | L2F => exact ⟨_, rfl, reads_tagged0 (t := 0x89) rfl⟩
  | L2D => exact ⟨_, rfl, reads_tagged0 (t := 0x8A) rfl⟩
  | F2I => exact ⟨_, rfl, reads_tagged0 (t := 0x8B) rfl⟩
  | F2L => exact ⟨_, rfl, reads_tagged0 (t := 0x8C) rfl⟩
  | F2D => exact ⟨_, rfl, reads_tagged0 (t := 0x8D) rfl⟩
  | D2I => exact ⟨_, rfl, reads_tagged0 (t := 0x8E) rfl⟩
  | D2L => exact ⟨_, rfl, reads_tagged0 (t := 0x8F) rfl⟩
  | D2F => exact ⟨_, rfl, reads_tagged0 (t := 0x90) rfl⟩
  | I2B => exact ⟨_, rfl, reads_tagged0 (t := 0x91) rfl⟩
  | I2C => exact ⟨_, rfl, reads_tagged0 (t := 0x92) rfl⟩
  | I2S => exact ⟨_, rfl, reads_tagged0 (t := 0x93) rfl⟩
  | LCmp => exact ⟨_, rfl, reads_tagged0 (t := 0x94) rfl⟩
  | FCmpL => exact ⟨_, rfl, reads_tagged0 (t := 0x95) rfl⟩
  | FCmpG => exact ⟨_, rfl, reads_tagged0 (t := 0x96) rfl⟩
  | DCmpL => exact ⟨_, rfl, reads_tagged0 (t := 0x97) rfl⟩
  | DCmpG => exact ⟨_, rfl, reads_tagged0 (t := 0x98) rfl⟩
  | IfEq a => exact ⟨_, rfl, reads_tagged (t := 0x99) (r := Reader.of1 .IfEq i16.read) rfl
      (reads_of1 (NumCodec.reads i16_lawful _))⟩
  | IfNe a => exact ⟨_, rfl, reads_tagged (t := 0x9A) (r := Reader.of1 .IfNe i16.read) rfl
      (reads_of1 (NumCodec.reads i16_lawful _))⟩
  | IfLt a => exact ⟨_, rfl, reads_tagged (t := 0x9B) (r := Reader.of1 .IfLt i16.read) rfl
      (reads_of1 (NumCodec.reads i16_lawful _))⟩
  | IfGe a => exact ⟨_, rfl, reads_tagged (t := 0x9C) (r := Reader.of1 .IfGe i16.read) rfl
      (reads_of1 (NumCodec.reads i16_lawful _))⟩
  | IfGt a => exact ⟨_, rfl, reads_tagged (t := 0x9D) (r := Reader.of1 .IfGt i16.read) rfl
      (reads_of1 (NumCodec.reads i16_lawful _))⟩
  | IfLe a => exact ⟨_, rfl, reads_tagged (t := 0x9E) (r := Reader.of1 .IfLe i16.read) rfl
      (reads_of1 (NumCodec.reads i16_lawful _))⟩
  | IfICmpEq a => exact ⟨_, rfl, reads_tagged (t := 0x9F) (r := Reader.of1 .IfICmpEq i16.read) rfl
      (reads_of1 (NumCodec.reads i16_lawful _))⟩
  | IfICmpNe a => exact ⟨_, rfl, reads_tagged (t := 0xA0) (r := Reader.of1 .IfICmpNe i16.read) rfl
      (reads_of1 (NumCodec.reads i16_lawful _))⟩
  | IfICmpLt a => exact ⟨_, rfl, reads_tagged (t := 0xA1) (r := Reader.of1 .IfICmpLt i16.read) rfl
      (reads_of1 (NumCodec.reads i16_lawful _))⟩
  | IfICmpGe a => exact ⟨_, rfl, reads_tagged (t := 0xA2) (r := Reader.of1 .IfICmpGe i16.read) rfl
      (reads_of1 (NumCodec.reads i16_lawful _))⟩
  | IfICmpGt a => exact ⟨_, rfl, reads_tagged (t := 0xA3) (r := Reader.of1 .IfICmpGt i16.read) rfl
      (reads_of1 (NumCodec.reads i16_lawful _))⟩
  | IfICmpLe a => exact ⟨_, rfl, reads_tagged (t := 0xA4) (r := Reader.of1 .IfICmpLe i16.read) rfl
      (reads_of1 (NumCodec.reads i16_lawful _))⟩
  | IfACmpEq a => exact ⟨_, rfl, reads_tagged (t := 0xA5) (r := Reader.of1 .IfACmpEq i16.read) rfl
      (reads_of1 (NumCodec.reads i16_lawful _))⟩
  | IfACmpNe a => exact ⟨_, rfl, reads_tagged (t := 0xA6) (r := Reader.of1 .IfACmpNe i16.read) rfl
      (reads_of1 (NumCodec.reads i16_lawful _))⟩
  | Goto a => exact ⟨_, rfl, reads_tagged (t := 0xA7) (r := Reader.of1 .Goto i16.read) rfl
      (reads_of1 (NumCodec.reads i16_lawful _))⟩
  | Jsr a => exact ⟨_, rfl, reads_tagged (t := 0xA8) (r := Reader.of1 .Jsr i16.read) rfl
      (reads_of1 (NumCodec.reads i16_lawful _))⟩
  | Ret a => exact ⟨_, rfl, reads_tagged (t := 0xA9) (r := Reader.of1 .Ret u8.read) rfl
      (reads_of1 (NumCodec.reads u8_lawful _))⟩
  | IReturn => exact ⟨_, rfl, reads_tagged0 (t := 0xAC) rfl⟩
  | LReturn => exact ⟨_, rfl, reads_tagged0 (t := 0xAD) rfl⟩
  | FReturn => exact ⟨_, rfl, reads_tagged0 (t := 0xAE) rfl⟩
  | DReturn => exact ⟨_, rfl, reads_tagged0 (t := 0xAF) rfl⟩
  | AReturn => exact ⟨_, rfl, reads_tagged0 (t := 0xB0) rfl⟩
  | Return => exact ⟨_, rfl, reads_tagged0 (t := 0xB1) rfl⟩
  | GetStatic a => exact ⟨_, rfl, reads_tagged (t := 0xB2) (r := Reader.of1 .GetStatic u16.read) rfl
      (reads_of1 (NumCodec.reads u16_lawful _))⟩
  | PutStatic a => exact ⟨_, rfl, reads_tagged (t := 0xB3) (r := Reader.of1 .PutStatic u16.read) rfl
      (reads_of1 (NumCodec.reads u16_lawful _))⟩
  | GetField a => exact ⟨_, rfl, reads_tagged (t := 0xB4) (r := Reader.of1 .GetField u16.read) rfl
      (reads_of1 (NumCodec.reads u16_lawful _))⟩
  | PutField a => exact ⟨_, rfl, reads_tagged (t := 0xB5) (r := Reader.of1 .PutField u16.read) rfl
      (reads_of1 (NumCodec.reads u16_lawful _))⟩
  | InvokeVirtual a => exact ⟨_, rfl, reads_tagged (t := 0xB6) (r := Reader.of1 .InvokeVirtual u16.read) rfl
      (reads_of1 (NumCodec.reads u16_lawful _))⟩
  | InvokeSpecial a => exact ⟨_, rfl, reads_tagged (t := 0xB7) (r := Reader.of1 .InvokeSpecial u16.read) rfl
      (reads_of1 (NumCodec.reads u16_lawful _))⟩
  | InvokeStatic a => exact ⟨_, rfl, reads_tagged (t := 0xB8) (r := Reader.of1 .InvokeStatic u16.read) rfl
      (reads_of1 (NumCodec.reads u16_lawful _))⟩
  | InvokeInterface a b c => exact ⟨_, rfl, reads_tagged (t := 0xB9) (r := Reader.of3 .InvokeInterface u16.read u8.read u8.read) rfl
      (reads_of3 (NumCodec.reads u16_lawful _) (NumCodec.reads u8_lawful _) (NumCodec.reads u8_lawful _))⟩
  | InvokeDynamic a b => exact ⟨_, rfl, reads_tagged (t := 0xBA) (r := Reader.of2 .InvokeDynamic u16.read u16.read) rfl
      (reads_of2 (NumCodec.reads u16_lawful _) (NumCodec.reads u16_lawful _))⟩
  | New a => exact ⟨_, rfl, reads_tagged (t := 0xBB) (r := Reader.of1 .New u16.read) rfl
      (reads_of1 (NumCodec.reads u16_lawful _))⟩
  | NewArray a => exact ⟨_, rfl, reads_tagged (t := 0xBC) (r := Reader.of1 .NewArray u8.read) rfl
      (reads_of1 (NumCodec.reads u8_lawful _))⟩
  | ANewArray a => exact ⟨_, rfl, reads_tagged (t := 0xBD) (r := Reader.of1 .ANewArray u16.read) rfl
      (reads_of1 (NumCodec.reads u16_lawful _))⟩
  | ArrayLength => exact ⟨_, rfl, reads_tagged0 (t := 0xBE) rfl⟩
  | AThrow => exact ⟨_, rfl, reads_tagged0 (t := 0xBF) rfl⟩
  | CheckCast a => exact ⟨_, rfl, reads_tagged (t := 0xC0) (r := Reader.of1 .CheckCast u16.read) rfl
      (reads_of1 (NumCodec.reads u16_lawful _))⟩
  | InstanceOf a => exact ⟨_, rfl, reads_tagged (t := 0xC1) (r := Reader.of1 .InstanceOf u16.read) rfl
      (reads_of1 (NumCodec.reads u16_lawful _))⟩
  | MonitorEnter => exact ⟨_, rfl, reads_tagged0 (t := 0xC2) rfl⟩
  | MonitorExit => exact ⟨_, rfl, reads_tagged0 (t := 0xC3) rfl⟩
  | MultiANewArray a b => exact ⟨_, rfl, reads_tagged (t := 0xC5) (r := Reader.of2 .MultiANewArray u16.read u8.read) rfl
      (reads_of2 (NumCodec.reads u16_lawful _) (NumCodec.reads u8_lawful _))⟩
  | IfNull a => exact ⟨_, rfl, reads_tagged (t := 0xC6) (r := Reader.of1 .IfNull i16.read) rfl
      (reads_of1 (NumCodec.reads i16_lawful _))⟩
  | IfNonNull a => exact ⟨_, rfl, reads_tagged (t := 0xC7) (r := Reader.of1 .IfNonNull i16.read) rfl
      (reads_of1 (NumCodec.reads i16_lawful _))⟩
  | GotoW a => exact ⟨_, rfl, reads_tagged (t := 0xC8) (r := Reader.of1 .GotoW i32.read) rfl
      (reads_of1 (NumCodec.reads i32_lawful _))⟩
  | JsrW a => exact ⟨_, rfl, reads_tagged (t := 0xC9) (r := Reader.of1 .JsrW i32.read) rfl
      (reads_of1 (NumCodec.reads i32_lawful _))⟩

end Verif
