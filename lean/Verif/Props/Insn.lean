import Verif.Lemmas.Insn
import Verif.Lemmas.Takes

/-! # Property C35: raw instructions -/

namespace Verif.Props
open Verif Spec

set_option maxRecDepth 4000 in
/-- C35. Every raw instruction the format can express is written as the opcode the JVM specification
gives to its mnemonic, followed by its operands. -/
theorem C35_layout (i : RInsn) (h : RawOk i) : i.write = .ok (U1 (rawOp i).code ++ rawArgs i) := by
  cases i with
  | TableSwitch a t =>
    simp only [RInsn.write, TblSwitch.write, writeAll_flatMap, rawArgs, u8_write, i32_write']
    simp only [bind, Except.bind, pure, Except.pure, i32_write', List.append_assoc]
    rfl
  | LookupSwitch a t =>
    have h' : t.length < 2 ^ 32 := h
    simp only [RInsn.write, writeVec, writeAll_flatMap, rawArgs, u8_write, i32_write']
    rw [if_pos (by simpa [u32] using h')]
    simp only [bind, Except.bind, pure, Except.pure, u32_write, SwitchEntry.write, i32_write',
      List.append_assoc]
    have : (u32.ofBits t.length).toNat = t.length := by
      show (UInt32.ofNat t.length).toNat = _
      rw [UInt32.toNat_ofNat', Nat.mod_eq_of_lt h']
    have hw : SwitchEntry.write = fun e => S4 e.key.toInt ++ S4 e.off.toInt := by
      funext e
      rw [SwitchEntry.write, i32_write', i32_write']
    rw [this, hw]
    rfl
  | Wide w =>
    simp only [RInsn.write, rawArgs, wide_write, u8_write]
    rfl
  | _ =>
    simp only [RInsn.write, rawArgs, u8_write, u16_write, i8_write, i16_write, i32_write',
      List.append_nil, List.append_assoc]
    rfl

/-- C35. … and read back identically, consuming exactly these bytes, whatever follows. -/
theorem C35_roundtrip (i : RInsn) (h : RawOk i) (rest : Bytes) :
    RInsn.read (U1 (rawOp i).code ++ rawArgs i ++ rest) = .ok (i, rest) := by
  obtain ⟨b, h1, h2⟩ := raw_reads i h
  rw [C35_layout i h] at h1
  cases h1
  exact h2 rest

/-- C35. Whatever is read from whatever bytes is an instruction the format can express, and the bytes
consumed are its layout; so no other bytes are accepted. -/
theorem C35_sound (bs rest : Bytes) (i : RInsn) (h : RInsn.read bs = .ok (i, rest)) :
    RawOk i ∧ bs = U1 (rawOp i).code ++ rawArgs i ++ rest := by
  obtain ⟨b, rfl, h1, rfl⟩ := takes_raw _ _ _ h
  exact ⟨h1, rfl⟩

/-- C35. Opcodes above 201 are refused, whatever follows. -/
theorem C35_unknown (t : UInt8) (h : 201 < t.toNat) (rest : Bytes) :
    RInsn.read (t :: rest) = .error .invalid := by
  have hk : RInsn.table.map Prod.fst = List.range 202 := by decide +kernel
  have hl : RInsn.table.lookup t.toNat = none := by
    rw [List.lookup_eq_none_iff]
    intro p hp
    have : p.1 ∈ RInsn.table.map Prod.fst := List.mem_map_of_mem hp
    rw [hk, List.mem_range] at this
    simp only [beq_eq_false_iff_ne, bne_iff_ne, ne_eq]
    omega
  have hr := NumCodec.reads u8_lawful t rest
  rw [show u8.write t ++ rest = t :: rest by rw [u8_write]; simp [U1]] at hr
  unfold RInsn.read Reader.tagged Reader.bind
  rw [hr]
  simp only [hl]
  rfl

/-- C35. Every opcode up to 201 is the opcode of some instruction, so exactly these are known. -/
theorem C35_known (t : UInt8) (h : t.toNat ≤ 201) : (RInsn.table.lookup t.toNat).isSome := by
  have : ∀ n, n < 202 → (RInsn.table.lookup n).isSome := by decide +kernel
  exact this _ (by omega)

example : RInsn.read [0xC4, 0x84, 1, 0, 0xFF, 0xFE, 7] = .ok (.Wide (.IInc 256 (-2)), [7]) := rfl
example : RawOk (.TableSwitch 10 ⟨-1, 1, [4, 5, 6]⟩) := ⟨rfl, by decide⟩

end Verif.Props
