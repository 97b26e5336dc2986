import Verif.Spec.Wtf8
import Verif.Model.Wtf8
import Verif.Lemmas.Bits

/-! Helper lemmas about the WTF-8 model: one code point at a time. -/

namespace Verif.Wtf8
open Verif.Spec Verif.Bits

theorem encodeUtf8Raw_eq (c : Nat) (h : IsCodePoint c) : encodeUtf8Raw c = gutf8 c := by
  unfold IsCodePoint at h
  unfold encodeUtf8Raw gutf8 lenUtf8
  have e80 : ∀ x, UInt8.ofNat (x % 64) ||| 0x80 = UInt8.ofNat (0x80 + x % 64) := fun x =>
    u8_or80 _ (by omega)
  by_cases h1 : c < 0x80
  · simp [h1]
  by_cases h2 : c < 0x800
  · simp only [h1, h2, if_true, if_false, and1F, and3F, shr, e80]
    rw [u8_orC0 _ (by omega), show c / 2 ^ 6 % 32 = c / 64 by omega]
  by_cases h3 : c < 0x10000
  · simp only [h1, h2, h3, if_true, if_false, and0F, and3F, shr, e80]
    rw [u8_orE0 _ (by omega), show c / 2 ^ 12 % 16 = c / 4096 by omega]
  · simp only [h1, h2, h3, if_false, and07, and3F, shr, e80]
    rw [u8_orF0 _ (by omega), show c / 2 ^ 18 % 8 = c / 262144 by omega]

/-- Byte-level shape of a generalized UTF-8 sequence, in terms of `toNat`. -/
theorem gutf8_cases (c : Nat) (h : IsCodePoint c) :
    (c < 0x80 ∧ ∃ a : UInt8, gutf8 c = [a] ∧ a.toNat = c) ∨
    (0x80 ≤ c ∧ c < 0x800 ∧ ∃ a b : UInt8, gutf8 c = [a, b] ∧
      a.toNat = 0xC0 + c / 64 ∧ b.toNat = 0x80 + c % 64) ∨
    (0x800 ≤ c ∧ c < 0x10000 ∧ ∃ a b d : UInt8, gutf8 c = [a, b, d] ∧
      a.toNat = 0xE0 + c / 4096 ∧ b.toNat = 0x80 + c / 64 % 64 ∧ d.toNat = 0x80 + c % 64) ∨
    (0x10000 ≤ c ∧ ∃ a b d e : UInt8, gutf8 c = [a, b, d, e] ∧
      a.toNat = 0xF0 + c / 262144 ∧ b.toNat = 0x80 + c / 4096 % 64 ∧
      d.toNat = 0x80 + c / 64 % 64 ∧ e.toNat = 0x80 + c % 64) := by
  unfold IsCodePoint at h
  unfold gutf8
  by_cases h1 : c < 0x80
  · left
    exact ⟨h1, _, by simp [h1]; rfl, by rw [u8_ofNat_toNat]; omega⟩
  by_cases h2 : c < 0x800
  · right; left
    exact ⟨by omega, h2, _, _, by simp only [h1, h2, if_true, if_false]; rfl,
      by rw [u8_ofNat_toNat]; omega, by rw [u8_ofNat_toNat]; omega⟩
  by_cases h3 : c < 0x10000
  · right; right; left
    exact ⟨by omega, h3, _, _, _, by simp only [h1, h2, h3, if_true, if_false]; rfl,
      by rw [u8_ofNat_toNat]; omega, by rw [u8_ofNat_toNat]; omega, by rw [u8_ofNat_toNat]; omega⟩
  · right; right; right
    exact ⟨by omega, _, _, _, _, by simp only [h1, h2, h3, if_false]; rfl,
      by rw [u8_ofNat_toNat]; omega, by rw [u8_ofNat_toNat]; omega, by rw [u8_ofNat_toNat]; omega,
      by rw [u8_ofNat_toNat]; omega⟩

theorem and3F_toNat (b : UInt8) : (b &&& 0x3F).toNat = b.toNat % 64 := by
  rw [UInt8.toNat_and]; exact and3F _

theorem firstByte2 (b : UInt8) : utf8FirstByte b 2 = b.toNat % 32 := by
  unfold utf8FirstByte
  rw [UInt8.toNat_and]; exact and1F _

theorem accCont (ch : Nat) (b : UInt8) : utf8AccContByte ch b = ch * 64 + b.toNat % 64 := by
  unfold utf8AccContByte
  rw [and3F_toNat, shl_or _ _ _ (by omega)]

theorem nextCodePoint_gutf8 (c : Nat) (h : IsCodePoint c) (rest : Bytes) :
    nextCodePoint (gutf8 c ++ rest) = .cp c rest := by
  have hc := h
  unfold IsCodePoint at hc
  rcases gutf8_cases c h with ⟨h1, a, e, ha⟩ | ⟨h1, h2, a, b, e, ha, hb⟩ |
    ⟨h1, h2, a, b, d, e, ha, hb, hd⟩ | ⟨h1, a, b, d, f, e, ha, hb, hd, hf⟩
  · rw [e]
    have : a < 128 := by rw [UInt8.lt_iff_toNat_lt]; simp; omega
    simp [nextCodePoint, this, ha]
  · rw [e]
    have n1 : ¬ a < 128 := by rw [UInt8.lt_iff_toNat_lt]; simp; omega
    have n2 : ¬ a ≥ 0xE0 := by rw [ge_iff_le, UInt8.le_iff_toNat_le]; simp; omega
    simp only [List.cons_append, nextCodePoint, n1, n2, if_false, accCont, firstByte2]
    simp; omega
  · rw [e]
    have n1 : ¬ a < 128 := by rw [UInt8.lt_iff_toNat_lt]; simp; omega
    have n2 : a ≥ 0xE0 := by rw [ge_iff_le, UInt8.le_iff_toNat_le]; simp; omega
    have n3 : ¬ a ≥ 0xF0 := by rw [ge_iff_le, UInt8.le_iff_toNat_le]; simp; omega
    simp only [List.cons_append, nextCodePoint, n1, n2, n3, if_false, if_true, accCont, firstByte2,
      and3F_toNat]
    rw [shl_or _ _ _ (by omega)]
    simp; omega
  · rw [e]
    have n1 : ¬ a < 128 := by rw [UInt8.lt_iff_toNat_lt]; simp; omega
    have n2 : a ≥ 0xE0 := by rw [ge_iff_le, UInt8.le_iff_toNat_le]; simp; omega
    have n3 : a ≥ 0xF0 := by rw [ge_iff_le, UInt8.le_iff_toNat_le]; simp; omega
    simp only [List.cons_append, nextCodePoint, n1, n2, n3, if_false, if_true, accCont, firstByte2,
      and3F_toNat, and07]
    rw [shl_or _ _ _ (by omega)]
    simp; omega

theorem gutf8_ne_nil (c : Nat) : gutf8 c ≠ [] := by
  unfold gutf8; repeat' split
  all_goals simp

theorem codepoints_encode (cs : List Nat) (h : ∀ c ∈ cs, IsCodePoint c) :
    codepoints (encodeCps cs) = some cs := by
  induction cs with
  | nil => unfold codepoints; simp only [encodeCps, List.flatMap_nil]; rfl
  | cons c cs ih =>
    have e : encodeCps (c :: cs) = gutf8 c ++ encodeCps cs := by simp [encodeCps]
    rw [e]
    unfold codepoints
    have hn := nextCodePoint_gutf8 c (h c (by simp)) (encodeCps cs)
    split
    · simp_all
    · simp_all
    · rename_i c' rest hh
      rw [hn] at hh
      obtain ⟨rfl, rfl⟩ := Next.cp.inj hh
      rw [ih (fun x hx => h x (by simp [hx]))]
      rfl

theorem isTail_iff (b : UInt8) : isTail b = true ↔ 128 ≤ b.toNat ∧ b.toNat ≤ 191 := by
  simp [isTail, UInt8.le_iff_toNat_le]

/-- Decide a byte comparison from facts about `toNat`. -/
macro "u8" : tactic => `(tactic| (simp only [ge_iff_le, UInt8.le_iff_toNat_le, UInt8.lt_iff_toNat_lt, ← UInt8.toNat_inj, isTail_iff, UInt8.reduceToNat] ; omega))

theorem validateFrom_gutf8 (c : Nat) (h : IsCodePoint c) (i : Nat) (hi : Bool)
    (hp : ¬ (hi = true ∧ IsTrail c)) (rest : Bytes) :
    validateFrom i hi (gutf8 c ++ rest) =
      validateFrom (i + (gutf8 c).length) (decide (IsLead c)) rest := by
  have hc := h
  unfold IsCodePoint at hc
  unfold IsTrail at hp
  have hl : decide (IsLead c) = decide (0xD800 ≤ c ∧ c ≤ 0xDBFF) := rfl
  rw [hl]
  rcases gutf8_cases c h with ⟨h1, a, e, ha⟩ | ⟨h1, h2, a, b, e, ha, hb⟩ |
    ⟨h1, h2, a, b, d, e, ha, hb, hd⟩ | ⟨h1, a, b, d, f, e, ha, hb, hd, hf⟩
  · rw [e, decide_eq_false (by omega)]
    simp only [List.cons_append, List.nil_append, List.length_cons, List.length_nil]
    conv => lhs; unfold validateFrom
    try dsimp only
    rw [if_pos (by u8)]
  · rw [e, decide_eq_false (by omega)]
    simp only [List.cons_append, List.nil_append, List.length_cons, List.length_nil]
    conv => lhs; unfold validateFrom
    try dsimp only
    rw [if_neg (by u8), if_pos (by u8), if_pos (by u8)]
  · rw [e]
    simp only [List.cons_append, List.nil_append, List.length_cons, List.length_nil]
    conv => lhs; unfold validateFrom
    try dsimp only
    rw [if_neg (by u8), if_neg (by u8)]
    by_cases q1 : c < 0x1000
    · rw [if_pos (by u8), if_pos (by u8), if_pos (by u8), decide_eq_false (by omega)]
    rw [if_neg (by u8)]
    by_cases q2 : c < 0xD000 ∨ 0xE000 ≤ c
    · rw [if_pos (by u8), if_pos (by u8), if_pos (by u8), decide_eq_false (by omega)]
    rw [if_neg (by u8), if_pos (by u8)]
    by_cases q3 : c < 0xD800
    · rw [if_pos (by u8), if_pos (by u8), decide_eq_false (by omega)]
    rw [if_neg (by u8)]
    by_cases q4 : c < 0xDC00
    · rw [if_pos (by u8), decide_eq_true (by omega)]
    · rw [if_neg (by u8), if_pos (by u8), if_neg (fun hh => hp ⟨hh, by omega, by omega⟩), if_pos (by u8),
        decide_eq_false (by omega)]
  · rw [e, decide_eq_false (by omega)]
    simp only [List.cons_append, List.nil_append, List.length_cons, List.length_nil]
    conv => lhs; unfold validateFrom
    try dsimp only
    rw [if_neg (by u8), if_neg (by u8), if_neg (by u8), if_neg (by u8), if_neg (by u8)]
    by_cases q1 : c < 0x40000
    · rw [if_pos (by u8), if_pos (by u8)]
    rw [if_neg (by u8)]
    by_cases q2 : c < 0x100000
    · rw [if_pos (by u8), if_pos (by u8)]
    · rw [if_neg (by u8), if_pos (by u8), if_pos (by u8)]

/-! ### Recovering the code point from its bytes -/

theorem gutf8_of_one (a : UInt8) (h : a.toNat < 0x80) : gutf8 a.toNat = [a] := by
  simp [gutf8, h]

theorem gutf8_of_two (a b : UInt8) (ha : 0xC2 ≤ a.toNat ∧ a.toNat ≤ 0xDF)
    (hb : 128 ≤ b.toNat ∧ b.toNat ≤ 191) :
    ∃ c, 0x80 ≤ c ∧ c < 0x800 ∧ gutf8 c = [a, b] ∧ c = (a.toNat - 0xC0) * 64 + (b.toNat - 0x80) := by
  refine ⟨_, ?_, ?_, ?_, rfl⟩
  · omega
  · omega
  · unfold gutf8
    rw [if_neg (by omega), if_pos (by omega)]
    simp only [List.cons.injEq, and_true]
    refine ⟨?_, ?_⟩ <;> (apply u8_ext; rw [u8_ofNat_toNat]; omega)

theorem gutf8_of_three (a b d : UInt8) (ha : 0xE0 ≤ a.toNat ∧ a.toNat ≤ 0xEF)
    (hab : a.toNat = 0xE0 → 0xA0 ≤ b.toNat)
    (hb : 128 ≤ b.toNat ∧ b.toNat ≤ 191) (hd : 128 ≤ d.toNat ∧ d.toNat ≤ 191) :
    ∃ c, 0x800 ≤ c ∧ c < 0x10000 ∧ gutf8 c = [a, b, d] ∧
      c = (a.toNat - 0xE0) * 4096 + (b.toNat - 0x80) * 64 + (d.toNat - 0x80) := by
  refine ⟨_, ?_, ?_, ?_, rfl⟩
  · omega
  · omega
  · unfold gutf8
    rw [if_neg (by omega), if_neg (by omega), if_pos (by omega)]
    simp only [List.cons.injEq, and_true]
    refine ⟨?_, ?_, ?_⟩ <;> (apply u8_ext; rw [u8_ofNat_toNat]; omega)

theorem gutf8_of_four (a b d e : UInt8) (ha : 0xF0 ≤ a.toNat ∧ a.toNat ≤ 0xF4)
    (hab : a.toNat = 0xF0 → 0x90 ≤ b.toNat) (hab' : a.toNat = 0xF4 → b.toNat ≤ 0x8F)
    (hb : 128 ≤ b.toNat ∧ b.toNat ≤ 191) (hd : 128 ≤ d.toNat ∧ d.toNat ≤ 191)
    (he : 128 ≤ e.toNat ∧ e.toNat ≤ 191) :
    ∃ c, 0x10000 ≤ c ∧ c ≤ 0x10FFFF ∧ gutf8 c = [a, b, d, e] := by
  refine ⟨(a.toNat - 0xF0) * 262144 + (b.toNat - 0x80) * 4096 + (d.toNat - 0x80) * 64
    + (e.toNat - 0x80), ?_, ?_, ?_⟩
  · omega
  · omega
  · unfold gutf8
    rw [if_neg (by omega), if_neg (by omega), if_neg (by omega)]
    simp only [List.cons.injEq, and_true]
    refine ⟨?_, ?_, ?_, ?_⟩ <;> (apply u8_ext; rw [u8_ofNat_toNat]; omega)

end Verif.Wtf8
