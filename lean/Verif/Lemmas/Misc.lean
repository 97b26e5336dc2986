import Verif.Spec.Misc
import Verif.Lemmas.Cp

namespace Verif
open Spec

/-! ## Float keys -/

/-- The transformation of `total_cmp` at any width. -/
def bvKey {w : Nat} (x : BitVec (w + 1)) : BitVec (w + 1) := x ^^^ (x.sshiftRight w >>> 1)

theorem bvKey_pos {w : Nat} (x : BitVec (w + 1)) (h : x.toNat < 2 ^ w) : bvKey x = x := by
  have hm : x.msb = false := by
    rw [BitVec.msb_eq_decide]
    simp; omega
  have : x.sshiftRight w >>> 1 = 0#(w + 1) := by
    ext i hi
    simp only [BitVec.getElem_ushiftRight, BitVec.getLsbD_sshiftRight, BitVec.getElem_zero]
    by_cases h1 : w + (1 + i) < w + 1
    · omega
    · simp [h1, hm]
  rw [bvKey, this]
  simp

theorem bvKey_neg {w : Nat} (x : BitVec (w + 1)) (h : 2 ^ w ≤ x.toNat) :
    bvKey x = ~~~ (BitVec.ofNat (w + 1) (x.toNat % 2 ^ w)) := by
  have hm : x.msb = true := by
    rw [BitVec.msb_eq_decide]
    simp; omega
  unfold bvKey
  ext i hi
  simp only [BitVec.getElem_xor, BitVec.getElem_ushiftRight, BitVec.getLsbD_sshiftRight,
    BitVec.getElem_not]
  rw [show (BitVec.ofNat (w + 1) (x.toNat % 2 ^ w))[i] = (decide (i < w) && x[i]) by
    rw [← BitVec.getLsbD_eq_getElem, BitVec.getLsbD_ofNat, Nat.testBit_mod_two_pow,
      ← BitVec.getLsbD_eq_getElem]
    simp [hi, BitVec.testBit_toNat]]
  by_cases hw : i < w
  · have h2 : 1 + i < w + 1 := by omega
    have h3 : ¬ w + (1 + i) < w + 1 := by omega
    have h5 : ¬ w + 1 ≤ 1 + i := by omega
    simp [h2, h3, hm, hw, h5]
  · have : i = w := by omega
    subst this
    have h4 : x[i] = true := by
      have := hm
      rw [BitVec.msb_eq_getLsbD_last] at this
      simpa [BitVec.getLsbD_eq_getElem] using this
    simp only [h4]
    have h5 : i + 1 ≤ 1 + i := by omega
    simp [h5]

theorem bvKey_toInt {w : Nat} (x : BitVec (w + 1)) :
    (bvKey x).toInt = if 2 ^ w ≤ x.toNat then -1 - ((x.toNat % 2 ^ w : Nat) : Int) else (x.toNat : Int) := by
  have hp : 0 < 2 ^ w := Nat.pow_pos (by omega)
  have hs : 2 ^ (w + 1) = 2 * 2 ^ w := by rw [Nat.pow_succ, Nat.mul_comm]
  by_cases h : 2 ^ w ≤ x.toNat
  · have hlt := Nat.mod_lt x.toNat hp
    rw [if_pos h, bvKey_neg x h, BitVec.toInt_eq_toNat_cond, BitVec.toNat_not, BitVec.toNat_ofNat,
      Nat.mod_eq_of_lt (show x.toNat % 2 ^ w < 2 ^ (w + 1) by omega)]
    rw [if_neg (by omega), hs]
    omega
  · rw [if_neg h, bvKey_pos x (by omega), BitVec.toInt_eq_toNat_cond, if_pos (by omega)]

theorem F32.key_eq (x : F32) : x.key.toInt =
    if 2 ^ 31 ≤ x.bits.toNat then -1 - ((x.bits.toNat % 2 ^ 31 : Nat) : Int) else (x.bits.toNat : Int) := by
  rw [← show x.bits.toBitVec.toNat = x.bits.toNat from rfl, ← bvKey_toInt (w := 31)]
  rfl

theorem F64.key_eq (x : F64) : x.key.toInt =
    if 2 ^ 63 ≤ x.bits.toNat then -1 - ((x.bits.toNat % 2 ^ 63 : Nat) : Int) else (x.bits.toNat : Int) := by
  rw [← show x.bits.toBitVec.toNat = x.bits.toNat from rfl, ← bvKey_toInt (w := 63)]
  rfl

theorem cmpInt_lt (a b : Int) : cmpInt a b = .lt ↔ a < b := by
  unfold cmpInt; split
  · simp [*]
  · split <;> simp [*]

theorem cmpInt_eq (a b : Int) : cmpInt a b = .eq ↔ a = b := by
  unfold cmpInt; split
  · simp; omega
  · split <;> simp [*]

theorem cmpInt_gt (a b : Int) : cmpInt a b = .gt ↔ b < a := by
  unfold cmpInt; split
  · simp; omega
  · split
    · simp; omega
    · simp; omega

theorem F32.eq_iff (x y : F32) : F32.eq x y = true ↔ x.bits = y.bits := by
  unfold F32.eq F32.cmp
  rw [show ((cmpInt x.key.toInt y.key.toInt).isEq = true) ↔ cmpInt x.key.toInt y.key.toInt = .eq by
    cases cmpInt x.key.toInt y.key.toInt <;> simp, cmpInt_eq, F32.key_eq, F32.key_eq,
    ← UInt32.toNat_inj]
  have := x.bits.toNat_lt; have := y.bits.toNat_lt
  omega

theorem F64.eq_iff (x y : F64) : F64.eq x y = true ↔ x.bits = y.bits := by
  unfold F64.eq F64.cmp
  rw [show ((cmpInt x.key.toInt y.key.toInt).isEq = true) ↔ cmpInt x.key.toInt y.key.toInt = .eq by
    cases cmpInt x.key.toInt y.key.toInt <;> simp, cmpInt_eq, F64.key_eq, F64.key_eq,
    ← UInt64.toNat_inj]
  have := x.bits.toNat_lt; have := y.bits.toNat_lt
  omega

end Verif
