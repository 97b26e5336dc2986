import Verif.Basic

/-! Bit operations as positional arithmetic. -/

namespace Verif.Bits

theorem and3F (x : Nat) : x &&& 0x3F = x % 64 := Nat.and_two_pow_sub_one_eq_mod x 6
theorem and1F (x : Nat) : x &&& 0x1F = x % 32 := Nat.and_two_pow_sub_one_eq_mod x 5
theorem and0F (x : Nat) : x &&& 0x0F = x % 16 := Nat.and_two_pow_sub_one_eq_mod x 4
theorem and07 (x : Nat) : x &&& 7 = x % 8 := Nat.and_two_pow_sub_one_eq_mod x 3
theorem and3FF (x : Nat) : x &&& 0x3FF = x % 1024 := Nat.and_two_pow_sub_one_eq_mod x 10
theorem andFFFF (x : Nat) : x &&& 0xFFFF = x % 65536 := Nat.and_two_pow_sub_one_eq_mod x 16
theorem shl (a i : Nat) : a <<< i = a * 2 ^ i := Nat.shiftLeft_eq a i
theorem shr (a i : Nat) : a >>> i = a / 2 ^ i := Nat.shiftRight_eq_div_pow a i

theorem shl_or (a b i : Nat) (h : b < 2 ^ i) : a <<< i ||| b = a * 2 ^ i + b := by
  rw [← Nat.shiftLeft_add_eq_or_of_lt h, Nat.shiftLeft_eq]

theorem or80 : ∀ x < 64, x ||| 0x80 = 0x80 + x := by decide
theorem orC0 : ∀ x < 32, x ||| 0xC0 = 0xC0 + x := by decide
theorem orE0 : ∀ x < 16, x ||| 0xE0 = 0xE0 + x := by decide
theorem orF0 : ∀ x < 8, x ||| 0xF0 = 0xF0 + x := by decide
theorem orA0 : ∀ x < 16, x ||| 0xA0 = 0xA0 + x := by decide
theorem orB0 : ∀ x < 16, x ||| 0xB0 = 0xB0 + x := by decide
theorem or80' : ∀ x < 64, 0x80 ||| x = 0x80 + x := by decide

theorem orD800 (x : Nat) (h : x < 1024) : 0xD800 ||| x = 0xD800 + x := by
  have := Nat.two_pow_add_eq_or_of_lt (i := 10) h 54
  simpa using this.symm
theorem orDC00 (x : Nat) (h : x < 1024) : 0xDC00 ||| x = 0xDC00 + x := by
  have := Nat.two_pow_add_eq_or_of_lt (i := 10) h 55
  simpa using this.symm

theorem u8_lt (b : UInt8) : b.toNat < 256 := b.toNat_lt
theorem u16_lt (b : UInt16) : b.toNat < 65536 := b.toNat_lt

theorem u8_ofNat_toNat (n : Nat) : (UInt8.ofNat n).toNat = n % 256 := by simp
theorem u16_ofNat_toNat (n : Nat) : (UInt16.ofNat n).toNat = n % 65536 := by simp

theorem u8_ext {a b : UInt8} (h : a.toNat = b.toNat) : a = b := UInt8.toNat_inj.mp h
theorem u16_ext {a b : UInt16} (h : a.toNat = b.toNat) : a = b := UInt16.toNat_inj.mp h

theorem u8_or (x k m : Nat) (hk : k < 256) (hx : x < 256) (h : x ||| k = m) :
    UInt8.ofNat x ||| UInt8.ofNat k = UInt8.ofNat m := by
  subst h
  rw [UInt8.ofNat_or]

theorem u8_or80 (x : Nat) (h : x < 64) : UInt8.ofNat x ||| 0x80 = UInt8.ofNat (0x80 + x) :=
  u8_or x 0x80 _ (by omega) (by omega) (or80 x h)
theorem u8_orC0 (x : Nat) (h : x < 32) : UInt8.ofNat x ||| 0xC0 = UInt8.ofNat (0xC0 + x) :=
  u8_or x 0xC0 _ (by omega) (by omega) (orC0 x h)
theorem u8_orE0 (x : Nat) (h : x < 16) : UInt8.ofNat x ||| 0xE0 = UInt8.ofNat (0xE0 + x) :=
  u8_or x 0xE0 _ (by omega) (by omega) (orE0 x h)
theorem u8_orF0 (x : Nat) (h : x < 8) : UInt8.ofNat x ||| 0xF0 = UInt8.ofNat (0xF0 + x) :=
  u8_or x 0xF0 _ (by omega) (by omega) (orF0 x h)
theorem u8_orA0 (x : Nat) (h : x < 16) : UInt8.ofNat x ||| 0xA0 = UInt8.ofNat (0xA0 + x) :=
  u8_or x 0xA0 _ (by omega) (by omega) (orA0 x h)
theorem u8_orB0 (x : Nat) (h : x < 16) : UInt8.ofNat x ||| 0xB0 = UInt8.ofNat (0xB0 + x) :=
  u8_or x 0xB0 _ (by omega) (by omega) (orB0 x h)

end Verif.Bits
