import Verif.Spec.Wtf8

/-!
# Specification of the JVM's modified UTF-8

JVMS 4.4.7: every UTF-16 unit is encoded on its own, in one byte (`0x01..=0x7F`), two bytes (`0` and
`0x80..=0x7FF`) or three bytes.
-/

namespace Verif.Spec

/-- Modified UTF-8 of one UTF-16 unit. -/
def mutf8Unit (u : UInt16) : Bytes :=
  let n := u.toNat
  if 1 ≤ n ∧ n ≤ 0x7F then [UInt8.ofNat n]
  else if n ≤ 0x7FF then [UInt8.ofNat (0xC0 + n / 64), UInt8.ofNat (0x80 + n % 64)]
  else [UInt8.ofNat (0xE0 + n / 4096), UInt8.ofNat (0x80 + n / 64 % 64), UInt8.ofNat (0x80 + n % 64)]

/-- Modified UTF-8 of a sequence of UTF-16 units. -/
def mutf8 (v : List UInt16) : Bytes := v.flatMap mutf8Unit

/-- The string (a byte string in WTF-8) has the UTF-16 form `v`. -/
def HasUtf16 (s : Bytes) (v : List UInt16) : Prop :=
  ∃ cs, ValidCps cs ∧ encodeCps cs = s ∧ utf16All cs = v

end Verif.Spec
