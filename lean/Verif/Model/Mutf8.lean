import Verif.Model.Wtf8

/-!
# Model of src/mod_utf8.rs
-/

namespace Verif.Mutf8
open Verif.Wtf8

/-- src/mod_utf8.rs:36-87: the scanning loop. `hi` is `is_high_surrogate`; the result is
`modification`. The guard `0xC0 if next!() == 0x80` takes a byte even when it fails. The index in
`MutfError::AroundByte` is left out. -/
def scan (hi : Bool) : Bytes → Res Bool
  | [] => .ok false
  | b :: t =>
    if b = 0xC0 then
      match t with
      | [] => .error .mutf
      | n :: t => if n = 0x80 then .ok true else scan false t
    else if b = 0xED then
      match t with
      | [] => .error .mutf
      | n :: t =>
        if 0xA0 ≤ n ∧ n ≤ 0xAF then
          match t with
          | [] => .error .mutf
          | _ :: t => scan true t
        else if 0xB0 ≤ n ∧ n ≤ 0xBF then
          if hi then .ok true else scan false t
        else scan false t
    else scan false t

/-- src/mod_utf8.rs:107-111: the supplementary code point of a surrogate pair. -/
def pairChar (n n1 n3 n4 : UInt8) : Nat :=
  0x10000 + ((n &&& 0xF).toNat <<< 16) + ((n1 &&& 0x3F).toNat <<< 10) + ((n3 &&& 0xF).toNat <<< 6) +
    (n4 &&& 0x3F).toNat

/-- src/mod_utf8.rs:112-115: `char::from_u32(char).unwrap()` and `encode_utf8` into a zeroed
four-byte array that is appended whole. `char::encode_utf8` is the standard library's; its formula
is the one of wtf8/src/std_internal.rs:17-46. -/
def pairBytes (c : Nat) : Res Bytes :=
  if c < 0xD800 ∨ (0xDFFF < c ∧ c ≤ 0x10FFFF) then
    .ok ((encodeUtf8Raw c ++ [0, 0, 0, 0]).take 4)
  else .error .panic

/-- src/mod_utf8.rs:89-123: the rewriting loop; the argument is the remaining input, so
`buf.get(index + k)` is the `k`-th element of it. -/
def rewrite : Bytes → Res Bytes
  | [] => .ok []
  | b :: t =>
    if b = 0xC0 ∧ t[0]? = some 0x80 then do
      let out ← rewrite (t.drop 1)
      return 0 :: out
    else if b = 0xED then
      match t with
      | n :: n1 :: b3 :: n3 :: n4 :: t' =>
        if (0xA0 ≤ n ∧ n ≤ 0xAF) ∧ b3 = 0xED ∧ (0xB0 ≤ n3 ∧ n3 ≤ 0xBF) then do
          let bytes ← pairBytes (pairChar n n1 n3 n4)
          let out ← rewrite t'
          return bytes ++ out
        else do
          let out ← rewrite (n :: n1 :: b3 :: n3 :: n4 :: t')
          return b :: out
      | t => do
        let out ← rewrite t
        return b :: out
    else do
      let out ← rewrite t
      return b :: out
termination_by bs => bs.length
decreasing_by all_goals simp <;> omega

/-- `Wtf8String::from_bytes(..)?` with the error converted to `MutfError`. -/
def fromBytes' (bs : Bytes) : Res Bytes :=
  match fromBytes bs with
  | .ok r => .ok r
  | .error _ => .error .mutf

/-- src/mod_utf8.rs:34-130 `modified_utf8_to_string`. -/
def decode (buf : Bytes) : Res Bytes := do
  let modification ← scan false buf
  if modification then
    let out ← rewrite buf
    fromBytes' out
  else fromBytes' buf

/-- src/mod_utf8.rs:149-176: the bytes pushed for one code point. The capacity computation at
137-145 has no observable effect and is left out. -/
def encodeCp (c : Nat) : Bytes :=
  if 1 ≤ c ∧ c ≤ 0x7F then [UInt8.ofNat c]
  else if c = 0 ∨ (0x80 ≤ c ∧ c ≤ 0x7FF) then
    [(UInt8.ofNat (c >>> 6) &&& 0x1F) ||| 0xC0, (UInt8.ofNat c &&& 0x3F) ||| 0x80]
  else if 0x800 ≤ c ∧ c ≤ 0xFFFF then
    [(UInt8.ofNat (c >>> 12) &&& 0x0F) ||| 0xE0, (UInt8.ofNat (c >>> 6) &&& 0x3F) ||| 0x80,
      (UInt8.ofNat c &&& 0x3F) ||| 0x80]
  else
    [0xED, ((UInt8.ofNat (c >>> 16) &&& 0x1F) - 1) ||| 0xA0, (0x80 : UInt8) ||| (UInt8.ofNat (c >>> 10) &&& 0x3F),
      0xED, (UInt8.ofNat (c >>> 6) &&& 0xF) ||| 0xB0, (UInt8.ofNat c &&& 0x3F) ||| 0x80]

/-- src/mod_utf8.rs:136-178 `string_to_modified_utf8`; running off the end in `codepoints()` is
undefined behaviour. -/
def encode (s : Bytes) : Res Bytes :=
  match codepoints s with
  | some cs => .ok (cs.flatMap encodeCp)
  | none => .error .ub

end Verif.Mutf8
