import Verif.Model.Wtf8

/-!
# Model of the rest of the `wtf8` crate

Code point conversions, ASCII helpers, comparison, hashing, iterator hints, `Display`, the remaining
ways to build a string, and a small machine that runs sequences of calls of the safe API.

Strings are byte lists as in `Verif.Model.Wtf8`; the text of a `&str` or `String` is the list of its
UTF-8 bytes; a `char` or `Codepoint` is a number.
-/

namespace Verif.Wtf8

/-! ## Codepoint -/

/-- wtf8/src/lib.rs:70-75 `Codepoint::from_u32`. -/
def cpFromU32 (value : Nat) : Option Nat := if value ≤ 0x10FFFF then some value else none

/-- wtf8/src/lib.rs:97-104 `Codepoint::to_char`. -/
def toChar (c : Nat) : Option Nat := if 0xD800 ≤ c ∧ c ≤ 0xDFFF then none else some c

/-- wtf8/src/lib.rs:111-113 `Codepoint::to_char_lossy`. -/
def toCharLossy (c : Nat) : Nat := (toChar c).getD 0xFFFD

/-! ## ASCII -/

/-- wtf8/src/lib.rs:271-276 `ascii_byte_at`; indexing past the end panics. -/
def asciiByteAt (s : Bytes) (position : Nat) : Res UInt8 :=
  match s[position]? with
  | none => .error .panic
  | some b => if b ≤ 0x7F then .ok b else .ok 0xFF

/-- `u8::to_ascii_lowercase` of the standard library: sets bit 5 of `A` to `Z`. -/
def asciiLower (b : UInt8) : UInt8 := if 65 ≤ b ∧ b ≤ 90 then b ||| 0x20 else b

/-- `u8::to_ascii_uppercase` of the standard library: clears bit 5 of `a` to `z`. -/
def asciiUpper (b : UInt8) : UInt8 := if 97 ≤ b ∧ b ≤ 122 then b ^^^ 0x20 else b

/-- wtf8/src/lib.rs:362-364 `make_ascii_lowercase` and 817-821 `to_ascii_lowercase`. -/
def toAsciiLowercase (s : Bytes) : Bytes := s.map asciiLower

/-- wtf8/src/lib.rs:367-369 `make_ascii_uppercase` and 824-828 `to_ascii_uppercase`. -/
def toAsciiUppercase (s : Bytes) : Bytes := s.map asciiUpper

/-- wtf8/src/lib.rs:372-374 `is_ascii`. -/
def isAscii (s : Bytes) : Bool := s.all fun b => b < 128

/-- wtf8/src/lib.rs:377-379 `eq_ignore_ascii_case` (`<[u8]>::eq_ignore_ascii_case`: equal lengths,
and the bytes agree in lower case). -/
def eqIgnoreAsciiCase (s t : Bytes) : Bool :=
  s.length == t.length && (s.zip t).all fun p => asciiLower p.1 == asciiLower p.2

/-! ## Comparison and hashing -/

/-- wtf8/src/lib.rs:132 and 405: the derived `Ord` of `Wtf8Str` and `Wtf8String` is that of `[u8]`,
the lexicographic order of the bytes. -/
def cmp : Bytes → Bytes → Ordering
  | [], [] => .eq
  | [], _ :: _ => .lt
  | _ :: _, [] => .gt
  | a :: s, b :: t => if a < b then .lt else if b < a then .gt else cmp s t

/-- wtf8/src/lib.rs:132, 405, 912-941 and 1334-1338: every `PartialEq` compares the bytes. -/
def eq (s t : Bytes) : Bool := s == t

/-- wtf8/src/lib.rs:746-751 and 1326-1332 `Hash`: the bytes given to the hasher. -/
def hashInput (s : Bytes) : Bytes := s ++ [0xFE]

/-! ## Iterator hints -/

/-- `usize::MAX` on a 64-bit target. -/
def usizeMax : Nat := 2 ^ 64 - 1

/-- wtf8/src/lib.rs:1096-1099 `Wtf8CodePoints::size_hint` with the given bytes left. -/
def sizeHint (rest : Bytes) : Nat × Option Nat :=
  (min (rest.length + 3) usizeMax / 4, some rest.length)

/-- `checked_mul` and `checked_add` of the standard library. -/
def checked (n : Nat) : Option Nat := if n ≤ usizeMax then some n else none

/-- wtf8/src/lib.rs:1132-1143 `EncodeWide::size_hint`; the addition `low + ext` cannot overflow. -/
def sizeHintWide (rest : Bytes) (extra : UInt16) : Nat × Option Nat :=
  let (low, high) := sizeHint rest
  let ext := if extra ≠ 0 then 1 else 0
  (low + ext, (high.bind fun n => checked (n * 2)).bind fun n => checked (n + ext))

/-- wtf8/src/lib.rs:1079-1084 `Wtf8CodePoints::as_str` after `k` calls of `next`: the bytes that are
left. A call at the end leaves the iterator where it is; `none` is undefined behaviour. -/
def restAfter (bs : Bytes) : Nat → Option Bytes
  | 0 => some bs
  | k + 1 => match nextCodePoint bs with
    | .done => restAfter bs k
    | .oob => none
    | .cp _ rest => restAfter rest k

/-- The state of `encode_wide()` after `k` calls of `next` (wtf8/src/lib.rs:1114-1129): bytes left and
`extra`. -/
def wideAfter (bs : Bytes) (extra : UInt16) : Nat → Option (Bytes × UInt16)
  | 0 => some (bs, extra)
  | k + 1 => match nextWide bs extra with
    | .done => wideAfter bs extra k
    | .oob => none
    | .item _ rest e => wideAfter rest e k

/-! ## Display -/

/-- wtf8/src/lib.rs:167-191 `Display` without width or precision, the loop from `pos`: the texts of
the calls of `write_str` in order. -/
def displayFrom (s : Bytes) (pos : Nat) : List Bytes :=
  match h : nextSurrogate s pos with
  | some p => (s.drop pos).take (p - pos) :: replacement :: displayFrom s (p + 3)
  | none => [s.drop pos]
termination_by s.length - pos
decreasing_by
  have := nextSurrogateFrom_ge pos (s.drop pos) p h
  simp at this
  omega

/-- wtf8/src/lib.rs:167-191 `Display`. -/
def display (s : Bytes) : Bytes := (displayFrom s 0).flatten

/-! ## Debug -/

/-- A hexadecimal digit: `ten` is the letter for ten. -/
def hexDigit (ten : UInt8) (d : Nat) : UInt8 :=
  if d < 10 then 48 + UInt8.ofNat d else ten + UInt8.ofNat (d - 10)

/-- `{:x}` and `{:X}` of the standard library: the digits without leading zeros. -/
def hex (ten : UInt8) (n : Nat) : Bytes :=
  if n < 16 then [hexDigit ten n] else hex ten (n / 16) ++ [hexDigit ten (n % 16)]

/-- wtf8/src/lib.rs:49-54 `Debug` of `Codepoint`: `U+{:04X}`. -/
def cpDebug (c : Nat) : Bytes :=
  let d := hex 65 c
  [85, 43] ++ List.replicate (4 - d.length) 48 ++ d

/-- wtf8/src/lib.rs:143-149 `write_str_escaped`. `esc` is `char::escape_debug` of the standard
library, whose tables are not modelled; `chars()` decodes like `next_code_point`. -/
def writeStrEscaped (esc : Nat → Bytes) (t : Bytes) : Res Bytes :=
  match codepoints t with
  | none => .error .ub
  | some cs => .ok (cs.flatMap esc)

/-- wtf8/src/lib.rs:152-163 `Debug` of `Wtf8Str`, the loop from `pos`. -/
def debugFrom (esc : Nat → Bytes) (s : Bytes) (pos : Nat) : Res Bytes :=
  match h : nextSurrogate s pos with
  | some p => do
    let a ← writeStrEscaped esc ((s.drop pos).take (p - pos))
    let r ← debugFrom esc s (p + 3)
    return a ++ [92, 117, 123] ++
      hex 97 (decodeSurrogate (s.getD (p + 1) 0) (s.getD (p + 2) 0)).toNat ++ [125] ++ r
  | none => writeStrEscaped esc (s.drop pos)
termination_by s.length - pos
decreasing_by
  have := nextSurrogateFrom_ge pos (s.drop pos) p h
  simp at this
  omega

/-- wtf8/src/lib.rs:141-165 `Debug` of `Wtf8Str` and 429-434 of `Wtf8String`. -/
def debug (esc : Nat → Bytes) (s : Bytes) : Res Bytes := do
  return [34] ++ (← debugFrom esc s 0) ++ [34]

/-! ## Building strings -/

/-- wtf8/src/lib.rs:1034-1037 `decode_surrogate_pair` for any arguments: the function is public and
not `unsafe`. The subtractions panic when they overflow; a `char` above `0x10FFFF` is undefined
behaviour (a surrogate cannot result). -/
def decodePair (lead trail : UInt16) : Res Nat :=
  if lead < 0xD800 ∨ trail < 0xDC00 then .error .panic
  else if 0x10FFFF < decodeSurrogatePair lead trail then .error .ub
  else .ok (decodeSurrogatePair lead trail)

/-- wtf8/src/lib.rs:623-625 `push_str`. -/
def pushStr (s text : Bytes) : Bytes := s ++ text

/-- wtf8/src/lib.rs:654-657 `push_char`. -/
def pushChar (s : Bytes) (c : Nat) : Bytes := pushUnchecked s c

/-- wtf8/src/lib.rs:872-879 `Extend::extend`. -/
def extend (s : Bytes) (cs : List Nat) : Bytes := cs.foldl push s

/-- wtf8/src/lib.rs:860-865 `FromIterator::from_iter`. -/
def fromIter (cs : List Nat) : Bytes := extend [] cs

/-- `<[u8]>::clone_from_slice` of the standard library: panics when the lengths differ. -/
def cloneFromSlice (dst src : Bytes) : Res Bytes :=
  if dst.length = src.length then .ok src else .error .panic

/-- wtf8/src/lib.rs:803-814 `clone_into`: the new content of `buf`. -/
def cloneInto (s buf : Bytes) : Res Bytes := do
  let buf := buf.take s.length
  let init := s.take buf.length
  let tail := s.drop buf.length
  let buf ← cloneFromSlice buf init
  return buf ++ tail

/-! ## Running safe calls -/

/-- A call of a safe function of the crate on numbered strings. -/
inductive Call where
  /-- `Wtf8String::new`, `with_capacity`, `default`, `empty_box` -/
  | new
  /-- `Wtf8Str::new`, `from_string`, `from_borrowed`, `From<String>`, `w!`: any Rust string -/
  | fromStr (text : Bytes)
  /-- `Wtf8Str::from_bytes`, `Wtf8String::from_bytes`: any bytes -/
  | fromBytes (bs : Bytes)
  /-- `from_wide` -/
  | fromWide (v : List UInt16)
  /-- `from_iter` -/
  | fromIter (cs : List Nat)
  /-- `clone`, `to_owned`, `From<&Wtf8Str>`, `into_box`, `from_box`, `into_arc`, `into_rc`, `[..]` -/
  | copy (i : Nat)
  /-- `&s[b..e]` -/
  | index (i b e : Nat)
  /-- `&s[b..]` -/
  | indexFrom (i b : Nat)
  /-- `&s[..e]` -/
  | indexTo (i e : Nat)
  /-- `codepoints()`, then `next` `k` times, then `as_str` -/
  | rest (i k : Nat)
  /-- `push` -/
  | push (i c : Nat)
  /-- `push_char` -/
  | pushChar (i c : Nat)
  /-- `push_char(decode_surrogate_pair(lead, trail))` -/
  | pushPair (i : Nat) (lead trail : UInt16)
  /-- `push_str` -/
  | pushStr (i : Nat) (text : Bytes)
  /-- `push_wtf8` -/
  | pushWtf8 (i j : Nat)
  /-- `extend` -/
  | extend (i : Nat) (cs : List Nat)
  /-- `truncate` -/
  | truncate (i n : Nat)
  /-- `clear` -/
  | clear (i : Nat)
  /-- `make_ascii_lowercase` -/
  | lower (i : Nat)
  /-- `make_ascii_uppercase` -/
  | upper (i : Nat)
  /-- `clone_into` -/
  | cloneInto (i j : Nat)
  /-- all items of `codepoints()` -/
  | codepoints (i : Nat)
  /-- all items of `encode_wide()` -/
  | encodeWide (i : Nat)
  /-- `as_str`, `into_string` -/
  | asStr (i : Nat)
  /-- `to_string_lossy` -/
  | lossy (i : Nat)
  /-- `into_string_lossy` -/
  | intoLossy (i : Nat)
  /-- `Display` -/
  | display (i : Nat)

/-- The strings that exist, and the Rust texts (`&str`, `String`) that were handed out. -/
structure Heap where
  strings : List Bytes
  texts : List Bytes
  deriving DecidableEq

/-- String number `i`; an unused number stands for the empty string. -/
def Heap.get (h : Heap) (i : Nat) : Bytes := h.strings.getD i []

/-- A new string. -/
def Heap.add (h : Heap) (s : Bytes) : Heap := { h with strings := h.strings ++ [s] }

/-- Replaces string number `i`. -/
def Heap.put (h : Heap) (i : Nat) (s : Bytes) : Heap := { h with strings := h.strings.set i s }

/-- A text handed out. -/
def Heap.tell (h : Heap) (t : Bytes) : Heap := { h with texts := h.texts ++ [t] }

/-- Marks the undefined behaviour of an iterator. -/
def orUb {α : Type} : Option α → Res α
  | some a => .ok a
  | none => .error .ub

/-- One call. `Err(Wtf8Error)` and `None` leave the strings as they are. -/
def Call.run (h : Heap) : Call → Res Heap
  | .new => .ok (h.add [])
  | .fromStr t => .ok (h.add t)
  | .fromBytes bs => match Wtf8.fromBytes bs with
    | .ok s => .ok (h.add s)
    | .error _ => .ok h
  | .fromWide v => .ok (h.add (Wtf8.fromWide v))
  | .fromIter cs => .ok (h.add (Wtf8.fromIter cs))
  | .copy i => .ok (h.add (h.get i))
  | .index i b e => (slice (h.get i) b e).map h.add
  | .indexFrom i b => (sliceFrom (h.get i) b).map h.add
  | .indexTo i e => (sliceTo (h.get i) e).map h.add
  | .rest i k => (orUb (restAfter (h.get i) k)).map h.add
  | .push i c => .ok (h.put i (Wtf8.push (h.get i) c))
  | .pushChar i c => .ok (h.put i (Wtf8.pushChar (h.get i) c))
  | .pushPair i l t => (decodePair l t).map fun c => h.put i (Wtf8.pushChar (h.get i) c)
  | .pushStr i t => .ok (h.put i (Wtf8.pushStr (h.get i) t))
  | .pushWtf8 i j => .ok (h.put i (Wtf8.pushWtf8 (h.get i) (h.get j)))
  | .extend i cs => .ok (h.put i (Wtf8.extend (h.get i) cs))
  | .truncate i n => (Wtf8.truncate (h.get i) n).map (h.put i)
  | .clear i => .ok (h.put i [])
  | .lower i => .ok (h.put i (toAsciiLowercase (h.get i)))
  | .upper i => .ok (h.put i (toAsciiUppercase (h.get i)))
  | .cloneInto i j => (Wtf8.cloneInto (h.get i) (h.get j)).map (h.put j)
  | .codepoints i => (orUb (Wtf8.codepoints (h.get i))).map fun _ => h
  | .encodeWide i => (orUb (Wtf8.encodeWide (h.get i))).map fun _ => h
  | .asStr i => match Wtf8.asStr (h.get i) with
    | some t => .ok (h.tell t)
    | none => .ok h
  | .lossy i => .ok (h.tell (toStringLossy (h.get i)))
  | .intoLossy i => .ok (h.tell (intoStringLossy (h.get i)))
  | .display i => .ok (h.tell (Wtf8.display (h.get i)))

/-- A program: calls in order. -/
def runCalls : List Call → Heap → Res Heap
  | [], h => .ok h
  | c :: cs, h => do runCalls cs (← c.run h)

end Verif.Wtf8
