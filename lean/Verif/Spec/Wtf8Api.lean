import Verif.Model.Wtf8Api
import Verif.Spec.Mutf8

/-!
# Specification of the string API

A string is seen as its UTF-16 units, as in Java. Every safe call is described by its effect on
units, without reference to bytes other than the byte lengths that occur as positions.
-/

namespace Verif.Spec
open Verif.Wtf8 (Call)

/-! ## Byte positions in terms of UTF-16 units -/

/-- `u` is a high surrogate. -/
def LeadUnit (u : UInt16) : Prop := IsLead u.toNat

/-- `u` is a low surrogate. -/
def TrailUnit (u : UInt16) : Prop := IsTrail u.toNat

instance (u : UInt16) : Decidable (LeadUnit u) := inferInstanceAs (Decidable (IsLead _))
instance (u : UInt16) : Decidable (TrailUnit u) := inferInstanceAs (Decidable (IsTrail _))

/-- Length in bytes of the WTF-8 form of a sequence of units. -/
def wtf8Length : List UInt16 → Nat
  | [] => 0
  | [u] => if u.toNat < 0x80 then 1 else if u.toNat < 0x800 then 2 else 3
  | u :: w :: t =>
    if LeadUnit u ∧ TrailUnit w then 4 + wtf8Length t
    else (if u.toNat < 0x80 then 1 else if u.toNat < 0x800 then 2 else 3) + wtf8Length (w :: t)

/-- The cut between `p` and `r` does not separate a surrogate pair. -/
def Whole (p r : List UInt16) : Prop :=
  ∀ x ∈ p.getLast?, ∀ y ∈ r.head?, ¬ (LeadUnit x ∧ TrailUnit y)

/-! ## ASCII letters -/

/-- Lower case of an ASCII capital, anything else unchanged. -/
def lowerCp (c : Nat) : Nat := if 65 ≤ c ∧ c ≤ 90 then c + 32 else c

/-- Upper case of an ASCII small letter, anything else unchanged. -/
def upperCp (c : Nat) : Nat := if 97 ≤ c ∧ c ≤ 122 then c - 32 else c

/-- `lowerCp` on units. -/
def lowerUnit (u : UInt16) : UInt16 := if 65 ≤ u.toNat ∧ u.toNat ≤ 90 then u + 32 else u

/-- `upperCp` on units. -/
def upperUnit (u : UInt16) : UInt16 := if 97 ≤ u.toNat ∧ u.toNat ≤ 122 then u - 32 else u

/-! ## Debug output -/

/-- The value of a hexadecimal digit of either case. -/
def hexValue (b : UInt8) : Option Nat :=
  if 48 ≤ b.toNat ∧ b.toNat ≤ 57 then some (b.toNat - 48)
  else if 65 ≤ b.toNat ∧ b.toNat ≤ 70 then some (b.toNat - 55)
  else if 97 ≤ b.toNat ∧ b.toNat ≤ 102 then some (b.toNat - 87)
  else none

/-- `IsHex ds n`: `ds` are hexadecimal digits, most significant first, of the number `n`. -/
inductive IsHex : Bytes → Nat → Prop
  | nil : IsHex [] 0
  | snoc {ds n b d} : IsHex ds n → hexValue b = some d → IsHex (ds ++ [b]) (16 * n + d)

/-- `t` is the string in double quotes: every surrogate as `\u{` and four hexadecimal digits and `}`,
everything else escaped by `esc`. -/
inductive Quoted (esc : Nat → Bytes) : List Nat → Bytes → Prop
  | nil : Quoted esc [] []
  | char {c cs t} : ¬ IsSurrogate c → Quoted esc cs t → Quoted esc (c :: cs) (esc c ++ t)
  | surrogate {c ds cs t} : IsSurrogate c → IsHex ds c → ds.length = 4 → Quoted esc cs t →
      Quoted esc (c :: cs) ([92, 117, 123] ++ ds ++ [125] ++ t)

/-! ## Order -/

/-- Lexicographic order of code points. -/
def cmpCps : List Nat → List Nat → Ordering
  | [], [] => .eq
  | [], _ :: _ => .lt
  | _ :: _, [] => .gt
  | a :: s, b :: t => if a < b then .lt else if b < a then .gt else cmpCps s t

/-! ## What calls do -/

/-- The units of a Rust text: no unpaired surrogates. -/
def TextUnits (t : Bytes) (w : List UInt16) : Prop :=
  ∃ cs, (∀ c ∈ cs, IsCodePoint c ∧ ¬ IsSurrogate c) ∧ encodeCps cs = t ∧ utf16All cs = w

/-- The code points of a sequence of units. -/
def CpsOf (v : List UInt16) (cs : List Nat) : Prop := ValidCps cs ∧ utf16All cs = v

/-- Strings and texts as units. -/
structure Units where
  strings : List (List UInt16)
  texts : List (List UInt16)

def Units.get (a : Units) (i : Nat) : List UInt16 := a.strings.getD i []
def Units.add (a : Units) (v : List UInt16) : Units := { a with strings := a.strings ++ [v] }
def Units.put (a : Units) (i : Nat) (v : List UInt16) : Units := { a with strings := a.strings.set i v }
def Units.tell (a : Units) (w : List UInt16) : Units := { a with texts := a.texts ++ [w] }

/-- Unpaired surrogates replaced by U+FFFD. -/
def lossyCps (cs : List Nat) : List Nat := cs.map fun c => if IsSurrogate c then 0xFFFD else c

/-- `Does c a b`: the call `c` takes the strings `a` to the strings `b`. No `b` exists when the call
panics. -/
inductive Does : Call → Units → Units → Prop
  | new {a} : Does .new a (a.add [])
  | fromStr {a t w} : TextUnits t w → Does (.fromStr t) a (a.add w)
  | fromBytes {a bs v} : HasUtf16 bs v → Does (.fromBytes bs) a (a.add v)
  | fromBytesErr {a bs} : ¬ WellFormed bs → Does (.fromBytes bs) a a
  | fromWide {a v} : Does (.fromWide v) a (a.add v)
  | fromIter {a cs} : Does (.fromIter cs) a (a.add (utf16All cs))
  | copy {a i} : Does (.copy i) a (a.add (a.get i))
  | index {a i p q r} : a.get i = p ++ q ++ r → Whole p (q ++ r) → Whole (p ++ q) r →
      Does (.index i (wtf8Length p) (wtf8Length (p ++ q))) a (a.add q)
  | indexFrom {a i p q} : a.get i = p ++ q → Whole p q →
      Does (.indexFrom i (wtf8Length p)) a (a.add q)
  | indexTo {a i p q} : a.get i = p ++ q → Whole p q →
      Does (.indexTo i (wtf8Length p)) a (a.add p)
  | rest {a i k cs} : CpsOf (a.get i) cs → Does (.rest i k) a (a.add (utf16All (cs.drop k)))
  | push {a i c} : Does (.push i c) a (a.put i (a.get i ++ utf16 c))
  | pushChar {a i c} : Does (.pushChar i c) a (a.put i (a.get i ++ utf16 c))
  | pushPair {a i l t} : LeadUnit l → TrailUnit t → Does (.pushPair i l t) a (a.put i (a.get i ++ [l, t]))
  | pushStr {a i t w} : TextUnits t w → Does (.pushStr i t) a (a.put i (a.get i ++ w))
  | pushWtf8 {a i j} : Does (.pushWtf8 i j) a (a.put i (a.get i ++ a.get j))
  | extend {a i cs} : Does (.extend i cs) a (a.put i (a.get i ++ utf16All cs))
  | truncate {a i p q} : a.get i = p ++ q → Whole p q →
      Does (.truncate i (wtf8Length p)) a (a.put i p)
  | clear {a i} : Does (.clear i) a (a.put i [])
  | lower {a i} : Does (.lower i) a (a.put i ((a.get i).map lowerUnit))
  | upper {a i} : Does (.upper i) a (a.put i ((a.get i).map upperUnit))
  | cloneInto {a i j} : Does (.cloneInto i j) a (a.put j (a.get i))
  | codepoints {a i} : Does (.codepoints i) a a
  | encodeWide {a i} : Does (.encodeWide i) a a
  | asStr {a i cs} : CpsOf (a.get i) cs → (∀ c ∈ cs, ¬ IsSurrogate c) →
      Does (.asStr i) a (a.tell (a.get i))
  | asStrNone {a i cs c} : CpsOf (a.get i) cs → c ∈ cs → IsSurrogate c → Does (.asStr i) a a
  | lossy {a i cs} : CpsOf (a.get i) cs → Does (.lossy i) a (a.tell (utf16All (lossyCps cs)))
  | intoLossy {a i cs} : CpsOf (a.get i) cs → Does (.intoLossy i) a (a.tell (utf16All (lossyCps cs)))
  | display {a i cs} : CpsOf (a.get i) cs → Does (.display i) a (a.tell (utf16All (lossyCps cs)))

/-- The arguments satisfy what their Rust types guarantee: texts are UTF-8, a `Codepoint` is at most
`0x10FFFF`, a `char` is moreover not a surrogate. -/
def _root_.Verif.Wtf8.Call.Typed : Call → Prop
  | .fromStr t => WellFormedUtf8 t
  | .fromIter cs => ∀ c ∈ cs, IsCodePoint c
  | .push _ c => IsCodePoint c
  | .pushChar _ c => IsCodePoint c ∧ ¬ IsSurrogate c
  | .pushStr _ t => WellFormedUtf8 t
  | .extend _ cs => ∀ c ∈ cs, IsCodePoint c
  | _ => True

/-- Every `ED A0` … `ED AF` is followed by a continuation byte or ends the string. -/
def HighsComplete (bs : Bytes) : Prop :=
  ∀ p q : Bytes, ∀ b x : UInt8, bs = p ++ 0xED :: b :: x :: q →
    0xA0 ≤ b.toNat → b.toNat ≤ 0xAF → 0x80 ≤ x.toNat ∧ x.toNat ≤ 0xBF

/-- Typed, bytes given to `from_bytes` have no malformed high surrogate, and a pair given to
`decode_surrogate_pair` either is a surrogate pair or has a unit below the range of its surrogate. -/
def _root_.Verif.Wtf8.Call.Clean : Call → Prop
  | .pushPair _ l t => (LeadUnit l ∧ TrailUnit t) ∨ l.toNat < 0xD800 ∨ t.toNat < 0xDC00
  | .fromBytes bs => HighsComplete bs
  | c => c.Typed

end Verif.Spec
