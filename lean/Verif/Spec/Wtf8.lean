import Verif.Basic

/-!
# Specification of WTF-8 and potentially ill-formed UTF-16

Independent of the model: plain positional arithmetic on code points.
Reference: the WTF-8 specification (Simon Sapin), sections 3 and 4.
-/

namespace Verif.Spec

/-- Code points are `0 ..= 0x10FFFF`, surrogates included. -/
def IsCodePoint (c : Nat) : Prop := c ≤ 0x10FFFF

/-- High (lead) surrogates. -/
def IsLead (c : Nat) : Prop := 0xD800 ≤ c ∧ c ≤ 0xDBFF

/-- Low (trail) surrogates. -/
def IsTrail (c : Nat) : Prop := 0xDC00 ≤ c ∧ c ≤ 0xDFFF

/-- Any surrogate. -/
def IsSurrogate (c : Nat) : Prop := 0xD800 ≤ c ∧ c ≤ 0xDFFF

instance (c : Nat) : Decidable (IsCodePoint c) := inferInstanceAs (Decidable (_ ≤ _))
instance (c : Nat) : Decidable (IsLead c) := inferInstanceAs (Decidable (_ ∧ _))
instance (c : Nat) : Decidable (IsTrail c) := inferInstanceAs (Decidable (_ ∧ _))
instance (c : Nat) : Decidable (IsSurrogate c) := inferInstanceAs (Decidable (_ ∧ _))

/-- No lead surrogate is immediately followed by a trail surrogate. -/
def NoPair : List Nat → Prop
  | [] => True
  | [_] => True
  | a :: b :: t => ¬ (IsLead a ∧ IsTrail b) ∧ NoPair (b :: t)

/-- A code point sequence that has a WTF-8 form. -/
def ValidCps (cs : List Nat) : Prop := (∀ c ∈ cs, IsCodePoint c) ∧ NoPair cs

/-- Generalized UTF-8 encoding of one code point. -/
def gutf8 (c : Nat) : Bytes :=
  if c < 0x80 then [UInt8.ofNat c]
  else if c < 0x800 then [UInt8.ofNat (0xC0 + c / 64), UInt8.ofNat (0x80 + c % 64)]
  else if c < 0x10000 then
    [UInt8.ofNat (0xE0 + c / 4096), UInt8.ofNat (0x80 + c / 64 % 64), UInt8.ofNat (0x80 + c % 64)]
  else
    [UInt8.ofNat (0xF0 + c / 262144), UInt8.ofNat (0x80 + c / 4096 % 64),
      UInt8.ofNat (0x80 + c / 64 % 64), UInt8.ofNat (0x80 + c % 64)]

/-- Generalized UTF-8 encoding of a code point sequence. -/
def encodeCps (cs : List Nat) : Bytes := cs.flatMap gutf8

/-- Well-formed WTF-8 (WTF-8 spec, section 4.1): the encoding of a sequence of code points without
an adjacent surrogate pair. -/
def WellFormed (bs : Bytes) : Prop := ∃ cs, ValidCps cs ∧ encodeCps cs = bs

/-- UTF-16 units of one code point; a surrogate code point is one (unpaired) unit. -/
def utf16 (c : Nat) : List UInt16 :=
  if c < 0x10000 then [UInt16.ofNat c]
  else [UInt16.ofNat (0xD800 + (c - 0x10000) / 1024), UInt16.ofNat (0xDC00 + (c - 0x10000) % 1024)]

/-- Potentially ill-formed UTF-16 of a code point sequence. -/
def utf16All (cs : List Nat) : List UInt16 := cs.flatMap utf16

/-- Well-formed UTF-8: the encoding of a sequence of scalar values. -/
def WellFormedUtf8 (bs : Bytes) : Prop :=
  ∃ cs, (∀ c ∈ cs, IsCodePoint c ∧ ¬ IsSurrogate c) ∧ encodeCps cs = bs

/-- One unit of the language that the pinned validator accepts: a proper generalized UTF-8 sequence,
or a lead surrogate whose third byte is arbitrary (only its low six bits count). -/
def LooseUnit (c : Nat) (u : Bytes) : Prop :=
  IsCodePoint c ∧
    (u = gutf8 c ∨
      (IsLead c ∧ ∃ x : UInt8, x.toNat % 64 = c % 64 ∧ u = [0xED, UInt8.ofNat (0x80 + c / 64 % 64), x]))

/-- Concatenations of loose units. -/
inductive LooseEnc : List Nat → Bytes → Prop
  | nil : LooseEnc [] []
  | cons {c : Nat} {u : Bytes} {cs : List Nat} {bs : Bytes} :
      LooseUnit c u → LooseEnc cs bs → LooseEnc (c :: cs) (u ++ bs)

end Verif.Spec
