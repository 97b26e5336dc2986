import Verif.Basic

/-!
# Model of the `wtf8` crate

`Wtf8Str` / `Wtf8String` are represented by their bytes. Every definition cites the lines of
`/repo/wtf8/src` it models.
-/

namespace Verif.Wtf8

/-! ## std_internal.rs -/

/-- wtf8/src/std_internal.rs:84-94 `len_utf8`. -/
def lenUtf8 (code : Nat) : Nat :=
  if code < 0x80 then 1 else if code < 0x800 then 2 else if code < 0x10000 then 3 else 4

/-- wtf8/src/std_internal.rs:17-46 `encode_utf8_raw`. The destination buffer has 4 bytes at every
call site (lib.rs:531), so the panicking arm is not reachable and left out. -/
def encodeUtf8Raw (code : Nat) : Bytes :=
  match lenUtf8 code with
  | 1 => [UInt8.ofNat code]
  | 2 => [UInt8.ofNat (code >>> 6 &&& 0x1F) ||| 0xC0, UInt8.ofNat (code &&& 0x3F) ||| 0x80]
  | 3 => [UInt8.ofNat (code >>> 12 &&& 0x0F) ||| 0xE0, UInt8.ofNat (code >>> 6 &&& 0x3F) ||| 0x80,
      UInt8.ofNat (code &&& 0x3F) ||| 0x80]
  | _ => [UInt8.ofNat (code >>> 18 &&& 0x07) ||| 0xF0, UInt8.ofNat (code >>> 12 &&& 0x3F) ||| 0x80,
      UInt8.ofNat (code >>> 6 &&& 0x3F) ||| 0x80, UInt8.ofNat (code &&& 0x3F) ||| 0x80]

/-- wtf8/src/std_internal.rs:59-81 `encode_utf16_raw` with a 2-unit buffer (lib.rs:1114). -/
def encodeUtf16Raw (code : Nat) : List UInt16 :=
  if code &&& 0xFFFF = code then [UInt16.ofNat code]
  else
    let code := code - 0x10000
    [(0xD800 : UInt16) ||| UInt16.ofNat (code >>> 10), (0xDC00 : UInt16) ||| (UInt16.ofNat code &&& 0x3FF)]

/-- wtf8/src/std_internal.rs:100-102 `utf8_first_byte`. -/
def utf8FirstByte (byte : UInt8) (width : UInt8) : Nat := (byte &&& (0x7F >>> width)).toNat

/-- wtf8/src/std_internal.rs:106-108 `utf8_acc_cont_byte` (`CONT_MASK` = 0x3F, line 154). -/
def utf8AccContByte (ch : Nat) (byte : UInt8) : Nat := (ch <<< 6) ||| (byte &&& 0x3F).toNat

/-- Outcome of taking one code point from a byte iterator. `oob` marks the undefined behaviour of
`unwrap_unchecked` on an exhausted iterator. -/
inductive Next where
  | done
  | cp (c : Nat) (rest : Bytes)
  | oob
  deriving DecidableEq, Repr

/-- wtf8/src/std_internal.rs:117-151 `next_code_point`. -/
def nextCodePoint : Bytes → Next
  | [] => .done
  | x :: t =>
    if x < 128 then .cp x.toNat t
    else
      let init := utf8FirstByte x 2
      match t with
      | [] => .oob
      | y :: t =>
        if x ≥ 0xE0 then
          match t with
          | [] => .oob
          | z :: t =>
            let y_z := utf8AccContByte (y &&& 0x3F).toNat z
            if x ≥ 0xF0 then
              match t with
              | [] => .oob
              | w :: t => .cp ((init &&& 7) <<< 18 ||| utf8AccContByte y_z w) t
            else .cp (init <<< 12 ||| y_z) t
        else .cp (utf8AccContByte init y) t

theorem nextCodePoint_length {bs : Bytes} {c : Nat} {rest : Bytes}
    (h : nextCodePoint bs = .cp c rest) : rest.length < bs.length := by
  unfold nextCodePoint at h
  repeat' split at h
  all_goals simp_all
  all_goals grind

/-- wtf8/src/lib.rs:1075-1092 `Wtf8CodePoints`: all items of the iterator; `none` when some call
to `next` runs into undefined behaviour. -/
def codepoints (bs : Bytes) : Option (List Nat) :=
  match h : nextCodePoint bs with
  | .done => some []
  | .oob => none
  | .cp c rest => (codepoints rest).map (c :: ·)
termination_by bs.length
decreasing_by exact nextCodePoint_length h

/-! ## lib.rs: validation -/

/-- wtf8/src/lib.rs:1147-1150 `Wtf8Error` (`NonZeroU8` as `Nat`). -/
structure Wtf8Error where
  validUpTo : Nat
  errorLen : Option Nat
  deriving DecidableEq, Repr

/-- `0x80..=0xBF`, lib.rs:1218 `tail`. -/
def isTail (b : UInt8) : Bool := 0x80 ≤ b && b ≤ 0xBF

/-- wtf8/src/lib.rs:1215-1317 `validate_wtf8`: the loop from position `index` on, with the flag
`is_high_surrogate`. Each `next!()` is a match on the remaining input; short-circuit of `||` is
kept: in lines 1251 and 1256 the second `next!()` is only taken when the first test passes. -/
def validateFrom (index : Nat) (high : Bool) : Bytes → Except Wtf8Error Unit
  | [] => .ok ()
  | b :: t =>
    if b ≤ 0x7F then validateFrom (index + 1) false t
    else if 0xC2 ≤ b ∧ b ≤ 0xDF then
      match t with
      | [] => .error ⟨index, none⟩
      | n :: t => if isTail n then validateFrom (index + 2) false t else .error ⟨index, some 2⟩
    else if b = 0xE0 then
      match t with
      | [] => .error ⟨index, none⟩
      | n :: t =>
        if 0xA0 ≤ n ∧ n ≤ 0xBF then
          match t with
          | [] => .error ⟨index, none⟩
          | n1 :: t => if isTail n1 then validateFrom (index + 3) false t else .error ⟨index, some 3⟩
        else .error ⟨index, some 3⟩
    else if (0xE1 ≤ b ∧ b ≤ 0xEC) ∨ (0xEE ≤ b ∧ b ≤ 0xEF) then
      match t with
      | [] => .error ⟨index, none⟩
      | n :: t =>
        if isTail n then
          match t with
          | [] => .error ⟨index, none⟩
          | n1 :: t => if isTail n1 then validateFrom (index + 3) false t else .error ⟨index, some 3⟩
        else .error ⟨index, some 3⟩
    else if b = 0xED then
      match t with
      | [] => .error ⟨index, none⟩
      | n :: t =>
        if 0x80 ≤ n ∧ n ≤ 0x9F then
          match t with
          | [] => .error ⟨index, none⟩
          | n1 :: t => if isTail n1 then validateFrom (index + 3) false t else .error ⟨index, some 3⟩
        else if 0xA0 ≤ n ∧ n ≤ 0xAF then
          -- lib.rs:1265-1269: the third byte is taken but not looked at
          match t with
          | [] => .error ⟨index, none⟩
          | _ :: t => validateFrom (index + 3) true t
        else if 0xB0 ≤ n ∧ n ≤ 0xBF then
          if high then .error ⟨index - 3, some 6⟩
          else
            match t with
            | [] => .error ⟨index, none⟩
            | n1 :: t => if isTail n1 then validateFrom (index + 3) false t else .error ⟨index, some 3⟩
        else .error ⟨index, some 3⟩
    else if b = 0xF0 then
      match t with
      | n :: n1 :: n2 :: t =>
        if (0x90 ≤ n ∧ n ≤ 0xBF) ∧ isTail n1 ∧ isTail n2 then validateFrom (index + 4) false t
        else .error ⟨index, some 4⟩
      | _ => .error ⟨index, none⟩
    else if 0xF1 ≤ b ∧ b ≤ 0xF3 then
      match t with
      | n :: n1 :: n2 :: t =>
        if isTail n ∧ isTail n1 ∧ isTail n2 then validateFrom (index + 4) false t
        else .error ⟨index, some 4⟩
      | _ => .error ⟨index, none⟩
    else if b = 0xF4 then
      match t with
      | n :: n1 :: n2 :: t =>
        if (0x80 ≤ n ∧ n ≤ 0x8F) ∧ isTail n1 ∧ isTail n2 then validateFrom (index + 4) false t
        else .error ⟨index, some 4⟩
      | _ => .error ⟨index, none⟩
    else .error ⟨index, some 1⟩

/-- wtf8/src/lib.rs:1215 `validate_wtf8`. -/
def validate (bs : Bytes) : Except Wtf8Error Unit := validateFrom 0 false bs

/-- wtf8/src/lib.rs:233-237 and 480-484 `from_bytes`. -/
def fromBytes (bs : Bytes) : Except Wtf8Error Bytes := do
  validate bs
  return bs

/-! ## lib.rs: UTF-16 -/

/-- `char::decode_utf16` of the standard library: the items are `Ok(scalar)` (here `inl`) or
`Err(unpaired surrogate)` (here `inr`). -/
def decodeUtf16 : List UInt16 → List (Nat ⊕ Nat)
  | [] => []
  | u :: t =>
    if u.toNat < 0xD800 ∨ 0xDFFF < u.toNat then .inl u.toNat :: decodeUtf16 t
    else if u.toNat ≥ 0xDC00 then .inr u.toNat :: decodeUtf16 t
    else
      match t with
      | [] => [.inr u.toNat]
      | u2 :: t' =>
        if u2.toNat < 0xDC00 ∨ u2.toNat > 0xDFFF then .inr u.toNat :: decodeUtf16 (u2 :: t')
        else .inl (((u.toNat &&& 0x3FF) <<< 10 ||| (u2.toNat &&& 0x3FF)) + 0x10000) :: decodeUtf16 t'
termination_by l => l.length

/-- wtf8/src/lib.rs:530-534 `push_code_point_unchecked` and 654-657 `push_char`. -/
def pushUnchecked (s : Bytes) (c : Nat) : Bytes := s ++ encodeUtf8Raw c

/-- wtf8/src/lib.rs:509-519: the body of the loop in `from_wide`. -/
def pushItem (s : Bytes) : Nat ⊕ Nat → Bytes
  | .inl ch => pushUnchecked s ch
  | .inr su => pushUnchecked s su

/-- wtf8/src/lib.rs:506-522 `from_wide`. -/
def fromWide (v : List UInt16) : Bytes := (decodeUtf16 v).foldl pushItem []

/-- wtf8/src/lib.rs:1108-1127 `EncodeWide::next`: state is the remaining bytes and `extra`. -/
inductive NextWide where
  | done
  | item (u : UInt16) (rest : Bytes) (extra : UInt16)
  | oob

def nextWide (bs : Bytes) (extra : UInt16) : NextWide :=
  if extra ≠ 0 then .item extra bs 0
  else match nextCodePoint bs with
    | .done => .done
    | .oob => .oob
    | .cp c rest =>
      match encodeUtf16Raw c with
      | [a, b] => .item a rest b
      | [a] => .item a rest 0
      | _ => .oob -- not possible: one or two units

/-- wtf8/src/lib.rs:308-313, 1104-1127: all items of `encode_wide()`. -/
def encodeWideFrom (bs : Bytes) (extra : UInt16) : Option (List UInt16) :=
  match h : nextWide bs extra with
  | .done => some []
  | .oob => none
  | .item u rest e => (encodeWideFrom rest e).map (u :: ·)
termination_by (bs.length, if extra ≠ 0 then 1 else 0)
decreasing_by
  unfold nextWide at h
  by_cases he : extra ≠ 0
  · rw [if_pos he] at h
    simp only [NextWide.item.injEq] at h
    obtain ⟨_, rfl, rfl⟩ := h
    simp [he, Prod.lex_def]
  · rw [if_neg he] at h
    cases hn : nextCodePoint bs with
    | done => simp [hn] at h
    | oob => simp [hn] at h
    | cp c r =>
      have := nextCodePoint_length hn
      simp only [hn] at h
      have : rest = r := by
        split at h <;> simp_all
      subst this
      simp [Prod.lex_def]; omega

def encodeWide (bs : Bytes) : Option (List UInt16) := encodeWideFrom bs 0

/-! ## lib.rs: surrogates and concatenation -/

/-- wtf8/src/lib.rs:1028-1031 `decode_surrogate`. -/
def decodeSurrogate (b2 b3 : UInt8) : UInt16 :=
  (0xD800 : UInt16) ||| (b2.toUInt16 &&& 0x3F) <<< 6 ||| (b3.toUInt16 &&& 0x3F)

/-- wtf8/src/lib.rs:1034-1037 `decode_surrogate_pair` (the subtractions do not underflow at the
call sites, where `lead` and `trail` come from `decode_surrogate` or the 0xDC00 pattern). -/
def decodeSurrogatePair (lead trail : UInt16) : Nat :=
  0x10000 + ((lead - 0xD800).toNat <<< 10 ||| (trail - 0xDC00).toNat)

/-- wtf8/src/lib.rs:346-351 `final_lead_surrogate`: a slice pattern on the last three bytes. -/
def finalLeadSurrogate (bs : Bytes) : Option UInt16 :=
  match bs.reverse with
  | b3 :: b2 :: 0xED :: _ => if 0xA0 ≤ b2 ∧ b2 ≤ 0xAF then some (decodeSurrogate b2 b3) else none
  | _ => none

/-- wtf8/src/lib.rs:354-359 `initial_trail_surrogate`. -/
def initialTrailSurrogate (bs : Bytes) : Option UInt16 :=
  match bs with
  | 0xED :: b2 :: b3 :: _ => if 0xB0 ≤ b2 ∧ b2 ≤ 0xBF then some (decodeSurrogate b2 b3) else none
  | _ => none

/-- wtf8/src/lib.rs:633-650 `push_wtf8`. -/
def pushWtf8 (s other : Bytes) : Bytes :=
  match finalLeadSurrogate s, initialTrailSurrogate other with
  | some lead, some trail =>
    pushUnchecked (s.take (s.length - 3)) (decodeSurrogatePair lead trail) ++ other.drop 3
  | _, _ => s ++ other

/-- wtf8/src/lib.rs:665-677 `push`. -/
def push (s : Bytes) (c : Nat) : Bytes :=
  if 0xDC00 ≤ c ∧ c ≤ 0xDFFF then
    match finalLeadSurrogate s with
    | some lead => pushUnchecked (s.take (s.length - 3)) (decodeSurrogatePair lead (UInt16.ofNat c))
    | none => pushUnchecked s c
  else pushUnchecked s c

/-! ## lib.rs: slicing -/

/-- wtf8/src/lib.rs:1041-1049 `is_code_point_boundary`. -/
def isCodePointBoundary (s : Bytes) (index : Nat) : Bool :=
  if index = s.length then true
  else match s[index]? with
    | none => false
    | some b => !(128 ≤ b && b < 192)

/-- wtf8/src/lib.rs:961-976 `Index<Range<usize>>`; the failing case is a panic. -/
def slice (s : Bytes) (begin end_ : Nat) : Res Bytes :=
  if begin ≤ end_ ∧ isCodePointBoundary s begin ∧ isCodePointBoundary s end_ then
    .ok ((s.drop begin).take (end_ - begin))
  else .error .panic

/-- wtf8/src/lib.rs:984-996 `Index<RangeFrom<usize>>`. -/
def sliceFrom (s : Bytes) (begin : Nat) : Res Bytes :=
  if isCodePointBoundary s begin then .ok (s.drop begin) else .error .panic

/-- wtf8/src/lib.rs:1004-1016 `Index<RangeTo<usize>>`. -/
def sliceTo (s : Bytes) (end_ : Nat) : Res Bytes :=
  if isCodePointBoundary s end_ then .ok (s.take end_) else .error .panic

/-- wtf8/src/lib.rs:686-689 `truncate`. -/
def truncate (s : Bytes) (newLen : Nat) : Res Bytes :=
  if isCodePointBoundary s newLen then .ok (s.take newLen) else .error .panic

/-! ## lib.rs: UTF-8 views -/

/-- wtf8/src/lib.rs:316-343 `next_surrogate`: scanning `bs`, which starts at position `pos` of
the string. `iter.next()` on an exhausted iterator yields `None` and is ignored by the code, hence
`drop`. The decoded surrogate value is not used by any caller modelled here and left out. -/
def nextSurrogateFrom (pos : Nat) (bs : Bytes) : Option Nat :=
  match bs with
  | [] => none
  | b :: t =>
    if b < 0x80 then nextSurrogateFrom (pos + 1) t
    else if b < 0xE0 then nextSurrogateFrom (pos + 2) (t.drop 1)
    else if b = 0xED then
      match t[0]?, t[1]? with
      | some b2, some _ => if b2 ≥ 0xA0 then some pos else nextSurrogateFrom (pos + 3) (t.drop 2)
      | _, _ => nextSurrogateFrom (pos + 3) (t.drop 2)
    else if b < 0xF0 then nextSurrogateFrom (pos + 3) (t.drop 2)
    else nextSurrogateFrom (pos + 4) (t.drop 3)
termination_by bs.length
decreasing_by all_goals simp_all <;> omega

def nextSurrogate (s : Bytes) (pos : Nat) : Option Nat := nextSurrogateFrom pos (s.drop pos)

/-- wtf8/src/lib.rs:292-300 `as_str` and 698-704 `into_string`: `some` is the UTF-8 text. -/
def asStr (s : Bytes) : Option Bytes :=
  match nextSurrogate s 0 with
  | none => some s
  | some _ => none

/-- `"\u{FFFD}"` in UTF-8, lib.rs `UTF8_REPLACEMENT_CHARACTER`. -/
def replacement : Bytes := [0xEF, 0xBF, 0xBD]

theorem nextSurrogateFrom_ge (pos : Nat) (bs : Bytes) (p : Nat)
    (h : nextSurrogateFrom pos bs = some p) : pos ≤ p ∧ p + 3 ≤ pos + bs.length := by
  induction hn : bs.length using Nat.strongRecOn generalizing pos bs with
  | ind n ih =>
    unfold nextSurrogateFrom at h
    cases bs with
    | nil => simp at h
    | cons b t =>
      simp only at h
      have key : ∀ k (t' : Bytes), t'.length < n → k + t'.length ≤ n ∨ t'.length = 0 →
          nextSurrogateFrom (pos + k) t' = some p → pos ≤ p ∧ p + 3 ≤ pos + n := by
        intro k t' hlt hk hs
        have := ih _ hlt _ _ hs rfl
        rcases hk with hk | hk
        · omega
        · have : t' = [] := List.length_eq_zero_iff.mp hk
          subst this
          unfold nextSurrogateFrom at hs
          simp at hs
      simp only [List.length_cons] at hn
      repeat' split at h
      · exact key 1 t (by omega) (by omega) h
      · exact key 2 _ (by simp; omega) (by simp; omega) h
      · rename_i h1 _
        have : 1 < t.length := (List.getElem?_eq_some_iff.mp h1).1
        simp at h; omega
      · exact key 3 _ (by simp; omega) (by simp; omega) h
      · exact key 3 _ (by simp; omega) (by simp; omega) h
      · exact key 3 _ (by simp; omega) (by simp; omega) h
      · exact key 4 _ (by simp; omega) (by simp; omega) h

/-- wtf8/src/lib.rs:778-801 `to_string_lossy`, the loop from byte position `pos` (the initial
part of the function is the first turn of the same loop). -/
def toStringLossyFrom (s : Bytes) (pos : Nat) : Bytes :=
  match h : nextSurrogate s pos with
  | some p => (s.drop pos).take (p - pos) ++ replacement ++ toStringLossyFrom s (p + 3)
  | none => s.drop pos
termination_by s.length - pos
decreasing_by
  have := nextSurrogateFrom_ge pos (s.drop pos) p h
  simp at this
  omega

def toStringLossy (s : Bytes) : Bytes := toStringLossyFrom s 0

/-- wtf8/src/lib.rs:711-724 `into_string_lossy`: surrogates are overwritten in place. -/
def intoStringLossyFrom (s : Bytes) (pos : Nat) : Bytes :=
  match h : nextSurrogate s pos with
  | some p => intoStringLossyFrom (s.take p ++ replacement ++ s.drop (p + 3)) (p + 3)
  | none => s
termination_by s.length - pos
decreasing_by
  have := nextSurrogateFrom_ge pos (s.drop pos) p h
  simp [replacement] at this ⊢
  omega

def intoStringLossy (s : Bytes) : Bytes := intoStringLossyFrom s 0

end Verif.Wtf8
