import Verif.Lemmas.Wtf8Slice
import Verif.Lemmas.Wtf8Error
import Verif.Spec.Mutf8

/-!
# Properties of WTF-8 strings (C01 – C07, C48)

Statements use `Verif.Spec` (code points, generalized UTF-8, UTF-16) and the API functions of
`Verif.Model.Wtf8`.
-/

namespace Verif.Props
open Verif.Spec Verif.Wtf8

/-- "aé€😀" followed by an unpaired high and a low surrogate separated by 'b'. -/
def sampleCps : List Nat := [0x61, 0xE9, 0x20AC, 0x1F600, 0xD801, 0x62, 0xDC37]

theorem sampleCps_valid : ValidCps sampleCps := by
  constructor
  · simp [sampleCps, IsCodePoint]
  · simp [sampleCps, NoPair, IsLead, IsTrail]

/-! ## C01 -/

/-- `from_bytes` accepts every well-formed WTF-8 byte string and keeps its bytes. -/
theorem C01_fromBytes_accepts (bs : Bytes) (h : WellFormed bs) : fromBytes bs = .ok bs := by
  obtain ⟨cs, hv, rfl⟩ := h
  have := validateFrom_loose (LooseEnc_of_encode cs hv.1) 0 false hv.2 (by simp)
  simp [fromBytes, validate, this]; rfl

example : WellFormed (encodeCps sampleCps) := ⟨_, sampleCps_valid, rfl⟩
example : encodeCps sampleCps =
    [0x61, 0xC3, 0xA9, 0xE2, 0x82, 0xAC, 0xF0, 0x9F, 0x98, 0x80, 0xED, 0xA0, 0x81, 0x62,
      0xED, 0xB0, 0xB7] := by decide

/-! ## C02 -/

/-- Full statement: only well-formed WTF-8 is accepted. -/
def C02_full : Prop := ∀ bs r, fromBytes bs = .ok r → WellFormed r

theorem encodeCps_injective (cs ds : List Nat) (h1 : ∀ c ∈ cs, IsCodePoint c)
    (h2 : ∀ c ∈ ds, IsCodePoint c) (h : encodeCps cs = encodeCps ds) : cs = ds := by
  have := codepoints_loose (LooseEnc_of_encode cs h1)
  rw [h, codepoints_loose (LooseEnc_of_encode ds h2)] at this
  simpa using this.symm

/-- The pinned code violates C02: `ED A0 41` is accepted although it is not WTF-8. -/
theorem C02_violated : ¬ C02_full := by
  intro h
  obtain ⟨cs, hv, he⟩ := h [0xED, 0xA0, 0x41] [0xED, 0xA0, 0x41] (by decide)
  have hc := codepoints_loose (LooseEnc_of_encode cs hv.1)
  have h2 : LooseEnc [0xD801] [0xED, 0xA0, 0x41] := by
    have := LooseEnc.cons (c := 0xD801) (u := [0xED, 0xA0, 0x41])
      ⟨by decide, .inr ⟨by decide, 0x41, by decide, by decide⟩⟩ LooseEnc.nil
    simpa using this
  rw [he, codepoints_loose h2] at hc
  have hc : cs = [0xD801] := by simpa using hc.symm
  subst hc
  revert he
  decide

/-- What is proved instead: acceptance is decided by a grammar that differs from WTF-8 only in the
third byte of a high surrogate. The missing part of C02 is exactly that byte. -/
theorem C02_fromBytes_partial (bs : Bytes) :
    fromBytes bs = .ok bs ↔ ∃ cs, LooseEnc cs bs ∧ NoPair cs := by
  have e : fromBytes bs = .ok bs ↔ validateFrom 0 false bs = .ok () := by
    unfold fromBytes validate
    cases validateFrom 0 false bs with
    | ok u => simp [bind, Except.bind, pure, Except.pure]
    | error e => simp [bind, Except.bind]
  rw [e]
  constructor
  · intro h
    obtain ⟨cs, h1, h2, _⟩ := validateFrom_ok 0 false bs h
    exact ⟨cs, h1, h2⟩
  · rintro ⟨cs, h1, h2⟩
    exact validateFrom_loose h1 0 false h2 (by simp)

theorem fromBytes_eq (bs r : Bytes) (h : fromBytes bs = .ok r) : r = bs := by
  unfold fromBytes at h
  cases hv : validate bs with
  | ok u => rw [hv] at h; simp [bind, Except.bind, pure, Except.pure] at h; exact h.symm
  | error e => rw [hv] at h; simp [bind, Except.bind] at h

/-- On byte strings without a high surrogate (no `ED` followed by `A0..=AF`), acceptance coincides
with well-formedness. -/
theorem C02_noHigh_partial (bs r : Bytes) (hno : ∀ p q : Bytes, ∀ b : UInt8,
    bs = p ++ 0xED :: b :: q → ¬ (0xA0 ≤ b.toNat ∧ b.toNat ≤ 0xAF)) (h : fromBytes bs = .ok r) :
    WellFormed r := by
  obtain rfl := fromBytes_eq bs r h
  obtain ⟨cs, h1, h2⟩ := (C02_fromBytes_partial r).mp h
  refine ⟨cs, ⟨LooseEnc_isCodePoint h1, h2⟩, ?_⟩
  clear h h2
  induction h1 with
  | nil => rfl
  | @cons c u cs bs hu _ ih =>
    rw [encodeCps_cons]
    have ih := ih (fun p q b e => hno (u ++ p) q b (by rw [e, List.append_assoc]))
    rw [ih]
    obtain ⟨hc, rfl | ⟨hl, x, hx, rfl⟩⟩ := hu
    · rfl
    · exfalso
      have := hno [] (x :: bs) _ rfl
      unfold IsLead at hl
      rw [Verif.Bits.u8_ofNat_toNat] at this
      omega

example : fromBytes [0xC3, 0xA9, 0xED, 0xB0, 0x80] = .ok [0xC3, 0xA9, 0xED, 0xB0, 0x80] := by decide
example : fromBytes [0xED, 0xA0, 0x80, 0xED, 0xB0, 0x80] = .error ⟨0, some 6⟩ := by decide
example : fromBytes [0xC0, 0x80] = .error ⟨0, some 1⟩ := by decide

/-! ## C03 -/

/-- `codepoints()` yields exactly the encoded code points. -/
theorem C03_codepoints_exact (cs : List Nat) (h : ∀ c ∈ cs, IsCodePoint c) :
    codepoints (encodeCps cs) = some cs :=
  codepoints_loose (LooseEnc_of_encode cs h)

/-- On every accepted byte string the iterator never runs past the end (`none` is the undefined
behaviour of `unwrap_unchecked`), and every produced value is a code point. -/
theorem C03_codepoints_safe (bs r : Bytes) (h : fromBytes bs = .ok r) :
    ∃ cs, codepoints r = some cs ∧ ∀ c ∈ cs, IsCodePoint c := by
  obtain rfl := fromBytes_eq bs r h
  obtain ⟨cs, h1, _⟩ := (C02_fromBytes_partial r).mp h
  exact ⟨cs, codepoints_loose h1, LooseEnc_isCodePoint h1⟩

example : codepoints (encodeCps sampleCps) = some sampleCps :=
  C03_codepoints_exact _ sampleCps_valid.1
/-- Without validation the iterator can run past the end, so the hypothesis is needed. -/
example : codepoints [0xE2, 0x82] = none := by
  unfold codepoints
  have : nextCodePoint [0xE2, 0x82] = .oob := by decide
  split <;> simp_all

/-! ## C04 -/

theorem C04_fromWide_wellFormed (v : List UInt16) : WellFormed (fromWide v) := by
  have h := decodeCps_spec v
  exact ⟨decodeCps v, h.1, (fromWide_eq v h.1.1).symm⟩

theorem C04_fromWide_encodeWide (v : List UInt16) : encodeWide (fromWide v) = some v := by
  have h := decodeCps_spec v
  rw [fromWide_eq v h.1.1, encodeWide_loose (LooseEnc_of_encode _ h.1.1), h.2.1]

theorem C04_encodeWide_exact (cs : List Nat) (h : ∀ c ∈ cs, IsCodePoint c) :
    encodeWide (encodeCps cs) = some (utf16All cs) :=
  encodeWide_loose (LooseEnc_of_encode cs h)

theorem C04_encodeWide_fromWide (s : Bytes) (h : WellFormed s) :
    ∃ v, encodeWide s = some v ∧ fromWide v = s := by
  obtain ⟨cs, hv, rfl⟩ := h
  refine ⟨utf16All cs, C04_encodeWide_exact cs hv.1, ?_⟩
  have e := decodeCps_utf16All cs hv
  rw [fromWide_eq _ (by rw [e]; exact hv.1), e]

example : fromWide [0xD83D, 0xDE00, 0xDE00, 0xD83D] =
    [0xF0, 0x9F, 0x98, 0x80, 0xED, 0xB8, 0x80, 0xED, 0xA0, 0xBD] := by decide +kernel

/-! ## C05 -/

/-- Construction steps of a `Wtf8String`. `push_char` is `push` restricted to scalar values. -/
inductive BuildOp where
  | push (c : Nat)
  | pushWtf8 (s : Bytes)

def BuildOp.Ok : BuildOp → Prop
  | .push c => IsCodePoint c
  | .pushWtf8 s => WellFormed s

def BuildOp.run (s : Bytes) : BuildOp → Bytes
  | .push c => Wtf8.push s c
  | .pushWtf8 t => Wtf8.pushWtf8 s t

/-- UTF-16 units an operation appends. -/
inductive BuildOp.Units : BuildOp → List UInt16 → Prop
  | push {c} : BuildOp.Units (.push c) (utf16 c)
  | pushWtf8 {cs} : ValidCps cs → BuildOp.Units (.pushWtf8 (encodeCps cs)) (utf16All cs)

theorem C05_pushWtf8 (s t : Bytes) (v w : List UInt16) (h1 : HasUtf16 s v) (h2 : HasUtf16 t w) :
    HasUtf16 (pushWtf8 s t) (v ++ w) := by
  obtain ⟨cs, hc, rfl, rfl⟩ := h1
  obtain ⟨ds, hd, rfl, rfl⟩ := h2
  obtain ⟨es, he, e1, e2⟩ := pushWtf8_spec cs ds hc hd
  exact ⟨es, he, e1.symm, e2⟩

theorem C05_push (s : Bytes) (c : Nat) (v : List UInt16) (h1 : HasUtf16 s v) (h2 : IsCodePoint c) :
    HasUtf16 (push s c) (v ++ utf16 c) := by
  have hc : HasUtf16 (encodeCps [c]) (utf16 c) :=
    ⟨[c], ⟨by simpa using h2, trivial⟩, rfl, by simp [utf16All]⟩
  have h := C05_pushWtf8 s _ v _ h1 hc
  obtain ⟨cs, hcs, rfl, rfl⟩ := h1
  rwa [push_spec cs c hcs h2]

/-- After any history of pushes, starting from the empty string, the string is well-formed and its
UTF-16 form is the concatenation of everything pushed. -/
theorem C05_history (ops : List (BuildOp × List UInt16)) (hok : ∀ o ∈ ops, o.1.Ok)
    (hu : ∀ o ∈ ops, o.1.Units o.2) :
    HasUtf16 ((ops.map (·.1)).foldl BuildOp.run []) (ops.map (·.2)).flatten := by
  suffices ∀ s v, HasUtf16 s v →
      HasUtf16 ((ops.map (·.1)).foldl BuildOp.run s) (v ++ (ops.map (·.2)).flatten) by
    simpa using this [] [] ⟨[], ⟨by simp, trivial⟩, rfl, rfl⟩
  induction ops with
  | nil => intro s v h; simpa using h
  | cons o ops ih =>
    intro s v h
    have ih := ih (fun x hx => hok x (by simp [hx])) (fun x hx => hu x (by simp [hx]))
    have h1 := hok o (by simp)
    have h2 := hu o (by simp)
    obtain ⟨op, us⟩ := o
    simp only [List.map_cons, List.foldl_cons, List.flatten_cons]
    rw [← List.append_assoc]
    apply ih
    cases h2 with
    | push => exact C05_push s _ v h h1
    | pushWtf8 hv => exact C05_pushWtf8 s _ v _ h ⟨_, hv, rfl, rfl⟩

/-- The merge of a split pair. -/
example : push (encodeCps [0x61, 0xD83D]) 0xDE00 = encodeCps [0x61, 0x1F600] := by decide
example : pushWtf8 (encodeCps [0xD83D]) (encodeCps [0xDE00, 0x62]) = encodeCps [0x1F600, 0x62] := by
  decide

/-! ## C06 -/

/-- `i` is the byte offset in front of the `k`-th code point. -/
def OffsetOf (cs : List Nat) (k i : Nat) : Prop :=
  k ≤ cs.length ∧ i = (encodeCps (cs.take k)).length

/-- `s[begin..end]` on a well-formed string succeeds exactly when both indices are code point
offsets in order; the result is the encoding of the code points in between. -/
theorem C06_slice (cs : List Nat) (h : ValidCps cs) (b e : Nat) (r : Bytes) :
    slice (encodeCps cs) b e = .ok r ↔
      ∃ i j, i ≤ j ∧ OffsetOf cs i b ∧ OffsetOf cs j e ∧ r = encodeCps ((cs.take j).drop i) := by
  unfold slice OffsetOf
  constructor
  · intro hs
    split at hs
    · rename_i hc
      obtain ⟨h1, h2, h3⟩ := hc
      obtain ⟨i, hi, rfl⟩ := (boundary_encode cs h.1 b).mp h2
      obtain ⟨j, hj, rfl⟩ := (boundary_encode cs h.1 e).mp h3
      have hij : i ≤ j := by
        apply Nat.le_of_not_lt
        intro hn
        have := length_take_mono cs j i (by omega) hi (by omega)
        omega
      refine ⟨i, j, hij, ⟨hi, rfl⟩, ⟨hj, rfl⟩, ?_⟩
      rw [encode_take_drop cs i j hij] at hs
      simpa using hs.symm
    · simp at hs
  · rintro ⟨i, j, hij, ⟨hi, rfl⟩, ⟨hj, rfl⟩, rfl⟩
    have hle : (encodeCps (cs.take i)).length ≤ (encodeCps (cs.take j)).length := by
      rcases Nat.eq_or_lt_of_le hij with rfl | hlt
      · exact Nat.le_refl _
      · exact Nat.le_of_lt (length_take_mono cs i j hij hj hlt)
    rw [if_pos ⟨hle, (boundary_encode cs h.1 _).mpr ⟨i, hi, rfl⟩,
      (boundary_encode cs h.1 _).mpr ⟨j, hj, rfl⟩⟩, encode_take_drop cs i j hij]

/-- Every successful slice of a well-formed string is well-formed. -/
theorem C06_slice_wellFormed (s r : Bytes) (h : WellFormed s) (b e : Nat)
    (hs : slice s b e = .ok r) : WellFormed r := by
  obtain ⟨cs, hv, rfl⟩ := h
  obtain ⟨i, j, _, _, _, rfl⟩ := (C06_slice cs hv b e r).mp hs
  exact ⟨_, ValidCps_drop (ValidCps_take hv j) i, rfl⟩

/-- `truncate` and `s[..end]`. -/
theorem C06_truncate (cs : List Nat) (h : ValidCps cs) (e : Nat) (r : Bytes) :
    (truncate (encodeCps cs) e = .ok r ↔ ∃ j, OffsetOf cs j e ∧ r = encodeCps (cs.take j)) ∧
    (sliceTo (encodeCps cs) e = .ok r ↔ ∃ j, OffsetOf cs j e ∧ r = encodeCps (cs.take j)) := by
  have key : (if isCodePointBoundary (encodeCps cs) e then
      Except.ok (ε := Err) ((encodeCps cs).take e) else .error .panic) = .ok r ↔
      ∃ j, OffsetOf cs j e ∧ r = encodeCps (cs.take j) := by
    have hb := boundary_encode cs h.1 e
    have ht : ∀ j, (encodeCps cs).take (encodeCps (cs.take j)).length = encodeCps (cs.take j) := by
      intro j
      have := encode_take_drop cs 0 j (Nat.zero_le _)
      simpa [encodeCps] using this
    by_cases hc : isCodePointBoundary (encodeCps cs) e = true
    · rw [if_pos hc]
      obtain ⟨j, hj, rfl⟩ := hb.mp hc
      constructor
      · intro hr
        refine ⟨j, ⟨hj, rfl⟩, ?_⟩
        rw [ht j] at hr; simpa using hr.symm
      · rintro ⟨j', ⟨_, he⟩, rfl⟩
        rw [he, ht j']
    · rw [if_neg hc]
      simp only [reduceCtorEq, false_iff]
      rintro ⟨j, hj, _⟩
      exact hc (hb.mpr ⟨j, hj⟩)
  exact ⟨key, key⟩

/-- `s[begin..]`. -/
theorem C06_sliceFrom (cs : List Nat) (h : ValidCps cs) (b : Nat) (r : Bytes) :
    sliceFrom (encodeCps cs) b = .ok r ↔ ∃ i, OffsetOf cs i b ∧ r = encodeCps (cs.drop i) := by
  have hb := boundary_encode cs h.1 b
  have ht : ∀ i, (encodeCps cs).drop (encodeCps (cs.take i)).length = encodeCps (cs.drop i) := by
    intro i
    conv => lhs; rw [← List.take_append_drop i cs, encodeCps_append]
    exact List.drop_left' (by rw [List.take_append_drop])
  unfold sliceFrom
  by_cases hc : isCodePointBoundary (encodeCps cs) b = true
  · rw [if_pos hc]
    obtain ⟨j, hj, rfl⟩ := hb.mp hc
    constructor
    · intro hr
      refine ⟨j, ⟨hj, rfl⟩, ?_⟩
      rw [ht j] at hr; simpa using hr.symm
    · rintro ⟨j', ⟨_, he⟩, rfl⟩
      rw [he, ht j']
  · rw [if_neg hc]
    simp only [reduceCtorEq, false_iff]
    rintro ⟨j, hj, _⟩
    exact hc (hb.mpr ⟨j, hj⟩)

example : slice (encodeCps sampleCps) 1 6 = .ok [0xC3, 0xA9, 0xE2, 0x82, 0xAC] := by decide
example : slice (encodeCps sampleCps) 2 6 = .error .panic := by decide

/-! ## C07 -/

/-- The code point sequence with every surrogate replaced by U+FFFD. -/
def lossy (cs : List Nat) : List Nat := cs.map fun c => if IsSurrogate c then 0xFFFD else c

/-- `as_str` / `into_string`: the text itself when there is no surrogate, otherwise nothing. -/
theorem C07_asStr (cs : List Nat) (h : ∀ c ∈ cs, IsCodePoint c) :
    asStr (encodeCps cs) =
      if ∀ c ∈ cs, ¬ IsSurrogate c then some (encodeCps cs) else none := by
  unfold asStr nextSurrogate
  rw [List.drop_zero]
  rcases nextSurrogateFrom_encode cs h 0 with ⟨h1, h2⟩ | ⟨as, c, bs, h1, h2, h3, h4⟩
  · rw [h1, if_pos h2]
  · rw [h4, if_neg]
    intro hn
    exact hn c (by rw [h1]; simp) h3

/-- What `as_str` returns is well-formed UTF-8. -/
theorem C07_asStr_utf8 (s t : Bytes) (h : WellFormed s) (ht : asStr s = some t) :
    t = s ∧ WellFormedUtf8 t := by
  obtain ⟨cs, hv, rfl⟩ := h
  rw [C07_asStr cs hv.1] at ht
  split at ht
  · rename_i hn
    have : encodeCps cs = t := by simpa using ht
    exact ⟨this.symm, cs, fun c hc => ⟨hv.1 c hc, hn c hc⟩, this⟩
  · simp at ht

theorem C07_toStringLossy (cs : List Nat) (h : ∀ c ∈ cs, IsCodePoint c) :
    toStringLossy (encodeCps cs) = encodeCps (lossy cs) := by
  have := toStringLossyFrom_spec cs.length cs (Nat.le_refl _) h []
  exact this

theorem C07_intoStringLossy (cs : List Nat) (h : ∀ c ∈ cs, IsCodePoint c) :
    intoStringLossy (encodeCps cs) = encodeCps (lossy cs) := by
  have := intoStringLossyFrom_spec cs.length cs (Nat.le_refl _) h []
  exact this

/-- The lossy form is well-formed UTF-8 of the same byte length. -/
theorem C07_lossy_utf8 (s : Bytes) (h : WellFormed s) :
    WellFormedUtf8 (toStringLossy s) ∧ (toStringLossy s).length = s.length := by
  obtain ⟨cs, hv, rfl⟩ := h
  rw [C07_toStringLossy cs hv.1]
  refine ⟨⟨lossy cs, ?_, rfl⟩, ?_⟩
  · intro c hc
    simp only [lossy, List.mem_map] at hc
    obtain ⟨d, hd, rfl⟩ := hc
    split
    · exact ⟨by decide, by decide⟩
    · exact ⟨hv.1 d hd, by assumption⟩
  · have h1 := hv.1
    clear hv
    induction cs with
    | nil => rfl
    | cons c cs ih =>
      have e : lossy (c :: cs) = (if IsSurrogate c then 0xFFFD else c) :: lossy cs := rfl
      rw [e, encodeCps_cons, encodeCps_cons, List.length_append, List.length_append,
        ih (fun x hx => h1 x (by simp [hx]))]
      by_cases hs : IsSurrogate c
      · rw [if_pos hs, length_gutf8_lead c hs]; rfl
      · rw [if_neg hs]

example : toStringLossy (encodeCps sampleCps) =
    encodeCps [0x61, 0xE9, 0x20AC, 0x1F600, 0xFFFD, 0x62, 0xFFFD] :=
  C07_toStringLossy _ sampleCps_valid.1

/-! ## C48 -/

/-- Full statement (documentation of `Wtf8Error::valid_up_to`): the index is the largest one such
that the input up to it is accepted. -/
def C48_full : Prop := ∀ bs e, fromBytes bs = .error e →
  fromBytes (bs.take e.validUpTo) = .ok (bs.take e.validUpTo) ∧
  ∀ n, e.validUpTo < n → n ≤ bs.length → fromBytes (bs.take n) ≠ .ok (bs.take n)

/-- Violated: for an encoded surrogate pair the error points at the high surrogate, although the
input up to and including the high surrogate is accepted. -/
theorem C48_violated : ¬ C48_full := by
  intro h
  have := (h [0xED, 0xA0, 0x80, 0xED, 0xB0, 0x80] ⟨0, some 6⟩ (by decide)).2 3 (by decide) (by decide)
  exact this (by decide)

/-- Proved part: the input up to `valid_up_to` is accepted, the index lies inside the input, and an
error without length is at most 3 bytes from the end. Missing: maximality. -/
theorem C48_validUpTo_partial (bs : Bytes) (e : Wtf8Error) (h : fromBytes bs = .error e) :
    fromBytes (bs.take e.validUpTo) = .ok (bs.take e.validUpTo) ∧ e.validUpTo < bs.length ∧
      (e.errorLen = none → bs.length ≤ e.validUpTo + 3) := by
  have hv : validateFrom 0 false bs = .error e := by
    unfold fromBytes validate at h
    cases hv : validateFrom 0 false bs with
    | ok u => rw [hv] at h; simp [bind, Except.bind, pure, Except.pure] at h
    | error e' => rw [hv] at h; simp [bind, Except.bind] at h; rw [h]
  rcases validateFrom_prefix 0 false bs e (by simp) hv with ⟨k, h1, h2, h3, h4⟩ | ⟨h1, _⟩
  · obtain rfl : k = e.validUpTo := by omega
    refine ⟨?_, h2, h4⟩
    unfold fromBytes validate
    rw [h3]; rfl
  · simp at h1

example : fromBytes [0x61, 0xE2, 0x82] = .error ⟨1, none⟩ := by decide

end Verif.Props
