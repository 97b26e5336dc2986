import Verif.Lemmas.Rw

/-!
# Properties of modified UTF-8 and of string constants (C08 – C12)
-/

namespace Verif.Props
open Verif.Spec Verif.Wtf8

theorem hasUtf16_unique (s t : Bytes) (v : List UInt16) (h1 : HasUtf16 s v) (h2 : HasUtf16 t v) :
    s = t := by
  obtain ⟨cs, hc, rfl, rfl⟩ := h1
  obtain ⟨ds, hd, rfl, e⟩ := h2
  rw [← decodeCps_utf16All cs hc, ← decodeCps_utf16All ds hd, e]

/-! ## C09, C10, C08 -/

/-- The encoder emits the JVM-specified encoding of the UTF-16 form. -/
theorem C09_encode_conforms (s : Bytes) (v : List UInt16) (h : HasUtf16 s v) :
    Mutf8.encode s = .ok (mutf8 v) := by
  obtain ⟨cs, hc, rfl, rfl⟩ := h
  exact Mutf8.encode_eq cs hc.1

/-- The specified encoding (hence the output of the encoder) has no zero byte and no byte in
`0xF0..=0xFF`. -/
theorem C09_no_zero (s out : Bytes) (h : WellFormed s) (ho : Mutf8.encode s = .ok out) :
    ∀ b ∈ out, b ≠ 0 ∧ b.toNat < 0xF0 := by
  obtain ⟨cs, hc, rfl⟩ := h
  rw [Mutf8.encode_eq cs hc.1] at ho
  have ho : mutf8 (utf16All cs) = out := by simpa using ho
  subst ho
  intro b hb
  simp only [mutf8, List.mem_flatMap] at hb
  obtain ⟨u, _, hb⟩ := hb
  have hu : u.toNat < 65536 := u.toNat_lt
  have nz : ∀ n, n % 256 ≠ 0 → n % 256 < 0xF0 → b = UInt8.ofNat n → b ≠ 0 ∧ b.toNat < 0xF0 := by
    rintro n h1 h2 rfl
    refine ⟨?_, by simpa using h2⟩
    intro h
    have := congrArg UInt8.toNat h
    simp at this; omega
  unfold mutf8Unit at hb
  dsimp only at hb
  split at hb
  · simp only [List.mem_singleton] at hb
    exact nz _ (by omega) (by omega) hb
  · split at hb
    · simp only [List.mem_cons, List.not_mem_nil, or_false] at hb
      rcases hb with h | h
      · exact nz _ (by omega) (by omega) h
      · exact nz _ (by omega) (by omega) h
    · simp only [List.mem_cons, List.not_mem_nil, or_false] at hb
      rcases hb with h | h | h
      · exact nz _ (by omega) (by omega) h
      · exact nz _ (by omega) (by omega) h
      · exact nz _ (by omega) (by omega) h

/-- Every class-file string is decoded to the string with the same UTF-16 form. -/
theorem C10_decode_correct (v : List UInt16) :
    ∃ s, Mutf8.decode (mutf8 v) = .ok s ∧ HasUtf16 s v := by
  have h := decodeCps_spec v
  refine ⟨encodeCps (decodeCps v), ?_, decodeCps v, h.1, rfl, h.2.1⟩
  have := Mutf8.decode_mcp (decodeCps v) h.1
  rwa [h.2.1] at this

/-- Encoding and decoding again is the identity on well-formed strings. -/
theorem C08_roundtrip (s : Bytes) (h : WellFormed s) :
    ∃ m, Mutf8.encode s = .ok m ∧ Mutf8.decode m = .ok s := by
  obtain ⟨cs, hc, rfl⟩ := h
  exact ⟨_, Mutf8.encode_eq cs hc.1, Mutf8.decode_mcp cs hc⟩

/-- NUL, a supplementary character, and unpaired surrogates. -/
example : Mutf8.encode (encodeCps [0, 0x1F600, 0xD800, 0x61]) =
    .ok [0xC0, 0x80, 0xED, 0xA0, 0xBD, 0xED, 0xB8, 0x80, 0xED, 0xA0, 0x80, 0x61] := by
  rw [Mutf8.encode_eq _ (by simp [IsCodePoint])]; decide
example : mutf8 [0, 0xD83D, 0xDE00, 0xD800, 0x61] =
    [0xC0, 0x80, 0xED, 0xA0, 0xBD, 0xED, 0xB8, 0x80, 0xED, 0xA0, 0x80, 0x61] := by decide

/-! ## C11 -/

/-- Full statement: the decoder never panics, yields well-formed strings only and accepts only
encodings of UTF-16 sequences. -/
def C11_full : Prop := ∀ bs, Mutf8.decode bs ≠ .error .panic ∧
  ∀ s, Mutf8.decode bs = .ok s → WellFormed s ∧ ∃ v, bs = mutf8 v

theorem decode_zero : Mutf8.decode [0x00] = .ok [0x00] := by
  have : Mutf8.scan false [0x00] = .ok false := by decide
  unfold Mutf8.decode
  rw [this]
  decide

/-- Violated: a raw zero byte is accepted. -/
theorem C11_violated : ¬ C11_full := by
  intro h
  obtain ⟨v, e⟩ := ((h [0x00]).2 [0x00] decode_zero).2
  cases v with
  | nil => simp [mutf8] at e
  | cons u v =>
    have hz := C09_no_zero (fromWide (u :: v))
    have h0 : (0 : UInt8) ∈ mutf8 (u :: v) := by rw [← e]; simp
    have hs := decodeCps_spec (u :: v)
    have hz := hz (mutf8 (u :: v)) ⟨decodeCps (u :: v), hs.1, (fromWide_eq _ hs.1.1).symm⟩ (by
      rw [fromWide_eq _ hs.1.1, Mutf8.encode_eq _ hs.1.1, hs.2.1]) 0 h0
    exact hz.1 rfl

/-- A string that is not well-formed is also let through (the validator's defect, C02). -/
theorem C11_violated_illformed : Mutf8.decode [0xED, 0xA0, 0x41] = .ok [0xED, 0xA0, 0x41] := by
  have : Mutf8.scan false [0xED, 0xA0, 0x41] = .ok false := by decide
  unfold Mutf8.decode
  rw [this]
  decide

/-- Proved part 1: on any input the decoder returns a value or a decoding error, never a panic. -/
theorem C11_total_partial (bs : Bytes) :
    (∃ s, Mutf8.decode bs = .ok s) ∨ Mutf8.decode bs = .error .mutf := Mutf8.decode_total bs

/-- Proved part 2: among inputs without zero bytes, without bytes `>= 0xF0` and whose surrogates
have a proper third byte, only valid modified UTF-8 is accepted and the result is the string with
that UTF-16 form. Missing: rejection of inputs outside these restrictions, which the code does not
perform. -/
theorem C11_sound_partial (bs s : Bytes) (hs : Mutf8.Strict bs) (h : Mutf8.decode bs = .ok s) :
    ∃ v, bs = mutf8 v ∧ HasUtf16 s v := by
  have key : ∀ cs, (∀ c ∈ cs, IsCodePoint c) → NoPair cs → bs = cs.flatMap Mutf8.mcp →
      ∃ v, bs = mutf8 v ∧ HasUtf16 s v := by
    intro cs h1 h2 e
    rw [← Mutf8.mutf8_utf16All] at e
    refine ⟨utf16All cs, e, cs, ⟨h1, h2⟩, ?_, rfl⟩
    rw [e, Mutf8.decode_mcp cs ⟨h1, h2⟩] at h
    simpa using h
  unfold Mutf8.decode at h
  rcases Mutf8.scan_total false bs with ⟨b, e⟩ | e
  · rw [e] at h
    cases b
    · simp only [bind, Except.bind] at h
      obtain ⟨_, cs, hl, hn⟩ := Mutf8.fromBytes'_loose bs s h
      exact key cs (LooseEnc_isCodePoint hl) hn (Mutf8.loose_inv cs bs hl hs)
    · simp only [bind, Except.bind] at h
      obtain ⟨out, e'⟩ := Mutf8.rewrite_total bs
      rw [e'] at h
      obtain ⟨_, cs, hl, hn⟩ := Mutf8.fromBytes'_loose out s h
      exact key cs (LooseEnc_isCodePoint hl) hn (Mutf8.rewrite_inv cs out bs hl hs e')
  · rw [e] at h; simp [bind, Except.bind] at h

/-- A strict input that needs rewriting. -/
example : Mutf8.Strict [0xC0, 0x80, 0xED, 0xB0, 0x80] where
  nonzero := by decide
  three := by decide
  third := by
    intro p q x y e hx
    match p, e with
    | [], e => simp at e
    | [_], e => simp at e
    | [_, _], e => simp at e; obtain ⟨_, _, rfl, rfl, rfl⟩ := e; decide
    | _ :: _ :: _ :: p, e =>
      have := congrArg List.length e
      simp at this
      omega

/-! ## C12 -/

/-- Full statement: a written string constant reads back, whatever its length. -/
def C12_full : Prop := ∀ s w, WellFormed s → writeString s = .ok w → ReadsTo readString w s

theorem utf16All_replicate_a (n : Nat) : mutf8 (utf16All (List.replicate n 0x61)) = List.replicate n 0x61 := by
  induction n with
  | zero => rfl
  | succ n ih =>
    rw [List.replicate_succ, utf16All_cons]
    have e : utf16 0x61 = [0x61] := by decide
    have e2 : mutf8Unit 0x61 = [0x61] := by decide
    rw [e]
    simp only [mutf8, List.cons_append, List.nil_append, List.flatMap_cons, e2] at ih ⊢
    rw [ih, List.replicate_succ]

/-- Violated: a string of 65536 letters is written with length prefix 0. -/
theorem C12_violated : ¬ C12_full := by
  intro h
  have hv : ValidCps (List.replicate 65536 0x61) := by
    refine ⟨fun c hc => ?_, ?_⟩
    · rw [List.eq_of_mem_replicate hc]; unfold IsCodePoint; omega
    · generalize 65536 = n
      induction n with
      | zero => trivial
      | succ n ih =>
        rw [List.replicate_succ, NoPair_cons]
        refine ⟨fun b _ hl => ?_, ih⟩
        have := hl.1
        unfold IsLead at this
        omega
  have hw : writeString (encodeCps (List.replicate 65536 0x61)) =
      .ok ([0, 0] ++ List.replicate 65536 0x61) := by
    unfold writeString
    rw [Mutf8.encode_eq _ hv.1, utf16All_replicate_a]
    simp only [bind, Except.bind, pure, Except.pure, List.length_replicate]
    rfl
  have := h _ _ ⟨_, hv, rfl⟩ hw []
  have e : ∀ t, readString ([0, 0] ++ t) = .ok ([], t) := by
    intro t
    unfold readString
    have := NumCodec.reads u16_lawful 0 t
    have e2 : u16.write 0 = [0, 0] := by decide
    rw [e2] at this
    rw [this]
    simp only
    have e3 : readExact (UInt16.toNat 0) t = .ok ([], t) := by simp [readExact]
    rw [e3]
    rfl
  rw [List.append_assoc, e] at this
  simp only [Except.ok.injEq, Prod.mk.injEq] at this
  have h2 := congrArg List.length this.2
  rw [List.length_append, List.length_replicate] at h2
  exact absurd h2 (by decide)

/-- Proved part: whenever the modified UTF-8 form fits in 65535 bytes. Missing: longer strings, for
which the written prefix is wrong. -/
theorem C12_string_partial (s w : Bytes) (h : WellFormed s) (hw : writeString s = .ok w)
    (hlen : w.length ≤ 65535 + 2) : ReadsTo readString w s :=
  readString_writeString s w h hw hlen

/-- The prefix is the exact byte length, big-endian, when it fits. -/
theorem C12_prefix_partial (s w m : Bytes) (hm : Mutf8.encode s = .ok m) (hw : writeString s = .ok w)
    (hlen : m.length ≤ 65535) :
    w = UInt8.ofNat (m.length / 256) :: UInt8.ofNat (m.length % 256) :: m := by
  unfold writeString at hw
  rw [hm] at hw
  simp only [bind, Except.bind, pure, Except.pure, Except.ok.injEq] at hw
  subst hw
  have e : (UInt16.ofNat m.length).toNat = m.length := by simp; omega
  simp only [NumCodec.write, u16, toBe, e, List.cons_append, List.nil_append, List.cons.injEq, and_true]
  refine ⟨by simp, ?_⟩
  apply Verif.Bits.u8_ext; simp

example : writeString (encodeCps [0x61, 0]) = .ok [0, 3, 0x61, 0xC0, 0x80] := by
  unfold writeString
  rw [Mutf8.encode_eq _ (by simp [IsCodePoint])]; decide

end Verif.Props
