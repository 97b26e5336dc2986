import Verif.Lemmas.Wtf8Slice
import Verif.Spec.Mutf8
import Verif.Model.Mutf8

namespace Verif.Mutf8
open Verif.Spec Verif.Bits Verif.Wtf8

theorem u8_and3F (x : Nat) : UInt8.ofNat x &&& 0x3F = UInt8.ofNat (x % 64) := by
  apply u8_ext; rw [UInt8.toNat_and, u8_ofNat_toNat, u8_ofNat_toNat]
  have := and3F (x % 256)
  simp only [UInt8.reduceToNat]; omega

theorem u8_and1F (x : Nat) : UInt8.ofNat x &&& 0x1F = UInt8.ofNat (x % 32) := by
  apply u8_ext; rw [UInt8.toNat_and, u8_ofNat_toNat, u8_ofNat_toNat]
  have := and1F (x % 256)
  simp only [UInt8.reduceToNat]; omega

theorem u8_and0F (x : Nat) : UInt8.ofNat x &&& 0xF = UInt8.ofNat (x % 16) := by
  apply u8_ext; rw [UInt8.toNat_and, u8_ofNat_toNat, u8_ofNat_toNat]
  have := and0F (x % 256)
  simp only [UInt8.reduceToNat]; omega

/-- Modified UTF-8 of one code point. -/
def mcp (c : Nat) : Bytes := mutf8 (utf16 c)

theorem mcp_zero : mcp 0 = [0xC0, 0x80] := by decide

theorem mcp_bmp (c : Nat) (h0 : c ≠ 0) (h : c < 0x10000) : mcp c = gutf8 c := by
  unfold mcp utf16 mutf8
  rw [if_pos h]
  simp only [List.flatMap_cons, List.flatMap_nil, List.append_nil]
  unfold mutf8Unit gutf8
  rw [u16_ofNat_toNat, Nat.mod_eq_of_lt (by omega)]
  dsimp only
  by_cases h1 : c < 0x80
  · rw [if_pos (by omega), if_pos h1]
  · rw [if_neg (by omega), if_neg h1]
    by_cases h2 : c < 0x800
    · rw [if_pos (by omega), if_pos h2]
    · rw [if_neg (by omega), if_neg h2, if_pos h]

theorem mcp_supp (c : Nat) (h : 0x10000 ≤ c) (hc : IsCodePoint c) : ∃ n n1 n3 n4 : UInt8,
    mcp c = [0xED, n, n1, 0xED, n3, n4] ∧ n.toNat = 0xA0 + (c - 0x10000) / 65536 ∧
      n1.toNat = 0x80 + c / 1024 % 64 ∧ n3.toNat = 0xB0 + c / 64 % 16 ∧
      n4.toNat = 0x80 + c % 64 := by
  unfold IsCodePoint at hc
  obtain ⟨k, hk⟩ : ∃ k, k = c - 0x10000 := ⟨_, rfl⟩
  have hk1 : c = 65536 + k := by omega
  have hk2 : k < 1048576 := by omega
  refine ⟨UInt8.ofNat (0xA0 + k / 65536), UInt8.ofNat (0x80 + k / 1024 % 64),
    UInt8.ofNat (0xB0 + k / 64 % 16), UInt8.ofNat (0x80 + k % 64), ?_, ?_, ?_, ?_, ?_⟩
  · unfold mcp utf16 mutf8
    rw [if_neg (by omega), ← hk]
    simp only [List.flatMap_cons, List.flatMap_nil, List.append_nil]
    unfold mutf8Unit
    rw [u16_ofNat_toNat, Nat.mod_eq_of_lt (by omega), u16_ofNat_toNat, Nat.mod_eq_of_lt (by omega)]
    dsimp only
    rw [if_neg (by omega), if_neg (by omega), if_neg (by omega), if_neg (by omega)]
    simp only [List.cons_append, List.nil_append, List.cons.injEq, and_true]
    refine ⟨?_, ?_, ?_, ?_, ?_, ?_⟩ <;>
      (apply u8_ext; simp only [u8_ofNat_toNat, UInt8.reduceToNat]; omega)
  all_goals rw [u8_ofNat_toNat]; omega

theorem encodeCp_eq (c : Nat) (h : IsCodePoint c) : encodeCp c = mcp c := by
  have hc := h
  unfold IsCodePoint at hc
  unfold encodeCp
  simp only [u8_and3F, u8_and1F, u8_and0F, shr, Nat.reducePow]
  by_cases h1 : 1 ≤ c ∧ c ≤ 0x7F
  · rw [if_pos h1, mcp_bmp c (by omega) (by omega), gutf8, if_pos (by omega)]
  · rw [if_neg h1]
    by_cases h2 : c = 0 ∨ (0x80 ≤ c ∧ c ≤ 0x7FF)
    · rw [if_pos h2, u8_or80 _ (by omega), u8_orC0 _ (by omega)]
      by_cases h0 : c = 0
      · subst h0; decide
      · rw [mcp_bmp c h0 (by omega), gutf8, if_neg (by omega), if_pos (by omega),
          Nat.mod_eq_of_lt (by omega : c / 64 < 32)]
    · rw [if_neg h2]
      by_cases h3 : 0x800 ≤ c ∧ c ≤ 0xFFFF
      · rw [if_pos h3, u8_or80 _ (by omega), u8_or80 _ (by omega), u8_orE0 _ (by omega),
          mcp_bmp c (by omega) (by omega), gutf8, if_neg (by omega), if_neg (by omega),
          if_pos (by omega), Nat.mod_eq_of_lt (by omega : c / 4096 < 16)]
      · rw [if_neg h3]
        obtain ⟨n, n1, n3, n4, e, hn, hn1, hn3, hn4⟩ := mcp_supp c (by omega) h
        rw [e]
        have es : UInt8.ofNat (c / 65536 % 32) - 1 = UInt8.ofNat (c / 65536 - 1) := by
          apply u8_ext
          rw [UInt8.toNat_sub_of_le _ _ (by
            rw [UInt8.le_iff_toNat_le, u8_ofNat_toNat]; simp only [UInt8.reduceToNat]; omega)]
          simp only [u8_ofNat_toNat, UInt8.reduceToNat]; omega
        have e80 : ∀ x : UInt8, (0x80 : UInt8) ||| x = x ||| 0x80 := fun x => UInt8.or_comm _ _
        rw [es, e80, u8_or80 _ (by omega), u8_or80 _ (by omega), u8_orA0 _ (by omega), u8_orB0 _ (by omega)]
        simp only [List.cons.injEq, and_true, true_and]
        refine ⟨?_, ?_, ?_, ?_⟩ <;>
          (apply u8_ext; rw [u8_ofNat_toNat]; omega)

theorem mutf8_utf16All (cs : List Nat) : mutf8 (utf16All cs) = cs.flatMap mcp := by
  induction cs with
  | nil => rfl
  | cons c cs ih =>
    rw [utf16All_cons, List.flatMap_cons, ← ih]
    simp [mutf8, mcp]

theorem encode_eq (cs : List Nat) (h : ∀ c ∈ cs, IsCodePoint c) :
    encode (encodeCps cs) = .ok (mutf8 (utf16All cs)) := by
  unfold encode
  rw [codepoints_encode cs h, mutf8_utf16All]
  simp only [Except.ok.injEq]
  induction cs with
  | nil => rfl
  | cons c cs ih =>
    rw [List.flatMap_cons, List.flatMap_cons, encodeCp_eq c (h c (by simp)),
      ih (fun x hx => h x (by simp [hx]))]

/-! ### Decoding valid input -/

theorem scan_gutf8 (c : Nat) (h : IsCodePoint c) (hi : Bool) (rest : Bytes) :
    (∃ hi', scan hi (gutf8 c ++ rest) = scan hi' rest) ∨ scan hi (gutf8 c ++ rest) = .ok true := by
  have tail : ∀ (b : UInt8) (t : Bytes) (hi : Bool), b.toNat ≠ 0xC0 → b.toNat ≠ 0xED →
      scan hi (b :: t) = scan false t := by
    intro b t hi h1 h2
    conv => lhs; unfold scan
    rw [if_neg (by u8), if_neg (by u8)]
  have hc := h
  unfold IsCodePoint at hc
  rcases gutf8_cases c h with ⟨h1, a, e, ha⟩ | ⟨h1, h2, a, b, e, ha, hb⟩ |
    ⟨h1, h2, a, b, d, e, ha, hb, hd⟩ | ⟨h1, a, b, d, f, e, ha, hb, hd, hf⟩
  · left; rw [e]; exact ⟨false, tail a _ _ (by omega) (by omega)⟩
  · left; rw [e]; refine ⟨false, ?_⟩
    simp only [List.cons_append, List.nil_append]
    rw [tail a _ _ (by omega) (by omega), tail b _ _ (by omega) (by omega)]
  · rw [e]
    simp only [List.cons_append, List.nil_append]
    by_cases hed : a.toNat = 0xED
    · conv => enter [1, 1, hi', 1]; unfold scan
      conv => enter [2]; unfold scan
      rw [if_neg (by u8), if_pos (by u8)]
      dsimp only
      by_cases hl : 0xA0 ≤ b.toNat ∧ b.toNat ≤ 0xAF
      · rw [if_pos (by u8)]; exact .inl ⟨true, rfl⟩
      · rw [if_neg (by u8)]
        rw [tail d _ _ (by omega) (by omega)]
        by_cases ht : 0xB0 ≤ b.toNat ∧ b.toNat ≤ 0xBF
        · rw [if_pos (by u8)]
          cases hi
          · exact .inl ⟨false, rfl⟩
          · exact .inr rfl
        · rw [if_neg (by u8)]; exact .inl ⟨false, rfl⟩
    · left; refine ⟨false, ?_⟩
      rw [tail a _ _ (by omega) (by omega), tail b _ _ (by omega) (by omega),
        tail d _ _ (by omega) (by omega)]
  · left; rw [e]; refine ⟨false, ?_⟩
    simp only [List.cons_append, List.nil_append]
    rw [tail a _ _ (by omega) (by omega), tail b _ _ (by omega) (by omega),
        tail d _ _ (by omega) (by omega), tail f _ _ (by omega) (by omega)]

theorem scan_supp (n n1 n3 n4 : UInt8) (hn : 0xA0 ≤ n.toNat ∧ n.toNat ≤ 0xAF)
    (hn3 : 0xB0 ≤ n3.toNat ∧ n3.toNat ≤ 0xBF) (hi : Bool) (rest : Bytes) :
    scan hi (0xED :: n :: n1 :: 0xED :: n3 :: n4 :: rest) = .ok true := by
  unfold scan
  rw [if_neg (by decide), if_pos rfl]
  dsimp only
  rw [if_pos (by u8)]
  unfold scan
  rw [if_neg (by decide), if_pos rfl]
  dsimp only
  rw [if_neg (by u8), if_pos (by u8), if_pos rfl]

theorem scan_mcp (cs : List Nat) (h : ∀ c ∈ cs, IsCodePoint c) (hi : Bool) :
    scan hi (cs.flatMap mcp) = .ok true ∨
      (scan hi (cs.flatMap mcp) = .ok false ∧ ∀ c ∈ cs, c ≠ 0 ∧ c < 0x10000) := by
  induction cs generalizing hi with
  | nil => right; simp [scan]
  | cons c cs ih =>
    have ih := ih (fun x hx => h x (by simp [hx]))
    rw [List.flatMap_cons]
    by_cases h0 : c = 0
    · subst h0
      left; rw [mcp_zero]
      simp only [List.cons_append, List.nil_append]
      unfold scan
      rw [if_pos rfl]; rfl
    by_cases h1 : c < 0x10000
    · rw [mcp_bmp c h0 h1]
      rcases scan_gutf8 c (h c (by simp)) hi (cs.flatMap mcp) with ⟨hi', e⟩ | e
      · rw [e]
        rcases ih hi' with e' | ⟨e', h'⟩
        · exact .inl e'
        · exact .inr ⟨e', by simpa using ⟨⟨h0, h1⟩, h'⟩⟩
      · exact .inl e
    · obtain ⟨n, n1, n3, n4, e, hn, hn1, hn3, hn4⟩ := mcp_supp c (by omega) (h c (by simp))
      have hc := h c (by simp)
      unfold IsCodePoint at hc
      left
      rw [e]
      exact scan_supp n n1 n3 n4 (by omega) (by omega) hi _

theorem flatMap_mcp_plain (cs : List Nat) (h : ∀ c ∈ cs, c ≠ 0 ∧ c < 0x10000) :
    cs.flatMap mcp = encodeCps cs := by
  induction cs with
  | nil => rfl
  | cons c cs ih =>
    rw [List.flatMap_cons, encodeCps_cons, mcp_bmp c (h c (by simp)).1 (h c (by simp)).2,
      ih (fun x hx => h x (by simp [hx]))]

theorem pairChar_eq (n n1 n3 n4 : UInt8) : pairChar n n1 n3 n4 =
    0x10000 + (n.toNat % 16) * 65536 + (n1.toNat % 64) * 1024 + (n3.toNat % 16) * 64 + n4.toNat % 64 := by
  unfold pairChar
  simp only [UInt8.toNat_and, UInt8.reduceToNat, and0F, and3F, shl, Nat.reducePow]

theorem pairBytes_eq (c : Nat) (h : 0x10000 ≤ c) (hc : IsCodePoint c) : pairBytes c = .ok (gutf8 c) := by
  have hc' := hc
  unfold IsCodePoint at hc'
  unfold pairBytes
  rw [if_pos (by omega), encodeUtf8Raw_eq c hc]
  rcases gutf8_cases c hc with ⟨h1, a, e, ha⟩ | ⟨h1, h2, a, b, e, ha, hb⟩ |
    ⟨h1, h2, a, b, d, e, ha, hb, hd⟩ | ⟨h1, a, b, d, f, e, ha, hb, hd, hf⟩
  · omega
  · omega
  · omega
  · rw [e]; rfl

theorem rewrite_plain (b : UInt8) (t : Bytes) (h1 : b.toNat ≠ 0xC0) (h2 : b.toNat ≠ 0xED) :
    rewrite (b :: t) = (rewrite t).map (b :: ·) := by
  conv => lhs; unfold rewrite
  rw [if_neg (by intro h; have := h.1; revert this; u8), if_neg (by u8)]
  cases rewrite t <;> rfl

/-- An `ED` that does not start an encoded surrogate pair is copied. -/
theorem rewrite_ed (t : Bytes) (h : ¬ ∃ n n1 n3 n4 t', t = n :: n1 :: 0xED :: n3 :: n4 :: t' ∧
    (0xA0 ≤ n.toNat ∧ n.toNat ≤ 0xAF) ∧ (0xB0 ≤ n3.toNat ∧ n3.toNat ≤ 0xBF)) :
    rewrite (0xED :: t) = (rewrite t).map ((0xED : UInt8) :: ·) := by
  conv => lhs; unfold rewrite
  rw [if_neg (by intro h; have := h.1; revert this; decide), if_pos rfl]
  split
  · rename_i n n1 b3 n3 n4 t'
    rw [if_neg]
    · cases rewrite (n :: n1 :: b3 :: n3 :: n4 :: t') <;> rfl
    · rintro ⟨h1, rfl, h2⟩
      exact h ⟨n, n1, n3, n4, t', rfl, by simpa [UInt8.le_iff_toNat_le] using h1,
        by simpa [UInt8.le_iff_toNat_le] using h2⟩
  · cases rewrite t <;> rfl

theorem rewrite_pair (n n1 n3 n4 : UInt8) (t : Bytes) (hn : 0xA0 ≤ n.toNat ∧ n.toNat ≤ 0xAF)
    (hn3 : 0xB0 ≤ n3.toNat ∧ n3.toNat ≤ 0xBF) :
    rewrite (0xED :: n :: n1 :: 0xED :: n3 :: n4 :: t) =
      (rewrite t).map (gutf8 (pairChar n n1 n3 n4) ++ ·) := by
  conv => lhs; unfold rewrite
  rw [if_neg (by intro h; have := h.1; revert this; decide), if_pos rfl]
  dsimp only
  rw [if_pos ⟨by u8, rfl, by u8⟩, pairBytes_eq _ (by rw [pairChar_eq]; omega)
    (by rw [pairChar_eq]; unfold IsCodePoint; omega)]
  cases rewrite t <;> rfl

theorem rewrite_zero (t : Bytes) : rewrite (0xC0 :: 0x80 :: t) = (rewrite t).map ((0 : UInt8) :: ·) := by
  conv => lhs; unfold rewrite
  rw [if_pos ⟨rfl, by simp⟩]
  simp only [List.drop_succ_cons, List.drop_zero]
  cases rewrite t <;> rfl

theorem map_map_cons (r : Res Bytes) (f g : Bytes → Bytes) : (r.map f).map g = r.map (fun x => g (f x)) := by
  cases r <;> rfl

theorem rewrite_gutf8 (c : Nat) (h0 : c ≠ 0) (h1 : c < 0x10000) (rest : Bytes)
    (hp : IsLead c → ¬ ∃ n3 n4 t', rest = 0xED :: n3 :: n4 :: t' ∧ (0xB0 ≤ n3.toNat ∧ n3.toNat ≤ 0xBF)) :
    rewrite (gutf8 c ++ rest) = (rewrite rest).map (gutf8 c ++ ·) := by
  rcases gutf8_cases c (by unfold IsCodePoint; omega) with ⟨h1, a, e, ha⟩ | ⟨h1, h2, a, b, e, ha, hb⟩ |
    ⟨h1, h2, a, b, d, e, ha, hb, hd⟩ | ⟨h1, a, b, d, f, e, ha, hb, hd, hf⟩
  · rw [e]; exact rewrite_plain a _ (by omega) (by omega)
  · rw [e]
    simp only [List.cons_append, List.nil_append]
    rw [rewrite_plain a _ (by omega) (by omega), rewrite_plain b _ (by omega) (by omega), map_map_cons]
  · rw [e]
    simp only [List.cons_append, List.nil_append]
    by_cases hed : a.toNat = 0xED
    · obtain rfl : a = 0xED := u8_ext hed
      rw [rewrite_ed, rewrite_plain b _ (by omega) (by omega), rewrite_plain d _ (by omega) (by omega),
        map_map_cons, map_map_cons]
      rintro ⟨n, n1, n3, n4, t', he, hn, hn3⟩
      simp only [List.cons.injEq] at he
      obtain ⟨rfl, rfl, he⟩ := he
      refine hp ?_ ⟨n3, n4, t', he, hn3⟩
      unfold IsLead
      simp only [UInt8.reduceToNat] at ha
      omega
    · rw [rewrite_plain a _ (by omega) (by omega), rewrite_plain b _ (by omega) (by omega),
        rewrite_plain d _ (by omega) (by omega), map_map_cons, map_map_cons]
  · omega

/-- The encoding of a sequence not starting with a low surrogate does not start like one. -/
theorem mcp_head (cs : List Nat) (h : ∀ c ∈ cs, IsCodePoint c) (hh : ∀ c ∈ cs.head?, ¬ IsTrail c) :
    ¬ ∃ n3 n4 t', cs.flatMap mcp = 0xED :: n3 :: n4 :: t' ∧ (0xB0 ≤ n3.toNat ∧ n3.toNat ≤ 0xBF) := by
  rintro ⟨n3, n4, t', e, hn⟩
  cases cs with
  | nil => simp at e
  | cons c cs =>
    rw [List.flatMap_cons] at e
    have hc := h c (by simp)
    have ht := hh c (by simp)
    by_cases h0 : c = 0
    · subst h0; rw [mcp_zero] at e; simp at e
    by_cases h1 : c < 0x10000
    · rw [mcp_bmp c h0 h1] at e
      rcases gutf8_cases c hc with ⟨h1, a, e', ha⟩ | ⟨h1, h2, a, b, e', ha, hb⟩ |
        ⟨h1, h2, a, b, d, e', ha, hb, hd⟩ | ⟨h1, a, b, d, f, e', ha, hb, hd, hf⟩
      · rw [e'] at e
        simp only [List.cons_append, List.cons.injEq] at e
        have := congrArg UInt8.toNat e.1
        simp only [UInt8.reduceToNat] at this; omega
      · rw [e'] at e
        simp only [List.cons_append, List.cons.injEq] at e
        have := congrArg UInt8.toNat e.1
        simp only [UInt8.reduceToNat] at this; omega
      · rw [e'] at e
        simp only [List.cons_append, List.cons.injEq] at e
        have h4 := congrArg UInt8.toNat e.1
        have h5 := congrArg UInt8.toNat e.2.1
        simp only [UInt8.reduceToNat] at h4
        unfold IsTrail at ht
        omega
      · omega
    · obtain ⟨n, n1, n3', n4', e', hn', hn1, hn3, hn4⟩ := mcp_supp c (by omega) hc
      rw [e'] at e
      simp only [List.cons_append, List.cons.injEq] at e
      have h5 := congrArg UInt8.toNat e.2.1
      unfold IsCodePoint at hc
      omega

theorem pairChar_supp (c : Nat) (h : 0x10000 ≤ c) (hc : IsCodePoint c) (n n1 n3 n4 : UInt8)
    (hn : n.toNat = 0xA0 + (c - 0x10000) / 65536)
    (hn1 : n1.toNat = 0x80 + c / 1024 % 64) (hn3 : n3.toNat = 0xB0 + c / 64 % 16)
    (hn4 : n4.toNat = 0x80 + c % 64) : pairChar n n1 n3 n4 = c := by
  unfold IsCodePoint at hc
  rw [pairChar_eq]
  omega

theorem rewrite_mcp (cs : List Nat) (h : ValidCps cs) :
    rewrite (cs.flatMap mcp) = .ok (encodeCps cs) := by
  obtain ⟨h1, h2⟩ := h
  induction cs with
  | nil => simp [rewrite, encodeCps]
  | cons c cs ih =>
    rw [NoPair_cons] at h2
    have hc := h1 c (by simp)
    have h1' : ∀ x ∈ cs, IsCodePoint x := fun x hx => h1 x (by simp [hx])
    have ih := ih h1' h2.2
    rw [List.flatMap_cons, encodeCps_cons]
    by_cases h0 : c = 0
    · subst h0
      rw [mcp_zero]
      simp only [List.cons_append, List.nil_append]
      rw [rewrite_zero, ih]; rfl
    by_cases h3 : c < 0x10000
    · rw [mcp_bmp c h0 h3, rewrite_gutf8 c h0 h3, ih]
      · rfl
      · intro hl
        exact mcp_head cs h1' (fun x hx ht => h2.1 x hx ⟨hl, ht⟩)
    · obtain ⟨n, n1, n3, n4, e', hn', hn1, hn3, hn4⟩ := mcp_supp c (by omega) hc
      rw [e']
      simp only [List.cons_append, List.nil_append]
      have hc' := hc
      unfold IsCodePoint at hc'
      rw [rewrite_pair _ _ _ _ _ (by omega) (by omega), ih,
        pairChar_supp c (by omega) hc _ _ _ _ hn' hn1 hn3 hn4]
      rfl

theorem fromBytes'_encode (cs : List Nat) (h : ValidCps cs) :
    fromBytes' (encodeCps cs) = .ok (encodeCps cs) := by
  have := validateFrom_loose (LooseEnc_of_encode cs h.1) 0 false h.2 (by simp)
  have e : fromBytes (encodeCps cs) = .ok (encodeCps cs) := by
    simp [fromBytes, validate, this]; rfl
  simp [fromBytes', e]

theorem decode_mcp (cs : List Nat) (h : ValidCps cs) :
    decode (mutf8 (utf16All cs)) = .ok (encodeCps cs) := by
  rw [mutf8_utf16All]
  unfold decode
  rcases scan_mcp cs h.1 false with e | ⟨e, h'⟩
  · rw [e]
    simp only [bind, Except.bind, if_pos]
    rw [rewrite_mcp cs h]
    exact fromBytes'_encode cs h
  · rw [e]
    simp only [bind, Except.bind]
    rw [if_neg (by simp), flatMap_mcp_plain cs h']
    exact fromBytes'_encode cs h

end Verif.Mutf8
