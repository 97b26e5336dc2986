import Verif.Lemmas.Wtf8Wide

/-! Concatenation: final lead and initial trail surrogates. -/

namespace Verif.Wtf8
open Verif.Spec Verif.Bits

theorem or_D800 (w : Nat) (h1 : 2048 ≤ w) (h2 : w < 4096) : 0xD800 ||| w = 0xD000 + w := by
  obtain ⟨w', rfl⟩ : ∃ w', w = 2048 + w' := ⟨w - 2048, by omega⟩
  have e1 : 2048 + w' = 2048 ||| w' := by
    have := Nat.two_pow_add_eq_or_of_lt (i := 11) (b := w') (by omega) 1
    simpa using this
  have e2 : 0xD800 ||| w' = 0xD800 + w' := by
    have := Nat.two_pow_add_eq_or_of_lt (i := 11) (b := w') (by omega) 27
    simpa using this.symm
  rw [e1, ← Nat.or_assoc, show 0xD800 ||| 2048 = 0xD800 from rfl, e2, ← e1]
  omega

theorem decodeSurrogate_toNat (b2 b3 : UInt8) (h : 0xA0 ≤ b2.toNat ∧ b2.toNat ≤ 0xBF) :
    (decodeSurrogate b2 b3).toNat = 0xD000 + (b2.toNat % 64) * 64 + b3.toNat % 64 := by
  unfold decodeSurrogate
  rw [UInt16.toNat_or, UInt16.toNat_or, UInt16.toNat_and, UInt16.toNat_shiftLeft, UInt16.toNat_and]
  simp only [UInt8.toNat_toUInt16, UInt16.reduceToNat, and3F, Nat.or_assoc]
  rw [show 6 % 16 = 6 from rfl]
  rw [show (b2.toNat % 64) <<< 6 % 2 ^ 16 = (b2.toNat % 64) <<< 6 by
    rw [shl]; omega]
  rw [shl_or _ _ _ (by omega), or_D800 _ (by omega) (by omega)]
  omega

theorem decodeSurrogatePair_eq (l t : UInt16) (hl : IsLead l.toNat) (ht : IsTrail t.toNat) :
    decodeSurrogatePair l t = 0x10000 + (l.toNat - 0xD800) * 1024 + (t.toNat - 0xDC00) := by
  unfold IsLead at hl
  unfold IsTrail at ht
  unfold decodeSurrogatePair
  have e1 : (l - 0xD800).toNat = l.toNat - 0xD800 :=
    UInt16.toNat_sub_of_le _ _ (by rw [UInt16.le_iff_toNat_le]; simp; omega)
  have e2 : (t - 0xDC00).toNat = t.toNat - 0xDC00 :=
    UInt16.toNat_sub_of_le _ _ (by rw [UInt16.le_iff_toNat_le]; simp; omega)
  rw [e1, e2, shl_or _ _ _ (by omega)]
  omega

/-- The supplementary code point of a pair: its UTF-16 form is the pair. -/
theorem utf16_pair (l t : UInt16) (hl : IsLead l.toNat) (ht : IsTrail t.toNat) :
    utf16 (decodeSurrogatePair l t) = [l, t] ∧ IsCodePoint (decodeSurrogatePair l t) ∧
      ¬ IsSurrogate (decodeSurrogatePair l t) := by
  rw [decodeSurrogatePair_eq l t hl ht]
  unfold IsLead at hl
  unfold IsTrail at ht
  refine ⟨?_, ?_, ?_⟩
  · unfold utf16
    rw [if_neg (by omega)]
    simp only [List.cons.injEq, and_true]
    constructor
    · apply u16_ext; rw [u16_ofNat_toNat]; omega
    · apply u16_ext; rw [u16_ofNat_toNat]; omega
  · unfold IsCodePoint; omega
  · unfold IsSurrogate; omega

theorem ed_iff (b : UInt8) : b = 0xED ↔ b.toNat = 0xED := by
  rw [← UInt8.toNat_inj]; simp

theorem finalLead_of (b3 b2 b1 : UInt8) (t : Bytes) (bs : Bytes) (h : bs.reverse = b3 :: b2 :: b1 :: t) :
    finalLeadSurrogate bs = if b1.toNat = 0xED ∧ 0xA0 ≤ b2.toNat ∧ b2.toNat ≤ 0xAF then
      some (decodeSurrogate b2 b3) else none := by
  unfold finalLeadSurrogate
  rw [h]
  by_cases hb : b1 = 0xED
  · have := (ed_iff b1).mp hb
    subst hb
    simp [UInt8.le_iff_toNat_le]
  · have := mt (ed_iff b1).mpr hb
    rw [if_neg (by omega)]
    split
    · rename_i heq
      simp at heq
      exact absurd heq.2.2.1 hb
    · rfl

theorem finalLead_short (bs : Bytes) (h : bs.length < 3) : finalLeadSurrogate bs = none := by
  unfold finalLeadSurrogate
  split
  · rename_i heq
    have := congrArg List.length heq
    simp at this; omega
  · rfl

/-- The last two bytes of a non-empty encoding cannot be a three-byte lead followed by one
continuation byte. -/
theorem last_two (cs : List Nat) (h : ∀ c ∈ cs, IsCodePoint c) (x y : UInt8) (t : Bytes)
    (e : (encodeCps cs).reverse = x :: y :: t) : ¬ (y.toNat = 0xED ∧ 0xA0 ≤ x.toNat ∧ x.toNat ≤ 0xAF) := by
  rcases List.eq_nil_or_concat cs with rfl | ⟨cs', p, rfl⟩
  · simp [encodeCps] at e
  · rw [List.concat_eq_append, encodeCps_append, encodeCps_singleton, List.reverse_append] at e
    have hp : IsCodePoint p := h p (by simp)
    rcases gutf8_cases p hp with ⟨h1, a, e', ha⟩ | ⟨h1, h2, a, b, e', ha, hb⟩ |
      ⟨h1, h2, a, b, d, e', ha, hb, hd⟩ | ⟨h1, a, b, d, f, e', ha, hb, hd, hf⟩
    all_goals
      rw [e'] at e
      simp at e
      obtain ⟨rfl, e⟩ := e
    · omega
    · obtain ⟨rfl, e⟩ := e; omega
    · obtain ⟨rfl, e⟩ := e; omega
    · obtain ⟨rfl, e⟩ := e; omega

theorem finalLead_encode (cs : List Nat) (c : Nat) (h : ∀ x ∈ cs, IsCodePoint x) (hc : IsCodePoint c) :
    finalLeadSurrogate (encodeCps (cs ++ [c])) =
      if IsLead c then some (UInt16.ofNat c) else none := by
  have hr : (encodeCps (cs ++ [c])).reverse = (gutf8 c).reverse ++ (encodeCps cs).reverse := by
    rw [encodeCps_append, encodeCps_singleton, List.reverse_append]
  have hL : IsLead c ↔ 0xD800 ≤ c ∧ c ≤ 0xDBFF := Iff.rfl
  rcases gutf8_cases c hc with ⟨h1, a, e', ha⟩ | ⟨h1, h2, a, b, e', ha, hb⟩ |
      ⟨h1, h2, a, b, d, e', ha, hb, hd⟩ | ⟨h1, a, b, d, f, e', ha, hb, hd, hf⟩
  · rw [if_neg (by rw [hL]; omega)]
    rw [e'] at hr
    match hm : (encodeCps cs).reverse with
    | [] => exact finalLead_short _ (by rw [← List.length_reverse, hr, hm]; simp)
    | [_] => exact finalLead_short _ (by rw [← List.length_reverse, hr, hm]; simp)
    | x :: y :: t =>
      rw [hm] at hr
      rw [finalLead_of _ _ _ _ _ hr, if_neg (last_two cs h x y t hm)]
  · rw [if_neg (by rw [hL]; omega)]
    rw [e'] at hr
    match hm : (encodeCps cs).reverse with
    | [] => exact finalLead_short _ (by rw [← List.length_reverse, hr, hm]; simp)
    | x :: t =>
      rw [hm] at hr
      rw [finalLead_of _ _ _ _ _ hr, if_neg (by omega)]
  · rw [e'] at hr
    rw [finalLead_of _ _ _ _ _ hr]
    by_cases hl : IsLead c
    · rw [if_pos hl]
      rw [hL] at hl
      rw [if_pos (by omega)]
      congr 1
      apply u16_ext
      rw [decodeSurrogate_toNat _ _ (by omega), u16_ofNat_toNat]
      omega
    · rw [if_neg hl]
      rw [hL] at hl
      rw [if_neg (by omega)]
  · rw [e'] at hr
    rw [finalLead_of _ _ _ _ _ hr, if_neg (by omega), if_neg (by rw [hL]; omega)]

theorem finalLead_nil : finalLeadSurrogate [] = none := rfl

theorem initialTrail_of (b1 b2 b3 : UInt8) (t : Bytes) :
    initialTrailSurrogate (b1 :: b2 :: b3 :: t) =
      if b1.toNat = 0xED ∧ 0xB0 ≤ b2.toNat ∧ b2.toNat ≤ 0xBF then
      some (decodeSurrogate b2 b3) else none := by
  unfold initialTrailSurrogate
  by_cases hb : b1 = 0xED
  · have := (ed_iff b1).mp hb
    subst hb
    simp [UInt8.le_iff_toNat_le]
  · have := mt (ed_iff b1).mpr hb
    rw [if_neg (by omega)]
    split
    · rename_i heq
      simp at heq
      exact absurd heq.1 hb
    · rfl

theorem initialTrail_notED (bs : Bytes) (h : ∀ b ∈ bs.head?, b.toNat ≠ 0xED) :
    initialTrailSurrogate bs = none := by
  unfold initialTrailSurrogate
  split
  · simp at h
  · rfl

theorem initialTrail_encode (c : Nat) (cs : List Nat) (hc : IsCodePoint c) :
    initialTrailSurrogate (encodeCps (c :: cs)) =
      if IsTrail c then some (UInt16.ofNat c) else none := by
  rw [encodeCps_cons]
  have hL : IsTrail c ↔ 0xDC00 ≤ c ∧ c ≤ 0xDFFF := Iff.rfl
  have hc' := hc
  unfold IsCodePoint at hc'
  rcases gutf8_cases c hc with ⟨h1, a, e', ha⟩ | ⟨h1, h2, a, b, e', ha, hb⟩ |
      ⟨h1, h2, a, b, d, e', ha, hb, hd⟩ | ⟨h1, a, b, d, f, e', ha, hb, hd, hf⟩
  · rw [if_neg (by rw [hL]; omega), e']
    exact initialTrail_notED _ (by simp; omega)
  · rw [if_neg (by rw [hL]; omega), e']
    exact initialTrail_notED _ (by simp; omega)
  · rw [e', List.cons_append, List.cons_append, List.cons_append, initialTrail_of]
    by_cases hl : IsTrail c
    · rw [if_pos hl]
      rw [hL] at hl
      rw [if_pos (by omega)]
      congr 1
      apply u16_ext
      rw [decodeSurrogate_toNat _ _ (by omega), u16_ofNat_toNat]
      omega
    · rw [if_neg hl]
      rw [hL] at hl
      rw [if_neg (by omega)]
  · rw [if_neg (by rw [hL]; omega), e']
    exact initialTrail_notED _ (by simp; omega)

/-- Appending lists of code points keeps "no pair" unless the seam is a pair. -/
theorem NoPair_append (cs ds : List Nat) :
    NoPair (cs ++ ds) ↔ NoPair cs ∧ NoPair ds ∧
      ∀ a ∈ cs.getLast?, ∀ b ∈ ds.head?, ¬ (IsLead a ∧ IsTrail b) := by
  induction cs with
  | nil => simp [NoPair]
  | cons c cs ih =>
    rw [List.cons_append, NoPair_cons, ih, NoPair_cons]
    cases cs with
    | nil =>
      simp only [List.nil_append, List.getLast?_singleton, NoPair, List.head?_nil]
      simp
      constructor <;> intro h <;> exact ⟨h.2, h.1⟩
    | cons d cs =>
      simp only [List.cons_append, List.head?_cons, Option.mem_def, Option.some.injEq]
      rw [List.getLast?_cons_cons]
      constructor
      · rintro ⟨a, b, c, d⟩; exact ⟨⟨a, b⟩, c, d⟩
      · rintro ⟨⟨a, b⟩, c, d⟩; exact ⟨a, b, c, d⟩

theorem length_gutf8_lead (c : Nat) (h : IsSurrogate c) : (gutf8 c).length = 3 := by
  unfold IsSurrogate at h
  unfold gutf8
  rw [if_neg (by omega), if_neg (by omega), if_pos (by omega)]
  rfl

theorem take_encode_lead (cs : List Nat) (c : Nat) (h : IsSurrogate c) :
    (encodeCps (cs ++ [c])).take ((encodeCps (cs ++ [c])).length - 3) = encodeCps cs := by
  rw [encodeCps_append, encodeCps_singleton, List.length_append, length_gutf8_lead c h]
  simp

theorem drop_encode_trail (cs : List Nat) (c : Nat) (h : IsSurrogate c) :
    (encodeCps (c :: cs)).drop 3 = encodeCps cs := by
  rw [encodeCps_cons]
  have := length_gutf8_lead c h
  rw [← this]
  simp

/-- `push_wtf8` on well-formed operands: the resulting code points. -/
theorem pushWtf8_spec (cs ds : List Nat) (h1 : ValidCps cs) (h2 : ValidCps ds) :
    ∃ es, ValidCps es ∧ pushWtf8 (encodeCps cs) (encodeCps ds) = encodeCps es ∧
      utf16All es = utf16All cs ++ utf16All ds := by
  have plain : (∀ a ∈ cs.getLast?, ∀ b ∈ ds.head?, ¬ (IsLead a ∧ IsTrail b)) →
      pushWtf8 (encodeCps cs) (encodeCps ds) = encodeCps cs ++ encodeCps ds →
      ∃ es, ValidCps es ∧ pushWtf8 (encodeCps cs) (encodeCps ds) = encodeCps es ∧
        utf16All es = utf16All cs ++ utf16All ds := by
    intro hs he
    refine ⟨cs ++ ds, ⟨?_, ?_⟩, ?_, utf16All_append _ _⟩
    · intro c hc
      rcases List.mem_append.mp hc with hc | hc
      · exact h1.1 c hc
      · exact h2.1 c hc
    · exact (NoPair_append cs ds).mpr ⟨h1.2, h2.2, hs⟩
    · rw [he, encodeCps_append]
  rcases List.eq_nil_or_concat cs with rfl | ⟨cs', p, rfl⟩
  · exact plain (by simp) (by simp [pushWtf8, encodeCps, finalLead_nil])
  rw [List.concat_eq_append] at *
  cases ds with
  | nil => exact plain (by simp) (by
      unfold pushWtf8
      have : initialTrailSurrogate (encodeCps []) = none := rfl
      rw [this]; split <;> simp_all)
  | cons q ds =>
    have hp : IsCodePoint p := h1.1 p (by simp)
    have hq : IsCodePoint q := h2.1 q (by simp)
    have e1 := finalLead_encode cs' p (fun x hx => h1.1 x (by simp [hx])) hp
    have e2 := initialTrail_encode q ds hq
    by_cases hpq : IsLead p ∧ IsTrail q
    · obtain ⟨hl, ht⟩ := hpq
      rw [if_pos hl] at e1
      rw [if_pos ht] at e2
      have pv : (UInt16.ofNat p).toNat = p := by
        rw [u16_ofNat_toNat]; have := hl.2; omega
      have qv : (UInt16.ofNat q).toNat = q := by
        rw [u16_ofNat_toNat]; have := ht.2; omega
      obtain ⟨k1, k2, k3⟩ := utf16_pair (UInt16.ofNat p) (UInt16.ofNat q) (by rwa [pv]) (by rwa [qv])
      refine ⟨cs' ++ decodeSurrogatePair (UInt16.ofNat p) (UInt16.ofNat q) :: ds, ⟨?_, ?_⟩, ?_, ?_⟩
      · intro c hc
        rcases List.mem_append.mp hc with hc | hc
        · exact h1.1 c (by simp [hc])
        · rcases List.mem_cons.mp hc with hc | hc
          · rw [hc]; exact k2
          · exact h2.1 c (by simp [hc])
      · rw [NoPair_append, NoPair_cons]
        have n1 := (NoPair_append _ _).mp h1.2
        have n2 := (NoPair_cons _ _).mp h2.2
        refine ⟨n1.1, ⟨fun b hb hh => ?_, n2.2⟩, fun a ha b hb hh => ?_⟩
        · exact k3 ⟨hh.1.1, by have := hh.1.2; omega⟩
        · simp at hb
          rw [← hb] at hh
          exact k3 ⟨by have := hh.2.1; omega, hh.2.2⟩
      · unfold pushWtf8
        rw [e1, e2]
        simp only
        rw [take_encode_lead cs' p ⟨hl.1, by have := hl.2; omega⟩,
          drop_encode_trail ds q ⟨by have := ht.1; omega, ht.2⟩, pushUnchecked,
          encodeUtf8Raw_eq _ k2, encodeCps_append, encodeCps_cons, List.append_assoc]
      · rw [utf16All_append, utf16All_cons, k1, utf16All_append, utf16All_cons]
        have : utf16 p = [UInt16.ofNat p] := by
          unfold utf16; rw [if_pos (by have := hl.2; omega)]
        have h' : utf16 q = [UInt16.ofNat q] := by
          unfold utf16; rw [if_pos (by have := ht.2; omega)]
        rw [this, utf16All_cons, h']
        simp [utf16All]
    · refine plain ?_ ?_
      · simpa using hpq
      · unfold pushWtf8
        rw [e1, e2]
        by_cases hl : IsLead p
        · have ht : ¬ IsTrail q := fun ht => hpq ⟨hl, ht⟩
          rw [if_neg ht]
          split
          · simp_all
          · rfl
        · rw [if_neg hl]

theorem push_spec (cs : List Nat) (c : Nat) (h1 : ValidCps cs) (hc : IsCodePoint c) :
    push (encodeCps cs) c = pushWtf8 (encodeCps cs) (encodeCps [c]) := by
  unfold push pushWtf8
  rw [initialTrail_encode c [] hc, encodeCps_singleton]
  by_cases ht : IsTrail c
  · rw [if_pos ht, if_pos (show 0xDC00 ≤ c ∧ c ≤ 0xDFFF from ht)]
    cases hf : finalLeadSurrogate (encodeCps cs) with
    | none => simp [pushUnchecked, encodeUtf8Raw_eq c hc]
    | some l =>
      have : (gutf8 c).drop 3 = [] := by
        rw [List.drop_eq_nil_iff, length_gutf8_lead c ⟨by have := ht.1; omega, ht.2⟩]
        exact Nat.le_refl _
      simp [this]
  · rw [if_neg ht, if_neg (show ¬ (0xDC00 ≤ c ∧ c ≤ 0xDFFF) from ht)]
    cases hf : finalLeadSurrogate (encodeCps cs) <;> simp [pushUnchecked, encodeUtf8Raw_eq c hc]

end Verif.Wtf8
