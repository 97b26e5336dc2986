import Verif.Lemmas.Wtf8Validate

/-! UTF-16 conversion and concatenation. -/

namespace Verif.Wtf8
open Verif.Spec Verif.Bits

theorem encodeCps_cons (c : Nat) (cs : List Nat) : encodeCps (c :: cs) = gutf8 c ++ encodeCps cs := by
  simp [encodeCps]

theorem encodeCps_append (cs ds : List Nat) :
    encodeCps (cs ++ ds) = encodeCps cs ++ encodeCps ds := by
  simp [encodeCps]

theorem encodeCps_singleton (c : Nat) : encodeCps [c] = gutf8 c := by simp [encodeCps]

theorem utf16All_cons (c : Nat) (cs : List Nat) : utf16All (c :: cs) = utf16 c ++ utf16All cs := by
  simp [utf16All]

theorem utf16All_append (cs ds : List Nat) :
    utf16All (cs ++ ds) = utf16All cs ++ utf16All ds := by
  simp [utf16All]

/-! ### encode_wide -/

theorem encodeUtf16Raw_eq (c : Nat) (h : IsCodePoint c) : encodeUtf16Raw c = utf16 c := by
  unfold IsCodePoint at h
  unfold encodeUtf16Raw utf16
  rw [andFFFF]
  by_cases hc : c < 0x10000
  · rw [if_pos (by omega), if_pos hc]
  · rw [if_neg (by omega), if_neg hc]
    simp only [List.cons.injEq, and_true]
    constructor
    · apply u16_ext
      rw [UInt16.toNat_or, u16_ofNat_toNat, u16_ofNat_toNat, shr]
      rw [show (c - 0x10000) / 2 ^ 10 % 65536 = (c - 0x10000) / 1024 by omega]
      have := orD800 ((c - 0x10000) / 1024) (by omega)
      simp only [UInt16.reduceToNat]
      omega
    · apply u16_ext
      rw [UInt16.toNat_or, UInt16.toNat_and, u16_ofNat_toNat, u16_ofNat_toNat]
      simp only [UInt16.reduceToNat]
      rw [and3FF, show (c - 0x10000) % 65536 % 1024 = (c - 0x10000) % 1024 by omega]
      have := orDC00 ((c - 0x10000) % 1024) (by omega)
      omega

theorem encodeWideFrom_nil_extra (bs : Bytes) (e : UInt16) (h : e ≠ 0) :
    encodeWideFrom bs e = (encodeWideFrom bs 0).map (e :: ·) := by
  conv => lhs; unfold encodeWideFrom
  have hn : nextWide bs e = .item e bs 0 := by simp [nextWide, h]
  split
  · simp_all
  · simp_all
  · rename_i u r e' hh
    rw [hn] at hh
    obtain ⟨rfl, rfl, rfl⟩ := NextWide.item.inj hh
    rfl

theorem encodeWide_loose {cs : List Nat} {bs : Bytes} (h : LooseEnc cs bs) :
    encodeWide bs = some (utf16All cs) := by
  unfold encodeWide
  induction h with
  | nil => unfold encodeWideFrom; rfl
  | @cons c u cs bs hu _ ih =>
    conv => lhs; unfold encodeWideFrom
    have hn := LooseUnit_next hu bs
    have he := encodeUtf16Raw_eq c hu.1
    have hc := hu.1
    unfold IsCodePoint at hc
    rw [utf16All_cons]
    by_cases hlt : c < 0x10000
    · have hu16 : utf16 c = [UInt16.ofNat c] := by simp [utf16, hlt]
      have hw : nextWide (u ++ bs) 0 = .item (UInt16.ofNat c) bs 0 := by
        simp [nextWide, hn, he, hu16]
      rw [hu16]
      split
      · simp_all
      · simp_all
      · rename_i x r e' hh
        rw [hw] at hh
        obtain ⟨rfl, rfl, rfl⟩ := NextWide.item.inj hh
        rw [ih]; rfl
    · have hu16 : utf16 c = [UInt16.ofNat (0xD800 + (c - 0x10000) / 1024),
          UInt16.ofNat (0xDC00 + (c - 0x10000) % 1024)] := by simp [utf16, hlt]
      have hw : nextWide (u ++ bs) 0 = .item (UInt16.ofNat (0xD800 + (c - 0x10000) / 1024)) bs
          (UInt16.ofNat (0xDC00 + (c - 0x10000) % 1024)) := by
        simp [nextWide, hn, he, hu16]
      rw [hu16]
      have hne : UInt16.ofNat (0xDC00 + (c - 0x10000) % 1024) ≠ 0 := by
        intro h0
        have := congrArg UInt16.toNat h0
        rw [u16_ofNat_toNat] at this
        simp only [UInt16.reduceToNat] at this
        omega
      split
      · simp_all
      · simp_all
      · rename_i x r e' hh
        rw [hw] at hh
        obtain ⟨rfl, rfl, rfl⟩ := NextWide.item.inj hh
        rw [encodeWideFrom_nil_extra _ _ hne, ih]; rfl

/-! ### from_wide -/

/-- The code point of an item of `decode_utf16`. -/
def itemCp : Nat ⊕ Nat → Nat
  | .inl c => c
  | .inr c => c

/-- Code points produced by `decode_utf16`. -/
def decodeCps (v : List UInt16) : List Nat := (decodeUtf16 v).map itemCp

theorem fromWide_eq (v : List UInt16) (h : ∀ c ∈ decodeCps v, IsCodePoint c) :
    fromWide v = encodeCps (decodeCps v) := by
  unfold fromWide decodeCps at *
  generalize decodeUtf16 v = l at h
  suffices ∀ acc : Bytes, l.foldl pushItem acc = acc ++ encodeCps (l.map itemCp) by
    simpa using this []
  intro acc
  induction l generalizing acc with
  | nil => simp [encodeCps]
  | cons x l ih =>
    have hx := h (itemCp x) (by simp)
    have hl : ∀ c ∈ l.map itemCp, IsCodePoint c :=
      fun c hc => h c (by rw [List.map_cons]; exact List.mem_cons_of_mem _ hc)
    rw [List.foldl_cons, ih hl, List.map_cons, encodeCps_cons, ← encodeUtf8Raw_eq _ hx]
    cases x <;> simp [pushItem, pushUnchecked, itemCp]

theorem decodeCps_spec (v : List UInt16) :
    ValidCps (decodeCps v) ∧ utf16All (decodeCps v) = v ∧
      (∀ c ∈ (decodeCps v).head?, IsTrail c → ∃ u t, v = u :: t ∧ 0xDC00 ≤ u.toNat ∧ u.toNat ≤ 0xDFFF) := by
  fun_induction decodeUtf16 v with
  | case1 => simp [decodeCps, decodeUtf16, ValidCps, NoPair, utf16All]
  | case2 u t h ih =>
    have e : decodeCps (u :: t) = u.toNat :: decodeCps t := by
      conv => lhs; unfold decodeCps; unfold decodeUtf16
      rw [if_pos h]; rfl
    have hu := u16_lt u
    rw [e]
    obtain ⟨⟨i1, i2⟩, i3, i4⟩ := ih
    refine ⟨⟨?_, ?_⟩, ?_, ?_⟩
    · simp only [List.mem_cons, forall_eq_or_imp]
      exact ⟨by unfold IsCodePoint; omega, i1⟩
    · rw [NoPair_cons]
      refine ⟨fun b hb hh => ?_, i2⟩
      unfold IsLead at hh; omega
    · rw [utf16All_cons, i3]
      have : utf16 u.toNat = [u] := by simp [utf16]; omega
      rw [this]; rfl
    · intro c hc ht
      simp at hc
      subst hc
      exact ⟨u, t, rfl, ht⟩
  | case3 u t h h2 ih =>
    have e : decodeCps (u :: t) = u.toNat :: decodeCps t := by
      conv => lhs; unfold decodeCps; unfold decodeUtf16
      rw [if_neg h, if_pos h2]; rfl
    have hu := u16_lt u
    rw [e]
    obtain ⟨⟨i1, i2⟩, i3, i4⟩ := ih
    refine ⟨⟨?_, ?_⟩, ?_, ?_⟩
    · simp only [List.mem_cons, forall_eq_or_imp]
      exact ⟨by unfold IsCodePoint; omega, i1⟩
    · rw [NoPair_cons]
      refine ⟨fun b hb hh => ?_, i2⟩
      unfold IsLead at hh; omega
    · rw [utf16All_cons, i3]
      have : utf16 u.toNat = [u] := by simp [utf16]; omega
      rw [this]; rfl
    · intro c hc ht
      simp at hc
      subst hc
      exact ⟨u, t, rfl, ht⟩
  | case4 u h h2 =>
    have e : decodeCps [u] = [u.toNat] := by
      unfold decodeCps; rw [decodeUtf16, if_neg h, if_neg h2]; rfl
    have hu := u16_lt u
    rw [e]
    refine ⟨⟨?_, trivial⟩, ?_, ?_⟩
    · simp; unfold IsCodePoint; omega
    · have : utf16 u.toNat = [u] := by simp [utf16]; omega
      simp [utf16All, this]
    · intro c hc ht
      simp at hc
      subst hc
      exact ⟨u, [], rfl, ht⟩
  | case5 u h h2 u2 t' h3 ih =>
    have e : decodeCps (u :: u2 :: t') = u.toNat :: decodeCps (u2 :: t') := by
      conv => lhs; unfold decodeCps; unfold decodeUtf16
      rw [if_neg h, if_neg h2]
      dsimp only
      rw [if_pos h3]
      rfl
    have hu := u16_lt u
    rw [e]
    obtain ⟨⟨i1, i2⟩, i3, i4⟩ := ih
    refine ⟨⟨?_, ?_⟩, ?_, ?_⟩
    · intro c hc
      rcases List.mem_cons.mp hc with rfl | hc
      · unfold IsCodePoint; omega
      · exact i1 c hc
    · rw [NoPair_cons]
      refine ⟨fun b hb hh => ?_, i2⟩
      obtain ⟨u', t'', h1, h4, h5⟩ := i4 b hb hh.2
      obtain ⟨rfl, _⟩ := List.cons.inj h1
      omega
    · rw [utf16All_cons, i3]
      have : utf16 u.toNat = [u] := by simp [utf16]; omega
      rw [this]; rfl
    · intro c hc ht
      simp at hc
      subst hc
      unfold IsTrail at ht; omega
  | case6 u h h2 u2 t' h3 ih =>
    have hu := u16_lt u
    obtain ⟨k, val, hk⟩ : ∃ k, ((u.toNat &&& 0x3FF) <<< 10 ||| (u2.toNat &&& 0x3FF)) + 0x10000 = k ∧
        k = 0x10000 + (u.toNat - 0xD800) * 1024 + (u2.toNat - 0xDC00) := by
      refine ⟨_, rfl, ?_⟩
      rw [and3FF, and3FF, shl_or _ _ _ (by omega)]
      omega
    have e : decodeCps (u :: u2 :: t') = k :: decodeCps t' := by
      conv => lhs; unfold decodeCps; unfold decodeUtf16
      rw [if_neg h, if_neg h2]
      dsimp only
      rw [if_neg h3, val]
      rfl
    rw [e]
    obtain ⟨⟨i1, i2⟩, i3, i4⟩ := ih
    refine ⟨⟨?_, ?_⟩, ?_, ?_⟩
    · intro c hc
      rcases List.mem_cons.mp hc with hc | hc
      · unfold IsCodePoint; omega
      · exact i1 c hc
    · rw [NoPair_cons]
      refine ⟨fun b hb hh => ?_, i2⟩
      have hh1 := hh.1.2
      omega
    · rw [utf16All_cons, i3]
      have : utf16 k = [u, u2] := by
        unfold utf16
        rw [if_neg (by omega)]
        simp only [List.cons.injEq, and_true]
        constructor
        · apply u16_ext; rw [u16_ofNat_toNat]; omega
        · apply u16_ext; rw [u16_ofNat_toNat]; omega
      rw [this]; rfl
    · intro c hc ht
      simp at hc
      unfold IsTrail at ht; omega

theorem decodeCps_utf16All (cs : List Nat) (h : ValidCps cs) : decodeCps (utf16All cs) = cs := by
  obtain ⟨h1, h2⟩ := h
  induction cs with
  | nil => simp [utf16All, decodeCps, decodeUtf16]
  | cons c cs ih =>
    rw [NoPair_cons] at h2
    have ih := ih (fun x hx => h1 x (by simp [hx])) h2.2
    have hc : IsCodePoint c := h1 c (by simp)
    unfold IsCodePoint at hc
    rw [utf16All_cons]
    by_cases hlt : c < 0x10000
    · have hu16 : utf16 c = [UInt16.ofNat c] := by simp [utf16, hlt]
      have hv : (UInt16.ofNat c).toNat = c := by rw [u16_ofNat_toNat]; omega
      rw [hu16]
      generalize UInt16.ofNat c = u at hv
      subst hv
      simp only [List.cons_append, List.nil_append]
      unfold decodeCps at ih ⊢
      unfold decodeUtf16
      by_cases q1 : u.toNat < 0xD800 ∨ 0xDFFF < u.toNat
      · rw [if_pos q1]; rw [List.map_cons, ih]; rfl
      rw [if_neg q1]
      by_cases q2 : u.toNat ≥ 0xDC00
      · rw [if_pos q2]; rw [List.map_cons, ih]; rfl
      rw [if_neg q2]
      cases cs with
      | nil => simp [utf16All, itemCp]
      | cons d ds =>
        have hd : IsCodePoint d := h1 d (by simp)
        unfold IsCodePoint at hd
        have hnt := h2.1 d (by simp)
        have hnd : ¬ IsTrail d := fun ht => hnt ⟨⟨by omega, by omega⟩, ht⟩
        unfold IsTrail at hnd
        rw [utf16All_cons] at ih ⊢
        by_cases hlt2 : d < 0x10000
        · have hu16 : utf16 d = [UInt16.ofNat d] := by simp [utf16, hlt2]
          have hv : (UInt16.ofNat d).toNat = d := by rw [u16_ofNat_toNat]; omega
          rw [hu16] at ih ⊢
          generalize UInt16.ofNat d = u2 at hv ih
          simp only [List.cons_append, List.nil_append] at ih ⊢
          rw [if_pos (by omega)]
          rw [List.map_cons, ih]; rfl
        · have hu16 : utf16 d = [UInt16.ofNat (0xD800 + (d - 0x10000) / 1024),
              UInt16.ofNat (0xDC00 + (d - 0x10000) % 1024)] := by simp [utf16, hlt2]
          have hv : (UInt16.ofNat (0xD800 + (d - 0x10000) / 1024)).toNat =
              0xD800 + (d - 0x10000) / 1024 := by rw [u16_ofNat_toNat]; omega
          rw [hu16] at ih ⊢
          generalize UInt16.ofNat (0xD800 + (d - 0x10000) / 1024) = u2 at hv ih
          simp only [List.cons_append, List.nil_append] at ih ⊢
          rw [if_pos (by omega)]
          rw [List.map_cons, ih]; rfl
    · have hu16 : utf16 c = [UInt16.ofNat (0xD800 + (c - 0x10000) / 1024),
          UInt16.ofNat (0xDC00 + (c - 0x10000) % 1024)] := by simp [utf16, hlt]
      have hv : (UInt16.ofNat (0xD800 + (c - 0x10000) / 1024)).toNat =
          0xD800 + (c - 0x10000) / 1024 := by rw [u16_ofNat_toNat]; omega
      have hv2 : (UInt16.ofNat (0xDC00 + (c - 0x10000) % 1024)).toNat =
          0xDC00 + (c - 0x10000) % 1024 := by rw [u16_ofNat_toNat]; omega
      rw [hu16]
      generalize UInt16.ofNat (0xD800 + (c - 0x10000) / 1024) = u at hv
      generalize UInt16.ofNat (0xDC00 + (c - 0x10000) % 1024) = u2 at hv2
      simp only [List.cons_append, List.nil_append]
      unfold decodeCps at ih ⊢
      unfold decodeUtf16
      rw [if_neg (by omega), if_neg (by omega)]
      dsimp only
      rw [if_neg (by omega), and3FF, and3FF, shl_or _ _ _ (by omega)]
      rw [List.map_cons, ih]
      simp only [List.cons.injEq, and_true, itemCp]
      omega

end Verif.Wtf8
