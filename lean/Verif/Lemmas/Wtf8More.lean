import Verif.Lemmas.Wtf8Api

/-! Helper lemmas: order, hashing, hints and continued input. -/

namespace Verif.Wtf8
open Verif.Spec Verif.Bits

/-! ### Order -/

theorem cmp_append (u s t : Bytes) : cmp (u ++ s) (u ++ t) = cmp s t := by
  induction u with
  | nil => rfl
  | cons a u ih =>
    rw [List.cons_append, List.cons_append, cmp, if_neg (by simp), if_neg (by simp), ih]

theorem cmp_swap (s t : Bytes) : cmp t s = (cmp s t).swap := by
  fun_induction cmp s t with
  | case1 => rfl
  | case2 => rfl
  | case3 => rfl
  | case4 a s b t h =>
    rw [cmp, if_neg, if_pos h]; · rfl
    rw [UInt8.lt_iff_toNat_lt] at *; omega
  | case5 a s b t h1 h2 => rw [cmp, if_pos h2]; rfl
  | case6 a s b t h1 h2 ih => rw [cmp, if_neg h2, if_neg h1, ih]

theorem cmpCps_swap (s t : List Nat) : cmpCps t s = (cmpCps s t).swap := by
  fun_induction cmpCps s t with
  | case1 => rfl
  | case2 => rfl
  | case3 => rfl
  | case4 a s b t h => rw [cmpCps, if_neg (by omega), if_pos h]; rfl
  | case5 a s b t h1 h2 => rw [cmpCps, if_pos h2]; rfl
  | case6 a s b t h1 h2 ih => rw [cmpCps, if_neg h2, if_neg h1, ih]

theorem cmp_eq_iff (s t : Bytes) : cmp s t = .eq ↔ s = t := by
  fun_induction cmp s t with
  | case1 => simp
  | case2 => simp
  | case3 => simp
  | case4 a s b t h =>
    simp only [reduceCtorEq, List.cons.injEq, false_iff, not_and]
    rintro rfl
    simp at h
  | case5 a s b t h1 h2 =>
    simp only [reduceCtorEq, List.cons.injEq, false_iff, not_and]
    rintro rfl
    simp at h2
  | case6 a s b t h1 h2 ih =>
    have : a = b := by
      apply u8_ext
      rw [UInt8.lt_iff_toNat_lt] at h1 h2
      omega
    subst this
    simp [ih]

theorem cmp_trans (s t u : Bytes) (h1 : cmp s t = .lt) (h2 : cmp t u = .lt) : cmp s u = .lt := by
  fun_induction cmp s t generalizing u with
  | case1 => simp at h1
  | case2 b t =>
    cases u with
    | nil => simp [cmp] at h2
    | cons c u => rfl
  | case3 => simp at h1
  | case4 a s b t h =>
    cases u with
    | nil => simp [cmp] at h2
    | cons c u =>
      rw [cmp] at h2 ⊢
      simp only [UInt8.lt_iff_toNat_lt] at *
      split at h2
      · rw [if_pos (by omega)]
      · split at h2
        · simp at h2
        · rw [if_pos (by omega)]
  | case5 a s b t _ h => simp at h1
  | case6 a s b t h3 h4 ih =>
    have : a = b := by
      apply u8_ext
      rw [UInt8.lt_iff_toNat_lt] at h3 h4
      omega
    subst this
    cases u with
    | nil => simp [cmp] at h2
    | cons c u =>
      rw [cmp] at h2 ⊢
      split at h2
      · rename_i h; rw [if_pos h]
      · rename_i h
        rw [if_neg h]
        split at h2
        · simp at h2
        · rename_i h'; rw [if_neg h']; exact ih u h1 h2

theorem cmp_gutf8 (c d : Nat) (hc : IsCodePoint c) (hd : IsCodePoint d) (h : c < d) (x y : Bytes) :
    cmp (gutf8 c ++ x) (gutf8 d ++ y) = .lt := by
  unfold IsCodePoint at hc hd
  rcases gutf8_cases c hc with ⟨k1, a, e, ha⟩ | ⟨k1, k2, a, b, e, ha, hb⟩ |
      ⟨k1, k2, a, b, q, e, ha, hb, hq⟩ | ⟨k1, a, b, q, r, e, ha, hb, hq, hr⟩ <;>
  rcases gutf8_cases d hd with ⟨k1', a', e', ha'⟩ | ⟨k1', k2', a', b', e', ha', hb'⟩ |
      ⟨k1', k2', a', b', q', e', ha', hb', hq'⟩ | ⟨k1', a', b', q', r', e', ha', hb', hq', hr'⟩ <;>
  rw [e, e'] <;> simp only [List.cons_append, List.nil_append, cmp, UInt8.lt_iff_toNat_lt] <;>
  repeat' split
  all_goals first | rfl | (exfalso; omega)

theorem cmp_nil_gutf8 (c : Nat) (x : Bytes) : cmp [] (gutf8 c ++ x) = .lt := by
  cases h : gutf8 c with
  | nil => exact absurd h (gutf8_ne_nil c)
  | cons a t => rfl

theorem cmp_encode (cs ds : List Nat) (hc : ∀ c ∈ cs, IsCodePoint c) (hd : ∀ c ∈ ds, IsCodePoint c) :
    cmp (encodeCps cs) (encodeCps ds) = cmpCps cs ds := by
  fun_induction cmpCps cs ds with
  | case1 => rfl
  | case2 a s => rw [encodeCps_cons]; exact cmp_nil_gutf8 _ _
  | case3 a s => rw [encodeCps_cons, cmp_swap]; erw [cmp_nil_gutf8]; rfl
  | case4 a s b t h =>
    rw [encodeCps_cons, encodeCps_cons]
    exact cmp_gutf8 a b (hc a (by simp)) (hd b (by simp)) h _ _
  | case5 a s b t h1 h2 =>
    rw [encodeCps_cons, encodeCps_cons, cmp_swap,
      cmp_gutf8 b a (hd b (by simp)) (hc a (by simp)) h2 _ _]
    rfl
  | case6 a s b t h1 h2 ih =>
    have : a = b := by omega
    subst this
    rw [encodeCps_cons, encodeCps_cons, cmp_append,
      ih (fun c h => hc c (by simp [h])) (fun c h => hd c (by simp [h]))]

/-! ### ASCII bytes -/

theorem length_gutf8' (c : Nat) : 1 ≤ (gutf8 c).length ∧ (gutf8 c).length ≤ 4 := by
  unfold gutf8
  repeat' split
  all_goals simp

theorem gutf8_high (c : Nat) (h : IsCodePoint c) (hc : 128 ≤ c) (i : Nat) (x : UInt8)
    (hx : (gutf8 c)[i]? = some x) : 128 ≤ x.toNat := by
  have hmem : x ∈ gutf8 c := List.mem_of_getElem? hx
  rcases gutf8_cases c h with ⟨k1, a, e, ha⟩ | ⟨k1, k2, a, b, e, ha, hb⟩ |
      ⟨k1, k2, a, b, q, e, ha, hb, hq⟩ | ⟨k1, a, b, q, r, e, ha, hb, hq, hr⟩ <;>
  rw [e] at hmem <;> simp only [List.mem_cons, List.not_mem_nil, or_false] at hmem
  · omega
  · rcases hmem with rfl | rfl <;> omega
  · rcases hmem with rfl | rfl | rfl <;> omega
  · rcases hmem with rfl | rfl | rfl | rfl <;> omega

/-- The bytes below 128 are the ASCII code points. -/
theorem ascii_at (cs : List Nat) (h : ∀ c ∈ cs, IsCodePoint c) (i : Nat) (x : UInt8)
    (hx : x.toNat < 128) : (encodeCps cs)[i]? = some x ↔
      ∃ k, cs[k]? = some x.toNat ∧ i = (encodeCps (cs.take k)).length := by
  induction cs generalizing i with
  | nil => simp [encodeCps]
  | cons c cs ih =>
    have hc := h c (by simp)
    have ih := ih fun y hy => h y (by simp [hy])
    have hpos := (length_gutf8' c).1
    rw [encodeCps_cons, List.getElem?_append]
    by_cases hi : i < (gutf8 c).length
    · rw [if_pos hi]
      constructor
      · intro e
        have hlt : c < 128 := by
          apply Nat.lt_of_not_le
          intro hge
          have := gutf8_high c hc hge i x e
          omega
        have e1 : gutf8 c = [UInt8.ofNat c] := by unfold gutf8; rw [if_pos hlt]
        rw [e1] at e hi
        simp at hi
        subst hi
        simp only [List.getElem?_cons_zero, Option.some.injEq] at e
        subst e
        refine ⟨0, ?_, rfl⟩
        rw [u8_ofNat_toNat, Nat.mod_eq_of_lt (by omega)]
        rfl
      · rintro ⟨k, hk, rfl⟩
        cases k with
        | zero =>
          simp only [List.getElem?_cons_zero, Option.some.injEq] at hk
          subst hk
          have e1 : gutf8 x.toNat = [x] := gutf8_of_one x hx
          rw [e1]
          rfl
        | succ k =>
          rw [List.take_succ_cons, encodeCps_cons, List.length_append] at hi
          omega
    · rw [if_neg hi, ih]
      constructor
      · rintro ⟨k, hk, e⟩
        refine ⟨k + 1, by simpa using hk, ?_⟩
        rw [List.take_succ_cons, encodeCps_cons, List.length_append]
        omega
      · rintro ⟨k, hk, rfl⟩
        cases k with
        | zero => exact absurd (show (0 : Nat) < _ by omega) hi
        | succ k =>
          refine ⟨k, by simpa using hk, ?_⟩
          rw [List.take_succ_cons, encodeCps_cons, List.length_append]
          omega

/-! ### Hashing -/

theorem gutf8_noFE (c : Nat) (h : IsCodePoint c) : (0xFE : UInt8) ∉ gutf8 c := by
  have hc := h
  unfold IsCodePoint at hc
  have key : ∀ x : UInt8, x.toNat < 0xFE → (0xFE : UInt8) ≠ x := by
    intro x hx e
    subst e
    simp at hx
  rcases gutf8_cases c h with ⟨k1, a, e, ha⟩ | ⟨k1, k2, a, b, e, ha, hb⟩ |
      ⟨k1, k2, a, b, q, e, ha, hb, hq⟩ | ⟨k1, a, b, q, r, e, ha, hb, hq, hr⟩ <;>
  rw [e] <;> simp only [List.mem_cons, List.not_mem_nil, or_false, not_or]
  · exact key a (by omega)
  · exact ⟨key a (by omega), key b (by omega)⟩
  · exact ⟨key a (by omega), key b (by omega), key q (by omega)⟩
  · exact ⟨key a (by omega), key b (by omega), key q (by omega), key r (by omega)⟩

theorem encode_noFE (cs : List Nat) (h : ∀ c ∈ cs, IsCodePoint c) : (0xFE : UInt8) ∉ encodeCps cs := by
  unfold encodeCps
  simp only [List.mem_flatMap, not_exists, not_and]
  exact fun c hc => gutf8_noFE c (h c hc)

theorem split_stop {s t x y : Bytes} {b : UInt8} (hs : b ∉ s) (ht : b ∉ t)
    (h : s ++ b :: x = t ++ b :: y) : s = t ∧ x = y := by
  induction s generalizing t with
  | nil =>
    cases t with
    | nil => simp at h; exact ⟨rfl, h⟩
    | cons c t => simp at h; simp [h.1] at ht
  | cons a s ih =>
    cases t with
    | nil => simp at h; simp [h.1] at hs
    | cons c t =>
      simp at h hs ht
      obtain ⟨e1, e2⟩ := ih hs.2 ht.2 h.2
      exact ⟨by rw [h.1, e1], e2⟩

/-! ### Hints -/

theorem length_encode (cs : List Nat) :
    cs.length ≤ (encodeCps cs).length ∧ (encodeCps cs).length ≤ 4 * cs.length := by
  induction cs with
  | nil => simp [encodeCps]
  | cons c cs ih =>
    have := length_gutf8' c
    rw [encodeCps_cons, List.length_append, List.length_cons]
    omega

theorem length_utf16 (c : Nat) : 1 ≤ (utf16 c).length ∧ (utf16 c).length ≤ 2 := by
  unfold utf16; split <;> simp

theorem length_utf16All (cs : List Nat) :
    cs.length ≤ (utf16All cs).length ∧ (utf16All cs).length ≤ 2 * cs.length := by
  induction cs with
  | nil => simp [utf16All]
  | cons c cs ih =>
    have := length_utf16 c
    rw [utf16All_cons, List.length_append, List.length_cons]
    omega

/-- What remains to be seen of `encode_wide()` in a state. -/
theorem encodeWideFrom_encode (cs : List Nat) (h : ∀ c ∈ cs, IsCodePoint c) (e : UInt16) :
    encodeWideFrom (encodeCps cs) e = some ((if e ≠ 0 then [e] else []) ++ utf16All cs) := by
  have h0 : encodeWideFrom (encodeCps cs) 0 = some (utf16All cs) :=
    encodeWide_loose (LooseEnc_of_encode cs h)
  by_cases he : e = 0
  · subst he; simpa using h0
  · rw [encodeWideFrom_nil_extra _ _ he, h0, if_pos he]; rfl

theorem nextWide_encode (c : Nat) (cs : List Nat) (h : IsCodePoint c) :
    ∃ u e, nextWide (encodeCps (c :: cs)) 0 = .item u (encodeCps cs) e ∧
      utf16 c = u :: (if e ≠ 0 then [e] else []) := by
  have hn := nextCodePoint_gutf8 c h (encodeCps cs)
  have he := encodeUtf16Raw_eq c h
  have hc := h
  unfold IsCodePoint at hc
  rw [encodeCps_cons]
  by_cases hb : c < 0x10000
  · rw [utf16_bmp c hb] at he
    exact ⟨UInt16.ofNat c, 0, by simp [nextWide, hn, he], by rw [utf16_bmp c hb]; simp⟩
  · have e2 : utf16 c = [UInt16.ofNat (0xD800 + (c - 0x10000) / 1024),
        UInt16.ofNat (0xDC00 + (c - 0x10000) % 1024)] := by simp [utf16, hb]
    have hne : UInt16.ofNat (0xDC00 + (c - 0x10000) % 1024) ≠ 0 := by
      intro h0
      have := congrArg UInt16.toNat h0
      rw [u16_ofNat_toNat] at this
      simp only [UInt16.reduceToNat] at this
      omega
    rw [e2] at he
    exact ⟨UInt16.ofNat (0xD800 + (c - 0x10000) / 1024), UInt16.ofNat (0xDC00 + (c - 0x10000) % 1024),
      by simp only [nextWide, hn, he]; rfl, by rw [e2, if_pos hne]⟩

/-- The states of `encode_wide()`: what was given out so far and what is still to come. -/
theorem wideAfter_encode (k : Nat) (cs : List Nat) (h : ∀ c ∈ cs, IsCodePoint c) (e : UInt16) :
    ∃ j e', wideAfter (encodeCps cs) e k = some (encodeCps (cs.drop j), e') ∧
      ((if e ≠ 0 then [e] else []) ++ utf16All cs).drop k =
        (if e' ≠ 0 then [e'] else []) ++ utf16All (cs.drop j) := by
  induction k generalizing cs e with
  | zero => exact ⟨0, e, rfl, rfl⟩
  | succ k ih =>
    by_cases he : e = 0
    · subst he
      cases cs with
      | nil =>
        obtain ⟨j, e', h1, h2⟩ := ih [] (by simp) 0
        refine ⟨j, e', ?_, ?_⟩
        · rw [wideAfter]
          simpa [nextWide, encodeCps, nextCodePoint] using h1
        · simpa [utf16All] using h2
      | cons c cs =>
        obtain ⟨u, e2, h1, h2⟩ := nextWide_encode c cs (h c (by simp))
        obtain ⟨j, e', h3, h4⟩ := ih cs (fun x hx => h x (by simp [hx])) e2
        refine ⟨j + 1, e', ?_, ?_⟩
        · rw [wideAfter, h1]
          simpa using h3
        · rw [utf16All_cons, h2]
          simpa using h4
    · obtain ⟨j, e', h1, h2⟩ := ih cs h 0
      refine ⟨j, e', ?_, ?_⟩
      · rw [wideAfter, nextWide, if_pos he]
        exact h1
      · rw [if_pos he]
        simpa using h2

/-! ### More input -/

/-- An error with a length does not depend on what follows. -/
theorem validateFrom_more (i : Nat) (hi : Bool) (bs more : Bytes) (e : Wtf8Error)
    (h : validateFrom i hi bs = .error e) (hl : e.errorLen ≠ none) :
    validateFrom i hi (bs ++ more) = .error e := by
  fun_induction validateFrom i hi bs
  all_goals first
    | (simp at h; done)
    | (injection h with h; subst h; simp at hl; done)
    | skip
  all_goals simp only [List.cons_append]; conv => lhs; unfold validateFrom
  all_goals try rename_i ih; replace ih := ih h hl
  all_goals simp [*]

/-- The length of an error is between 1 and 6. -/
theorem validateFrom_len (i : Nat) (hi : Bool) (bs : Bytes) (e : Wtf8Error) (n : Nat)
    (h : validateFrom i hi bs = .error e) (hl : e.errorLen = some n) : 1 ≤ n ∧ n ≤ 6 := by
  fun_induction validateFrom i hi bs
  all_goals first
    | (simp at h; done)
    | (injection h with h; subst h; simp at hl; done)
    | (injection h with h; subst h; simp at hl; omega)
    | (rename_i ih; exact ih h)

end Verif.Wtf8
