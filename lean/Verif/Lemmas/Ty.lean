import Verif.Spec.Ty
import Verif.Lemmas.Rw

namespace Verif.JType
open Verif.Spec Verif.Wtf8

theorem pushChar_encode (cs : List Nat) (c : Nat) (h : IsCodePoint c) :
    pushChar (encodeCps cs) c = encodeCps (cs ++ [c]) := by
  rw [pushChar, pushUnchecked, encodeUtf8Raw_eq c h, encodeCps_append, encodeCps_singleton]

theorem pushWtf8_after (cs ns : List Nat) (c : Nat) (hc : IsCodePoint c) (hl : ¬ IsLead c)
    (h : ∀ x ∈ cs, IsCodePoint x) :
    pushWtf8 (encodeCps (cs ++ [c])) (encodeCps ns) = encodeCps (cs ++ [c] ++ ns) := by
  unfold pushWtf8
  rw [finalLead_encode cs c h hc, if_neg hl, encodeCps_append (cs ++ [c])]

theorem pushChar_replicate (n : Nat) (cs : List Nat) :
    (List.replicate n 0x5B).foldl pushChar (encodeCps cs) =
      encodeCps (cs ++ List.replicate n 0x5B) := by
  induction n generalizing cs with
  | zero => simp
  | succ n ih =>
    rw [List.replicate_succ, List.foldl_cons, pushChar_encode cs _ (by unfold IsCodePoint; omega), ih]
    simp

mutual
theorem Desc_isCodePoint {t : JType} {ds : List Nat} (h : Desc t ds) : ∀ c ∈ ds, IsCodePoint c := by
  cases h with
  | ref hv =>
    intro c hc
    simp only [List.mem_cons, List.mem_append, List.not_mem_nil, or_false] at hc
    rcases hc with rfl | hc | rfl
    · unfold IsCodePoint; omega
    · exact hv.1 c hc
    · unfold IsCodePoint; omega
  | array h' =>
    intro c hc
    rw [List.mem_append] at hc
    rcases hc with hc | hc
    · rw [List.eq_of_mem_replicate hc]; unfold IsCodePoint; omega
    · exact Desc_isCodePoint h' c hc
  | void h' =>
    intro c hc
    simp only [List.mem_cons, List.mem_append, List.not_mem_nil, or_false] at hc
    rcases hc with rfl | hc | rfl | rfl
    · unfold IsCodePoint; omega
    · exact DescList_isCodePoint h' c hc
    · unfold IsCodePoint; omega
    · unfold IsCodePoint; omega
  | method h' hr =>
    intro c hc
    simp only [List.mem_cons, List.mem_append] at hc
    rcases hc with rfl | hc | rfl | hc
    · unfold IsCodePoint; omega
    · exact DescList_isCodePoint h' c hc
    · unfold IsCodePoint; omega
    · exact Desc_isCodePoint hr c hc
  | _ => intro c hc; simp at hc; subst hc; unfold IsCodePoint; omega
theorem DescList_isCodePoint {ts : List JType} {ds : List Nat} (h : DescList ts ds) :
    ∀ c ∈ ds, IsCodePoint c := by
  cases h with
  | nil => simp
  | cons h1 h2 =>
    intro c hc
    rw [List.mem_append] at hc
    rcases hc with hc | hc
    · exact Desc_isCodePoint h1 c hc
    · exact DescList_isCodePoint h2 c hc
end

mutual
theorem writeType_desc {t : JType} {ds : List Nat} (h : Desc t ds) (cs : List Nat)
    (hc : ∀ c ∈ cs, IsCodePoint c) : writeType t (encodeCps cs) = encodeCps (cs ++ ds) := by
  cases h with
  | ref hv =>
    rw [writeType, pushChar_encode cs _ (by unfold IsCodePoint; omega),
      pushWtf8_after cs _ _ (by unfold IsCodePoint; omega) (by unfold IsLead; omega) hc,
      pushChar_encode _ _ (by unfold IsCodePoint; omega)]
    simp
  | array h' =>
    rw [writeType, pushChar_replicate, writeType_desc h']
    · simp
    · intro c hx
      rw [List.mem_append] at hx
      rcases hx with hx | hx
      · exact hc c hx
      · rw [List.eq_of_mem_replicate hx]; unfold IsCodePoint; omega
  | void h' =>
    rw [writeType, pushChar_encode cs _ (by unfold IsCodePoint; omega), writeTypes_desc h',
      pushChar_encode _ _ (by unfold IsCodePoint; omega)]
    · rw [pushChar_encode _ _ (by unfold IsCodePoint; omega)]
      simp
    · intro c hx
      rw [List.mem_append, List.mem_singleton] at hx
      rcases hx with hx | rfl
      · exact hc c hx
      · unfold IsCodePoint; omega
  | method h' hr =>
    rw [writeType, pushChar_encode cs _ (by unfold IsCodePoint; omega), writeTypes_desc h',
      pushChar_encode _ _ (by unfold IsCodePoint; omega)]
    · rw [writeType_desc hr]
      · simp
      · intro c hx
        simp only [List.mem_append, List.mem_singleton] at hx
        rcases hx with ((hx | rfl) | hx) | rfl
        · exact hc c hx
        · unfold IsCodePoint; omega
        · exact DescList_isCodePoint h' c hx
        · unfold IsCodePoint; omega
    · intro c hx
      rw [List.mem_append, List.mem_singleton] at hx
      rcases hx with hx | rfl
      · exact hc c hx
      · unfold IsCodePoint; omega
  | _ => rw [writeType, pushChar_encode cs _ (by unfold IsCodePoint; omega)]
theorem writeTypes_desc {ts : List JType} {ds : List Nat} (h : DescList ts ds) (cs : List Nat)
    (hc : ∀ c ∈ cs, IsCodePoint c) : writeTypes ts (encodeCps cs) = encodeCps (cs ++ ds) := by
  cases h with
  | nil => simp [writeTypes]
  | cons h1 h2 =>
    rw [writeTypes, writeType_desc h1 cs hc, writeTypes_desc h2]
    · simp
    · intro c hx
      rw [List.mem_append] at hx
      rcases hx with hx | hx
      · exact hc c hx
      · exact Desc_isCodePoint h1 c hx
end

/-! ### Parsing printed field types -/

theorem takeWhile_semi (ns rest : List Nat) (h : 0x3B ∉ ns) :
    (ns ++ 0x3B :: rest).takeWhile (· ≠ 0x3B) = ns ∧
      (ns ++ 0x3B :: rest).dropWhile (· ≠ 0x3B) = 0x3B :: rest := by
  induction ns with
  | nil => simp
  | cons n ns ih =>
    simp only [List.mem_cons, not_or] at h
    have h1 : n ≠ 0x3B := fun e => h.1 e.symm
    simp only [List.cons_append, List.takeWhile_cons, List.dropWhile_cons]
    simp [h1, ih h.2]
    simpa using ih h.2

theorem foldl_push (cs ns : List Nat) (h : ValidCps (cs ++ ns)) :
    ns.foldl push (encodeCps cs) = encodeCps (cs ++ ns) := by
  induction ns generalizing cs with
  | nil => simp
  | cons n ns ih =>
    rw [List.foldl_cons]
    have hn : IsCodePoint n := h.1 n (by simp)
    have hp : push (encodeCps cs) n = encodeCps (cs ++ [n]) := by
      unfold push
      rcases List.eq_nil_or_concat cs with rfl | ⟨cs', c, rfl⟩
      · have : finalLeadSurrogate (encodeCps []) = none := finalLead_nil
        rw [this]
        simp [pushUnchecked, encodeUtf8Raw_eq n hn, encodeCps]
      · rw [List.concat_eq_append] at h ⊢
        rw [finalLead_encode cs' c (fun x hx => h.1 x (by simp [hx])) (h.1 c (by simp))]
        have hpair : ¬ (IsLead c ∧ IsTrail n) := by
          have := ((NoPair_append (cs' ++ [c]) (n :: ns)).mp h.2).2.2 c (by simp) n (by simp)
          exact this
        have e : pushUnchecked (encodeCps (cs' ++ [c])) n = encodeCps (cs' ++ [c] ++ [n]) := by
          rw [pushUnchecked, encodeUtf8Raw_eq n hn, encodeCps_append (cs' ++ [c]), encodeCps_singleton]
        by_cases ht : 0xDC00 ≤ n ∧ n ≤ 0xDFFF
        · rw [if_pos ht, if_neg (fun hl => hpair ⟨hl, ht⟩)]; exact e
        · rw [if_neg ht]; exact e
    rw [hp, ih (cs ++ [n]) (by simpa using h)]
    simp

theorem countBrackets_replicate (k : Nat) (c : Nat) (cs : List Nat) (h : c ≠ 0x5B) :
    countBrackets (List.replicate k 0x5B ++ c :: cs) = (k, c :: cs) := by
  induction k with
  | zero => simp [countBrackets, h]
  | succ k ih => rw [List.replicate_succ, List.cons_append, countBrackets, if_pos rfl, ih]

theorem Desc_ref_inv {b : Bytes} {cs : List Nat} (h : Desc (.ref b) cs) :
    ∃ ns, ValidCps ns ∧ b = encodeCps ns ∧ cs = 0x4C :: (ns ++ [0x3B]) := by
  generalize ht : JType.ref b = t at h
  cases h with
  | ref hv => injection ht with ht; exact ⟨_, hv, ht, rfl⟩
  | _ => cases ht

/-- First code point of a non-array descriptor. -/
theorem Desc_head {t : JType} {cs : List Nat} (h : Desc t cs) (hf : IsField t) :
    ∃ c rest, cs = c :: rest ∧ c ≠ 0x29 ∧ c ≠ 0x56 ∧ ((∀ d' t', t ≠ .array d' t') → c ≠ 0x5B) := by
  cases hf with
  | ref hv hs =>
    obtain ⟨ns, _, _, rfl⟩ := Desc_ref_inv h
    exact ⟨_, _, rfl, by omega, by omega, fun _ => by omega⟩
  | @array d t hd ht hna =>
    cases h with
    | array h' =>
      obtain ⟨k, hk⟩ : ∃ k, d.toNat = k + 1 := by
        refine ⟨d.toNat - 1, ?_⟩
        have : d.toNat ≠ 0 := fun e => hd (UInt8.toNat_inj.mp e)
        omega
      rw [hk, List.replicate_succ]
      exact ⟨_, _, rfl, by omega, by omega, fun h => absurd rfl (h d t)⟩
  | _ => cases h; exact ⟨_, _, rfl, by omega, by omega, fun _ => by omega⟩

theorem getType_simple {t : JType} (hf : IsField t) (hna : ∀ d' t', t ≠ .array d' t')
    {cs : List Nat} (h : Desc t cs) (fuel : Nat) (rest : List Nat) :
    getType (fuel + 1) (cs ++ rest) = .ok (t, rest) := by
  cases hf with
  | @ref ns hv hs =>
    obtain ⟨ms, hm, hb, rfl⟩ := Desc_ref_inv h
    have : ms = ns := by
      have h1 := codepoints_encode ns hv.1
      have h2 := codepoints_encode ms hm.1
      rw [hb] at h1
      rw [h1] at h2
      simpa using h2.symm
    subst this
    simp only [List.cons_append, List.append_assoc, List.nil_append]
    have htw := takeWhile_semi ms rest hs
    have hfo := foldl_push [] ms (by simpa using hv)
    have h0 : encodeCps [] = [] := rfl
    rw [List.nil_append, h0] at hfo
    simp only [getType, htw.1, htw.2, hfo]
    rfl
  | array => exact absurd rfl (hna _ _)
  | _ => cases h; rfl

theorem getType_field {t : JType} (hf : IsField t) {cs : List Nat} (h : Desc t cs) (fuel : Nat)
    (rest : List Nat) : getType (fuel + 2) (cs ++ rest) = .ok (t, rest) := by
  cases hf with
  | @array d t hd ht hna =>
    cases h with
    | @array _ _ cs' h' =>
      obtain ⟨k, hk⟩ : ∃ k, d.toNat = k + 1 := by
        refine ⟨d.toNat - 1, ?_⟩
        have : d.toNat ≠ 0 := fun e => hd (UInt8.toNat_inj.mp e)
        omega
      have hlt : d.toNat < 256 := d.toNat_lt
      have ih := getType_simple ht hna h' fuel rest
      obtain ⟨c, cs'', rfl, _, _, hne⟩ := Desc_head h' ht
      rw [hk, List.replicate_succ, List.cons_append, List.cons_append, List.append_assoc, List.cons_append]
      have hd : UInt8.ofNat (1 + k) = d := by
        apply UInt8.toNat_inj.mp; rw [UInt8.toNat_ofNat']; omega
      rw [List.cons_append] at ih
      rw [show fuel + 2 = (fuel + 1) + 1 from rfl]
      rw [getType]
      simp only [countBrackets_replicate k c _ (hne hna), ih]
      rw [if_pos (by omega : 1 + k < 256), hd]
      rfl
  | ref hv hs => exact getType_simple (.ref hv hs) (by intros; simp) h (fuel + 1) rest
  | _ => cases h; rfl

theorem getParams_fields {ts : List JType} (hf : ∀ t ∈ ts, IsField t) {cs : List Nat}
    (h : DescList ts cs) (fuel : Nat) (hfuel : ts.length + 3 ≤ fuel) (rest : List Nat) :
    getParams fuel (cs ++ 0x29 :: rest) = .ok (ts, 0x29 :: rest) := by
  induction ts generalizing cs fuel with
  | nil =>
    cases h
    obtain ⟨f, rfl⟩ : ∃ f, fuel = f + 1 := ⟨fuel - 1, by omega⟩
    simp [getParams]
  | cons t ts ih =>
    cases h with
    | @cons _ _ cs ds h1 h2 =>
      obtain ⟨f, rfl⟩ : ∃ f, fuel = f + 3 := ⟨fuel - 3, by omega⟩
      have hft := hf t (by simp)
      obtain ⟨c, cs', e, hc, _⟩ := Desc_head h1 hft
      rw [getParams]
      rw [if_neg (by rw [e]; simpa using hc)]
      rw [List.append_assoc, getType_field hft h1 f]
      simp only
      rw [ih (fun x hx => hf x (by simp [hx])) h2 _ (by simp at hfuel; omega)]

theorem DescList_length {ts : List JType} (hf : ∀ t ∈ ts, IsField t) {cs : List Nat}
    (h : DescList ts cs) : ts.length ≤ cs.length := by
  induction ts generalizing cs with
  | nil => simp
  | cons t ts ih =>
    cases h with
    | @cons _ _ cs ds h1 h2 =>
      obtain ⟨c, cs', rfl, _⟩ := Desc_head h1 (hf t (by simp))
      have := ih (fun x hx => hf x (by simp [hx])) h2
      simp; omega

theorem getType_descriptor {t : JType} (hd : IsDescriptor t) {cs : List Nat} (h : Desc t cs)
    (fuel : Nat) (hfuel : 2 * cs.length + 2 ≤ fuel) : ∃ rest, getType fuel cs = .ok (t, rest) := by
  cases hd with
  | field hf =>
    obtain ⟨f, rfl⟩ : ∃ f, fuel = f + 2 := ⟨fuel - 2, by omega⟩
    exact ⟨[], by simpa using getType_field hf h f []⟩
  | @void ps hf =>
    cases h with
    | @void _ cs' h' =>
      have hlen := DescList_length hf h'
      simp only [List.length_cons, List.length_append, List.length_nil] at hfuel
      obtain ⟨f, rfl⟩ : ∃ f, fuel = f + 1 := ⟨fuel - 1, by omega⟩
      refine ⟨[0x56], ?_⟩
      have hp := getParams_fields hf h' f (by omega) [0x56]
      simp only [getType, hp]
      rfl
  | @method ps r hf hr =>
    cases h with
    | @method _ _ cs' cr h' hr' =>
      have hlen := DescList_length hf h'
      obtain ⟨c, cr', hcr, _, hv, _⟩ := Desc_head hr' hr
      simp only [List.length_cons, List.length_append] at hfuel
      obtain ⟨f, rfl⟩ : ∃ f, fuel = f + 3 := ⟨fuel - 3, by omega⟩
      refine ⟨[], ?_⟩
      have hp := getParams_fields hf h' (f + 2) (by omega) cr
      have ht := getType_field hr hr' f []
      rw [List.append_nil] at ht
      rw [show f + 3 = (f + 2) + 1 from rfl]
      simp only [getType, hp, ht]
      simp [hcr, hv]

end Verif.JType
