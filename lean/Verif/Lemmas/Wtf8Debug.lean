import Verif.Lemmas.Wtf8More

/-! Helper lemmas: `decode_surrogate_pair` on arbitrary units, and `Debug` output. -/

namespace Verif.Wtf8
open Verif.Spec Verif.Bits

/-! ### decode_surrogate_pair -/

theorem decodePair_panic_iff (l t : UInt16) :
    decodePair l t = .error .panic ↔ l.toNat < 0xD800 ∨ t.toNat < 0xDC00 := by
  have e : (l < 0xD800 ∨ t < 0xDC00) ↔ (l.toNat < 0xD800 ∨ t.toNat < 0xDC00) := by
    rw [UInt16.lt_iff_toNat_lt, UInt16.lt_iff_toNat_lt]; rfl
  unfold decodePair
  rw [← e]
  split
  · simp_all
  · split <;> simp_all

theorem decodePair_panic (l t : UInt16) (h : l.toNat < 0xD800 ∨ t.toNat < 0xDC00) :
    decodePair l t = .error .panic := (decodePair_panic_iff l t).mpr h

theorem decodePair_pair (l t : UInt16) (hl : IsLead l.toNat) (ht : IsTrail t.toNat) :
    decodePair l t = .ok (decodeSurrogatePair l t) := by
  have hc := (utf16_pair l t hl ht).2.1
  unfold IsCodePoint at hc
  unfold IsLead at hl
  unfold IsTrail at ht
  unfold decodePair
  rw [if_neg (by rw [UInt16.lt_iff_toNat_lt, UInt16.lt_iff_toNat_lt]; simp; omega), if_neg (by omega)]

theorem decodePair_ub_iff (l t : UInt16) :
    decodePair l t = .error .ub ↔ 0xDC00 ≤ l.toNat ∧ 0xDC00 ≤ t.toNat := by
  by_cases hp : l.toNat < 0xD800 ∨ t.toNat < 0xDC00
  · rw [decodePair_panic l t hp]
    simp; omega
  · have hu : decodePair l t = .error .ub ↔ 0x10FFFF < decodeSurrogatePair l t := by
      unfold decodePair
      rw [if_neg (by rw [UInt16.lt_iff_toNat_lt, UInt16.lt_iff_toNat_lt]; simp; omega)]
      split <;> simp_all
    rw [hu]
    have e1 : (l - 0xD800).toNat = l.toNat - 0xD800 :=
      UInt16.toNat_sub_of_le _ _ (by rw [UInt16.le_iff_toNat_le]; simp; omega)
    have e2 : (t - 0xDC00).toNat = t.toNat - 0xDC00 :=
      UInt16.toNat_sub_of_le _ _ (by rw [UInt16.le_iff_toNat_le]; simp; omega)
    unfold decodeSurrogatePair
    rw [e1, e2, shl]
    have ht := t.toNat_lt
    by_cases hl : 0xDC00 ≤ l.toNat
    · have := Nat.left_le_or (n := (l.toNat - 0xD800) * 2 ^ 10) (m := t.toNat - 0xDC00)
      omega
    · have h1 : (l.toNat - 0xD800) * 2 ^ 10 < 2 ^ 20 := by omega
      have h2 : t.toNat - 0xDC00 < 2 ^ 20 := by omega
      have := Nat.or_lt_two_pow h1 h2
      omega

/-! ### Hexadecimal numbers -/

theorem hexValue_digit (ten : UInt8) (ht : ten = 65 ∨ ten = 97) (d : Nat) (hd : d < 16) :
    hexValue (hexDigit ten d) = some d := by
  have : ∀ d : Fin 16, hexValue (hexDigit 65 d.val) = some d.val ∧
      hexValue (hexDigit 97 d.val) = some d.val := by decide
  rcases ht with rfl | rfl
  · exact (this ⟨d, hd⟩).1
  · exact (this ⟨d, hd⟩).2

theorem hex_isHex (ten : UInt8) (ht : ten = 65 ∨ ten = 97) (n : Nat) : IsHex (hex ten n) n := by
  induction n using Nat.strongRecOn with
  | ind n ih =>
    unfold hex
    split
    · have := IsHex.snoc .nil (hexValue_digit ten ht n (by omega))
      simpa using this
    · have := IsHex.snoc (ih (n / 16) (by omega)) (hexValue_digit ten ht (n % 16) (by omega))
      rwa [show 16 * (n / 16) + n % 16 = n by omega] at this

theorem hex_length_pos (ten : UInt8) (n : Nat) : 1 ≤ (hex ten n).length := by
  unfold hex; split <;> simp

theorem hex_length_le (ten : UInt8) (k n : Nat) (h : n < 16 ^ (k + 1)) : (hex ten n).length ≤ k + 1 := by
  induction k generalizing n with
  | zero => unfold hex; rw [if_pos (by simpa using h)]; simp
  | succ k ih =>
    unfold hex
    split
    · simp
    · have := ih (n / 16) (by rw [Nat.pow_succ] at h; omega)
      simp; omega

theorem hex_length_ge (ten : UInt8) (k n : Nat) (h : 16 ^ k ≤ n) : k + 1 ≤ (hex ten n).length := by
  induction k generalizing n with
  | zero => exact hex_length_pos ten n
  | succ k ih =>
    have hp : 0 < 16 ^ k := Nat.pow_pos (by decide)
    unfold hex
    rw [Nat.pow_succ] at h
    rw [if_neg (by omega)]
    have := ih (n / 16) (by omega)
    simp; omega

theorem isHex_zeros (k : Nat) {ds : Bytes} {n : Nat} (h : IsHex ds n) :
    IsHex (List.replicate k 48 ++ ds) n := by
  induction h with
  | nil =>
    rw [List.append_nil]
    induction k with
    | zero => exact .nil
    | succ k ih =>
      rw [List.replicate_succ']
      exact IsHex.snoc (b := 48) (d := 0) ih (by decide)
  | snoc _ hv ih => rw [← List.append_assoc]; exact .snoc ih hv

theorem cpDebug_spec (c : Nat) (h : IsCodePoint c) :
    ∃ ds, cpDebug c = [85, 43] ++ ds ∧ IsHex ds c ∧ 4 ≤ ds.length ∧ ds.length ≤ 6 := by
  unfold IsCodePoint at h
  refine ⟨List.replicate (4 - (hex 65 c).length) 48 ++ hex 65 c, by simp [cpDebug],
    isHex_zeros _ (hex_isHex 65 (.inl rfl) c), ?_, ?_⟩
  · simp; omega
  · have := hex_length_le 65 5 c (by omega)
    simp; omega

/-! ### Debug of strings -/

theorem surrogate_value (d : Nat) (hs : IsSurrogate d) (pre rest : Bytes) :
    (decodeSurrogate ((pre ++ gutf8 d ++ rest).getD (pre.length + 1) 0)
      ((pre ++ gutf8 d ++ rest).getD (pre.length + 2) 0)).toNat = d := by
  have hS : 0xD800 ≤ d ∧ d ≤ 0xDFFF := hs
  rcases gutf8_cases d (by unfold IsCodePoint; omega) with ⟨h1, _⟩ | ⟨h1, h2, _⟩ |
    ⟨_, _, a, b, f, e, ha, hb, hf⟩ | ⟨h1, _⟩
  · omega
  · omega
  · rw [e]
    have g1 : (pre ++ [a, b, f] ++ rest).getD (pre.length + 1) 0 = b := by
      rw [List.getD_eq_getElem?_getD, List.append_assoc, List.getElem?_append_right (by omega)]
      simp
    have g2 : (pre ++ [a, b, f] ++ rest).getD (pre.length + 2) 0 = f := by
      rw [List.getD_eq_getElem?_getD, List.append_assoc, List.getElem?_append_right (by omega)]
      simp
    rw [g1, g2, decodeSurrogate_toNat b f (by omega)]
    omega
  · omega

theorem writeStrEscaped_encode (esc : Nat → Bytes) (cs : List Nat) (h : ∀ c ∈ cs, IsCodePoint c) :
    writeStrEscaped esc (encodeCps cs) = .ok (cs.flatMap esc) := by
  unfold writeStrEscaped
  rw [codepoints_encode cs h]

theorem quoted_append (esc : Nat → Bytes) (as : List Nat) (h : ∀ c ∈ as, ¬ IsSurrogate c)
    {cs : List Nat} {t : Bytes} (hq : Quoted esc cs t) : Quoted esc (as ++ cs) (as.flatMap esc ++ t) := by
  induction as with
  | nil => exact hq
  | cons c as ih =>
    rw [List.flatMap_cons, List.cons_append, List.append_assoc]
    exact .char (h c (by simp)) (ih fun x hx => h x (by simp [hx]))

theorem debugFrom_spec (esc : Nat → Bytes) (n : Nat) (cs : List Nat) (hn : cs.length ≤ n)
    (h : ∀ c ∈ cs, IsCodePoint c) (pre : Bytes) :
    ∃ t, debugFrom esc (pre ++ encodeCps cs) pre.length = .ok t ∧ Quoted esc cs t := by
  induction n generalizing cs pre with
  | zero =>
    have : cs = [] := List.length_eq_zero_iff.mp (by omega)
    subst this
    refine ⟨[], ?_, .nil⟩
    unfold debugFrom
    have : nextSurrogate (pre ++ encodeCps []) pre.length = none := by
      unfold nextSurrogate nextSurrogateFrom; simp [encodeCps]
    split
    · simp_all
    · have := writeStrEscaped_encode esc [] (by simp)
      simpa [encodeCps] using this
  | succ n ih =>
    unfold debugFrom
    have hd : (pre ++ encodeCps cs).drop pre.length = encodeCps cs := by simp
    rcases nextSurrogateFrom_encode cs h pre.length with ⟨h1, h2⟩ | ⟨as, d, bs, h1, h2, h3, h4⟩
    · split
      · rename_i p hp
        unfold nextSurrogate at hp
        rw [hd, h1] at hp
        simp at hp
      · rw [hd, writeStrEscaped_encode esc cs h]
        have := quoted_append esc cs h2 .nil
        exact ⟨_, rfl, by simpa using this⟩
    · split
      · rename_i p hp
        unfold nextSurrogate at hp
        rw [hd, h4] at hp
        have hp : pre.length + (encodeCps as).length = p := by simpa using hp
        have eq : pre ++ encodeCps cs = (pre ++ encodeCps as ++ gutf8 d) ++ encodeCps bs := by
          rw [h1, encodeCps_append, encodeCps_cons]; simp
        have hlen : p + 3 = (pre ++ encodeCps as ++ gutf8 d).length := by
          rw [List.length_append, List.length_append, length_gutf8_lead d h3]; omega
        obtain ⟨t, e, hq⟩ := ih bs (by rw [h1] at hn; simp at hn; omega)
          (fun x hx => h x (by rw [h1]; simp [hx])) (pre ++ encodeCps as ++ gutf8 d)
        rw [← hlen, ← eq] at e
        have ht : (encodeCps cs).take (p - pre.length) = encodeCps as := by
          rw [h1, encodeCps_append, ← hp]; simp
        have hv : (decodeSurrogate ((pre ++ encodeCps cs).getD (p + 1) 0)
            ((pre ++ encodeCps cs).getD (p + 2) 0)).toNat = d := by
          have := surrogate_value d h3 (pre ++ encodeCps as) (encodeCps bs)
          rwa [← eq, List.length_append, hp] at this
        rw [hd, ht, writeStrEscaped_encode esc as fun x hx => h x (by rw [h1]; simp [hx]), e, hv]
        have hS : 0xD800 ≤ d ∧ d ≤ 0xDFFF := h3
        have l1 := hex_length_le 97 3 d (by omega)
        have l2 := hex_length_ge 97 3 d (by omega)
        refine ⟨_, rfl, ?_⟩
        rw [h1]
        have := quoted_append esc as h2 (Quoted.surrogate h3 (hex_isHex 97 (.inr rfl) d) (by omega) hq)
        simpa using this
      · rename_i hp
        unfold nextSurrogate at hp
        rw [hd, h4] at hp
        simp at hp

theorem debug_spec (esc : Nat → Bytes) (cs : List Nat) (h : ∀ c ∈ cs, IsCodePoint c) :
    ∃ t, debug esc (encodeCps cs) = .ok ([34] ++ t ++ [34]) ∧ Quoted esc cs t := by
  obtain ⟨t, e, hq⟩ := debugFrom_spec esc cs.length cs (Nat.le_refl _) h []
  refine ⟨t, ?_, hq⟩
  unfold debug
  rw [List.nil_append] at e
  rw [show (0 : Nat) = ([] : Bytes).length from rfl, e]
  rfl

end Verif.Wtf8
