import Verif.Spec.Wtf8Api
import Verif.Lemmas.Wtf8Slice
import Verif.Lemmas.Wtf8Error

/-! Helper lemmas for the string API: units, positions, letters, order. -/

namespace Verif.Wtf8
open Verif.Spec Verif.Bits

/-! ### Units of code points -/

theorem utf16_bmp (c : Nat) (h : c < 0x10000) : utf16 c = [UInt16.ofNat c] := by simp [utf16, h]

theorem utf16_nonempty (c : Nat) : utf16 c ≠ [] := by unfold utf16; split <;> simp

theorem utf16All_nil : utf16All [] = [] := rfl

theorem encodeCps_inj' {cs ds : List Nat} (h1 : ∀ c ∈ cs, IsCodePoint c)
    (h2 : ∀ c ∈ ds, IsCodePoint c) (h : encodeCps cs = encodeCps ds) : cs = ds := by
  have := codepoints_loose (LooseEnc_of_encode cs h1)
  rw [h, codepoints_loose (LooseEnc_of_encode ds h2)] at this
  simpa using this.symm

theorem CpsOf.unique {v : List UInt16} {cs ds : List Nat} (h1 : CpsOf v cs) (h2 : CpsOf v ds) :
    cs = ds := by
  rw [← decodeCps_utf16All cs h1.1, ← decodeCps_utf16All ds h2.1, h1.2, h2.2]

theorem HasUtf16.unique {s : Bytes} {v w : List UInt16} (h1 : HasUtf16 s v) (h2 : HasUtf16 s w) :
    v = w := by
  obtain ⟨cs, hc, e1, rfl⟩ := h1
  obtain ⟨ds, hd, e2, rfl⟩ := h2
  rw [encodeCps_inj' hc.1 hd.1 (e1.trans e2.symm)]

theorem CpsOf.exists (v : List UInt16) : ∃ cs, CpsOf v cs :=
  ⟨decodeCps v, (decodeCps_spec v).1, (decodeCps_spec v).2.1⟩

theorem CpsOf.has {v : List UInt16} {cs : List Nat} (h : CpsOf v cs) : HasUtf16 (encodeCps cs) v :=
  ⟨cs, h.1, rfl, h.2⟩

theorem HasUtf16.cps {s : Bytes} {v : List UInt16} {cs : List Nat} (h : HasUtf16 s v)
    (hc : CpsOf v cs) : s = encodeCps cs := by
  obtain ⟨ds, hd, rfl, e⟩ := h
  rw [CpsOf.unique (⟨hd, e⟩ : CpsOf v ds) hc]

theorem NoPair_scalars (cs : List Nat) (h : ∀ c ∈ cs, ¬ IsSurrogate c) : NoPair cs := by
  induction cs with
  | nil => trivial
  | cons a l ih =>
    rw [NoPair_cons]
    refine ⟨fun b _ hh => h a (by simp) ⟨hh.1.1, ?_⟩, ih fun c hc => h c (by simp [hc])⟩
    have := hh.1.2
    omega

theorem TextUnits.has {t : Bytes} {w : List UInt16} (h : TextUnits t w) : HasUtf16 t w := by
  obtain ⟨cs, hc, e, e'⟩ := h
  exact ⟨cs, ⟨fun c hx => (hc c hx).1, NoPair_scalars cs fun c hx => (hc c hx).2⟩, e, e'⟩

theorem TextUnits.of {t : Bytes} (h : WellFormedUtf8 t) : ∃ w, TextUnits t w := by
  obtain ⟨cs, hc, e⟩ := h
  exact ⟨utf16All cs, cs, hc, e, rfl⟩

/-- The first unit is a low surrogate only for a low surrogate code point. -/
theorem head_trail {cs : List Nat} (h : ∀ c ∈ cs, IsCodePoint c) (u : UInt16)
    (hu : u ∈ (utf16All cs).head?) (ht : TrailUnit u) : ∃ c ∈ cs.head?, IsTrail c := by
  cases cs with
  | nil => simp [utf16All] at hu
  | cons c cs =>
    have hc := h c (by simp)
    unfold IsCodePoint at hc
    refine ⟨c, by simp, ?_⟩
    rw [utf16All_cons] at hu
    unfold utf16 at hu
    split at hu
    · simp at hu
      subst hu
      unfold TrailUnit at ht
      rw [u16_ofNat_toNat, Nat.mod_eq_of_lt (by omega)] at ht
      exact ht
    · simp only [List.cons_append, List.head?_cons, Option.mem_def, Option.some.injEq] at hu
      subst hu
      unfold TrailUnit IsTrail at ht
      rw [u16_ofNat_toNat] at ht
      omega

/-- The last unit is a high surrogate only for a high surrogate code point. -/
theorem last_lead {cs : List Nat} (h : ∀ c ∈ cs, IsCodePoint c) (u : UInt16)
    (hu : u ∈ (utf16All cs).getLast?) (hl : LeadUnit u) : ∃ c ∈ cs.getLast?, IsLead c := by
  rcases List.eq_nil_or_concat cs with rfl | ⟨cs', c, rfl⟩
  · simp [utf16All] at hu
  · rw [List.concat_eq_append] at *
    have hc := h c (by simp)
    unfold IsCodePoint at hc
    refine ⟨c, by simp, ?_⟩
    rw [utf16All_append] at hu
    have e : utf16All [c] = utf16 c := by simp [utf16All]
    rw [e] at hu
    unfold utf16 at hu
    split at hu
    · simp at hu
      subst hu
      unfold LeadUnit at hl
      rw [u16_ofNat_toNat, Nat.mod_eq_of_lt (by omega)] at hl
      exact hl
    · rw [List.getLast?_append] at hu
      simp only [List.getLast?_cons_cons, List.getLast?_singleton, Option.some_or, Option.mem_def,
        Option.some.injEq] at hu
      subst hu
      unfold LeadUnit IsLead at hl
      rw [u16_ofNat_toNat] at hl
      omega

theorem lead_last {cs : List Nat} (c : Nat) (hc : c ∈ cs.getLast?) (hl : IsLead c) :
    ∃ u ∈ (utf16All cs).getLast?, LeadUnit u := by
  rcases List.eq_nil_or_concat cs with rfl | ⟨cs', d, rfl⟩
  · simp at hc
  · rw [List.concat_eq_append] at *
    simp at hc
    subst hc
    have := hl.2
    refine ⟨UInt16.ofNat d, ?_, ?_⟩
    · rw [utf16All_append, show utf16All [d] = utf16 d by simp [utf16All], utf16_bmp d (by omega)]
      simp
    · unfold LeadUnit
      rw [u16_ofNat_toNat, Nat.mod_eq_of_lt (by omega)]
      exact hl

theorem trail_head {cs : List Nat} (c : Nat) (hc : c ∈ cs.head?) (ht : IsTrail c) :
    ∃ u ∈ (utf16All cs).head?, TrailUnit u := by
  cases cs with
  | nil => simp at hc
  | cons d cs =>
    simp at hc
    subst hc
    have := ht.2
    refine ⟨UInt16.ofNat d, ?_, ?_⟩
    · rw [utf16All_cons, utf16_bmp d (by omega)]
      simp
    · unfold TrailUnit
      rw [u16_ofNat_toNat, Nat.mod_eq_of_lt (by omega)]
      exact ht

/-! ### Positions -/

theorem length_gutf8_bmp (c : Nat) (h : c < 0x10000) :
    (gutf8 c).length = if c < 0x80 then 1 else if c < 0x800 then 2 else 3 := by
  unfold gutf8
  repeat' split
  all_goals first | rfl | omega

theorem wtf8Length_cons (u : UInt16) (l : List UInt16)
    (h : ∀ w ∈ l.head?, ¬ (LeadUnit u ∧ TrailUnit w)) : wtf8Length (u :: l) =
      (if u.toNat < 0x80 then 1 else if u.toNat < 0x800 then 2 else 3) + wtf8Length l := by
  cases l with
  | nil => rfl
  | cons w l => rw [wtf8Length, if_neg (h w (by simp))]

theorem wtf8Length_utf16All (cs : List Nat) (h : ValidCps cs) :
    wtf8Length (utf16All cs) = (encodeCps cs).length := by
  induction cs with
  | nil => rfl
  | cons c cs ih =>
    obtain ⟨h1, h2⟩ := h
    rw [NoPair_cons] at h2
    have hc := h1 c (by simp)
    unfold IsCodePoint at hc
    have hcs : ∀ x ∈ cs, IsCodePoint x := fun x hx => h1 x (by simp [hx])
    have ih := ih ⟨hcs, h2.2⟩
    rw [encodeCps_cons, List.length_append, ← ih, utf16All_cons]
    by_cases hb : c < 0x10000
    · rw [utf16_bmp c hb, List.singleton_append, wtf8Length_cons, u16_ofNat_toNat,
        Nat.mod_eq_of_lt hb, length_gutf8_bmp c hb]
      intro w hw ⟨hl, ht⟩
      obtain ⟨d, hd, hd'⟩ := head_trail hcs w hw ht
      refine h2.1 d hd ⟨?_, hd'⟩
      unfold LeadUnit at hl
      rwa [u16_ofNat_toNat, Nat.mod_eq_of_lt hb] at hl
    · have e : utf16 c = [UInt16.ofNat (0xD800 + (c - 0x10000) / 1024),
          UInt16.ofNat (0xDC00 + (c - 0x10000) % 1024)] := by simp [utf16, hb]
      have l4 : (gutf8 c).length = 4 := by
        unfold gutf8
        rw [if_neg (by omega), if_neg (by omega), if_neg hb]; rfl
      rw [e, l4, List.cons_append, List.cons_append, wtf8Length, if_pos]
      · rfl
      · unfold LeadUnit TrailUnit IsLead IsTrail
        rw [u16_ofNat_toNat, u16_ofNat_toNat]
        omega

theorem split_take {v : List UInt16} {cs : List Nat} (h : CpsOf v cs) (k : Nat) :
    v = utf16All (cs.take k) ++ utf16All (cs.drop k) ∧
      Whole (utf16All (cs.take k)) (utf16All (cs.drop k)) := by
  constructor
  · rw [← utf16All_append, List.take_append_drop, h.2]
  · intro x hx y hy ⟨hl, ht⟩
    obtain ⟨a, ha, ha'⟩ := last_lead (ValidCps_take h.1 k).1 x hx hl
    obtain ⟨b, hb, hb'⟩ := head_trail (ValidCps_drop h.1 k).1 y hy ht
    have hn : NoPair (cs.take k ++ cs.drop k) := by rw [List.take_append_drop]; exact h.1.2
    exact ((NoPair_append _ _).mp hn).2.2 a ha b hb ⟨ha', hb'⟩

theorem cps_append {p r : List UInt16} {cs ds : List Nat} (h1 : CpsOf p cs) (h2 : CpsOf r ds)
    (hw : Whole p r) : CpsOf (p ++ r) (cs ++ ds) := by
  refine ⟨⟨?_, ?_⟩, ?_⟩
  · intro c hc
    rcases List.mem_append.mp hc with hc | hc
    · exact h1.1.1 c hc
    · exact h2.1.1 c hc
  · rw [NoPair_append]
    refine ⟨h1.1.2, h2.1.2, fun a ha b hb hh => ?_⟩
    obtain ⟨x, hx, hx'⟩ := lead_last a ha hh.1
    obtain ⟨y, hy, hy'⟩ := trail_head b hb hh.2
    rw [h1.2] at hx
    rw [h2.2] at hy
    exact hw x hx y hy ⟨hx', hy'⟩
  · rw [utf16All_append, h1.2, h2.2]

theorem split_whole {p r : List UInt16} {cs : List Nat} (h : CpsOf (p ++ r) cs) (hw : Whole p r) :
    ∃ k, k ≤ cs.length ∧ p = utf16All (cs.take k) ∧ r = utf16All (cs.drop k) := by
  obtain ⟨a, ha⟩ := CpsOf.exists p
  obtain ⟨b, hb⟩ := CpsOf.exists r
  have := CpsOf.unique h (cps_append ha hb hw)
  subst this
  exact ⟨a.length, by simp, by simp [ha.2], by simp [hb.2]⟩

/-! ### Letters -/

theorem gutf8_map (f : UInt8 → UInt8) (g : Nat → Nat) (c : Nat) (hc : IsCodePoint c)
    (h1 : ∀ b : UInt8, 128 ≤ b.toNat → f b = b) (h2 : ∀ b : UInt8, b.toNat < 128 → (f b).toNat = g b.toNat)
    (h3 : ∀ n, n < 128 → g n < 128) (h4 : ∀ n, 128 ≤ n → g n = n) :
    (gutf8 c).map f = gutf8 (g c) := by
  have hc' := hc
  unfold IsCodePoint at hc'
  rcases gutf8_cases c hc with ⟨k1, a, e', ha⟩ | ⟨k1, k2, a, b, e', ha, hb⟩ |
      ⟨k1, k2, a, b, d, e', ha, hb, hd⟩ | ⟨k1, a, b, d, q, e', ha, hb, hd, hq⟩
  · have hg := h3 c k1
    rw [e']
    unfold gutf8
    rw [if_pos (by omega)]
    simp only [List.map_cons, List.map_nil, List.cons.injEq, and_true]
    apply u8_ext
    rw [h2 a (by omega), ha, u8_ofNat_toNat]
    omega
  · rw [h4 c (by omega), e']
    simp only [List.map_cons, List.map_nil]
    rw [h1 a (by omega), h1 b (by omega)]
  · rw [h4 c (by omega), e']
    simp only [List.map_cons, List.map_nil]
    rw [h1 a (by omega), h1 b (by omega), h1 d (by omega)]
  · rw [h4 c (by omega), e']
    simp only [List.map_cons, List.map_nil]
    rw [h1 a (by omega), h1 b (by omega), h1 d (by omega), h1 q (by omega)]

theorem encodeCps_map (f : UInt8 → UInt8) (g : Nat → Nat) (cs : List Nat)
    (hc : ∀ c ∈ cs, IsCodePoint c)
    (h1 : ∀ b : UInt8, 128 ≤ b.toNat → f b = b) (h2 : ∀ b : UInt8, b.toNat < 128 → (f b).toNat = g b.toNat)
    (h3 : ∀ n, n < 128 → g n < 128) (h4 : ∀ n, 128 ≤ n → g n = n) :
    (encodeCps cs).map f = encodeCps (cs.map g) := by
  induction cs with
  | nil => rfl
  | cons c cs ih =>
    rw [encodeCps_cons, List.map_append, List.map_cons, encodeCps_cons,
      ih (fun x hx => hc x (by simp [hx])), gutf8_map f g c (hc c (by simp)) h1 h2 h3 h4]

theorem utf16All_map (f : UInt16 → UInt16) (g : Nat → Nat) (cs : List Nat)
    (hc : ∀ c ∈ cs, IsCodePoint c)
    (h1 : ∀ b : UInt16, 128 ≤ b.toNat → f b = b) (h2 : ∀ b : UInt16, b.toNat < 128 → (f b).toNat = g b.toNat)
    (h3 : ∀ n, n < 128 → g n < 128) (h4 : ∀ n, 128 ≤ n → g n = n) :
    (utf16All cs).map f = utf16All (cs.map g) := by
  induction cs with
  | nil => rfl
  | cons c cs ih =>
    rw [utf16All_cons, List.map_append, List.map_cons, utf16All_cons,
      ih (fun x hx => hc x (by simp [hx]))]
    congr 1
    have hx := hc c (by simp)
    unfold IsCodePoint at hx
    by_cases hlt : c < 128
    · have := h3 c hlt
      rw [utf16_bmp c (by omega), utf16_bmp _ (by omega)]
      simp only [List.map_cons, List.map_nil, List.cons.injEq, and_true]
      apply u16_ext
      rw [h2 _ (by rw [u16_ofNat_toNat]; omega), u16_ofNat_toNat, u16_ofNat_toNat,
        Nat.mod_eq_of_lt (by omega : c < 65536)]
      omega
    · rw [h4 c (by omega)]
      unfold utf16
      split
      · simp only [List.map_cons, List.map_nil]
        rw [h1 _ (by rw [u16_ofNat_toNat]; omega)]
      · simp only [List.map_cons, List.map_nil]
        rw [h1 _ (by rw [u16_ofNat_toNat]; omega), h1 _ (by rw [u16_ofNat_toNat]; omega)]

theorem ValidCps_map (g : Nat → Nat) (cs : List Nat) (h : ValidCps cs)
    (h3 : ∀ n, n < 128 → g n < 128) (h4 : ∀ n, 128 ≤ n → g n = n) : ValidCps (cs.map g) := by
  have key : ∀ c, 0xD800 ≤ g c → g c = c := by
    intro c hc
    by_cases hlt : c < 128
    · have := h3 c hlt; omega
    · exact h4 c (by omega)
  refine ⟨?_, ?_⟩
  · intro c hc
    obtain ⟨d, hd, rfl⟩ := List.mem_map.mp hc
    have := h.1 d hd
    unfold IsCodePoint at *
    by_cases hlt : d < 128
    · have := h3 d hlt; omega
    · rw [h4 d (by omega)]; exact this
  · have hn := h.2
    clear h
    induction cs with
    | nil => trivial
    | cons a l ih =>
      rw [NoPair_cons] at hn
      rw [List.map_cons, NoPair_cons]
      refine ⟨fun b hb hh => ?_, ih hn.2⟩
      rw [List.head?_map] at hb
      simp only [Option.mem_def, Option.map_eq_some_iff] at hb
      obtain ⟨d, hd, rfl⟩ := hb
      have e1 := key a hh.1.1
      have e2 := key d (by have := hh.2.1; omega)
      rw [e1, e2] at hh
      exact hn.1 d hd hh

theorem has_map (f : UInt8 → UInt8) (f' : UInt16 → UInt16) (g : Nat → Nat) {s : Bytes}
    {v : List UInt16} (h : HasUtf16 s v)
    (h1 : ∀ b : UInt8, 128 ≤ b.toNat → f b = b) (h2 : ∀ b : UInt8, b.toNat < 128 → (f b).toNat = g b.toNat)
    (h1' : ∀ b : UInt16, 128 ≤ b.toNat → f' b = b)
    (h2' : ∀ b : UInt16, b.toNat < 128 → (f' b).toNat = g b.toNat)
    (h3 : ∀ n, n < 128 → g n < 128) (h4 : ∀ n, 128 ≤ n → g n = n) :
    HasUtf16 (s.map f) (v.map f') := by
  obtain ⟨cs, hc, rfl, rfl⟩ := h
  exact ⟨cs.map g, ValidCps_map g cs hc h3 h4, (encodeCps_map f g cs hc.1 h1 h2 h3 h4).symm,
    (utf16All_map f' g cs hc.1 h1' h2' h3 h4).symm⟩

theorem asciiLower_toNat : ∀ b : UInt8, (asciiLower b).toNat = lowerCp b.toNat := by
  have : ∀ n < 256, (asciiLower (UInt8.ofNat n)).toNat = lowerCp (UInt8.ofNat n).toNat := by
    decide +kernel
  intro b
  have h := this b.toNat (u8_lt b)
  rwa [UInt8.ofNat_toNat] at h

theorem asciiUpper_toNat : ∀ b : UInt8, (asciiUpper b).toNat = upperCp b.toNat := by
  have : ∀ n < 256, (asciiUpper (UInt8.ofNat n)).toNat = upperCp (UInt8.ofNat n).toNat := by
    decide +kernel
  intro b
  have h := this b.toNat (u8_lt b)
  rwa [UInt8.ofNat_toNat] at h

theorem lowerCp_lt (n : Nat) (h : n < 128) : lowerCp n < 128 := by unfold lowerCp; split <;> omega
theorem lowerCp_ge (n : Nat) (h : 128 ≤ n) : lowerCp n = n := by unfold lowerCp; split <;> omega
theorem upperCp_lt (n : Nat) (h : n < 128) : upperCp n < 128 := by unfold upperCp; split <;> omega
theorem upperCp_ge (n : Nat) (h : 128 ≤ n) : upperCp n = n := by unfold upperCp; split <;> omega

theorem has_lower {s : Bytes} {v : List UInt16} (h : HasUtf16 s v) :
    HasUtf16 (toAsciiLowercase s) (v.map lowerUnit) := by
  refine has_map asciiLower lowerUnit lowerCp h ?_ ?_ ?_ ?_ lowerCp_lt lowerCp_ge
  · intro b hb; apply u8_ext; rw [asciiLower_toNat, lowerCp_ge _ hb]
  · intro b _; exact asciiLower_toNat b
  · intro b hb; unfold lowerUnit; rw [if_neg (by omega)]
  · intro b hb
    unfold lowerUnit lowerCp
    split
    · rw [UInt16.toNat_add]; simp; omega
    · rfl

theorem has_upper {s : Bytes} {v : List UInt16} (h : HasUtf16 s v) :
    HasUtf16 (toAsciiUppercase s) (v.map upperUnit) := by
  refine has_map asciiUpper upperUnit upperCp h ?_ ?_ ?_ ?_ upperCp_lt upperCp_ge
  · intro b hb; apply u8_ext; rw [asciiUpper_toNat, upperCp_ge _ hb]
  · intro b _; exact asciiUpper_toNat b
  · intro b hb; unfold upperUnit; rw [if_neg (by omega)]
  · intro b hb
    unfold upperUnit upperCp
    split
    · rw [UInt16.toNat_sub_of_le]
      · rfl
      · rw [UInt16.le_iff_toNat_le]; simp; omega
    · rfl

/-! ### Building -/

theorem has_pushWtf8 {s t : Bytes} {v w : List UInt16} (h1 : HasUtf16 s v) (h2 : HasUtf16 t w) :
    HasUtf16 (pushWtf8 s t) (v ++ w) := by
  obtain ⟨cs, hc, rfl, rfl⟩ := h1
  obtain ⟨ds, hd, rfl, rfl⟩ := h2
  obtain ⟨es, he, e1, e2⟩ := pushWtf8_spec cs ds hc hd
  exact ⟨es, he, e1.symm, e2⟩

theorem has_push {s : Bytes} {c : Nat} {v : List UInt16} (h1 : HasUtf16 s v) (h2 : IsCodePoint c) :
    HasUtf16 (push s c) (v ++ utf16 c) := by
  have hc : HasUtf16 (encodeCps [c]) (utf16 c) :=
    ⟨[c], ⟨by simpa using h2, trivial⟩, rfl, by simp [utf16All]⟩
  have h := has_pushWtf8 h1 hc
  obtain ⟨cs, hcs, rfl, rfl⟩ := h1
  rwa [push_spec cs c hcs h2]

theorem has_extend {s : Bytes} {cs : List Nat} {v : List UInt16} (h1 : HasUtf16 s v)
    (h2 : ∀ c ∈ cs, IsCodePoint c) : HasUtf16 (extend s cs) (v ++ utf16All cs) := by
  induction cs generalizing s v with
  | nil => simpa [extend, utf16All] using h1
  | cons c cs ih =>
    have := ih (has_push h1 (h2 c (by simp))) (fun x hx => h2 x (by simp [hx]))
    rw [utf16All_cons, ← List.append_assoc]
    exact this

theorem has_nil : HasUtf16 [] [] := ⟨[], ⟨by simp, trivial⟩, rfl, rfl⟩

/-- Text never starts with a low surrogate, so nothing is merged. -/
theorem pushWtf8_text {s t : Bytes} {w : List UInt16} (h : TextUnits t w) :
    pushWtf8 s t = s ++ t := by
  obtain ⟨cs, hc, rfl, _⟩ := h
  unfold pushWtf8
  have : initialTrailSurrogate (encodeCps cs) = none := by
    cases cs with
    | nil => rfl
    | cons c cs =>
      have hx := hc c (by simp)
      rw [initialTrail_encode c cs hx.1, if_neg]
      intro ht
      exact hx.2 ⟨by have := ht.1; omega, ht.2⟩
  rw [this]
  split
  · simp_all
  · rfl

theorem has_pushStr {s t : Bytes} {v w : List UInt16} (h1 : HasUtf16 s v) (h : TextUnits t w) :
    HasUtf16 (pushStr s t) (v ++ w) := by
  have := has_pushWtf8 h1 (TextUnits.has h)
  rwa [pushWtf8_text h] at this

theorem has_pushChar {s : Bytes} {c : Nat} {v : List UInt16} (h1 : HasUtf16 s v)
    (h2 : IsCodePoint c ∧ ¬ IsSurrogate c) : HasUtf16 (pushChar s c) (v ++ utf16 c) := by
  have := has_push h1 h2.1
  unfold push at this
  rw [if_neg] at this
  · exact this
  · intro ht
    exact h2.2 ⟨by omega, ht.2⟩

theorem cloneInto_eq (s buf : Bytes) : cloneInto s buf = .ok s := by
  have e : (buf.take s.length).length = (s.take (buf.take s.length).length).length := by simp
  simp only [cloneInto, cloneFromSlice, if_pos e, bind, Except.bind, pure, Except.pure,
    List.take_append_drop]

theorem restAfter_encode (cs : List Nat) (h : ∀ c ∈ cs, IsCodePoint c) (k : Nat) :
    restAfter (encodeCps cs) k = some (encodeCps (cs.drop k)) := by
  induction k generalizing cs with
  | zero => rfl
  | succ k ih =>
    cases cs with
    | nil =>
      have := ih [] (by simp)
      simpa [restAfter, encodeCps, nextCodePoint] using this
    | cons c cs =>
      rw [restAfter, encodeCps_cons, nextCodePoint_gutf8 c (h c (by simp))]
      simp only [List.drop_succ_cons]
      exact ih cs fun x hx => h x (by simp [hx])

theorem displayFrom_flatten (s : Bytes) (pos : Nat) :
    (displayFrom s pos).flatten = toStringLossyFrom s pos := by
  fun_induction displayFrom s pos with
  | case1 pos p h ih =>
    conv => rhs; unfold toStringLossyFrom
    rw [List.flatten_cons, List.flatten_cons, ih]
    split
    · rename_i q hq
      rw [h] at hq
      simp at hq
      subst hq
      simp
    · simp_all
  | case2 pos h =>
    unfold toStringLossyFrom
    split
    · simp_all
    · simp

/-! ### Accepted bytes -/

theorem loose_complete {cs : List Nat} {bs : Bytes} (h : LooseEnc cs bs) (hh : HighsComplete bs) :
    encodeCps cs = bs := by
  induction h with
  | nil => rfl
  | @cons c u cs bs hu _ ih =>
    rw [encodeCps_cons, ih fun p q b x e => hh (u ++ p) q b x (by rw [e, List.append_assoc])]
    congr 1
    obtain ⟨hc, rfl | ⟨hl, x, hx, rfl⟩⟩ := hu
    · rfl
    · have hl' := hl
      unfold IsLead at hl'
      have := hh [] bs _ x rfl (by rw [u8_ofNat_toNat]; omega) (by rw [u8_ofNat_toNat]; omega)
      unfold gutf8
      rw [if_neg (by omega), if_neg (by omega), if_pos (by omega)]
      simp only [List.cons.injEq, and_true]
      refine ⟨?_, trivial, ?_⟩
      · apply u8_ext; rw [u8_ofNat_toNat]; simp; omega
      · apply u8_ext; rw [u8_ofNat_toNat]; omega

end Verif.Wtf8
