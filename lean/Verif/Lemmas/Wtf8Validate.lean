import Verif.Lemmas.Wtf8
/-! Exact characterisation of what `validate_wtf8` accepts. -/

namespace Verif.Wtf8
open Verif.Spec Verif.Bits

theorem NoPair_cons (a : Nat) (l : List Nat) :
    NoPair (a :: l) ↔ (∀ b ∈ l.head?, ¬ (IsLead a ∧ IsTrail b)) ∧ NoPair l := by
  cases l with
  | nil => simp [NoPair]
  | cons b t => simp [NoPair]

theorem LooseUnit_of_gutf8 {c : Nat} {u : Bytes} (h : IsCodePoint c) (e : gutf8 c = u) :
    LooseUnit c u := ⟨h, .inl e.symm⟩

/-- What `validate_wtf8` accepts. -/
theorem validateFrom_ok (i : Nat) (hi : Bool) (bs : Bytes) (h : validateFrom i hi bs = .ok ()) :
    ∃ cs, LooseEnc cs bs ∧ NoPair cs ∧ (hi = true → ∀ c ∈ cs.head?, ¬ IsTrail c) := by
  have step : ∀ (u t : Bytes) (hi hi' : Bool) (c : Nat), LooseUnit c u → (hi = true → ¬ IsTrail c) →
      (IsLead c → hi' = true) →
      (∃ cs, LooseEnc cs t ∧ NoPair cs ∧ (hi' = true → ∀ c ∈ cs.head?, ¬ IsTrail c)) →
      ∃ cs, LooseEnc cs (u ++ t) ∧ NoPair cs ∧ (hi = true → ∀ c ∈ cs.head?, ¬ IsTrail c) := by
    rintro u t hi hi' c hu h1 h2 ⟨cs, h3, h4, h5⟩
    refine ⟨c :: cs, .cons hu h3, ?_, ?_⟩
    · rw [NoPair_cons]
      refine ⟨fun b hb hh => ?_, h4⟩
      exact h5 (h2 hh.1) b hb hh.2
    · simpa using h1
  have three : ∀ (a b d : UInt8) (t : Bytes) (hi : Bool), (0xE0 ≤ a.toNat ∧ a.toNat ≤ 0xEF) →
      (a.toNat = 0xE0 → 0xA0 ≤ b.toNat) → (128 ≤ b.toNat ∧ b.toNat ≤ 191) →
      (128 ≤ d.toNat ∧ d.toNat ≤ 191) →
      (a.toNat = 0xED → ¬ (160 ≤ b.toNat ∧ b.toNat ≤ 175) ∧ (176 ≤ b.toNat → hi = false)) →
      (∃ cs, LooseEnc cs t ∧ NoPair cs ∧ (false = true → ∀ c ∈ cs.head?, ¬ IsTrail c)) →
      ∃ cs, LooseEnc cs (a :: b :: d :: t) ∧ NoPair cs ∧
        (hi = true → ∀ c ∈ cs.head?, ¬ IsTrail c) := by
    intro a b d t hi ha hab hb hd hs ih
    obtain ⟨c, h1, h2, e, hc⟩ := gutf8_of_three a b d ha hab hb hd
    refine step [a, b, d] t _ false c (LooseUnit_of_gutf8 ?_ e) ?_ ?_ ih
    · unfold IsCodePoint; omega
    · unfold IsTrail
      rintro rfl h3
      have := (hs (by omega)).2 (by omega)
      simp at this
    · unfold IsLead
      intro h3
      have := (hs (by omega)).1
      omega
  have four : ∀ (a b d f : UInt8) (t : Bytes) (hi : Bool), (0xF0 ≤ a.toNat ∧ a.toNat ≤ 0xF4) →
      (a.toNat = 0xF0 → 0x90 ≤ b.toNat) → (a.toNat = 0xF4 → b.toNat ≤ 0x8F) →
      (128 ≤ b.toNat ∧ b.toNat ≤ 191) → (128 ≤ d.toNat ∧ d.toNat ≤ 191) →
      (128 ≤ f.toNat ∧ f.toNat ≤ 191) →
      (∃ cs, LooseEnc cs t ∧ NoPair cs ∧ (false = true → ∀ c ∈ cs.head?, ¬ IsTrail c)) →
      ∃ cs, LooseEnc cs (a :: b :: d :: f :: t) ∧ NoPair cs ∧
        (hi = true → ∀ c ∈ cs.head?, ¬ IsTrail c) := by
    intro a b d f t hi ha hab hab' hb hd hf ih
    obtain ⟨c, h1, h2, e⟩ := gutf8_of_four a b d f ha hab hab' hb hd hf
    refine step [a, b, d, f] t _ false c (LooseUnit_of_gutf8 ?_ e) ?_ ?_ ih
    · unfold IsCodePoint; omega
    · unfold IsTrail; omega
    · unfold IsLead; omega
  fun_induction validateFrom i hi bs
  all_goals first
    | (exfalso; simp at h; done)
    | skip
  case case1 => exact ⟨[], .nil, trivial, by simp⟩
  all_goals
    have ih := (‹validateFrom _ _ _ = .ok () → _› : _ → _) h
    simp only [UInt8.le_iff_toNat_le, ← UInt8.toNat_inj, isTail_iff, UInt8.reduceToNat] at *
  case case2 =>
    rename_i x _ _ _
    refine step [x] _ _ false x.toNat (LooseUnit_of_gutf8 ?_ (gutf8_of_one _ (by omega))) ?_ ?_ ih
    · unfold IsCodePoint; omega
    · unfold IsTrail; omega
    · unfold IsLead; omega
  case case4 =>
    rename_i a b t _ _ _ _
    obtain ⟨c, h1, h2, e, _⟩ := gutf8_of_two a b (by omega) (by omega)
    refine step [a, b] t _ false c (LooseUnit_of_gutf8 ?_ e) ?_ ?_ ih
    · unfold IsCodePoint; omega
    · unfold IsTrail; omega
    · unfold IsLead; omega
  case case8 => exact three 0xE0 _ _ _ _ (by simp) (by simp; omega) (by omega) (by omega) (by simp) ih
  case case13 => exact three _ _ _ _ _ (by omega) (by omega) (by omega) (by omega) (by omega) ih
  case case18 => exact three 0xED _ _ _ _ (by simp) (by simp) (by omega) (by omega) (by simp; omega) ih
  case case24 =>
    have hh := Bool.eq_false_iff.mpr ‹¬ (_ : Bool) = true›
    exact three 0xED _ _ _ _ (by simp) (by simp) (by omega) (by omega) (by simp [hh]; omega) ih
  case case21 =>
    rename_i b x t _ _ _ _ _ _ _
    refine step [0xED, b, x] t _ true (0xD000 + (b.toNat - 0x80) * 64 + x.toNat % 64) ⟨?_, .inr ⟨?_, x, ?_, ?_⟩⟩ ?_ ?_ (by simpa using ih)
    · unfold IsCodePoint; omega
    · unfold IsLead; omega
    · omega
    · simp only [List.cons.injEq, and_true, true_and]
      apply u8_ext; rw [u8_ofNat_toNat]; omega
    · unfold IsTrail; omega
    · simp
  case case27 => exact four 0xF0 _ _ _ _ _ (by simp) (by simp; omega) (by simp) (by omega) (by omega) (by omega) ih
  case case30 => exact four _ _ _ _ _ _ (by omega) (by omega) (by omega) (by omega) (by omega) (by omega) ih
  case case33 => exact four 0xF4 _ _ _ _ _ (by simp) (by simp) (by simp; omega) (by omega) (by omega) (by omega) ih

/-- Completeness direction: every loose encoding without surrogate pairs is accepted. -/
theorem validateFrom_loose {cs : List Nat} {bs : Bytes} (h : LooseEnc cs bs) (i : Nat) (hi : Bool)
    (hn : NoPair cs) (hh : hi = true → ∀ c ∈ cs.head?, ¬ IsTrail c) :
    validateFrom i hi bs = .ok () := by
  induction h generalizing i hi with
  | nil => simp [validateFrom]
  | @cons c u cs bs hu _ ih =>
    rw [NoPair_cons] at hn
    have hd : ∀ j, validateFrom j (decide (IsLead c)) bs = .ok () := fun j =>
      ih j _ hn.2 (fun hl b hb ht => hn.1 b hb ⟨by simpa using hl, ht⟩)
    obtain ⟨hc, rfl | ⟨hl, x, hx, rfl⟩⟩ := hu
    · rw [validateFrom_gutf8 c hc i hi]
      · exact hd _
      · rintro ⟨h1, h2⟩
        exact hh h1 c (by simp) h2
    · have := hd (i + 3)
      rw [decide_eq_true hl] at this
      unfold IsLead at hl
      have hb : (UInt8.ofNat (0x80 + c / 64 % 64)).toNat = 0x80 + c / 64 % 64 := by
        rw [u8_ofNat_toNat]; omega
      generalize UInt8.ofNat (0x80 + c / 64 % 64) = b at hb
      simp only [List.cons_append, List.nil_append]
      conv => lhs; unfold validateFrom
      rw [if_neg (by simp), if_neg (by simp), if_neg (by simp), if_neg (by simp), if_pos rfl]
      dsimp only
      rw [if_neg (by u8), if_pos (by u8)]
      exact this

theorem LooseUnit_next {c : Nat} {u : Bytes} (h : LooseUnit c u) (rest : Bytes) :
    nextCodePoint (u ++ rest) = .cp c rest := by
  obtain ⟨hc, rfl | ⟨hl, x, hx, rfl⟩⟩ := h
  · exact nextCodePoint_gutf8 c hc rest
  · unfold IsLead at hl
    have hb : (UInt8.ofNat (0x80 + c / 64 % 64)).toNat = 0x80 + c / 64 % 64 := by
      rw [u8_ofNat_toNat]; omega
    generalize UInt8.ofNat (0x80 + c / 64 % 64) = b at hb
    simp only [List.cons_append, List.nil_append, nextCodePoint]
    rw [if_neg (by u8), if_pos (by u8), if_neg (by u8)]
    simp only [accCont, firstByte2, and3F_toNat]
    rw [shl_or _ _ _ (by omega)]
    simp; omega

theorem codepoints_loose {cs : List Nat} {bs : Bytes} (h : LooseEnc cs bs) :
    codepoints bs = some cs := by
  induction h with
  | nil => unfold codepoints; rfl
  | @cons c u cs bs hu _ ih =>
    unfold codepoints
    have hn := LooseUnit_next hu bs
    split
    · simp_all
    · simp_all
    · rename_i c' rest hh
      rw [hn] at hh
      obtain ⟨rfl, rfl⟩ := Next.cp.inj hh
      rw [ih]; rfl

theorem LooseEnc_of_encode (cs : List Nat) (h : ∀ c ∈ cs, IsCodePoint c) :
    LooseEnc cs (encodeCps cs) := by
  induction cs with
  | nil => exact .nil
  | cons c cs ih =>
    have e : encodeCps (c :: cs) = gutf8 c ++ encodeCps cs := by simp [encodeCps]
    rw [e]
    exact .cons ⟨h c (by simp), .inl rfl⟩ (ih fun x hx => h x (by simp [hx]))

theorem LooseEnc_isCodePoint {cs : List Nat} {bs : Bytes} (h : LooseEnc cs bs) :
    ∀ c ∈ cs, IsCodePoint c := by
  induction h with
  | nil => simp
  | cons hu _ ih => simpa using ⟨hu.1, ih⟩

end Verif.Wtf8
