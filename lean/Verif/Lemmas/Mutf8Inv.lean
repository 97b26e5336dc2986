import Verif.Lemmas.Mutf8

/-! Totality of the decoder and inversion: what accepted input looks like. -/

namespace Verif.Mutf8
open Verif.Spec Verif.Bits Verif.Wtf8

theorem scan_total (hi : Bool) (bs : Bytes) : (∃ b, scan hi bs = .ok b) ∨ scan hi bs = .error .mutf := by
  fun_induction scan hi bs <;> first | assumption | simp

theorem rewrite_cases (b : UInt8) (t : Bytes) :
    (∃ t', b = 0xC0 ∧ t = 0x80 :: t') ∨
    (∃ n n1 n3 n4 t', b = 0xED ∧ t = n :: n1 :: 0xED :: n3 :: n4 :: t' ∧
      (0xA0 ≤ n.toNat ∧ n.toNat ≤ 0xAF) ∧ (0xB0 ≤ n3.toNat ∧ n3.toNat ≤ 0xBF)) ∨
    rewrite (b :: t) = (rewrite t).map (b :: ·) := by
  by_cases h1 : b = 0xC0
  · subst h1
    by_cases h2 : t[0]? = some 0x80
    · left
      cases t with
      | nil => simp at h2
      | cons x t' => exact ⟨t', rfl, by simp at h2; rw [h2]⟩
    · right; right
      conv => lhs; unfold rewrite
      rw [if_neg (by intro h; exact h2 h.2), if_neg (by decide)]
      cases rewrite t <;> rfl
  · by_cases h2 : b = 0xED
    · subst h2
      by_cases h : ∃ n n1 n3 n4 t', t = n :: n1 :: 0xED :: n3 :: n4 :: t' ∧
          (0xA0 ≤ n.toNat ∧ n.toNat ≤ 0xAF) ∧ (0xB0 ≤ n3.toNat ∧ n3.toNat ≤ 0xBF)
      · obtain ⟨n, n1, n3, n4, t', h⟩ := h
        exact .inr (.inl ⟨n, n1, n3, n4, t', rfl, h⟩)
      · exact .inr (.inr (rewrite_ed t h))
    · exact .inr (.inr (rewrite_plain b t (fun h => h1 (u8_ext h)) (fun h => h2 (u8_ext h))))

theorem rewrite_total (bs : Bytes) : ∃ out, rewrite bs = .ok out := by
  induction hn : bs.length using Nat.strongRecOn generalizing bs with
  | ind k ih =>
    cases bs with
    | nil => exact ⟨[], by unfold rewrite; rfl⟩
    | cons b t =>
      rcases rewrite_cases b t with ⟨t', rfl, rfl⟩ | ⟨n, n1, n3, n4, t', rfl, rfl, h1, h2⟩ | h
      · obtain ⟨out, e⟩ := ih t'.length (by simp at hn; omega) t' rfl
        exact ⟨_, by rw [rewrite_zero, e]; rfl⟩
      · obtain ⟨out, e⟩ := ih t'.length (by simp at hn; omega) t' rfl
        exact ⟨_, by rw [rewrite_pair _ _ _ _ _ h1 h2, e]; rfl⟩
      · obtain ⟨out, e⟩ := ih t.length (by simp at hn; omega) t rfl
        exact ⟨_, by rw [h, e]; rfl⟩

theorem fromBytes'_total (bs : Bytes) : fromBytes' bs = .ok bs ∨ fromBytes' bs = .error .mutf := by
  unfold fromBytes' fromBytes
  cases validate bs <;> simp [bind, Except.bind, pure, Except.pure]

theorem fromBytes'_loose (bs r : Bytes) (h : fromBytes' bs = .ok r) :
    r = bs ∧ ∃ cs, LooseEnc cs bs ∧ NoPair cs := by
  unfold fromBytes' fromBytes validate at h
  cases hv : validateFrom 0 false bs with
  | error e => rw [hv] at h; simp [bind, Except.bind] at h
  | ok u =>
    rw [hv] at h
    simp [bind, Except.bind, pure, Except.pure] at h
    obtain ⟨cs, h1, h2, _⟩ := validateFrom_ok 0 false bs hv
    exact ⟨h.symm, cs, h1, h2⟩

theorem decode_total (bs : Bytes) : (∃ r, decode bs = .ok r) ∨ decode bs = .error .mutf := by
  unfold decode
  rcases scan_total false bs with ⟨b, e⟩ | e
  · rw [e]
    cases b
    · rcases fromBytes'_total bs with h | h
      · left; exact ⟨bs, by simpa [bind, Except.bind] using h⟩
      · right; simpa [bind, Except.bind] using h
    · obtain ⟨out, e'⟩ := rewrite_total bs
      rcases fromBytes'_total out with h | h
      · left; exact ⟨out, by simpa [bind, Except.bind, e'] using h⟩
      · right; simpa [bind, Except.bind, e'] using h
  · right; rw [e]; rfl

/-- Input without the byte sequences on which the decoder is more lenient than the JVM: zero bytes,
four-byte sequences and surrogates with a stray third byte. -/
structure Strict (bs : Bytes) : Prop where
  nonzero : ∀ b ∈ bs, b ≠ 0
  three : ∀ b ∈ bs, b.toNat < 0xF0
  third : ∀ (p q : Bytes) (x y : UInt8), bs = p ++ 0xED :: x :: y :: q →
    0xA0 ≤ x.toNat ∧ x.toNat ≤ 0xBF → 0x80 ≤ y.toNat ∧ y.toNat ≤ 0xBF

theorem Strict.suffix {p q : Bytes} (h : Strict (p ++ q)) : Strict q where
  nonzero b hb := h.nonzero b (by simp [hb])
  three b hb := h.three b (by simp [hb])
  third p' q' x y e := h.third (p ++ p') q' x y (by rw [e]; simp)

theorem rewrite_inv (cs : List Nat) (out bs : Bytes) (hl : LooseEnc cs out) (hs : Strict bs)
    (hr : rewrite bs = .ok out) : bs = cs.flatMap mcp := by
  have nil_inv : ∀ bs, rewrite bs = .ok [] → bs = [] := by
    intro bs h
    cases bs with
    | nil => rfl
    | cons b t =>
      exfalso
      rcases rewrite_cases b t with ⟨t', rfl, rfl⟩ | ⟨n, n1, n3, n4, t', rfl, rfl, h1, h2⟩ | h'
      · rw [rewrite_zero] at h
        cases e : rewrite t' <;> rw [e] at h <;> simp [Except.map] at h
      · rw [rewrite_pair _ _ _ _ _ h1 h2] at h
        cases e : rewrite t' <;> rw [e] at h <;> simp [Except.map, gutf8_ne_nil] at h
      · rw [h'] at h
        cases e : rewrite t <;> rw [e] at h <;> simp [Except.map] at h
  -- a byte that is neither 0 nor >= F0 comes from a copied byte
  have plain_inv : ∀ (a : UInt8) (o bs : Bytes), a.toNat ≠ 0 → a.toNat < 0xF0 →
      rewrite bs = .ok (a :: o) → ∃ t, bs = a :: t ∧ rewrite t = .ok o := by
    intro a o bs h0 h1 h
    cases bs with
    | nil => simp [rewrite] at h
    | cons b t =>
      rcases rewrite_cases b t with ⟨t', rfl, rfl⟩ | ⟨n, n1, n3, n4, t', rfl, rfl, h2, h3⟩ | h'
      · exfalso
        rw [rewrite_zero] at h
        cases e : rewrite t' <;> rw [e] at h <;> simp [Except.map] at h
        exact h0 (by rw [← h.1]; rfl)
      · exfalso
        rw [rewrite_pair _ _ _ _ _ h2 h3] at h
        cases e : rewrite t' <;> rw [e] at h <;> simp [Except.map] at h
        have hcp : IsCodePoint (pairChar n n1 n3 n4) := by rw [pairChar_eq]; unfold IsCodePoint; omega
        have hge : 0x10000 ≤ pairChar n n1 n3 n4 := by rw [pairChar_eq]; omega
        rcases gutf8_cases _ hcp with ⟨h1, _⟩ | ⟨h1, h2, _⟩ | ⟨h1, h2, _⟩ | ⟨_, a', b, d, f, e', ha, _⟩
        · omega
        · omega
        · omega
        · rw [e'] at h
          simp at h
          have := congrArg UInt8.toNat h.1
          omega
      · rw [h'] at h
        cases e : rewrite t <;> rw [e] at h <;> simp [Except.map] at h
        exact ⟨t, by rw [h.1], by rw [h.2] at e; exact e⟩
  induction hl generalizing bs with
  | nil => simpa using nil_inv bs hr
  | @cons c u cs o hu _ ih =>
    rw [List.flatMap_cons]
    -- a proper BMP unit
    have bmp : c ≠ 0 → c < 0x10000 → u = gutf8 c → bs = mcp c ++ cs.flatMap mcp := by
      intro h0 h1 e
      subst e
      rw [mcp_bmp c h0 h1]
      rcases gutf8_cases c hu.1 with ⟨h1, a, e, ha⟩ | ⟨h1, h2, a, b, e, ha, hb⟩ |
        ⟨h1, h2, a, b, d, e, ha, hb, hd⟩ | ⟨h1, a, b, d, f, e, ha, hb, hd, hf⟩
      · rw [e] at hr ⊢
        obtain ⟨t, rfl, ht⟩ := plain_inv a _ bs (by omega) (by omega) hr
        rw [ih t (Strict.suffix (p := [a]) hs) ht]; rfl
      · rw [e] at hr ⊢
        simp only [List.cons_append, List.nil_append] at hr
        obtain ⟨t1, rfl, ht1⟩ := plain_inv a _ bs (by omega) (by omega) hr
        obtain ⟨t, rfl, ht⟩ := plain_inv b _ t1 (by omega) (by omega) ht1
        rw [ih t (Strict.suffix (p := [a, b]) hs) ht]; rfl
      · rw [e] at hr ⊢
        simp only [List.cons_append, List.nil_append] at hr
        obtain ⟨t1, rfl, ht1⟩ := plain_inv a _ bs (by omega) (by omega) hr
        obtain ⟨t2, rfl, ht2⟩ := plain_inv b _ t1 (by omega) (by omega) ht1
        obtain ⟨t, rfl, ht⟩ := plain_inv d _ t2 (by omega) (by omega) ht2
        rw [ih t (Strict.suffix (p := [a, b, d]) hs) ht]; rfl
      · omega
    by_cases h0 : c = 0
    · subst h0
      have e : u = [0] := by
        obtain ⟨_, h | ⟨hl, _⟩⟩ := hu
        · exact h
        · exfalso; unfold IsLead at hl; omega
      subst e
      cases bs with
      | nil => simp [rewrite] at hr
      | cons b t =>
        rcases rewrite_cases b t with ⟨t', rfl, rfl⟩ | ⟨n, n1, n3, n4, t', rfl, rfl, h2, h3⟩ | h'
        · rw [rewrite_zero] at hr
          cases e : rewrite t' <;> rw [e] at hr <;> simp [Except.map] at hr
          subst hr
          rw [ih t' (Strict.suffix (p := [0xC0, 0x80]) hs) e, mcp_zero]; rfl
        · exfalso
          rw [rewrite_pair _ _ _ _ _ h2 h3] at hr
          cases e : rewrite t' <;> rw [e] at hr <;> simp [Except.map] at hr
          have hcp : IsCodePoint (pairChar n n1 n3 n4) := by rw [pairChar_eq]; unfold IsCodePoint; omega
          have hge : 0x10000 ≤ pairChar n n1 n3 n4 := by rw [pairChar_eq]; omega
          rcases gutf8_cases _ hcp with ⟨h1, _⟩ | ⟨h1, h2, _⟩ | ⟨h1, h2, _⟩ | ⟨_, a', b, d, f, e', ha, _⟩
          · omega
          · omega
          · omega
          · rw [e'] at hr
            simp at hr
            have := congrArg UInt8.toNat hr.1
            simp at this
            omega
        · exfalso
          rw [h'] at hr
          cases e : rewrite t <;> rw [e] at hr <;> simp [Except.map] at hr
          exact hs.nonzero b (by simp) hr.1
    · by_cases h1 : c < 0x10000
      · obtain ⟨hc, e | ⟨hl, x, hx, e⟩⟩ := hu
        · exact bmp h0 h1 e
        · -- lead surrogate with an arbitrary third byte: `Strict` makes it proper
          subst e
          have hl' : IsLead c ↔ 0xD800 ≤ c ∧ c ≤ 0xDBFF := Iff.rfl
          rw [hl'] at hl
          obtain ⟨b, hb⟩ : ∃ b, b = UInt8.ofNat (0x80 + c / 64 % 64) := ⟨_, rfl⟩
          have hbn : b.toNat = 0x80 + c / 64 % 64 := by rw [hb, u8_ofNat_toNat]; omega
          rw [← hb] at hr
          simp only [List.cons_append, List.nil_append] at hr
          obtain ⟨t1, rfl, ht1⟩ := plain_inv 0xED _ bs (by decide) (by decide) hr
          obtain ⟨t, rfl, ht⟩ := plain_inv b _ t1 (by omega) (by omega) ht1
          cases t with
          | nil => simp [rewrite] at ht
          | cons y t =>
            have hy := hs.third [] t b y rfl (by omega)
            rw [rewrite_plain y t (by omega) (by omega)] at ht
            cases e : rewrite t <;> rw [e] at ht <;> simp [Except.map] at ht
            obtain ⟨rfl, rfl⟩ := ht
            rw [ih t (Strict.suffix (p := [0xED, b, y]) hs) e, mcp_bmp c h0 h1]
            rcases gutf8_cases c hc with ⟨h1, a, e, ha⟩ | ⟨h1, h2, a, b, e, ha, hb⟩ |
              ⟨h1, h2, a, b', d, e', ha, hb', hd⟩ | ⟨h1, a, b, d, f, e, ha, hb, hd, hf⟩
            · omega
            · omega
            · rw [e']
              have : a = 0xED := u8_ext (by simp only [UInt8.reduceToNat]; omega)
              have : b' = b := u8_ext (by omega)
              have : d = y := u8_ext (by omega)
              subst_vars; rfl
            · omega
      · -- supplementary: must come from a pair
        have e : u = gutf8 c := by
          obtain ⟨_, h | ⟨hl, _⟩⟩ := hu
          · exact h
          · exfalso; unfold IsLead at hl; omega
        subst e
        obtain ⟨a, b, d, f, e', ha⟩ : ∃ a b d f : UInt8, gutf8 c = [a, b, d, f] ∧
            a.toNat = 0xF0 + c / 262144 := by
          rcases gutf8_cases c hu.1 with ⟨h1, _⟩ | ⟨h1, h2, _⟩ | ⟨h1, h2, _⟩ | ⟨_, a', b, d, f, e', ha, _⟩
          · omega
          · omega
          · omega
          · exact ⟨a', b, d, f, e', ha⟩
        cases bs with
        | nil => rw [e'] at hr; simp [rewrite] at hr
        | cons x t =>
          rcases rewrite_cases x t with ⟨t', rfl, rfl⟩ | ⟨n, n1, n3, n4, t', rfl, rfl, h2, h3⟩ | h'
          · exfalso
            rw [rewrite_zero, e'] at hr
            cases e : rewrite t' <;> rw [e] at hr <;> simp [Except.map] at hr
            have := congrArg UInt8.toNat hr.1
            simp at this; omega
          · rw [rewrite_pair _ _ _ _ _ h2 h3] at hr
            cases e : rewrite t' <;> rw [e] at hr <;> simp only [Except.map, reduceCtorEq, Except.ok.injEq] at hr
            rename_i o'
            have hcp : IsCodePoint (pairChar n n1 n3 n4) := by rw [pairChar_eq]; unfold IsCodePoint; omega
            have hn1 := nextCodePoint_gutf8 _ hcp o'
            rw [hr, nextCodePoint_gutf8 _ hu.1] at hn1
            simp only [Next.cp.injEq] at hn1
            obtain ⟨hcc, rfl⟩ := hn1
            have y1 := hs.third [] (0xED :: n3 :: n4 :: t') n n1 rfl (by omega)
            have y2 := hs.third [0xED, n, n1] t' n3 n4 rfl (by omega)
            rw [ih t' (Strict.suffix (p := [0xED, n, n1, 0xED, n3, n4]) hs) e]
            obtain ⟨m, m1, m3, m4, e'', hm, hm1, hm3, hm4⟩ := mcp_supp c (by omega) hu.1
            rw [e'']
            rw [pairChar_eq] at hcc
            have : m = n := u8_ext (by omega)
            have : m1 = n1 := u8_ext (by omega)
            have : m3 = n3 := u8_ext (by omega)
            have : m4 = n4 := u8_ext (by omega)
            subst_vars; rfl
          · exfalso
            rw [h', e'] at hr
            cases e : rewrite t <;> rw [e] at hr <;> simp [Except.map] at hr
            have := hs.three x (by simp)
            have := congrArg UInt8.toNat hr.1
            omega

/-- Without modification the input is its own rewriting, as far as strict input goes. -/
theorem loose_inv (cs : List Nat) (bs : Bytes) (hl : LooseEnc cs bs) (hs : Strict bs) :
    bs = cs.flatMap mcp := by
  induction hl with
  | nil => rfl
  | @cons c u cs o hu _ ih =>
    rw [List.flatMap_cons, ← ih hs.suffix]
    congr 1
    obtain ⟨hc, e | ⟨hl, x, hx, e⟩⟩ := hu
    · subst e
      have h0 : c ≠ 0 := by
        rintro rfl
        exact hs.nonzero 0 (by simp [gutf8]) rfl
      have h1 : c < 0x10000 := by
        apply Nat.lt_of_not_le
        intro hge
        rcases gutf8_cases c hc with ⟨h1, _⟩ | ⟨h1, h2, _⟩ | ⟨h1, h2, _⟩ | ⟨_, a', b, d, f, e', ha, _⟩
        · omega
        · omega
        · omega
        · have := hs.three a' (by rw [e']; simp)
          omega
      exact (mcp_bmp c h0 h1).symm
    · subst e
      have hl' : IsLead c ↔ 0xD800 ≤ c ∧ c ≤ 0xDBFF := Iff.rfl
      rw [hl'] at hl
      obtain ⟨b, hb⟩ : ∃ b, b = UInt8.ofNat (0x80 + c / 64 % 64) := ⟨_, rfl⟩
      have hbn : b.toNat = 0x80 + c / 64 % 64 := by rw [hb, u8_ofNat_toNat]; omega
      rw [← hb] at hs ⊢
      have hy := hs.third [] o b x rfl (by omega)
      rw [mcp_bmp c (by omega) (by omega)]
      rcases gutf8_cases c hc with ⟨h1, a, e, ha⟩ | ⟨h1, h2, a, b, e, ha, hb⟩ |
        ⟨h1, h2, a, b', d, e', ha, hb', hd⟩ | ⟨h1, a, b, d, f, e, ha, hb, hd, hf⟩
      · omega
      · omega
      · rw [e']
        have : a = 0xED := u8_ext (by simp only [UInt8.reduceToNat]; omega)
        have : b' = b := u8_ext (by omega)
        have : d = x := u8_ext (by omega)
        subst_vars; rfl
      · omega

end Verif.Mutf8
