import Verif.Lemmas.Signature

namespace Verif.Sig
open Verif.Spec Verif.JType

theorem expect_ok {c : Nat} {s r : Str} (h : expect c s = .ok r) : s = c :: r := by
  cases s with
  | nil => simp [expect] at h
  | cons x xs =>
    rw [expect] at h
    split at h
    · rename_i e; cases h; rw [e]
    · cases h

theorem expect_err {c : Nat} {s : Str} {e : Err} (h : expect c s = .error e) : e = .invalid := by
  cases s with
  | nil => simp [expect] at h; exact h.symm
  | cons x xs =>
    rw [expect] at h
    split at h
    · cases h
    · cases h; rfl

theorem tyVar_ok {s n r : Str} (h : tyVar s = .ok (n, r)) : 0x3B ∉ n ∧ s = n ++ 0x3B :: r := by
  unfold tyVar at h
  split at h
  · cases h
  · rename_i c rest hd
    have hc := dropWhile_cons_false _ hd
    have e := List.takeWhile_append_dropWhile (p := (· ≠ 0x3B)) (l := s)
    simp at hc
    subst hc
    rw [hd] at e
    cases h
    refine ⟨?_, e.symm⟩
    intro hm
    have := mem_takeWhile hm
    simp at this

theorem tyVar_err {s : Str} {e : Err} (h : tyVar s = .error e) : e = .invalid := by
  unfold tyVar at h
  split at h
  · cases h; rfl
  · cases h

/-- What the package scanner returns. -/
theorem packagesLoop_ok (cs : Str) : ∀ (cur : Str) (acc pk : List Str) (rest : Str),
    packagesLoop cs cur acc (cur ++ cs) = .ok (pk, rest) → Plain cur → 0x2F ∉ cur →
    ∃ more, pk = acc ++ more ∧ cur ++ cs = more.flatMap (fun s => s ++ [0x2F]) ++ rest ∧
      (∀ p ∈ more, Plain p ∧ 0x2F ∉ p) ∧ 0x2F ∉ rest.takeWhile nameChar := by
  induction cs with
  | nil => intro cur acc pk rest h; simp [packagesLoop] at h
  | cons c cs ih =>
    intro cur acc pk rest h hp hs
    rw [packagesLoop] at h
    split at h
    · rename_i hc
      subst hc
      obtain ⟨more, h1, h2, h3, h4⟩ := ih [] (acc ++ [cur]) pk rest h (by simp [Plain]) (by simp)
      refine ⟨cur :: more, by rw [h1]; simp, ?_, ?_, h4⟩
      · rw [List.flatMap_cons, List.append_assoc, List.append_assoc, ← h2]; simp
      · intro p hp'
        rcases List.mem_cons.mp hp' with rfl | hp'
        · exact ⟨hp, hs⟩
        · exact h3 p hp'
    · rename_i hc
      split at h
      · rename_i hd
        cases h
        refine ⟨[], by simp, by simp, by simp, ?_⟩
        have := takeWhile_split (p := nameChar) cur c cs (fun x hx => (nameChar_iff x).mpr (hp x hx))
          (by rcases hd with rfl | rfl | rfl <;> rfl)
        rw [this.1]
        exact hs
      · rename_i hd
        have e : cur ++ c :: cs = (cur ++ [c]) ++ cs := by simp
        rw [e] at h ⊢
        refine ih (cur ++ [c]) acc pk rest h ?_ ?_
        · intro x hx
          rcases List.mem_append.mp hx with hx | hx
          · exact hp x hx
          · simp at hx; subst hx; omega
        · intro hx
          rcases List.mem_append.mp hx with hx | hx
          · exact hs hx
          · simp at hx; omega

theorem packagesLoop_err (cs : Str) : ∀ (cur : Str) (acc : List Str) (after : Str) (e : Err),
    packagesLoop cs cur acc after = .error e → e = .invalid := by
  induction cs with
  | nil => intro cur acc after e h; simp [packagesLoop] at h; exact h.symm
  | cons c cs ih =>
    intro cur acc after e h
    rw [packagesLoop] at h
    split at h
    · exact ih _ _ _ _ h
    · split at h
      · cases h
      · exact ih _ _ _ _ h

theorem primSig_ok {c : Nat} {t : TypeSig} (h : primSig c = some t) :
    OkT t ∧ ∀ d u, t ≠ .ref (.array d u) := by
  unfold primSig at h
  iterate 8
    split at h
    · cases h; simp [OkT]
  cases h

theorem refTypeSig_array {n : Nat} {c : Nat} {cs rest : Str} {d : UInt8} {t : TypeSig}
    (h : refTypeSig n (c :: cs) = .ok (.array d t, rest)) : c = 0x5B := by
  cases n with
  | zero => simp [refTypeSig] at h
  | succ n =>
    rw [refTypeSig] at h
    split at h
    · assumption
    · split at h
      · split at h
        · cases h
        · cases h
      · split at h
        · split at h
          · cases h
          · cases h
        · cases h

theorem typeSig_array {n : Nat} {s rest : Str} {d : UInt8} {t : TypeSig}
    (h : typeSig n s = .ok (.ref (.array d t), rest)) : s.head? = some 0x5B := by
  cases n with
  | zero => simp [typeSig] at h
  | succ n =>
    cases s with
    | nil => simp [typeSig] at h
    | cons c cs =>
      rw [typeSig] at h
      split at h
      · rename_i t' hp
        cases h
        exact absurd rfl ((primSig_ok hp).2 _ _)
      · split at h
        · split at h
          · rename_i r i hr
            cases h
            rw [refTypeSig_array hr]; rfl
          · cases h
        · cases h

theorem countBrackets_head (cs : Str) : (countBrackets cs).2.head? ≠ some 0x5B := by
  induction cs with
  | nil => simp [countBrackets]
  | cons c cs ih =>
    rw [countBrackets]
    split
    · exact ih
    · rename_i h; simpa using h

theorem simpleTypeSig_name {n : Nat} {i rest : Str} {nm : Str} {as : List TypeArg}
    (h : simpleTypeSig n i = .ok (.mk nm as, rest)) : nm = i.takeWhile nameChar := by
  cases n with
  | zero => simp [simpleTypeSig] at h
  | succ n =>
    rw [simpleTypeSig] at h
    split at h
    · cases h; rfl
    · split at h
      · split at h
        · cases h
        · split at h
          · cases h
          · cases h; rfl
      · cases h; rfl

/-- `rest` is a suffix of `s`. -/
def Suf (s rest : Str) : Prop := ∃ u, s = u ++ rest
/-- `rest` is a proper suffix of `s`. -/
def PSuf (s rest : Str) : Prop := ∃ u, u ≠ [] ∧ s = u ++ rest

theorem Suf.rfl {s : Str} : Suf s s := ⟨[], by simp⟩
theorem PSuf.suf {s r : Str} (h : PSuf s r) : Suf s r := by obtain ⟨u, _, e⟩ := h; exact ⟨u, e⟩
theorem Suf.trans {a b c : Str} (h : Suf a b) (h' : Suf b c) : Suf a c := by
  obtain ⟨u, rfl⟩ := h; obtain ⟨v, rfl⟩ := h'; exact ⟨u ++ v, by simp⟩
theorem PSuf.trans {a b c : Str} (h : PSuf a b) (h' : Suf b c) : PSuf a c := by
  obtain ⟨u, hu, rfl⟩ := h; obtain ⟨v, rfl⟩ := h'; exact ⟨u ++ v, by simp [hu], by simp⟩
theorem Suf.transP {a b c : Str} (h : Suf a b) (h' : PSuf b c) : PSuf a c := by
  obtain ⟨u, rfl⟩ := h; obtain ⟨v, hv, rfl⟩ := h'; exact ⟨u ++ v, by simp [hv], by simp⟩
theorem PSuf.cons (c : Nat) (s : Str) : PSuf (c :: s) s := ⟨[c], by simp, by simp⟩
theorem PSuf.length {s r : Str} (h : PSuf s r) : r.length < s.length := by
  obtain ⟨u, hu, rfl⟩ := h
  have : 0 < u.length := List.length_pos_iff.mpr hu
  simp; omega
theorem Suf.length {s r : Str} (h : Suf s r) : r.length ≤ s.length := by
  obtain ⟨u, rfl⟩ := h; simp
theorem Suf.deep {s r : Str} (h : Suf s r) (hd : Deep r) : Deep s := by
  obtain ⟨u, rfl⟩ := h; exact Deep_append hd
theorem suf_dropWhile (p : Nat → Bool) (s : Str) : Suf s (s.dropWhile p) :=
  ⟨s.takeWhile p, List.takeWhile_append_dropWhile.symm⟩
theorem suf_brackets (s : Str) : Suf s (countBrackets s).2 := ⟨_, countBrackets_spec s⟩

theorem expect_suf {c : Nat} {s r : Str} (h : expect c s = .ok r) : PSuf s r := by
  rw [expect_ok h]; exact .cons _ _

theorem tyVar_suf {s n r : Str} (h : tyVar s = .ok (n, r)) : Suf s r := by
  have := (tyVar_ok h).2
  exact ⟨n ++ [0x3B], by rw [this]; simp⟩

theorem packages_suf {s : Str} {pk : List Str} {r : Str} (h : packages s = .ok (pk, r)) : Suf s r := by
  obtain ⟨more, _, e, _⟩ := packagesLoop_ok s [] [] pk r h (by simp [Plain]) (by simp)
  exact ⟨_, e⟩

theorem plain_takeWhile (i : Str) : Plain (i.takeWhile nameChar) :=
  fun c hc => (nameChar_iff c).mp (mem_takeWhile hc)

mutual
theorem okT : (n : Nat) → (s : Str) → (t : TypeSig) → (rest : Str) →
    typeSig n s = .ok (t, rest) → OkT t ∧ PSuf s rest
  | 0, _, _, _, h => by simp [typeSig] at h
  | n + 1, [], _, _, h => by simp [typeSig] at h
  | n + 1, c :: cs, t, rest, h => by
    rw [typeSig] at h
    split at h
    · rename_i t' hp; cases h; exact ⟨(primSig_ok hp).1, .cons _ _⟩
    · split at h
      · split at h
        · rename_i r i hr
          cases h
          have := okR n _ _ _ hr
          exact ⟨by rw [OkT]; exact this.1, this.2⟩
        · cases h
      · cases h
theorem okR : (n : Nat) → (s : Str) → (r : RefSig) → (rest : Str) →
    refTypeSig n s = .ok (r, rest) → OkR r ∧ PSuf s rest
  | 0, _, _, _, h => by simp [refTypeSig] at h
  | n + 1, [], _, _, h => by simp [refTypeSig] at h
  | n + 1, c :: cs, t, rest, h => by
    rw [refTypeSig] at h
    split at h
    · split at h
      · rename_i hk
        split at h
        · rename_i t' i ht
          cases h
          have ih := okT n _ _ _ ht
          refine ⟨?_, (PSuf.cons c cs).trans ((suf_brackets cs).trans ih.2.suf)⟩
          rw [OkR]
          refine ⟨?_, ?_, ih.1⟩
          · intro e
            have := congrArg UInt8.toNat e
            rw [UInt8.toNat_ofNat'] at this
            simp at this
            omega
          · rintro d' t'' rfl
            exact countBrackets_head cs (typeSig_array ht)
        · cases h
      · cases h
    · split at h
      · split at h
        · rename_i nm i hv
          cases h
          exact ⟨by rw [OkR]; exact (tyVar_ok hv).1, (PSuf.cons c cs).trans (tyVar_suf hv)⟩
        · cases h
      · split at h
        · split at h
          · rename_i sg i hc
            cases h
            have ih := okC n _ _ _ hc
            exact ⟨by rw [OkR]; exact ih.1, ih.2⟩
          · cases h
        · cases h
theorem okC : (n : Nat) → (s : Str) → (r : ClassTySig) → (rest : Str) →
    classTypeSig n s = .ok (r, rest) → OkC r ∧ PSuf s rest
  | 0, _, _, _, h => by simp [classTypeSig] at h
  | n + 1, s, t, rest, h => by
    rw [classTypeSig] at h
    split at h
    · cases h
    rename_i i1 h1
    split at h
    · cases h
    rename_i pk i2 h2
    split at h
    · cases h
    rename_i nm i3 h3
    split at h
    · cases h
    rename_i ss i4 h4
    split at h
    · cases h
    rename_i i5 h5
    cases h
    have ihS := okS n _ _ _ h3
    have ihSs := okSs n _ _ _ h4
    refine ⟨?_, (expect_suf h1).trans ((packages_suf h2).trans (ihS.2.trans
      (ihSs.2.trans (expect_suf h5).suf)))⟩
    cases nm with
    | mk nm as =>
      rw [OkC]
      obtain ⟨more, e, _, hm, hsl⟩ := packagesLoop_ok i1 [] [] pk i2 h2 (by simp [Plain]) (by simp)
      rw [List.nil_append] at e
      subst e
      rw [← simpleTypeSig_name h3] at hsl
      exact ⟨hm, hsl, ihS.1, ihSs.1⟩
theorem okSs : (n : Nat) → (s : Str) → (r : List SimpleSig) → (rest : Str) →
    suffixes n s = .ok (r, rest) → OkSs r ∧ Suf s rest
  | 0, _, _, _, h => by simp [suffixes] at h
  | n + 1, [], _, _, h => by rw [suffixes] at h; cases h; exact ⟨by simp [OkSs], .rfl⟩
  | n + 1, c :: cs, t, rest, h => by
    rw [suffixes] at h
    split at h
    · split at h
      · cases h
      rename_i sg i1 h1
      split at h
      · cases h
      rename_i ss i2 h2
      cases h
      have ih1 := okS n _ _ _ h1
      have ih2 := okSs n _ _ _ h2
      exact ⟨by rw [OkSs]; exact ⟨ih1.1, ih2.1⟩, (PSuf.cons c cs).suf.trans (ih1.2.trans ih2.2)⟩
    · cases h; exact ⟨by simp [OkSs], .rfl⟩
theorem okS : (n : Nat) → (s : Str) → (r : SimpleSig) → (rest : Str) →
    simpleTypeSig n s = .ok (r, rest) → OkS r ∧ Suf s rest
  | 0, _, _, _, h => by simp [simpleTypeSig] at h
  | n + 1, s, t, rest, h => by
    have hsuf := suf_dropWhile nameChar s
    rw [simpleTypeSig] at h
    split at h
    · rename_i hd
      cases h
      rw [hd] at hsuf
      exact ⟨by rw [OkS]; exact ⟨plain_takeWhile s, by simp [OkAs]⟩, hsuf⟩
    · rename_i c cs hd
      rw [hd] at hsuf
      split at h
      · split at h
        · cases h
        rename_i as i1 h1
        split at h
        · cases h
        rename_i i2 h2
        cases h
        have ih := okAs n _ _ _ h1
        exact ⟨by rw [OkS]; exact ⟨plain_takeWhile s, ih.1⟩,
          hsuf.trans ((PSuf.cons c cs).suf.trans (ih.2.trans (expect_suf h2).suf))⟩
      · cases h
        exact ⟨by rw [OkS]; exact ⟨plain_takeWhile s, by simp [OkAs]⟩, hsuf⟩
theorem okAs : (n : Nat) → (s : Str) → (r : List TypeArg) → (rest : Str) →
    typeArgs n s = .ok (r, rest) → OkAs r ∧ Suf s rest
  | 0, _, _, _, h => by simp [typeArgs] at h
  | n + 1, [], _, _, h => by rw [typeArgs] at h; cases h; exact ⟨by simp [OkAs], .rfl⟩
  | n + 1, c :: cs, t, rest, h => by
    rw [typeArgs] at h
    split at h
    · cases h; exact ⟨by simp [OkAs], .rfl⟩
    · split at h
      · cases h
      rename_i sg i1 h1
      split at h
      · cases h
      rename_i ss i2 h2
      cases h
      have ih1 := okA n _ _ _ h1
      have ih2 := okAs n _ _ _ h2
      exact ⟨by rw [OkAs]; exact ⟨ih1.1, ih2.1⟩, ih1.2.suf.trans ih2.2⟩
theorem okA : (n : Nat) → (s : Str) → (r : TypeArg) → (rest : Str) →
    typeArg n s = .ok (r, rest) → OkA r ∧ PSuf s rest
  | 0, _, _, _, h => by simp [typeArg] at h
  | n + 1, [], _, _, h => by simp [typeArg] at h
  | n + 1, c :: cs, t, rest, h => by
    rw [typeArg] at h
    split at h
    · cases h; exact ⟨by simp [OkA], .cons _ _⟩
    · split at h
      · split at h
        · rename_i r i hr
          cases h
          have ih := okR n _ _ _ hr
          exact ⟨by rw [OkA]; exact ih.1, (PSuf.cons c cs).trans ih.2.suf⟩
        · cases h
      · split at h
        · split at h
          · rename_i r i hr
            cases h
            have ih := okR n _ _ _ hr
            exact ⟨by rw [OkA]; exact ih.1, (PSuf.cons c cs).trans ih.2.suf⟩
          · cases h
        · split at h
          · split at h
            · rename_i r i hr
              cases h
              have ih := okR n _ _ _ hr
              exact ⟨by rw [OkA]; exact ih.1, ih.2⟩
            · cases h
          · cases h
end

/-- The error is a rejection, or an overflow caused by 256 brackets in a row. -/
def ErrOk (e : Err) (s : Str) : Prop := e = .invalid ∨ (e = .panic ∧ Deep s)

theorem ErrOk.inv {s : Str} : ErrOk .invalid s := .inl rfl
theorem ErrOk.mono {e : Err} {s r : Str} (h : ErrOk e r) (hs : Suf s r) : ErrOk e s := by
  rcases h with h | ⟨h, hd⟩
  · exact .inl h
  · exact .inr ⟨h, hs.deep hd⟩

mutual
theorem errT : (n : Nat) → (s : Str) → (e : Err) → 4 * s.length + 3 ≤ n →
    typeSig n s = .error e → ErrOk e s
  | 0, _, _, hn, h => by omega
  | n + 1, [], _, _, h => by simp [typeSig] at h; subst h; exact .inv
  | n + 1, c :: cs, e, hn, h => by
    rw [typeSig] at h
    split at h
    · cases h
    · split at h
      · split at h
        · cases h
        · rename_i e' he; cases h; exact errR n _ _ (by omega) he
      · cases h; exact .inv
theorem errR : (n : Nat) → (s : Str) → (e : Err) → 4 * s.length + 2 ≤ n →
    refTypeSig n s = .error e → ErrOk e s
  | 0, _, _, hn, h => by omega
  | n + 1, [], _, _, h => by simp [refTypeSig] at h; subst h; exact .inv
  | n + 1, c :: cs, e, hn, h => by
    rw [List.length_cons] at hn
    rw [refTypeSig] at h
    split at h
    · rename_i hc
      split at h
      · split at h
        · cases h
        · rename_i e' he
          cases h
          have := (suf_brackets cs).length
          exact (errT n _ _ (by omega) he).mono ((PSuf.cons c cs).suf.trans (suf_brackets cs))
      · rename_i hk
        cases h
        refine .inr ⟨rfl, ?_⟩
        obtain ⟨j, hj⟩ : ∃ j, (countBrackets cs).1 = 255 + j := ⟨(countBrackets cs).1 - 255, by omega⟩
        refine ⟨[], List.replicate j 0x5B ++ (countBrackets cs).2, ?_⟩
        have := countBrackets_spec cs
        rw [hj, ← List.replicate_append_replicate, List.append_assoc] at this
        rw [List.nil_append, List.replicate_succ, List.cons_append, ← this, hc]
    · split at h
      · split at h
        · cases h
        · rename_i e' he; cases h; rw [tyVar_err he]; exact .inv
      · split at h
        · split at h
          · cases h
          · rename_i e' he; cases h; exact errC n _ _ (by simp; omega) he
        · cases h; exact .inv
theorem errC : (n : Nat) → (s : Str) → (e : Err) → 4 * s.length + 1 ≤ n →
    classTypeSig n s = .error e → ErrOk e s
  | 0, _, _, hn, h => by omega
  | n + 1, s, e, hn, h => by
    rw [classTypeSig] at h
    split at h
    · rename_i e' he; cases h; rw [expect_err he]; exact .inv
    rename_i i1 h1
    have l1 := expect_suf h1
    have := l1.length
    split at h
    · rename_i e' he; cases h; rw [packagesLoop_err _ _ _ _ _ he]; exact .inv
    rename_i pk i2 h2
    have l2 := packages_suf h2
    have := l2.length
    split at h
    · rename_i e' he
      cases h; exact (errS n _ _ (by omega) he).mono (l1.suf.trans l2)
    rename_i nm i3 h3
    have l3 := (okS n _ _ _ h3).2
    have := l3.length
    split at h
    · rename_i e' he
      cases h; exact (errSs n _ _ (by omega) he).mono (l1.suf.trans (l2.trans l3))
    split at h
    · rename_i e' he; cases h; rw [expect_err he]; exact .inv
    cases h
theorem errSs : (n : Nat) → (s : Str) → (e : Err) → 4 * s.length + 1 ≤ n →
    suffixes n s = .error e → ErrOk e s
  | 0, _, _, hn, h => by omega
  | n + 1, [], _, _, h => by rw [suffixes] at h; cases h
  | n + 1, c :: cs, e, hn, h => by
    rw [List.length_cons] at hn
    rw [suffixes] at h
    split at h
    · split at h
      · rename_i e' he; cases h; exact (errS n _ _ (by omega) he).mono (PSuf.cons c cs).suf
      rename_i sg i1 h1
      have l1 := (okS n _ _ _ h1).2
      have := l1.length
      split at h
      · rename_i e' he
        cases h; exact (errSs n _ _ (by omega) he).mono ((PSuf.cons c cs).suf.trans l1)
      cases h
    · cases h
theorem errS : (n : Nat) → (s : Str) → (e : Err) → 4 * s.length + 1 ≤ n →
    simpleTypeSig n s = .error e → ErrOk e s
  | 0, _, _, hn, h => by omega
  | n + 1, s, e, hn, h => by
    have hsuf := suf_dropWhile nameChar s
    rw [simpleTypeSig] at h
    split at h
    · cases h
    · rename_i c cs hd
      rw [hd] at hsuf
      have := hsuf.length
      rw [List.length_cons] at this
      split at h
      · split at h
        · rename_i e' he
          cases h; exact (errAs n _ _ (by omega) he).mono (hsuf.trans (PSuf.cons c cs).suf)
        split at h
        · rename_i e' he; cases h; rw [expect_err he]; exact .inv
        cases h
      · cases h
theorem errAs : (n : Nat) → (s : Str) → (e : Err) → 4 * s.length + 4 ≤ n →
    typeArgs n s = .error e → ErrOk e s
  | 0, _, _, hn, h => by omega
  | n + 1, [], _, _, h => by rw [typeArgs] at h; cases h
  | n + 1, c :: cs, e, hn, h => by
    rw [typeArgs] at h
    split at h
    · cases h
    · split at h
      · rename_i e' he; cases h; exact errA n _ _ (by omega) he
      rename_i sg i1 h1
      have l1 := (okA n _ _ _ h1).2
      have := l1.length
      split at h
      · rename_i e' he
        cases h; exact (errAs n _ _ (by omega) he).mono l1.suf
      cases h
theorem errA : (n : Nat) → (s : Str) → (e : Err) → 4 * s.length + 3 ≤ n →
    typeArg n s = .error e → ErrOk e s
  | 0, _, _, hn, h => by omega
  | n + 1, [], _, _, h => by simp [typeArg] at h; subst h; exact .inv
  | n + 1, c :: cs, e, hn, h => by
    have hcons := (PSuf.cons c cs).suf
    have hn' := hn
    rw [List.length_cons] at hn'
    rw [typeArg] at h
    split at h
    · cases h
    · split at h
      · split at h
        · cases h
        · rename_i e' he; cases h; exact (errR n _ _ (by omega) he).mono hcons
      · split at h
        · split at h
          · cases h
          · rename_i e' he; cases h; exact (errR n _ _ (by omega) he).mono hcons
        · split at h
          · split at h
            · cases h
            · rename_i e' he; cases h; exact errR n _ _ (by omega) he
          · cases h; exact .inv
end

end Verif.Sig
