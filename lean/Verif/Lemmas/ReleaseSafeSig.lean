import Verif.Lemmas.SignatureTop
import Verif.Lemmas.Loose
import Verif.Model.ReleaseRead

/-! Parsing a signature in a build without overflow checks ends, and either rejects or leaves a rest of the text. -/

namespace Verif.Sig
open Verif.JType

/-- A rejection, or a rest of the text. -/
def Keeps (s : Str) (x : Res (α × Str)) : Prop :=
  (∀ e, x = .error e → e = .invalid) ∧ ∀ a r, x = .ok (a, r) → Suf s r

/-- A rejection, or a rest of the text which is shorter. -/
def Cuts (s : Str) (x : Res (α × Str)) : Prop :=
  (∀ e, x = .error e → e = .invalid) ∧ ∀ a r, x = .ok (a, r) → PSuf s r

theorem Cuts.keeps {s : Str} {x : Res (α × Str)} (h : Cuts s x) : Keeps s x :=
  ⟨h.1, fun a r e => (h.2 a r e).suf⟩

theorem keeps_bad {s : Str} : Keeps (α := α) s (.error .invalid) :=
  ⟨fun e h => by cases h; rfl, fun a r h => nomatch h⟩
theorem cuts_bad {s : Str} : Cuts (α := α) s (.error .invalid) :=
  ⟨fun e h => by cases h; rfl, fun a r h => nomatch h⟩
theorem keeps_ok {s r : Str} {a : α} (h : Suf s r) : Keeps s (.ok (a, r)) :=
  ⟨fun e h => (nomatch h), fun _ _ e => by cases e; exact h⟩
theorem cuts_ok {s r : Str} {a : α} (h : PSuf s r) : Cuts s (.ok (a, r)) :=
  ⟨fun e h => (nomatch h), fun _ _ e => by cases e; exact h⟩

theorem Keeps.error {s r : Str} {x : Res (α × Str)} {e : Err} (h : Keeps s x) (hx : x = .error e) :
    Keeps (α := β) r (.error e) := by
  rw [h.1 e hx]; exact keeps_bad
theorem Cuts.error {s r : Str} {x : Res (α × Str)} {e : Err} (h : Keeps s x) (hx : x = .error e) :
    Cuts (α := β) r (.error e) := by
  rw [h.1 e hx]; exact cuts_bad

theorem expect_keeps {c : Nat} {s r : Str} {e : Err} (h : expect c s = .error e) : Keeps (α := α) r (.error e) := by
  rw [expect_err h]; exact keeps_bad
theorem expect_cuts {c : Nat} {s r : Str} {e : Err} (h : expect c s = .error e) : Cuts (α := α) r (.error e) := by
  rw [expect_err h]; exact cuts_bad

mutual
theorem cutsT : (n : Nat) → (s : Str) → 4 * s.length + 3 ≤ n → Cuts s (typeSigW n s)
  | 0, _, hn => by omega
  | n + 1, [], _ => by rw [typeSigW]; exact cuts_bad
  | n + 1, c :: cs, hn => by
    rw [typeSigW]
    split
    · exact cuts_ok (.cons c cs)
    · split
      · have ih := cutsR n (c :: cs) (by omega)
        split
        · rename_i h; exact cuts_ok (ih.2 _ _ h)
        · rename_i h; exact Cuts.error ih.keeps h
      · exact cuts_bad
theorem cutsR : (n : Nat) → (s : Str) → 4 * s.length + 2 ≤ n → Cuts s (refTypeSigW n s)
  | 0, _, hn => by omega
  | n + 1, [], _ => by rw [refTypeSigW]; exact cuts_bad
  | n + 1, c :: cs, hn => by
    rw [List.length_cons] at hn
    rw [refTypeSigW]
    split
    · have hb := suf_brackets cs
      have := hb.length
      have ih := cutsT n (countBrackets cs).2 (by omega)
      split
      · rename_i h; exact cuts_ok ((PSuf.cons c cs).trans (hb.trans (ih.2 _ _ h).suf))
      · rename_i h; exact Cuts.error ih.keeps h
    · split
      · split
        · rename_i h; exact cuts_ok ((PSuf.cons c cs).trans (tyVar_suf h))
        · rename_i h; rw [tyVar_err h]; exact cuts_bad
      · split
        · have ih := cutsC n (c :: cs) (by simp; omega)
          split
          · rename_i h; exact cuts_ok (ih.2 _ _ h)
          · rename_i h; exact Cuts.error ih.keeps h
        · exact cuts_bad
theorem cutsC : (n : Nat) → (s : Str) → 4 * s.length + 1 ≤ n → Cuts s (classTypeSigW n s)
  | 0, _, hn => by omega
  | n + 1, s, hn => by
    rw [classTypeSigW]
    split
    · rename_i h; exact expect_cuts h
    rename_i i1 h1
    have l1 := expect_suf h1
    have := l1.length
    split
    · rename_i h; rw [packagesLoop_err _ _ _ _ _ h]; exact cuts_bad
    rename_i pk i2 h2
    have l2 := packages_suf h2
    have := l2.length
    have ihS := keepsS n i2 (by omega)
    split
    · rename_i h; exact Cuts.error ihS h
    rename_i nm i3 h3
    have l3 := ihS.2 _ _ h3
    have := l3.length
    have ihSs := keepsSs n i3 (by omega)
    split
    · rename_i h; exact Cuts.error ihSs h
    rename_i ss i4 h4
    split
    · rename_i h; exact expect_cuts h
    rename_i i5 h5
    exact cuts_ok (l1.trans (l2.trans (l3.trans ((ihSs.2 _ _ h4).trans (expect_suf h5).suf))))
theorem keepsSs : (n : Nat) → (s : Str) → 4 * s.length + 1 ≤ n → Keeps s (suffixesW n s)
  | 0, _, hn => by omega
  | n + 1, [], _ => by rw [suffixesW]; exact keeps_ok .rfl
  | n + 1, c :: cs, hn => by
    rw [List.length_cons] at hn
    rw [suffixesW]
    split
    · have ih := keepsS n cs (by omega)
      split
      · rename_i h; exact ih.error h
      rename_i sg i1 h1
      have l1 := ih.2 _ _ h1
      have := l1.length
      have ih' := keepsSs n i1 (by omega)
      split
      · rename_i h; exact ih'.error h
      rename_i ss i2 h2
      exact keeps_ok ((PSuf.cons c cs).suf.trans (l1.trans (ih'.2 _ _ h2)))
    · exact keeps_ok .rfl
theorem keepsS : (n : Nat) → (s : Str) → 4 * s.length + 1 ≤ n → Keeps s (simpleTypeSigW n s)
  | 0, _, hn => by omega
  | n + 1, s, hn => by
    have hsuf := suf_dropWhile nameChar s
    rw [simpleTypeSigW]
    split
    · rename_i hd; rw [hd] at hsuf; exact keeps_ok hsuf
    · rename_i c cs hd
      rw [hd] at hsuf
      have := hsuf.length
      rw [List.length_cons] at this
      split
      · have ih := keepsAs n cs (by omega)
        split
        · rename_i h; exact ih.error h
        rename_i as i1 h1
        split
        · rename_i h; exact expect_keeps h
        rename_i i2 h2
        exact keeps_ok (hsuf.trans ((PSuf.cons c cs).suf.trans ((ih.2 _ _ h1).trans (expect_suf h2).suf)))
      · exact keeps_ok hsuf
theorem keepsAs : (n : Nat) → (s : Str) → 4 * s.length + 4 ≤ n → Keeps s (typeArgsW n s)
  | 0, _, hn => by omega
  | n + 1, [], _ => by rw [typeArgsW]; exact keeps_ok .rfl
  | n + 1, c :: cs, hn => by
    rw [typeArgsW]
    split
    · exact keeps_ok .rfl
    · have ih := cutsA n (c :: cs) (by omega)
      split
      · rename_i h; exact ih.keeps.error h
      rename_i a i1 h1
      have l1 := ih.2 _ _ h1
      have := l1.length
      have ih' := keepsAs n i1 (by omega)
      split
      · rename_i h; exact ih'.error h
      rename_i as i2 h2
      exact keeps_ok (l1.suf.trans (ih'.2 _ _ h2))
theorem cutsA : (n : Nat) → (s : Str) → 4 * s.length + 3 ≤ n → Cuts s (typeArgW n s)
  | 0, _, hn => by omega
  | n + 1, [], _ => by rw [typeArgW]; exact cuts_bad
  | n + 1, c :: cs, hn => by
    have hn' := hn
    rw [List.length_cons] at hn'
    have ih := cutsR n cs (by omega)
    rw [typeArgW]
    split
    · exact cuts_ok (.cons c cs)
    · split
      · split
        · rename_i h; exact cuts_ok ((PSuf.cons c cs).trans (ih.2 _ _ h).suf)
        · rename_i h; exact Cuts.error ih.keeps h
      · split
        · split
          · rename_i h; exact cuts_ok ((PSuf.cons c cs).trans (ih.2 _ _ h).suf)
          · rename_i h; exact Cuts.error ih.keeps h
        · split
          · have ih' := cutsR n (c :: cs) (by omega)
            split
            · rename_i h; exact cuts_ok (ih'.2 _ _ h)
            · rename_i h; exact Cuts.error ih'.keeps h
          · exact cuts_bad
end

theorem cutsR' (s : Str) : Cuts s (refTypeSigW (enough s) s) := cutsR _ _ (by rw [enough]; omega)
theorem cutsC' (s : Str) : Cuts s (classTypeSigW (enough s) s) := cutsC _ _ (by rw [enough]; omega)
theorem cutsT' (s : Str) : Cuts s (typeSigW (enough s) s) := cutsT _ _ (by rw [enough]; omega)

theorem cutsThrow (s : Str) : Cuts s (throwsSigW s) := by
  unfold throwsSigW
  split
  · rename_i h; exact expect_cuts h
  · exact cuts_bad
  · rename_i c cs h
    have l := expect_suf h
    split
    · have ih := cutsC' (c :: cs)
      split
      · rename_i h; exact cuts_ok (l.trans (ih.2 _ _ h).suf)
      · rename_i h; exact Cuts.error ih.keeps h
    · split
      · split
        · rename_i h; exact cuts_ok (l.trans ((PSuf.cons c cs).suf.trans (tyVar_suf h)))
        · rename_i h; rw [tyVar_err h]; exact cuts_bad
      · exact cuts_bad

/-- The characters looked at are those of the bounds, the rest is that of the last one (finding C64). -/
theorem keepsBounds (s : Str) (cs : Str) : ∀ i, Suf s cs → Suf s i → Keeps s (interfaceBoundsW cs i) := by
  induction cs with
  | nil => intro i _ hi; rw [interfaceBoundsW]; exact keeps_ok hi
  | cons c cs ih =>
    intro i hc hi
    have hc' := hc.trans (PSuf.cons c cs).suf
    rw [interfaceBoundsW]
    split
    · have ihR := cutsR' cs
      split
      · rename_i h; exact ihR.keeps.error h
      rename_i b i1 h1
      have ih' := ih i1 hc' (hc'.trans (ihR.2 _ _ h1).suf)
      split
      · rename_i h; exact ih'.error h
      rename_i bs i2 h2
      exact keeps_ok (ih'.2 _ _ h2)
    · exact keeps_ok hi

theorem suf_colon (s : Str) : Suf s ((s.dropWhile (· ≠ 0x3A)).drop 1) := by
  refine (suf_dropWhile (· ≠ 0x3A) s).trans ⟨(s.dropWhile (· ≠ 0x3A)).take 1, ?_⟩
  exact (List.take_append_drop 1 _).symm

theorem psuf_colon {c : Nat} {s : Str} : PSuf (c :: s) (((c :: s).dropWhile (· ≠ 0x3A)).drop 1) := by
  obtain ⟨u, hu⟩ := suf_colon (c :: s)
  refine ⟨u, ?_, hu⟩
  rintro rfl
  rw [List.nil_append] at hu
  have h1 := congrArg List.length hu
  have h2 := (suf_dropWhile (· ≠ 0x3A) (c :: s)).length
  rw [List.length_drop, List.length_cons] at h1
  rw [List.length_cons] at h2
  omega

theorem cutsParam (c : Nat) (s : Str) : Cuts (c :: s) (typeParamW (c :: s)) := by
  have hp := psuf_colon (c := c) (s := s)
  unfold typeParamW
  simp only
  generalize ((c :: s).dropWhile (· ≠ 0x3A)).drop 1 = chars at hp
  split
  · rename_i e he
    split at he
    · cases he
    · split at he
      · split at he
        · cases he
        · rename_i h; cases he; exact Cuts.error (cutsR' _).keeps h
      · cases he
  · rename_i cb i hb
    have hi : Suf chars i := by
      split at hb
      · cases hb; exact .rfl
      · split at hb
        · split at hb
          · rename_i h; cases hb; exact ((cutsR' _).2 _ _ h).suf
          · cases hb
        · cases hb; exact .rfl
    have ih := keepsBounds chars chars i .rfl hi
    split
    · rename_i h; exact Cuts.error ih h
    · rename_i bs i2 h; exact cuts_ok (hp.trans (ih.2 _ _ h))

theorem keepsParamsLoop (f : Nat) : ∀ s : Str, s.length + 1 ≤ f → Keeps s (typeParamsLoopW f s) := by
  induction f with
  | zero => intro s h; omega
  | succ f ih =>
    intro s hf
    cases s with
    | nil => rw [typeParamsLoopW]; exact keeps_ok .rfl
    | cons c cs =>
      rw [typeParamsLoopW]
      split
      · exact keeps_ok .rfl
      · have ih1 := cutsParam c cs
        split
        · rename_i h; exact ih1.keeps.error h
        rename_i p i h1
        have l1 := ih1.2 _ _ h1
        have := l1.length
        have ih2 := ih i (by omega)
        split
        · rename_i h; exact ih2.error h
        · rename_i h; exact keeps_ok (l1.suf.trans (ih2.2 _ _ h))

theorem keepsParams (s : Str) : Keeps s (typeParamsW s) := by
  cases s with
  | nil => rw [typeParamsW]; exact keeps_ok .rfl
  | cons c cs =>
    rw [typeParamsW]
    split
    · have ih := keepsParamsLoop (enough cs) cs (by rw [enough]; omega)
      split
      · rename_i h; exact ih.error h
      rename_i ps i h1
      split
      · rename_i h; exact expect_keeps h
      · rename_i h; exact keeps_ok ((PSuf.cons c cs).suf.trans ((ih.2 _ _ h1).trans (expect_suf h).suf))
    · exact keeps_ok .rfl

theorem cutsRet (s : Str) : Cuts s (retSigW s) := by
  cases s with
  | nil => rw [retSigW]; exact cuts_bad
  | cons c cs =>
    rw [retSigW]
    split
    · exact cuts_ok (.cons c cs)
    · have ih := cutsT' (c :: cs)
      split
      · rename_i h; exact cuts_ok (ih.2 _ _ h)
      · rename_i h; exact Cuts.error ih.keeps h

theorem keepsTypes (f : Nat) : ∀ s : Str, s.length + 1 ≤ f → Keeps s (paramsLoopW f s) := by
  induction f with
  | zero => intro s h; omega
  | succ f ih =>
    intro s hf
    cases s with
    | nil => rw [paramsLoopW]; exact keeps_ok .rfl
    | cons c cs =>
      rw [paramsLoopW]
      split
      · have ih1 := cutsT' (c :: cs)
        split
        · rename_i h; exact ih1.keeps.error h
        rename_i p i h1
        have l1 := ih1.2 _ _ h1
        have := l1.length
        have ih2 := ih i (by omega)
        split
        · rename_i h; exact ih2.error h
        · rename_i h; exact keeps_ok (l1.suf.trans (ih2.2 _ _ h))
      · exact keeps_ok .rfl

theorem keepsThrows (f : Nat) : ∀ s : Str, s.length + 1 ≤ f → Keeps s (throwsLoopW f s) := by
  induction f with
  | zero => intro s h; omega
  | succ f ih =>
    intro s hf
    cases s with
    | nil => rw [throwsLoopW]; exact keeps_ok .rfl
    | cons c cs =>
      rw [throwsLoopW]
      split
      · have ih1 := cutsThrow (c :: cs)
        split
        · rename_i h; exact ih1.keeps.error h
        rename_i p i h1
        have l1 := ih1.2 _ _ h1
        have := l1.length
        have ih2 := ih i (by omega)
        split
        · rename_i h; exact ih2.error h
        · rename_i h; exact keeps_ok (l1.suf.trans (ih2.2 _ _ h))
      · exact keeps_ok .rfl

theorem keepsItfs (f : Nat) : ∀ s : Str, s.length + 1 ≤ f → Keeps s (interfacesLoopW f s) := by
  induction f with
  | zero => intro s h; omega
  | succ f ih =>
    intro s hf
    cases s with
    | nil => rw [interfacesLoopW]; exact keeps_ok .rfl
    | cons c cs =>
      rw [interfacesLoopW]
      split
      · have ih1 := cutsC' (c :: cs)
        split
        · rename_i h; exact ih1.keeps.error h
        rename_i p i h1
        have l1 := ih1.2 _ _ h1
        have := l1.length
        have ih2 := ih i (by omega)
        split
        · rename_i h; exact ih2.error h
        · rename_i h; exact keeps_ok (l1.suf.trans (ih2.2 _ _ h))
      · exact keeps_ok .rfl

theorem methodSigW_err {s : Str} {e : Err} (h : methodSigW s = .error e) : e = .invalid := by
  unfold methodSigW at h
  split at h
  · rename_i h'; cases h; exact (keepsParams _).1 _ h'
  split at h
  · rename_i h'; cases h; exact expect_err h'
  split at h
  · rename_i h'; cases h; exact (keepsTypes _ _ (by rw [enough]; omega)).1 _ h'
  split at h
  · rename_i h'; cases h; exact expect_err h'
  split at h
  · rename_i h'; cases h; exact (cutsRet _).1 _ h'
  split at h
  · rename_i h'; cases h; exact (keepsThrows _ _ (by rw [enough]; omega)).1 _ h'
  cases h

theorem classSigW_err {s : Str} {e : Err} (h : classSigW s = .error e) : e = .invalid := by
  unfold classSigW at h
  split at h
  · rename_i h'; cases h; exact (keepsParams _).1 _ h'
  split at h
  · rename_i h'; cases h; exact (cutsC' _).1 _ h'
  split at h
  · rename_i h'; cases h; exact (keepsItfs _ _ (by rw [enough]; omega)).1 _ h'
  cases h

theorem dropRest_errW {x : Res (α × Str)} {e : Err} (h : dropRest x = .error e) (hx : ∀ e, x = .error e → e = .invalid) :
    e = .invalid := by
  unfold dropRest at h
  split at h
  · cases h
  · cases h; exact hx _ rfl

theorem parseRefW_err {s : Str} {e : Err} (h : parseRefW s = .error e) : e = .invalid :=
  dropRest_errW h (cutsR' s).1
theorem parseMethodW_err {s : Str} {e : Err} (h : parseMethodW s = .error e) : e = .invalid :=
  dropRest_errW h fun _ => methodSigW_err
theorem parseClassW_err {s : Str} {e : Err} (h : parseClassW s = .error e) : e = .invalid :=
  dropRest_errW h fun _ => classSigW_err

end Verif.Sig
