import Verif.Lemmas.SignatureTop
import Verif.Spec.SignatureText

/-! # What is parsed is printed as it was -/

namespace Verif.Sig
open Verif.Spec Verif.JType

theorem _root_.Verif.Spec.NoEmpty.suf {s r : Str} (h : NoEmpty s) (hs : Suf s r) : NoEmpty r := by
  obtain ⟨u, rfl⟩ := hs
  rintro a b rfl
  exact h (u ++ a) b (by simp)

theorem prim_show {c : Nat} {t : TypeSig} (h : primSig c = some t) : showT t = [c] := by
  unfold primSig at h
  repeat' split at h
  all_goals first | (cases h; done) | (rename_i hc; cases h; rw [showT, hc])

theorem name_split (s : Str) : s = s.takeWhile nameChar ++ s.dropWhile nameChar :=
  List.takeWhile_append_dropWhile.symm

mutual
theorem textT : (n : Nat) → (s : Str) → (t : TypeSig) → (rest : Str) →
    typeSig n s = .ok (t, rest) → NoEmpty s → s = showT t ++ rest
  | 0, _, _, _, h, _ => by simp [typeSig] at h
  | n + 1, [], _, _, h, _ => by simp [typeSig] at h
  | n + 1, c :: cs, t, rest, h, hn => by
    rw [typeSig] at h
    split at h
    · rename_i t' hp; cases h; rw [prim_show hp]; rfl
    · split at h
      · split at h
        · rename_i r i hr
          cases h
          rw [showT]
          exact textR n _ _ _ hr hn
        · cases h
      · cases h
theorem textR : (n : Nat) → (s : Str) → (r : RefSig) → (rest : Str) →
    refTypeSig n s = .ok (r, rest) → NoEmpty s → s = showR r ++ rest
  | 0, _, _, _, h, _ => by simp [refTypeSig] at h
  | n + 1, [], _, _, h, _ => by simp [refTypeSig] at h
  | n + 1, c :: cs, t, rest, h, hn => by
    rw [refTypeSig] at h
    split at h
    · rename_i hc
      split at h
      · rename_i hk
        split at h
        · rename_i t' i ht
          cases h
          have ih := textT n _ _ _ ht (hn.suf ((PSuf.cons c cs).suf.trans (suf_brackets cs)))
          rw [showR, List.append_assoc, ← ih, UInt8.toNat_ofNat', Nat.mod_eq_of_lt hk, List.replicate_succ, hc,
            List.cons_append]
          exact congrArg (0x5B :: ·) (countBrackets_spec cs)
        · cases h
      · cases h
    · split at h
      · rename_i hc
        split at h
        · rename_i nm i hv
          cases h
          rw [showR, hc, (tyVar_ok hv).2]
          simp
        · cases h
      · split at h
        · split at h
          · rename_i sg i hc
            cases h
            rw [showR]
            exact textC n _ _ _ hc hn
          · cases h
        · cases h
theorem textC : (n : Nat) → (s : Str) → (r : ClassTySig) → (rest : Str) →
    classTypeSig n s = .ok (r, rest) → NoEmpty s → s = showC r ++ rest
  | 0, _, _, _, h, _ => by simp [classTypeSig] at h
  | n + 1, s, t, rest, h, hn => by
    rw [classTypeSig] at h
    split at h
    · cases h
    rename_i i1 h1
    split at h
    · cases h
    rename_i pk i2 h2
    split at h
    · cases h
    rename_i nm i3 h3
    split at h
    · cases h
    rename_i ss i4 h4
    split at h
    · cases h
    rename_i i5 h5
    cases h
    have n2 := (hn.suf (expect_suf h1).suf).suf (packages_suf h2)
    have ihS := textS n _ _ _ h3 n2
    have ihSs := textSs n _ _ _ h4 (n2.suf (okS n _ _ _ h3).2)
    obtain ⟨more, e, e2, _, _⟩ := packagesLoop_ok i1 [] [] pk i2 h2 (by simp [Plain]) (by simp)
    rw [List.nil_append] at e e2
    subst e
    rw [expect_ok h1, e2, ihS, ihSs, expect_ok h5, showC]
    simp
theorem textSs : (n : Nat) → (s : Str) → (r : List SimpleSig) → (rest : Str) →
    suffixes n s = .ok (r, rest) → NoEmpty s → s = showSuffix r ++ rest
  | 0, _, _, _, h, _ => by simp [suffixes] at h
  | n + 1, [], _, _, h, _ => by rw [suffixes] at h; cases h; rw [showSuffix]; rfl
  | n + 1, c :: cs, t, rest, h, hn => by
    rw [suffixes] at h
    split at h
    · rename_i hc
      split at h
      · cases h
      rename_i sg i1 h1
      split at h
      · cases h
      rename_i ss i2 h2
      cases h
      have n1 := hn.suf (PSuf.cons c cs).suf
      have ih1 := textS n _ _ _ h1 n1
      have ih2 := textSs n _ _ _ h2 (n1.suf (okS n _ _ _ h1).2)
      rw [showSuffix, hc, ih1, ih2]
      simp
    · cases h; rw [showSuffix]; rfl
theorem textS : (n : Nat) → (s : Str) → (r : SimpleSig) → (rest : Str) →
    simpleTypeSig n s = .ok (r, rest) → NoEmpty s → s = showS r ++ rest
  | 0, _, _, _, h, _ => by simp [simpleTypeSig] at h
  | n + 1, s, t, rest, h, hn => by
    have hsp := name_split s
    have hsuf := suf_dropWhile nameChar s
    rw [simpleTypeSig] at h
    split at h
    · rename_i hd
      cases h
      rw [hd] at hsp
      rw [showS]
      simpa using hsp
    · rename_i c cs hd
      rw [hd] at hsp hsuf
      split at h
      · rename_i hc
        split at h
        · cases h
        rename_i as i1 h1
        split at h
        · cases h
        rename_i i2 h2
        cases h
        have ih := textAs n _ _ _ h1 ((hn.suf hsuf).suf (PSuf.cons c cs).suf)
        cases as with
        | nil =>
          rw [showArgs, expect_ok h2, List.nil_append] at ih
          exact absurd (by rw [hc, ih]; rfl) ((hn.suf hsuf) [] rest ·)
        | cons a as =>
          rw [showArgs, expect_ok h2] at ih
          rw [showS]
          refine hsp.trans ?_
          rw [hc, ih]
          simp
      · cases h
        rw [showS]
        simpa using hsp
theorem textAs : (n : Nat) → (s : Str) → (r : List TypeArg) → (rest : Str) →
    typeArgs n s = .ok (r, rest) → NoEmpty s → s = showArgs r ++ rest
  | 0, _, _, _, h, _ => by simp [typeArgs] at h
  | n + 1, [], _, _, h, _ => by rw [typeArgs] at h; cases h; rw [showArgs]; rfl
  | n + 1, c :: cs, t, rest, h, hn => by
    rw [typeArgs] at h
    split at h
    · cases h; rw [showArgs]; rfl
    · split at h
      · cases h
      rename_i sg i1 h1
      split at h
      · cases h
      rename_i ss i2 h2
      cases h
      have ih1 := textA n _ _ _ h1 hn
      have ih2 := textAs n _ _ _ h2 (hn.suf (okA n _ _ _ h1).2.suf)
      rw [showArgs, ih1, ih2]
      simp
theorem textA : (n : Nat) → (s : Str) → (r : TypeArg) → (rest : Str) →
    typeArg n s = .ok (r, rest) → NoEmpty s → s = showA r ++ rest
  | 0, _, _, _, h, _ => by simp [typeArg] at h
  | n + 1, [], _, _, h, _ => by simp [typeArg] at h
  | n + 1, c :: cs, t, rest, h, hn => by
    have n1 := hn.suf (PSuf.cons c cs).suf
    rw [typeArg] at h
    split at h
    · rename_i hc
      cases h
      rw [showA, hc]
      rfl
    · split at h
      · rename_i hc
        split at h
        · rename_i r i hr
          cases h
          rw [showA, hc, textR n _ _ _ hr n1]
          rfl
        · cases h
      · split at h
        · rename_i hc
          split at h
          · rename_i r i hr
            cases h
            rw [showA, hc, textR n _ _ _ hr n1]
            rfl
          · cases h
        · split at h
          · split at h
            · rename_i r i hr
              cases h
              rw [showA]
              exact textR n _ _ _ hr hn
            · cases h
          · cases h
end

theorem bounds_text {chars i rest : Str} {bs : List RefSig} (h : interfaceBounds chars i = .ok (bs, rest))
    (hn : NoEmpty chars) : (bs = [] ∧ rest = i) ∨ ∃ b, bs = [b] ∧ chars = 0x3A :: (showR b ++ rest) := by
  cases chars with
  | nil => rw [interfaceBounds] at h; cases h; exact .inl ⟨rfl, rfl⟩
  | cons c cs =>
    rw [interfaceBounds] at h
    split at h
    · rename_i hc
      split at h
      · cases h
      rename_i b i' hb
      have ht := textR _ _ _ _ hb (hn.suf (PSuf.cons c cs).suf)
      have hcs : ∃ d ds, cs = d :: ds ∧ d ≠ 0x3A := by
        cases cs with
        | nil => simp [enough, refTypeSig] at hb
        | cons d ds =>
          refine ⟨d, ds, rfl, ?_⟩
          rintro rfl
          simp [enough, refTypeSig] at hb
      obtain ⟨d, ds, rfl, hd⟩ := hcs
      rw [interfaceBounds_stop hd] at h
      simp only at h
      cases h
      exact .inr ⟨b, rfl, by rw [hc, ← ht]⟩
    · cases h
      exact .inl ⟨rfl, rfl⟩

theorem param_text {s rest : Str} {p : TypeParam} (h : typeParam s = .ok (p, rest)) (hn : NoEmpty s) :
    s = showParam p ++ rest ∨ (0x3A ∉ s ∧ rest = []) := by
  have e := List.takeWhile_append_dropWhile (p := (· ≠ 0x3A)) (l := s)
  cases hd : s.dropWhile (· ≠ 0x3A) with
  | nil =>
    right
    unfold typeParam at h
    simp only [hd, List.drop_nil, interfaceBounds] at h
    cases h
    refine ⟨fun hm => ?_, rfl⟩
    rw [hd, List.append_nil] at e
    rw [← e] at hm
    have := mem_takeWhile hm
    simp at this
  | cons x chars =>
    left
    have hx : x = 0x3A := by
      have := dropWhile_cons_false s hd
      simpa using this
    subst hx
    rw [hd] at e
    have hsuf : Suf s chars := ⟨s.takeWhile (· ≠ 0x3A) ++ [0x3A], by rw [List.append_assoc]; exact e.symm⟩
    have hnc := hn.suf hsuf
    unfold typeParam at h
    simp only [hd, List.drop_succ_cons, List.drop_zero] at h
    generalize s.takeWhile (· ≠ 0x3A) = nm at h e
    rw [← e]
    cases hc : chars with
    | nil =>
      rw [hc] at h
      simp only [interfaceBounds] at h
      cases h
      simp [showParam]
    | cons c cs =>
      rw [hc] at h hnc
      simp only at h
      by_cases hr : isRefStart c = true
      · rw [if_pos hr] at h
        cases hb : refTypeSig (enough (c :: cs)) (c :: cs) with
        | error e => rw [hb] at h; cases h
        | ok x =>
          obtain ⟨b, i⟩ := x
          rw [hb] at h
          simp only at h
          rw [interfaceBounds_stop (by have := (isRefStart_iff c).mp hr; omega)] at h
          simp only at h
          cases h
          rw [textR _ _ _ _ hb hnc]
          simp [showParam]
      · rw [if_neg hr] at h
        simp only at h
        cases hi : interfaceBounds (c :: cs) (c :: cs) with
        | error e => rw [hi] at h; cases h
        | ok x =>
          obtain ⟨bs, i⟩ := x
          rw [hi] at h
          simp only at h
          cases h
          rcases bounds_text hi hnc with ⟨rfl, rfl⟩ | ⟨b, rfl, e⟩
          · simp [showParam]
          · rw [e]
            simp [showParam]

theorem paramsLoop_print (f : Nat) : ∀ (s rest : Str) (ps : List TypeParam), typeParamsLoop f s = .ok (ps, rest) →
    NoEmpty s → rest ≠ [] → s = ps.flatMap showParam ++ rest := by
  induction f with
  | zero => intro s rest ps h; simp [typeParamsLoop] at h
  | succ f ih =>
    intro s rest ps h hn hne
    cases s with
    | nil => rw [typeParamsLoop] at h; cases h; exact absurd rfl hne
    | cons c cs =>
      rw [typeParamsLoop] at h
      split at h
      · cases h; rfl
      · rename_i hc
        split at h
        · cases h
        rename_i p i hp
        split at h
        · cases h
        rename_i ps' i' hps
        cases h
        obtain ⟨_, h2, _⟩ := typeParam_ok hp (by simpa using hc) (by simp)
        rcases param_text hp hn with h1 | ⟨_, rfl⟩
        · rw [h1, ih _ _ _ hps (hn.suf h2.suf) hne]
          simp
        · have := (typeParamsLoop_ok _ _ _ _ hps).2.1
          obtain ⟨u, hu⟩ := this
          exact absurd (List.append_eq_nil_iff.mp hu.symm).2 hne

theorem params_print {s rest : Str} {ps : List TypeParam} (h : typeParams s = .ok (ps, rest)) (hn : NoEmpty s) :
    s = showParams ps ++ rest := by
  cases s with
  | nil => rw [typeParams] at h; cases h; rfl
  | cons c cs =>
    rw [typeParams] at h
    split at h
    · rename_i hc
      split at h
      · cases h
      rename_i ps' i hps
      split at h
      · cases h
      rename_i i' hi
      cases h
      rw [expect_ok hi] at hps
      have ht := paramsLoop_print _ _ _ _ hps (hn.suf (PSuf.cons c cs).suf) (by simp)
      cases ps with
      | nil => exact absurd (by rw [hc, ht]; rfl) (hn [] rest ·)
      | cons p ps' =>
        rw [ht, hc]
        simp [showParams]
    · cases h; rfl

theorem interfaces_print (f : Nat) : ∀ (s rest : Str) (is : List ClassTySig), interfacesLoop f s = .ok (is, rest) →
    NoEmpty s → s = is.flatMap showC ++ rest := by
  induction f with
  | zero => intro s rest ps h; simp [interfacesLoop] at h
  | succ f ih =>
    intro s rest ps h hn
    cases s with
    | nil => rw [interfacesLoop] at h; cases h; rfl
    | cons c cs =>
      rw [interfacesLoop] at h
      split at h
      · split at h
        · cases h
        rename_i p i hp
        split at h
        · cases h
        rename_i ps' i' hps
        cases h
        rw [textC _ _ _ _ hp hn, ih _ _ _ hps (hn.suf (okC _ _ _ _ hp).2.suf)]
        simp
      · cases h; rfl

theorem class_print {s rest : Str} {c : ClassSig} (h : classSig s = .ok (c, rest)) (hn : NoEmpty s) :
    s = showClass c ++ rest := by
  unfold classSig at h
  split at h
  · cases h
  rename_i tps i1 h1
  split at h
  · cases h
  rename_i sup i2 h2
  split at h
  · cases h
  rename_i is i3 h3
  cases h
  have n1 := hn.suf (typeParams_ok h1).2
  have n2 := n1.suf (okC _ _ _ _ h2).2.suf
  rw [params_print h1 hn, textC _ _ _ _ h2 n1, interfaces_print _ _ _ _ h3 n2]
  simp [showClass]

theorem types_print (f : Nat) : ∀ (s rest : Str) (ts : List TypeSig), paramsLoop f s = .ok (ts, rest) →
    NoEmpty s → s = ts.flatMap showT ++ rest := by
  induction f with
  | zero => intro s rest ps h; simp [paramsLoop] at h
  | succ f ih =>
    intro s rest ps h hn
    cases s with
    | nil => rw [paramsLoop] at h; cases h; rfl
    | cons c cs =>
      rw [paramsLoop] at h
      split at h
      · split at h
        · cases h
        rename_i p i hp
        split at h
        · cases h
        rename_i ps' i' hps
        cases h
        rw [textT _ _ _ _ hp hn, ih _ _ _ hps (hn.suf (okT _ _ _ _ hp).2.suf)]
        simp
      · cases h; rfl

theorem ret_print {s rest : Str} {r : Option TypeSig} (h : retSig s = .ok (r, rest)) (hn : NoEmpty s) :
    s = r.elim [0x56] showT ++ rest := by
  cases s with
  | nil => simp [retSig] at h
  | cons c cs =>
    rw [retSig] at h
    split at h
    · rename_i hc
      cases h
      rw [hc]
      rfl
    · split at h
      · rename_i t i ht
        cases h
        exact textT _ _ _ _ ht hn
      · cases h

/-- The text of a thrown type, with `T` for a type variable. -/
def textThrows : ThrowsSig → Str
  | .typeParam n => 0x5E :: 0x54 :: (n ++ [0x3B])
  | .cls c => 0x5E :: showC c

theorem throw_print {s rest : Str} {t : ThrowsSig} (h : throwsSig s = .ok (t, rest)) (hn : NoEmpty s) :
    s = textThrows t ++ rest := by
  unfold throwsSig at h
  split at h
  · cases h
  · cases h
  · rename_i c cs hx
    have hs := expect_suf hx
    split at h
    · split at h
      · rename_i sg i hc
        cases h
        rw [textThrows, expect_ok hx, textC _ _ _ _ hc (hn.suf hs.suf)]
        rfl
      · cases h
    · split at h
      · rename_i ht
        split at h
        · rename_i sg i hc
          cases h
          rw [textThrows, expect_ok hx, (tyVar_ok hc).2, ht]
          simp
        · cases h
      · cases h

theorem throws_print (f : Nat) : ∀ (s rest : Str) (ts : List ThrowsSig), throwsLoop f s = .ok (ts, rest) →
    NoEmpty s → s = ts.flatMap textThrows ++ rest := by
  induction f with
  | zero => intro s rest ps h; simp [throwsLoop] at h
  | succ f ih =>
    intro s rest ps h hn
    cases s with
    | nil => rw [throwsLoop] at h; cases h; rfl
    | cons c cs =>
      rw [throwsLoop] at h
      split at h
      · split at h
        · cases h
        rename_i p i hp
        split at h
        · cases h
        rename_i ps' i' hps
        cases h
        rw [throw_print hp hn, ih _ _ _ hps (hn.suf (throwsSig_ok hp).suf)]
        simp
      · cases h; rfl

/-- The text of a method signature, with `T` for type variables that are thrown. -/
def textMethod (m : MethodSig) : Str :=
  showParams m.typeParams ++ 0x28 :: (m.params.flatMap showT ++ 0x29 ::
    (m.ret.elim [0x56] showT ++ m.throws.flatMap textThrows))

theorem method_print {s rest : Str} {m : MethodSig} (h : methodSig s = .ok (m, rest)) (hn : NoEmpty s) :
    s = textMethod m ++ rest := by
  unfold methodSig at h
  split at h
  · cases h
  rename_i tps i1 h1
  split at h
  · cases h
  rename_i i2 h2
  split at h
  · cases h
  rename_i ps i3 h3
  split at h
  · cases h
  rename_i i4 h4
  split at h
  · cases h
  rename_i r i5 h5
  split at h
  · cases h
  rename_i ts i6 h6
  cases h
  have n1 := hn.suf (typeParams_ok h1).2
  have n2 := n1.suf (expect_suf h2).suf
  have n3 := n2.suf (paramsLoop_ok _ _ _ _ h3).2
  have n4 := n3.suf (expect_suf h4).suf
  have n5 := n4.suf (retSig_ok h5).2.suf
  rw [params_print h1 hn, expect_ok h2, types_print _ _ _ _ h3 n2, expect_ok h4, ret_print h5 n4,
    throws_print _ _ _ _ h6 n5]
  simp [textMethod]

/-! ## Parsing what was printed, with `T` for thrown type variables -/

/-- The names in a thrown type avoid their delimiters. -/
def OkThrows : ThrowsSig → Prop
  | .typeParam n => 0x3B ∉ n
  | .cls c => OkC c

theorem throwsSig_texts (t : ThrowsSig) (h : OkThrows t) (rest : Str) :
    throwsSig (textThrows t ++ rest) = .ok (t, rest) := by
  cases t with
  | typeParam n =>
    have := tyVar_text n rest h
    simp only [textThrows, List.cons_append, List.append_assoc, List.nil_append, throwsSig, expect, if_true]
    rw [if_neg (by decide)]
    simp only [this]
  | cls c =>
    have hp := rtC c h (enough (showC c ++ rest)) rest (by rw [enough, List.length_append]; omega)
    obtain ⟨cs, e⟩ := showC_ne c
    rw [textThrows]
    rw [e, List.cons_append] at hp ⊢
    simp only [List.cons_append, throwsSig, expect, if_true, hp]

theorem throwsLoop_texts (ts : List ThrowsSig) (h : ∀ t ∈ ts, OkThrows t) (f : Nat)
    (hf : ts.length + 1 ≤ f) : throwsLoop f (ts.flatMap textThrows) = .ok (ts, []) := by
  induction ts generalizing f with
  | nil =>
    obtain ⟨f, rfl⟩ : ∃ g, f = g + 1 := ⟨f - 1, by omega⟩
    rw [List.flatMap_nil, throwsLoop]
  | cons t ts ih =>
    rw [List.length_cons] at hf
    obtain ⟨f, rfl⟩ : ∃ g, f = g + 1 := ⟨f - 1, by omega⟩
    have hih := ih (fun j hj => h j (by simp [hj])) f (by omega)
    have hp := throwsSig_texts t (h t (by simp)) (ts.flatMap textThrows)
    obtain ⟨cs, e⟩ : ∃ cs, textThrows t = 0x5E :: cs := by cases t <;> exact ⟨_, rfl⟩
    rw [List.flatMap_cons]
    rw [e, List.cons_append] at hp ⊢
    rw [throwsLoop, if_pos rfl, hp]
    simp only [hih]

theorem methodSig_texts (m : MethodSig) (h1 : OkParams m.typeParams) (h2 : ∀ p ∈ m.params, OkT p)
    (h3 : ∀ r ∈ m.ret, OkT r) (h4 : ∀ t ∈ m.throws, OkThrows t) :
    methodSig (textMethod m) = .ok (m, []) := by
  obtain ⟨tps, ps, r, ts⟩ := m
  simp only at h1 h2 h3 h4
  unfold methodSig textMethod
  have hl := length_flatMap_ge showT ps (fun t ht => by
    obtain ⟨c, cs, e, _⟩ := showT_head t (h2 t ht); simp [e])
  have hl2 := length_flatMap_ge textThrows ts (fun t _ => by cases t <;> simp [textThrows])
  rw [typeParams_text tps h1 _ (by intro c hc; simp at hc; omega)]
  simp only [expect, if_true]
  rw [paramsLoop_text ps h2 _ _ (by rw [enough, List.length_append]; omega)]
  simp only [expect, if_true]
  have hret : retSig (r.elim [0x56] showT ++ ts.flatMap textThrows) = .ok (r, ts.flatMap textThrows) := by
    cases r with
    | none => simp [retSig]
    | some t =>
      have ht := h3 t (by simp)
      obtain ⟨c, cs, e, _, hc⟩ := showT_head t ht
      have hp := rtT t ht (enough (showT t ++ ts.flatMap textThrows)) (ts.flatMap textThrows)
        (by rw [enough, List.length_append]; omega)
      simp only [Option.elim]
      rw [e, List.cons_append] at hp ⊢
      rw [retSig, if_neg hc, hp]
  rw [hret]
  simp only
  rw [throwsLoop_texts ts h4 _ (by rw [enough]; omega)]

/-! ## Type parameters, cut after each bound -/

theorem flatMap_nameless (bs : List RefSig) :
    (bs.map nameless).flatMap showParam = bs.flatMap fun b => 0x3A :: showR b := by
  induction bs with
  | nil => rfl
  | cons b bs ih =>
    rw [List.map_cons, List.flatMap_cons, List.flatMap_cons, ih]
    simp [nameless, showParam]

theorem show_cut (p : TypeParam) : (cutParam p).flatMap showParam = showParam p := by
  obtain ⟨n, cb, bs⟩ := p
  cases cb with
  | some b => rw [cutParam, List.flatMap_cons, flatMap_nameless]; simp [showParam]
  | none =>
    cases bs with
    | nil => simp [cutParam]
    | cons b bs => rw [cutParam, List.flatMap_cons, flatMap_nameless]; simp [showParam]

theorem cutParam_ne (p : TypeParam) : cutParam p ≠ [] := by
  obtain ⟨n, cb, bs⟩ := p
  cases cb with
  | some b => simp [cutParam]
  | none => cases bs <;> simp [cutParam]

theorem showParams_eq (ps : List TypeParam) :
    showParams ps = if ps = [] then [] else 0x3C :: (ps.flatMap showParam ++ [0x3E]) := by
  cases ps <;> simp [showParams]

theorem show_cuts (ps : List TypeParam) : showParams (cutParams ps) = showParams ps := by
  have h : (cutParams ps).flatMap showParam = ps.flatMap showParam := by
    induction ps with
    | nil => rfl
    | cons p ps ih =>
      rw [cutParams] at ih ⊢
      rw [List.flatMap_cons, List.flatMap_append, show_cut, ih, List.flatMap_cons]
  rw [showParams_eq, showParams_eq, h]
  cases ps with
  | nil => rfl
  | cons p ps =>
    have := cutParam_ne p
    rw [if_neg (by rw [cutParams, List.flatMap_cons]; simp [this]), if_neg (by simp)]

/-- A parameter with one bound, or more. -/
def OkBounds (p : TypeParam) : Prop :=
  0x3A ∉ p.name ∧ p.name.head? ≠ some 0x3E ∧ (∀ b ∈ p.classBound, OkR b) ∧
    (∀ b ∈ p.interfaceBounds, OkR b) ∧ (p.classBound = none → p.interfaceBounds ≠ [])

/-- A parameter with exactly one bound. -/
def OneBound (p : TypeParam) : Prop :=
  OkParam p ∧ (p.classBound = none → p.interfaceBounds ≠ [])

theorem okParams_one {ps : List TypeParam} (h : ∀ p ∈ ps, OneBound p) : OkParams ps := by
  induction ps with
  | nil => trivial
  | cons p ps ih =>
    refine ⟨(h p (by simp)).1, fun h1 h2 => absurd h2 ((h p (by simp)).2 h1), ih fun q hq => h q (by simp [hq])⟩

theorem one_nameless {bs : List RefSig} (h : ∀ b ∈ bs, OkR b) : ∀ p ∈ bs.map nameless, OneBound p := by
  intro p hp
  obtain ⟨b, hb, rfl⟩ := List.mem_map.mp hp
  exact ⟨⟨by simp [nameless], by simp [nameless], .inl ⟨b, rfl, rfl, h b hb⟩⟩, by simp [nameless]⟩

theorem one_cut {p : TypeParam} (h : OkBounds p) : ∀ q ∈ cutParam p, OneBound q := by
  obtain ⟨n, cb, bs⟩ := p
  obtain ⟨h1, h2, h3, h4, h5⟩ := h
  simp only at h1 h2 h3 h4 h5
  intro q hq
  cases cb with
  | some b =>
    rw [cutParam] at hq
    rcases List.mem_cons.mp hq with rfl | hq
    · exact ⟨⟨h1, h2, .inl ⟨b, rfl, rfl, h3 b rfl⟩⟩, by simp⟩
    · exact one_nameless h4 q hq
  | none =>
    cases bs with
    | nil => exact absurd rfl (h5 rfl)
    | cons b bs =>
      rw [cutParam] at hq
      rcases List.mem_cons.mp hq with rfl | hq
      · exact ⟨⟨h1, h2, .inr (.inl ⟨b, rfl, rfl, h4 b (by simp)⟩)⟩, by simp⟩
      · exact one_nameless (fun b hb => h4 b (by simp [hb])) q hq

theorem ok_cuts {ps : List TypeParam} (h : ∀ p ∈ ps, OkBounds p) : OkParams (cutParams ps) :=
  okParams_one fun q hq => by
    obtain ⟨p, hp, hq⟩ := List.mem_flatMap.mp hq
    exact one_cut (h p hp) q hq

/-! ## A type parameter by itself -/

/-- A letter before the text goes to the name. -/
theorem typeParam_letter (s : Str) : typeParam (0x41 :: s) =
    match typeParam s with
    | .ok (p, i) => .ok (⟨0x41 :: p.name, p.classBound, p.interfaceBounds⟩, i)
    | .error e => .error e := by
  unfold typeParam
  rw [List.takeWhile_cons_of_pos (by decide), List.dropWhile_cons_of_pos (by decide)]
  simp only
  split
  · rfl
  · split <;> rfl

/-- As `OkParam`, for a parameter by itself. -/
def OkAlone (p : TypeParam) : Prop :=
  0x3A ∉ p.name ∧
    ((∃ b, p.classBound = some b ∧ p.interfaceBounds = [] ∧ OkR b) ∨
      (∃ b, p.classBound = none ∧ p.interfaceBounds = [b] ∧ OkR b) ∨
      (p.classBound = none ∧ p.interfaceBounds = []))

theorem alone_ok {s rest : Str} {p : TypeParam} (h : typeParam s = .ok (p, rest)) : OkAlone p := by
  have h' := typeParam_letter s
  rw [h] at h'
  obtain ⟨⟨h1, _, h2⟩, _⟩ := typeParam_ok h' (by simp) (by simp)
  exact ⟨fun hm => h1 (by simp [hm]), h2⟩

theorem alone_text {p : TypeParam} (h : OkAlone p) : typeParam (showParam p) = .ok (p, []) := by
  have h' := typeParam_text ⟨0x41 :: p.name, p.classBound, p.interfaceBounds⟩
    ⟨by simpa using h.1, by simp, h.2⟩ [] (fun _ _ => by simp [NoBound])
  rw [List.append_nil] at h'
  have e : showParam ⟨0x41 :: p.name, p.classBound, p.interfaceBounds⟩ = 0x41 :: showParam p := by
    simp [showParam]
  rw [e, typeParam_letter] at h'
  split at h'
  · rename_i q i hq
    obtain ⟨n, cb, bs⟩ := q
    cases h'
    exact hq
  · cases h'

end Verif.Sig
