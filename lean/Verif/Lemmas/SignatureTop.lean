import Verif.Lemmas.SignatureSound

namespace Verif.Sig
open Verif.Spec Verif.JType

theorem isRefStart_iff (c : Nat) : isRefStart c = true ↔ c = 0x54 ∨ c = 0x4C ∨ c = 0x5B := by
  simp [isRefStart]; omega

/-- `rest` cannot be mistaken for a bound. -/
def NoBound (rest : Str) : Prop :=
  ∀ c ∈ rest.head?, c ≠ 0x54 ∧ c ≠ 0x4C ∧ c ≠ 0x5B ∧ c ≠ 0x3A

theorem interfaceBounds_stop {c : Nat} {cs i : Str} (h : c ≠ 0x3A) :
    interfaceBounds (c :: cs) i = .ok ([], i) := by rw [interfaceBounds, if_neg h]

theorem typeParam_text (p : TypeParam) (h : OkParam p) (rest : Str)
    (hr : p.classBound = none → p.interfaceBounds = [] → NoBound rest) :
    typeParam (showParam p ++ rest) = .ok (p, rest) := by
  obtain ⟨nm, cb, ib⟩ := p
  obtain ⟨h1, _, h2⟩ := h
  have split : ∀ tail, (nm ++ 0x3A :: tail).takeWhile (· ≠ 0x3A) = nm ∧
      (nm ++ 0x3A :: tail).dropWhile (· ≠ 0x3A) = 0x3A :: tail := fun tail =>
    takeWhile_split nm 0x3A tail (by intro x hx; simp; rintro rfl; exact h1 hx) (by simp)
  unfold typeParam
  simp only [showParam, List.append_assoc, List.cons_append]
  rw [(split _).1, (split _).2, List.drop_succ_cons, List.drop_zero]
  rcases h2 with ⟨b, e1, e2, hb⟩ | ⟨b, e1, e2, hb⟩ | ⟨e1, e2⟩
  · simp only at e1 e2; subst e1; subst e2
    simp only [Option.elim, List.flatMap_nil, List.append_nil, List.nil_append]
    obtain ⟨c, cs, e, hc⟩ := showR_head b hb
    have hp := rtR b hb (enough (showR b ++ rest)) rest (by simp [enough]; omega)
    rw [e, List.cons_append] at hp ⊢
    simp only [hc, if_true, hp]
    rw [interfaceBounds_stop (by have := (isRefStart_iff c).mp hc; omega)]
  · simp only at e1 e2; subst e1; subst e2
    simp only [Option.elim, List.flatMap_cons, List.flatMap_nil, List.append_nil, List.nil_append,
      List.cons_append]
    rw [if_neg (by decide)]
    obtain ⟨c, cs, e, hc⟩ := showR_head b hb
    have hp := rtR b hb (enough (showR b ++ rest)) rest (by simp [enough]; omega)
    simp only [interfaceBounds, if_true, hp]
    rw [e, List.cons_append, interfaceBounds_stop (by have := (isRefStart_iff c).mp hc; omega)]
  · simp only at e1 e2; subst e1; subst e2
    simp only [Option.elim, List.flatMap_nil, List.append_nil, List.nil_append]
    have hn := hr rfl rfl
    cases rest with
    | nil => simp [interfaceBounds]
    | cons c cs =>
      have hc := hn c (by simp)
      have : isRefStart c = false := by
        cases hb : isRefStart c with
        | false => rfl
        | true => have := (isRefStart_iff c).mp hb; omega
      simp only [this]
      rw [if_neg (by decide)]
      simp only
      rw [interfaceBounds_stop hc.2.2.2]

theorem showParam_ne (p : TypeParam) : 1 ≤ (showParam p).length := by
  simp [showParam]; omega

theorem head_append {a b : Str} (h : a ≠ []) : (a ++ b).head? = a.head? := by
  cases a with
  | nil => exact absurd rfl h
  | cons x xs => rfl

theorem noBound_params (p : TypeParam) (ps : List TypeParam) (rest : Str) (h : OkNext p ps)
    (h1 : p.classBound = none) (h2 : p.interfaceBounds = []) (hps : OkParams ps) :
    NoBound (ps.flatMap showParam ++ 0x3E :: rest) := by
  have := h h1 h2
  cases ps with
  | nil =>
    intro c hc
    simp at hc
    omega
  | cons q qs =>
    obtain ⟨c, hc, hne⟩ := this q (by simp)
    rw [OkParams] at hps
    intro d hd
    cases hn : q.name with
    | nil => rw [hn] at hc; simp at hc
    | cons x xs =>
      rw [hn] at hc
      simp at hc
      simp [showParam, hn] at hd
      subst hd
      have hx : x ≠ 0x3A := by
        rintro rfl
        exact hps.1.1 (by rw [hn]; simp)
      omega

theorem typeParamsLoop_text (ps : List TypeParam) (h : OkParams ps) (f : Nat) (rest : Str)
    (hf : ps.length + 1 ≤ f) :
    typeParamsLoop f (ps.flatMap showParam ++ 0x3E :: rest) = .ok (ps, 0x3E :: rest) := by
  induction ps generalizing f with
  | nil =>
    obtain ⟨f, rfl⟩ : ∃ g, f = g + 1 := ⟨f - 1, by omega⟩
    rw [List.flatMap_nil, List.nil_append, typeParamsLoop, if_pos rfl]
  | cons p ps ih =>
    rw [OkParams] at h
    rw [List.length_cons] at hf
    obtain ⟨f, rfl⟩ : ∃ g, f = g + 1 := ⟨f - 1, by omega⟩
    have hp := typeParam_text p h.1 (ps.flatMap showParam ++ 0x3E :: rest)
      (fun h1 h2 => noBound_params p ps rest h.2.1 h1 h2 h.2.2)
    have hih := ih h.2.2 f (by omega)
    rw [List.flatMap_cons, List.append_assoc]
    obtain ⟨c, cs, e, hc⟩ : ∃ c cs, showParam p = c :: cs ∧ c ≠ 0x3E := by
      cases hn : p.name with
      | nil => exact ⟨0x3A, _, by rw [showParam, hn, List.nil_append], by omega⟩
      | cons x xs =>
        refine ⟨x, _, by rw [showParam, hn, List.cons_append], ?_⟩
        have := h.1.2.1
        rw [hn] at this
        simpa using this
    rw [e, List.cons_append] at hp ⊢
    rw [typeParamsLoop, if_neg hc, hp]
    simp only [hih]

theorem length_flatMap_ge {α : Type} (f : α → Str) (l : List α) (h : ∀ a ∈ l, 1 ≤ (f a).length) :
    l.length ≤ (l.flatMap f).length := by
  induction l with
  | nil => simp
  | cons a l ih =>
    have := h a (by simp)
    have := ih (fun b hb => h b (by simp [hb]))
    simp only [List.flatMap_cons, List.length_append, List.length_cons]
    omega

theorem typeParams_text (ps : List TypeParam) (h : OkParams ps) (rest : Str)
    (hr : ∀ c ∈ rest.head?, c ≠ 0x3C) : typeParams (showParams ps ++ rest) = .ok (ps, rest) := by
  cases ps with
  | nil =>
    rw [showParams, List.nil_append]
    cases rest with
    | nil => rw [typeParams]
    | cons c cs => rw [typeParams, if_neg (hr c (by simp))]
  | cons p ps =>
    have hl := length_flatMap_ge showParam (p :: ps) (fun q _ => showParam_ne q)
    have e : showParams (p :: ps) ++ rest = 0x3C :: ((p :: ps).flatMap showParam ++ 0x3E :: rest) := by
      simp [showParams]
    rw [e, typeParams, if_pos rfl, typeParamsLoop_text (p :: ps) h _ rest (by
      rw [enough, List.length_append]; omega)]
    simp only [expect, if_true]

theorem interfacesLoop_text (is : List ClassTySig) (h : ∀ i ∈ is, OkC i) (f : Nat)
    (hf : is.length + 1 ≤ f) : interfacesLoop f (is.flatMap showC) = .ok (is, []) := by
  induction is generalizing f with
  | nil =>
    obtain ⟨f, rfl⟩ : ∃ g, f = g + 1 := ⟨f - 1, by omega⟩
    rw [List.flatMap_nil, interfacesLoop]
  | cons i is ih =>
    rw [List.length_cons] at hf
    obtain ⟨f, rfl⟩ : ∃ g, f = g + 1 := ⟨f - 1, by omega⟩
    have hih := ih (fun j hj => h j (by simp [hj])) f (by omega)
    have hp := rtC i (h i (by simp)) (enough (showC i ++ is.flatMap showC)) (is.flatMap showC)
      (by rw [enough, List.length_append]; omega)
    obtain ⟨cs, e⟩ : ∃ cs, showC i = 0x4C :: cs := by cases i; exact ⟨_, by rw [showC]⟩
    rw [List.flatMap_cons]
    rw [e, List.cons_append] at hp ⊢
    rw [interfacesLoop, if_pos rfl, hp]
    simp only [hih]

theorem showC_ne (c : ClassTySig) : ∃ cs, showC c = 0x4C :: cs := by
  cases c; exact ⟨_, by rw [showC]⟩

theorem classSig_text (c : ClassSig) (h : OkClass c) : classSig (showClass c) = .ok (c, []) := by
  obtain ⟨tps, sup, is⟩ := c
  obtain ⟨h1, h2, h3⟩ := h
  unfold classSig showClass
  obtain ⟨cs, e⟩ := showC_ne sup
  have hl := length_flatMap_ge showC is (fun c _ => by obtain ⟨cs, e⟩ := showC_ne c; simp [e])
  rw [typeParams_text tps h1 _ (by intro c hc; simp only [e] at hc; simp at hc; omega)]
  simp only
  rw [rtC sup h2 _ _ (by rw [enough, List.length_append]; omega)]
  simp only
  rw [interfacesLoop_text is h3 _ (by rw [enough]; omega)]

theorem showT_head (t : TypeSig) (h : OkT t) :
    ∃ c cs, showT t = c :: cs ∧ ((primSig c).isSome || isRefStart c) = true ∧ c ≠ 0x56 := by
  cases t with
  | ref r =>
    rw [OkT] at h
    obtain ⟨c, cs, e, hc⟩ := showR_head r h
    refine ⟨c, cs, by rw [showT, e], by rw [hc]; simp, ?_⟩
    have := (isRefStart_iff c).mp hc
    omega
  | _ => exact ⟨_, _, by rw [showT], rfl, by omega⟩

theorem paramsLoop_text (ts : List TypeSig) (h : ∀ t ∈ ts, OkT t) (f : Nat) (rest : Str)
    (hf : ts.length + 1 ≤ f) :
    paramsLoop f (ts.flatMap showT ++ 0x29 :: rest) = .ok (ts, 0x29 :: rest) := by
  induction ts generalizing f with
  | nil =>
    obtain ⟨f, rfl⟩ : ∃ g, f = g + 1 := ⟨f - 1, by omega⟩
    rw [List.flatMap_nil, List.nil_append, paramsLoop, if_neg (by decide)]
  | cons t ts ih =>
    rw [List.length_cons] at hf
    obtain ⟨f, rfl⟩ : ∃ g, f = g + 1 := ⟨f - 1, by omega⟩
    have hih := ih (fun j hj => h j (by simp [hj])) f (by omega)
    have hp := rtT t (h t (by simp)) (enough (showT t ++ (ts.flatMap showT ++ 0x29 :: rest)))
      (ts.flatMap showT ++ 0x29 :: rest) (by rw [enough, List.length_append]; omega)
    obtain ⟨c, cs, e, hc, _⟩ := showT_head t (h t (by simp))
    rw [List.flatMap_cons, List.append_assoc]
    rw [e, List.cons_append] at hp ⊢
    rw [paramsLoop, if_pos hc, hp]
    simp only [hih]

theorem throwsLoop_text (ts : List ThrowsSig) (h : ∀ t ∈ ts, ∃ c, t = .cls c ∧ OkC c) (f : Nat)
    (hf : ts.length + 1 ≤ f) : throwsLoop f (ts.flatMap showThrows) = .ok (ts, []) := by
  induction ts generalizing f with
  | nil =>
    obtain ⟨f, rfl⟩ : ∃ g, f = g + 1 := ⟨f - 1, by omega⟩
    rw [List.flatMap_nil, throwsLoop]
  | cons t ts ih =>
    rw [List.length_cons] at hf
    obtain ⟨f, rfl⟩ : ∃ g, f = g + 1 := ⟨f - 1, by omega⟩
    have hih := ih (fun j hj => h j (by simp [hj])) f (by omega)
    obtain ⟨c, rfl, hc⟩ := h t (by simp)
    have hp := rtC c hc (enough (showC c ++ ts.flatMap showThrows)) (ts.flatMap showThrows)
      (by rw [enough, List.length_append]; omega)
    obtain ⟨cs, e⟩ := showC_ne c
    rw [List.flatMap_cons, showThrows]
    rw [e, List.cons_append] at hp ⊢
    simp only [List.cons_append]
    rw [throwsLoop, if_pos rfl]
    simp only [throwsSig, expect, if_true, hp, hih]

theorem methodSig_text (m : MethodSig) (h : OkMethod m) : methodSig (showMethod m) = .ok (m, []) := by
  obtain ⟨tps, ps, r, ts⟩ := m
  obtain ⟨h1, h2, h3, h4⟩ := h
  unfold methodSig showMethod
  have hl := length_flatMap_ge showT ps (fun t ht => by
    obtain ⟨c, cs, e, _⟩ := showT_head t (h2 t ht); simp [e])
  have hl2 := length_flatMap_ge showThrows ts (fun t _ => by cases t <;> simp [showThrows])
  rw [typeParams_text tps h1 _ (by intro c hc; simp at hc; omega)]
  simp only [expect, if_true]
  rw [paramsLoop_text ps h2 _ _ (by rw [enough, List.length_append]; omega)]
  simp only [expect, if_true]
  have hret : retSig (r.elim [0x56] showT ++ ts.flatMap showThrows) = .ok (r, ts.flatMap showThrows) := by
    cases r with
    | none => simp [retSig]
    | some t =>
      have ht := h3 t (by simp)
      obtain ⟨c, cs, e, _, hc⟩ := showT_head t ht
      have hp := rtT t ht (enough (showT t ++ ts.flatMap showThrows)) (ts.flatMap showThrows)
        (by rw [enough, List.length_append]; omega)
      simp only [Option.elim]
      rw [e, List.cons_append] at hp ⊢
      rw [retSig, if_neg hc, hp]
  rw [hret]
  simp only
  rw [throwsLoop_text ts h4 _ (by rw [enough]; omega)]

/-! ### `packages` on bytes -/

theorem packagesLoopB_eq (cs : Str) : ∀ (cur : Str) (acc : List Str) (after : Str),
    (∀ c ∈ cs, IsCodePoint c) →
    packagesLoopB (encodeCps cs) (encodeCps cur) (acc.map encodeCps) (encodeCps after) =
      match packagesLoop cs cur acc after with
      | .ok (pk, i) => .ok (pk.map encodeCps, encodeCps i)
      | .error e => .error e := by
  have skip : ∀ (b : UInt8) (bs cur : Bytes) (acc : List Bytes) (after : Bytes), 0x80 ≤ b.toNat →
      packagesLoopB (b :: bs) cur acc after = packagesLoopB bs (cur ++ [b]) acc after := by
    intro b bs cur acc after hb
    have h1 : b ≠ 0x2F := by rintro rfl; simp at hb
    have h2 : ¬ (b = 0x3B ∨ b = 0x3C ∨ b = 0x2E) := by rintro (rfl | rfl | rfl) <;> simp at hb
    conv => lhs; rw [packagesLoopB, if_neg h1, if_neg h2]
  induction cs with
  | nil => intro cur acc after _; rfl
  | cons c cs ih =>
    intro cur acc after hv
    have hc := hv c (by simp)
    have hv' : ∀ c ∈ cs, IsCodePoint c := fun x hx => hv x (by simp [hx])
    rw [Wtf8.encodeCps_cons]
    have happ : encodeCps cur ++ gutf8 c = encodeCps (cur ++ [c]) := by
      rw [Wtf8.encodeCps_append, Wtf8.encodeCps_singleton]
    rcases Wtf8.gutf8_cases c hc with ⟨h1, a, e, ha⟩ | ⟨h1, h2, a, b, e, ha, hb⟩ |
        ⟨h1, h2, a, b, d, e, ha, hb, hd⟩ | ⟨h1, a, b, d, f, e, ha, hb, hd, hf⟩
    · rw [e] at happ ⊢
      rw [List.singleton_append, packagesLoopB, packagesLoop]
      have key : ∀ (k : UInt8), a = k ↔ c = k.toNat := fun k => by rw [← ha, UInt8.toNat_inj]
      by_cases c1 : c = 0x2F
      · rw [if_pos ((key 0x2F).mpr c1), if_pos c1]
        have := ih [] (acc ++ [cur]) cs hv'
        rw [List.map_append] at this
        exact this
      · rw [if_neg (fun h => c1 ((key 0x2F).mp h)), if_neg c1]
        by_cases c2 : c = 0x3B ∨ c = 0x3C ∨ c = 0x2E
        · rw [if_pos c2, if_pos]
          rcases c2 with h | h | h
          · exact .inl ((key 0x3B).mpr h)
          · exact .inr (.inl ((key 0x3C).mpr h))
          · exact .inr (.inr ((key 0x2E).mpr h))
        · rw [if_neg c2, if_neg, happ]
          · exact ih _ _ _ hv'
          · rintro (h | h | h)
            · exact c2 (.inl ((key 0x3B).mp h))
            · exact c2 (.inr (.inl ((key 0x3C).mp h)))
            · exact c2 (.inr (.inr ((key 0x2E).mp h)))
    all_goals
      have hne : ¬ c = 0x2F := by omega
      have hne2 : ¬ (c = 0x3B ∨ c = 0x3C ∨ c = 0x2E) := by omega
      rw [packagesLoop, if_neg hne, if_neg hne2, ← ih (cur ++ [c]) acc after hv', ← happ, e]
      simp only [List.cons_append, List.nil_append]
      unfold IsCodePoint at hc
    · rw [skip a _ _ _ _ (by omega), skip b _ _ _ _ (by omega)]; simp
    · rw [skip a _ _ _ _ (by omega), skip b _ _ _ _ (by omega), skip d _ _ _ _ (by omega)]; simp
    · rw [skip a _ _ _ _ (by omega), skip b _ _ _ _ (by omega), skip d _ _ _ _ (by omega),
        skip f _ _ _ _ (by omega)]; simp

/-- Scanning the bytes gives the same pieces as scanning the chars. -/
theorem packagesBytes_eq (i : Str) (h : ∀ c ∈ i, IsCodePoint c) :
    packagesBytes (encodeCps i) =
      match packages i with
      | .ok (pk, i) => .ok (pk.map encodeCps, encodeCps i)
      | .error e => .error e :=
  packagesLoopB_eq i [] [] i h

/-! ### What the parsers return -/

theorem interfaceBounds_ok {chars i rest : Str} {bs : List RefSig}
    (h : interfaceBounds chars i = .ok (bs, rest)) :
    (bs = [] ∧ rest = i ∧ chars.head? ≠ some 0x3A) ∨
      (∃ b cs, chars = 0x3A :: cs ∧ bs = [b] ∧ OkR b ∧ PSuf cs rest) := by
  cases chars with
  | nil => rw [interfaceBounds] at h; cases h; exact .inl ⟨rfl, rfl, by simp⟩
  | cons c cs =>
    rw [interfaceBounds] at h
    split at h
    · rename_i hc
      split at h
      · cases h
      rename_i b i' hb
      have hok := okR _ _ _ _ hb
      -- the iterator stands at the bound just parsed, so the loop stops
      have hcs : ∃ d ds, cs = d :: ds ∧ d ≠ 0x3A := by
        cases cs with
        | nil => simp [enough, refTypeSig] at hb
        | cons d ds =>
          refine ⟨d, ds, rfl, ?_⟩
          rintro rfl
          simp [enough, refTypeSig] at hb
      obtain ⟨d, ds, rfl, hd⟩ := hcs
      rw [interfaceBounds_stop hd] at h
      simp only at h
      cases h
      exact .inr ⟨b, _, by rw [hc], rfl, hok.1, hok.2⟩
    · rename_i hc
      cases h
      exact .inl ⟨rfl, rfl, by simpa using hc⟩

theorem typeParam_ok {s rest : Str} {p : TypeParam} (h : typeParam s = .ok (p, rest))
    (hs : s.head? ≠ some 0x3E) (hne : s ≠ []) : OkParam p ∧ PSuf s rest ∧
      (p.classBound = none → p.interfaceBounds = [] → NoBound rest) ∧
      p.name = s.takeWhile (· ≠ 0x3A) := by
  have e := List.takeWhile_append_dropWhile (p := (· ≠ 0x3A)) (l := s)
  have hname : 0x3A ∉ s.takeWhile (· ≠ 0x3A) := by
    intro hm; have := mem_takeWhile hm; simp at this
  have hhead : (s.takeWhile (· ≠ 0x3A)).head? ≠ some 0x3E := by
    cases s with
    | nil => exact absurd rfl hne
    | cons c cs =>
      simp at hs
      rw [List.takeWhile_cons]
      split
      · simpa using hs
      · simp
  have hsuf : PSuf s ((s.dropWhile (· ≠ 0x3A)).drop 1) := by
    cases hd : s.dropWhile (· ≠ 0x3A) with
    | nil => exact ⟨s, hne, by simp⟩
    | cons c cs =>
      rw [hd] at e
      exact ⟨s.takeWhile (· ≠ 0x3A) ++ [c], by simp, by simpa using e.symm⟩
  unfold typeParam at h
  simp only at h
  generalize (s.dropWhile (· ≠ 0x3A)).drop 1 = chars at h hsuf
  generalize s.takeWhile (· ≠ 0x3A) = nm at h hname hhead
  cases hc : chars with
  | nil =>
    rw [hc] at h
    simp [interfaceBounds] at h
    obtain ⟨h1, h2⟩ := h
    subst h1; subst h2
    rw [hc] at hsuf
    exact ⟨⟨hname, hhead, .inr (.inr ⟨rfl, rfl⟩)⟩, hsuf, fun _ _ => by simp [NoBound], rfl⟩
  | cons c cs =>
    rw [hc] at h hsuf
    simp only at h
    by_cases hr : isRefStart c = true
    · rw [if_pos hr] at h
      cases hb : refTypeSig (enough (c :: cs)) (c :: cs) with
      | error e => rw [hb] at h; cases h
      | ok x =>
        obtain ⟨b, i⟩ := x
        rw [hb] at h
        simp only at h
        rw [interfaceBounds_stop (by have := (isRefStart_iff c).mp hr; omega)] at h
        simp only at h
        cases h
        have hok := okR _ _ _ _ hb
        exact ⟨⟨hname, hhead, .inl ⟨b, rfl, rfl, hok.1⟩⟩, hsuf.trans hok.2.suf,
          fun h1 _ => by simp at h1, rfl⟩
    · rw [if_neg hr] at h
      simp only at h
      cases hi : interfaceBounds (c :: cs) (c :: cs) with
      | error e => rw [hi] at h; cases h
      | ok x =>
        obtain ⟨bs, i⟩ := x
        rw [hi] at h
        simp only at h
        cases h
        rcases interfaceBounds_ok hi with ⟨rfl, rfl, hcol⟩ | ⟨b, cs', hcs, rfl, hb, hsf⟩
        · refine ⟨⟨hname, hhead, .inr (.inr ⟨rfl, rfl⟩)⟩, hsuf, ?_, rfl⟩
          intro _ _ d hd
          simp at hd hcol
          subst hd
          have : ¬ (c = 0x54 ∨ c = 0x4C ∨ c = 0x5B) := fun hx => hr ((isRefStart_iff c).mpr hx)
          omega
        · rw [List.cons.injEq] at hcs
          obtain ⟨_, rfl⟩ := hcs
          exact ⟨⟨hname, hhead, .inr (.inl ⟨b, rfl, rfl, hb⟩)⟩,
            hsuf.trans ((PSuf.cons c cs).suf.trans hsf.suf), fun _ h2 => by simp at h2, rfl⟩

theorem typeParamsLoop_ok (f : Nat) : ∀ (s rest : Str) (ps : List TypeParam),
    typeParamsLoop f s = .ok (ps, rest) → OkParams ps ∧ Suf s rest ∧
      (∀ q ∈ ps.head?, q.name = s.takeWhile (· ≠ 0x3A) ∧ s ≠ []) := by
  induction f with
  | zero => intro s rest ps h; simp [typeParamsLoop] at h
  | succ f ih =>
    intro s rest ps h
    cases s with
    | nil => rw [typeParamsLoop] at h; cases h; exact ⟨trivial, .rfl, by simp⟩
    | cons c cs =>
      rw [typeParamsLoop] at h
      split at h
      · cases h; exact ⟨trivial, .rfl, by simp⟩
      · rename_i hc
        split at h
        · cases h
        rename_i p i hp
        split at h
        · cases h
        rename_i ps' i' hps
        cases h
        obtain ⟨h1, h2, h3, h4⟩ := typeParam_ok hp (by simpa using hc) (by simp)
        obtain ⟨g1, g2, g3⟩ := ih _ _ _ hps
        refine ⟨⟨h1, ?_, g1⟩, h2.suf.trans g2, ?_⟩
        · intro e1 e2 q hq
          have hnb := h3 e1 e2
          obtain ⟨hq1, hq2⟩ := g3 q hq
          cases i with
          | nil => exact absurd rfl hq2
          | cons x xs =>
            have := hnb x (by simp)
            refine ⟨x, ?_, this.1, this.2.1, this.2.2.1⟩
            rw [hq1, List.takeWhile_cons, if_pos (by simpa using this.2.2.2)]
            rfl
        · intro q hq
          simp at hq
          subst hq
          exact ⟨h4, by simp⟩

theorem typeParams_ok {s rest : Str} {ps : List TypeParam} (h : typeParams s = .ok (ps, rest)) :
    OkParams ps ∧ Suf s rest := by
  cases s with
  | nil => rw [typeParams] at h; cases h; exact ⟨trivial, .rfl⟩
  | cons c cs =>
    rw [typeParams] at h
    split at h
    · split at h
      · cases h
      rename_i ps' i hps
      split at h
      · cases h
      rename_i i' hi
      cases h
      have := typeParamsLoop_ok _ _ _ _ hps
      exact ⟨this.1, (PSuf.cons c cs).suf.trans (this.2.1.trans (expect_suf hi).suf)⟩
    · cases h; exact ⟨trivial, .rfl⟩

theorem interfacesLoop_ok (f : Nat) : ∀ (s rest : Str) (is : List ClassTySig),
    interfacesLoop f s = .ok (is, rest) → (∀ i ∈ is, OkC i) ∧ Suf s rest := by
  induction f with
  | zero => intro s rest ps h; simp [interfacesLoop] at h
  | succ f ih =>
    intro s rest ps h
    cases s with
    | nil => rw [interfacesLoop] at h; cases h; exact ⟨by simp, .rfl⟩
    | cons c cs =>
      rw [interfacesLoop] at h
      split at h
      · split at h
        · cases h
        rename_i p i hp
        split at h
        · cases h
        rename_i ps' i' hps
        cases h
        have h1 := okC _ _ _ _ hp
        have h2 := ih _ _ _ hps
        refine ⟨?_, h1.2.suf.trans h2.2⟩
        intro j hj
        rcases List.mem_cons.mp hj with rfl | hj
        · exact h1.1
        · exact h2.1 j hj
      · cases h; exact ⟨by simp, .rfl⟩

theorem classSig_ok {s rest : Str} {c : ClassSig} (h : classSig s = .ok (c, rest)) : OkClass c := by
  unfold classSig at h
  split at h
  · cases h
  rename_i tps i1 h1
  split at h
  · cases h
  rename_i sup i2 h2
  split at h
  · cases h
  rename_i is i3 h3
  cases h
  exact ⟨(typeParams_ok h1).1, (okC _ _ _ _ h2).1, (interfacesLoop_ok _ _ _ _ h3).1⟩

theorem paramsLoop_ok (f : Nat) : ∀ (s rest : Str) (is : List TypeSig),
    paramsLoop f s = .ok (is, rest) → (∀ i ∈ is, OkT i) ∧ Suf s rest := by
  induction f with
  | zero => intro s rest ps h; simp [paramsLoop] at h
  | succ f ih =>
    intro s rest ps h
    cases s with
    | nil => rw [paramsLoop] at h; cases h; exact ⟨by simp, .rfl⟩
    | cons c cs =>
      rw [paramsLoop] at h
      split at h
      · split at h
        · cases h
        rename_i p i hp
        split at h
        · cases h
        rename_i ps' i' hps
        cases h
        have h1 := okT _ _ _ _ hp
        have h2 := ih _ _ _ hps
        refine ⟨?_, h1.2.suf.trans h2.2⟩
        intro j hj
        rcases List.mem_cons.mp hj with rfl | hj
        · exact h1.1
        · exact h2.1 j hj
      · cases h; exact ⟨by simp, .rfl⟩

theorem retSig_ok {s rest : Str} {r : Option TypeSig} (h : retSig s = .ok (r, rest)) :
    (∀ t ∈ r, OkT t) ∧ PSuf s rest := by
  cases s with
  | nil => simp [retSig] at h
  | cons c cs =>
    rw [retSig] at h
    split at h
    · cases h; exact ⟨by simp, .cons _ _⟩
    · split at h
      · rename_i t i ht
        cases h
        have := okT _ _ _ _ ht
        exact ⟨by intro t' ht'; cases ht'; exact this.1, this.2⟩
      · cases h

theorem throwsSig_ok {s rest : Str} {t : ThrowsSig} (h : throwsSig s = .ok (t, rest)) :
    PSuf s rest := by
  unfold throwsSig at h
  split at h
  · cases h
  · cases h
  · rename_i c cs hx
    have hs := expect_suf hx
    split at h
    · split at h
      · rename_i sg i hc
        cases h
        exact hs.trans (okC _ _ _ _ hc).2.suf
      · cases h
    · split at h
      · split at h
        · rename_i sg i hc
          cases h
          exact hs.trans ((PSuf.cons c cs).suf.trans (tyVar_suf hc))
        · cases h
      · cases h

/-! ### Rejections -/

theorem errR' {s : Str} {e : Err} (h : refTypeSig (enough s) s = .error e) : ErrOk e s :=
  errR _ _ _ (by rw [enough]; omega) h
theorem errC' {s : Str} {e : Err} (h : classTypeSig (enough s) s = .error e) : ErrOk e s :=
  errC _ _ _ (by rw [enough]; omega) h
theorem errT' {s : Str} {e : Err} (h : typeSig (enough s) s = .error e) : ErrOk e s :=
  errT _ _ _ (by rw [enough]; omega) h

theorem interfaceBounds_err (chars : Str) : ∀ (i : Str) (e : Err),
    interfaceBounds chars i = .error e → ErrOk e chars := by
  induction chars with
  | nil => intro i e h; rw [interfaceBounds] at h; cases h
  | cons c cs ih =>
    intro i e h
    rw [interfaceBounds] at h
    split at h
    · split at h
      · rename_i e' he; cases h; exact (errR' he).mono (PSuf.cons c cs).suf
      split at h
      · rename_i e' he; cases h; exact (ih _ _ he).mono (PSuf.cons c cs).suf
      cases h
    · cases h

theorem typeParam_err {s : Str} {e : Err} (h : typeParam s = .error e) : ErrOk e s := by
  have hsuf : Suf s ((s.dropWhile (· ≠ 0x3A)).drop 1) := by
    refine (suf_dropWhile (· ≠ 0x3A) s).trans ⟨(s.dropWhile (· ≠ 0x3A)).take 1, ?_⟩
    exact (List.take_append_drop 1 _).symm
  unfold typeParam at h
  simp only at h
  generalize (s.dropWhile (· ≠ 0x3A)).drop 1 = chars at h hsuf
  split at h
  · rename_i e' he
    cases h
    split at he
    · cases he
    · split at he
      · split at he
        · cases he
        · rename_i e'' he'; cases he; exact (errR' he').mono hsuf
      · cases he
  · split at h
    · rename_i e' he; cases h; exact (interfaceBounds_err _ _ _ he).mono hsuf
    · cases h

theorem typeParamsLoop_err (f : Nat) : ∀ (s : Str) (e : Err), s.length + 1 ≤ f →
    typeParamsLoop f s = .error e → ErrOk e s := by
  induction f with
  | zero => intro s e hf; omega
  | succ f ih =>
    intro s e hf h
    cases s with
    | nil => rw [typeParamsLoop] at h; cases h
    | cons c cs =>
      rw [typeParamsLoop] at h
      split at h
      · cases h
      · rename_i hc
        split at h
        · rename_i e' he; cases h; exact typeParam_err he
        rename_i p i hp
        have hs := (typeParam_ok hp (by simpa using hc) (by simp)).2.1
        have := hs.length
        split at h
        · rename_i e' he; cases h; exact (ih _ _ (by omega) he).mono hs.suf
        cases h

theorem typeParams_err {s : Str} {e : Err} (h : typeParams s = .error e) : ErrOk e s := by
  cases s with
  | nil => rw [typeParams] at h; cases h
  | cons c cs =>
    rw [typeParams] at h
    split at h
    · split at h
      · rename_i e' he
        cases h
        exact (typeParamsLoop_err _ _ _ (by rw [enough]; omega) he).mono (PSuf.cons c cs).suf
      split at h
      · rename_i e' he; cases h; rw [expect_err he]; exact .inv
      cases h
    · cases h

theorem interfacesLoop_err (f : Nat) : ∀ (s : Str) (e : Err), s.length + 1 ≤ f →
    interfacesLoop f s = .error e → ErrOk e s := by
  induction f with
  | zero => intro s e hf; omega
  | succ f ih =>
    intro s e hf h
    cases s with
    | nil => rw [interfacesLoop] at h; cases h
    | cons c cs =>
      rw [interfacesLoop] at h
      split at h
      · split at h
        · rename_i e' he; cases h; exact errC' he
        rename_i p i hp
        have hs := (okC _ _ _ _ hp).2
        have := hs.length
        split at h
        · rename_i e' he; cases h; exact (ih _ _ (by omega) he).mono hs.suf
        cases h
      · cases h

theorem classSig_err {s : Str} {e : Err} (h : classSig s = .error e) : ErrOk e s := by
  unfold classSig at h
  split at h
  · rename_i e' he; cases h; exact typeParams_err he
  rename_i tps i1 h1
  have s1 := (typeParams_ok h1).2
  split at h
  · rename_i e' he; cases h; exact (errC' he).mono s1
  rename_i sup i2 h2
  have s2 := (okC _ _ _ _ h2).2
  split at h
  · rename_i e' he
    cases h
    exact (interfacesLoop_err _ _ _ (by rw [enough]; omega) he).mono (s1.trans s2.suf)
  cases h

theorem paramsLoop_err (f : Nat) : ∀ (s : Str) (e : Err), s.length + 1 ≤ f →
    paramsLoop f s = .error e → ErrOk e s := by
  induction f with
  | zero => intro s e hf; omega
  | succ f ih =>
    intro s e hf h
    cases s with
    | nil => rw [paramsLoop] at h; cases h
    | cons c cs =>
      rw [paramsLoop] at h
      split at h
      · split at h
        · rename_i e' he; cases h; exact errT' he
        rename_i p i hp
        have hs := (okT _ _ _ _ hp).2
        have := hs.length
        split at h
        · rename_i e' he; cases h; exact (ih _ _ (by omega) he).mono hs.suf
        cases h
      · cases h

theorem throwsSig_err {s : Str} {e : Err} (h : throwsSig s = .error e) : ErrOk e s := by
  unfold throwsSig at h
  split at h
  · rename_i e' he; cases h; rw [expect_err he]; exact .inv
  · cases h; exact .inv
  · rename_i c cs hx
    have hs := expect_suf hx
    split at h
    · split at h
      · cases h
      · rename_i e' he; cases h; exact (errC' he).mono hs.suf
    · split at h
      · split at h
        · cases h
        · rename_i e' he; cases h; rw [tyVar_err he]; exact .inv
      · cases h; exact .inv

theorem throwsLoop_err (f : Nat) : ∀ (s : Str) (e : Err), s.length + 1 ≤ f →
    throwsLoop f s = .error e → ErrOk e s := by
  induction f with
  | zero => intro s e hf; omega
  | succ f ih =>
    intro s e hf h
    cases s with
    | nil => rw [throwsLoop] at h; cases h
    | cons c cs =>
      rw [throwsLoop] at h
      split at h
      · split at h
        · rename_i e' he; cases h; exact throwsSig_err he
        rename_i p i hp
        have hs := throwsSig_ok hp
        have := hs.length
        split at h
        · rename_i e' he; cases h; exact (ih _ _ (by omega) he).mono hs.suf
        cases h
      · cases h

theorem retSig_err {s : Str} {e : Err} (h : retSig s = .error e) : ErrOk e s := by
  cases s with
  | nil => rw [retSig] at h; cases h; exact .inv
  | cons c cs =>
    rw [retSig] at h
    split at h
    · cases h
    · split at h
      · cases h
      · rename_i e' he; cases h; exact errT' he

theorem methodSig_err {s : Str} {e : Err} (h : methodSig s = .error e) : ErrOk e s := by
  unfold methodSig at h
  split at h
  · rename_i e' he; cases h; exact typeParams_err he
  rename_i tps i1 h1
  have s1 := (typeParams_ok h1).2
  split at h
  · rename_i e' he; cases h; rw [expect_err he]; exact .inv
  rename_i i2 h2
  have s2 := s1.trans (expect_suf h2).suf
  split at h
  · rename_i e' he
    cases h
    exact (paramsLoop_err _ _ _ (by rw [enough]; omega) he).mono s2
  rename_i ps i3 h3
  have s3 := s2.trans (paramsLoop_ok _ _ _ _ h3).2
  split at h
  · rename_i e' he; cases h; rw [expect_err he]; exact .inv
  rename_i i4 h4
  have s4 := s3.trans (expect_suf h4).suf
  split at h
  · rename_i e' he; cases h; exact (retSig_err he).mono s4
  rename_i r i5 h5
  have s5 := s4.trans (retSig_ok h5).2.suf
  split at h
  · rename_i e' he
    cases h
    exact (throwsLoop_err _ _ _ (by rw [enough]; omega) he).mono s5
  cases h

end Verif.Sig
