import Verif.Lemmas.SignatureText
import Verif.Model.SigParts
import Verif.Props.Signature

/-!
# Signatures: what exactly is parsed (C18, C19) and printed again (C80)

`Spec.cutParams` says how the parser reads type parameters with more than one bound.
-/

namespace Verif.Props
open Verif.Spec Verif.Sig Verif.JType

theorem dropRest_ok {α : Type} {r : Res (α × Str)} {a : α} (h : dropRest r = .ok a) :
    ∃ rest, r = .ok (a, rest) := by
  cases r with
  | error e => cases h
  | ok x => cases h; exact ⟨x.2, rfl⟩

/-! ## C18: simple class types by themselves -/

theorem simple_alone (s : SimpleSig) (h : OkS s) : parseSimple (showS s) = .ok s := by
  obtain ⟨n, as⟩ := s
  have hn := h
  rw [OkS] at hn
  have hall : ∀ x ∈ n, nameChar x = true := fun x hx => (nameChar_iff x).mpr (hn.1 x hx)
  cases as with
  | nil =>
    have h1 := List.takeWhile_append_of_pos (p := nameChar) (l₂ := []) hall
    have h2 := List.dropWhile_append_of_pos (p := nameChar) (l₂ := []) hall
    rw [List.append_nil] at h1 h2
    simp only [showS, List.append_nil, parseSimple, enough, simpleTypeSig, h1, h2, List.takeWhile_nil,
      List.dropWhile_nil, dropRest]
  | cons a as =>
    have hp := rtAs (a :: as) hn.2 (4 * (showS (.mk n (a :: as))).length + 7) [] (by
      simp only [showS, showArgs, List.length_append, List.length_cons]; omega)
    rw [showArgs, List.append_assoc] at hp
    have ht := takeWhile_split (p := nameChar) n 0x3C (showA a ++ (showArgs as ++ [0x3E])) hall rfl
    rw [parseSimple, enough]
    rw [showS] at hp ⊢
    rw [simpleTypeSig, ht.1, ht.2]
    simp only [hp, expect, if_true, dropRest]

/-- C18. `SimpleClassTypeSignature` by itself. -/
theorem C18_simple {s : SimpleSig} {cs : Str} (h : SText s cs) : showS s = cs ∧ parseSimple cs = .ok s := by
  have := okS_of_text h
  refine ⟨this.2, ?_⟩
  rw [← this.2]
  exact simple_alone s this.1

/-- C18. Exactly those whose names avoid the delimiters survive. -/
theorem C18_simple_iff (s : SimpleSig) : parseSimple (showS s) = .ok s ↔ OkS s := by
  constructor
  · intro h
    obtain ⟨rest, h⟩ := dropRest_ok h
    exact (okS _ _ _ _ h).1
  · exact simple_alone s

/-- C18. So do class types and types, exactly. -/
theorem C18_class_type_iff (c : ClassTySig) : parseClassTy (showC c) = .ok c ↔ OkC c := by
  constructor
  · intro h
    obtain ⟨rest, h⟩ := dropRest_ok h
    exact (okC _ _ _ _ h).1
  · intro h
    have hp := rtC c h (enough (showC c)) [] (by rw [enough]; omega)
    rw [List.append_nil] at hp
    rw [parseClassTy, hp, dropRest]

theorem C18_type_iff (t : TypeSig) : parseTypeSig (showT t) = .ok t ↔ OkT t := by
  constructor
  · intro h
    obtain ⟨rest, h⟩ := dropRest_ok h
    exact (okT _ _ _ _ h).1
  · intro h
    have hp := rtT t h (enough (showT t)) [] (by rw [enough]; omega)
    rw [List.append_nil] at hp
    rw [parseTypeSig, hp, dropRest]

/-- `M<TK;*>` -/
example : ∃ s cs, SText s cs ∧ cs.length = 7 ∧ parseSimple cs = .ok s := by
  have h : SText (.mk [0x41] [.exact (.typeVar [0x54]), .any]) _ :=
    .args ident_A (by simp) (.cons (.exact (.typeVar ident_T)) (.cons .any .nil))
  exact ⟨_, _, h, rfl, (C18_simple h).2⟩

/-! ## C19: what is parsed, exactly -/

theorem boundsOk_of_text {p : TypeParam} {cs : Str} (h : ParamText p cs) : OkBounds p := by
  have hb : ∀ b cs, BoundText b cs → OkR b := by
    intro b cs hb; cases hb with | mk hr => exact (okR_of_text hr).1
  cases h with
  | cls hn h1 h2 =>
    refine ⟨(ident_plain hn).2.2.2.1, (ident_plain hn).2.2.2.2, ?_, many_all hb h2, by simp⟩
    intro b hb'
    cases hb'
    exact hb _ _ h1
  | itf hn hne h2 =>
    exact ⟨(ident_plain hn).2.2.2.1, (ident_plain hn).2.2.2.2, by simp, many_all hb h2, fun _ => hne⟩

theorem paramsOk_of_text {ps : List TypeParam} {cs : Str} (h : ParamsText ps cs) :
    OkParams (cutParams ps) := by
  cases h with
  | nil => trivial
  | some _ hm => exact ok_cuts (many_all (fun _ _ h => boundsOk_of_text h) hm)

/-- C19. What a JVMS class signature is parsed as: each bound after the first one of its parameter
becomes a parameter without a name, and nothing else changes. -/
theorem C19_class_exact {c : ClassSig} {cs : Str} (h : ClassText c cs) :
    parseClass cs = .ok { c with typeParams := cutParams c.typeParams } := by
  have hs := C19_print_class h
  have e : showClass { c with typeParams := cutParams c.typeParams } = cs := by
    rw [← hs]
    simp only [showClass, show_cuts]
  rw [← e, parseClass, classSig_text, dropRest]
  cases h with
  | mk h1 h2 h3 =>
    exact ⟨paramsOk_of_text h1, (okC_of_text h2).1,
      many_all (R := CText) (P := OkC) (fun _ _ h => (okC_of_text h).1) h3⟩

theorem textThrows_text {t : ThrowsSig} {cs : Str} (h : ThrowsText t cs) : textThrows t = cs ∧ OkThrows t := by
  cases h with
  | typeParam hn => exact ⟨by simp [textThrows], (ident_plain hn).2.2.1⟩
  | cls hc => exact ⟨by rw [textThrows, (okC_of_text hc).2]; rfl, (okC_of_text hc).1⟩

theorem textMethod_text {m : MethodSig} {cs : Str} (h : MethodText m cs) : textMethod m = cs := by
  cases h with
  | @mk tps ps r ts c1 c2 c3 c4 h1 h2 h3 h4 =>
    have e3 : r.elim [0x56] showT = c3 := by
      cases h3 with
      | void => rfl
      | some h => exact (okT_of_text h).2
    simp only [textMethod, showParams_text h1,
      many_show (R := TText) (fun _ _ h => (okT_of_text h).2) h2, e3,
      many_show (R := ThrowsText) (fun _ _ h => (textThrows_text h).1) h4]
    simp

/-- C19. The same for method signatures. Thrown type variables are parsed as they should be. -/
theorem C19_method_exact {m : MethodSig} {cs : Str} (h : MethodText m cs) :
    parseMethod cs = .ok { m with typeParams := cutParams m.typeParams } := by
  have hs := textMethod_text h
  have e : textMethod { m with typeParams := cutParams m.typeParams } = cs := by
    rw [← hs]
    simp only [textMethod, show_cuts]
  rw [← e, parseMethod]
  cases h with
  | mk h1 h2 h3 h4 =>
    rw [methodSig_texts _ (paramsOk_of_text h1)
      (many_all (R := TText) (P := OkT) (fun _ _ h => (okT_of_text h).1) h2) ?_
      (many_all (R := ThrowsText) (P := OkThrows) (fun _ _ h => (textThrows_text h).2) h4), dropRest]
    cases h3 with
    | void => intro r hr; cases hr
    | some h => intro r hr; cases hr; exact (okT_of_text h).1

theorem cut_length (p : TypeParam) : 1 ≤ (cutParam p).length := by
  have := cutParam_ne p
  cases h : cutParam p with
  | nil => exact absurd h this
  | cons => simp

theorem cuts_length (ps : List TypeParam) : ps.length ≤ (cutParams ps).length := by
  induction ps with
  | nil => simp
  | cons p ps ih =>
    have := cut_length p
    rw [cutParams] at ih ⊢
    simp only [List.flatMap_cons, List.length_append, List.length_cons]
    omega

/-- Nothing is cut exactly if each parameter has one bound (or none). -/
theorem cut_none {ps : List TypeParam} (h : ∀ p ∈ ps, p.classBound = none → p.interfaceBounds ≠ []) :
    cutParams ps = ps ↔ SingleBounds ps := by
  induction ps with
  | nil => exact ⟨fun _ p hp => (nomatch hp), fun _ => rfl⟩
  | cons p ps ih =>
    have ih := ih fun q hq => h q (by simp [hq])
    have hp := h p (by simp)
    have hl := cuts_length ps
    have e : cutParams (p :: ps) = cutParam p ++ cutParams ps := by rw [cutParams, List.flatMap_cons]; rfl
    obtain ⟨n, cb, bs⟩ := p
    constructor
    · intro hc
      rw [e] at hc
      have hlen := congrArg List.length hc
      rw [List.length_append, List.length_cons] at hlen
      have h1 := cut_length ⟨n, cb, bs⟩
      have hone : ∃ q, cutParam ⟨n, cb, bs⟩ = [q] := by
        match hq : cutParam ⟨n, cb, bs⟩ with
        | [] => rw [hq] at h1; simp at h1
        | [q] => exact ⟨q, rfl⟩
        | q :: q' :: qs => rw [hq] at hlen; simp at hlen; omega
      obtain ⟨q, hq⟩ := hone
      rw [hq, List.singleton_append, List.cons.injEq] at hc
      have hps := ih.mp hc.2
      intro r hr
      rcases List.mem_cons.mp hr with rfl | hr
      · cases cb with
        | some b =>
          rw [cutParam, List.cons.injEq] at hq
          exact .inl ⟨rfl, List.map_eq_nil_iff.mp hq.2⟩
        | none =>
          cases bs with
          | nil => exact absurd rfl (hp rfl)
          | cons b bs =>
            rw [cutParam, List.cons.injEq] at hq
            exact .inr ⟨rfl, b, by rw [List.map_eq_nil_iff.mp hq.2]⟩
      · exact hps r hr
    · intro hs
      rw [e, ih.mpr fun q hq => hs q (by simp [hq])]
      rcases hs ⟨n, cb, bs⟩ (List.mem_cons_self ..) with ⟨h1, h2⟩ | ⟨h1, b, h2⟩
      · simp only at h1 h2
        subst h2
        cases cb with
        | none => cases h1
        | some b => rfl
      · simp only at h1 h2
        subst h1; subst h2
        rfl

theorem bounded_of_text {ps : List TypeParam} {cs : Str} (h : ParamsText ps cs) :
    ∀ p ∈ ps, p.classBound = none → p.interfaceBounds ≠ [] := by
  cases h with
  | nil => intro p hp; cases hp
  | some _ hm => exact fun p hp => (many_all (fun _ _ h => boundsOk_of_text h) hm p hp).2.2.2.2

/-- C19. A JVMS class signature is parsed as what it means exactly if each type parameter has a
single bound. -/
theorem C19_class_right_iff {c : ClassSig} {cs : Str} (h : ClassText c cs) :
    parseClass cs = .ok c ↔ SingleBounds c.typeParams := by
  rw [C19_class_exact h]
  cases h with
  | mk h1 h2 h3 =>
    simp only [Except.ok.injEq, ClassSig.mk.injEq, and_true]
    exact cut_none (bounded_of_text h1)

/-- C19. The same for method signatures, whatever they throw. -/
theorem C19_method_right_iff {m : MethodSig} {cs : Str} (h : MethodText m cs) :
    parseMethod cs = .ok m ↔ SingleBounds m.typeParams := by
  rw [C19_method_exact h]
  cases h with
  | mk h1 h2 h3 h4 =>
    simp only [Except.ok.injEq, MethodSig.mk.injEq, and_true]
    exact cut_none (bounded_of_text h1)

/-- `<T:LA;:LA;>()V^TT;` -/
def manyBounds : MethodSig :=
  ⟨[⟨[0x54], some (.cls clsA), [.cls clsA]⟩], [], none, [.typeParam [0x54]]⟩

theorem manyBounds_text : MethodText manyBounds
    [0x3C, 0x54, 0x3A, 0x4C, 0x41, 0x3B, 0x3A, 0x4C, 0x41, 0x3B, 0x3E, 0x28, 0x29, 0x56, 0x5E, 0x54, 0x54, 0x3B] :=
  .mk (.some (by simp) (.cons (.cls ident_T (.mk (.cls clsA_text)) (.cons (.mk (.cls clsA_text)) .nil)) .nil))
    .nil .void (.cons (ThrowsText.typeParam ident_T) .nil)

example : parseMethod [0x3C, 0x54, 0x3A, 0x4C, 0x41, 0x3B, 0x3A, 0x4C, 0x41, 0x3B, 0x3E, 0x28, 0x29, 0x56,
      0x5E, 0x54, 0x54, 0x3B] =
    .ok (MethodSig.mk [⟨[0x54], some (.cls clsA), []⟩, ⟨[], some (.cls clsA), []⟩] [] none [.typeParam [0x54]]) :=
  C19_method_exact manyBounds_text

/-! ### Thrown types and type parameters by themselves -/

/-- C19. Every JVMS text of a thrown type is parsed as what it means. -/
theorem C19_throws {t : ThrowsSig} {cs : Str} (h : ThrowsText t cs) : parseThrows cs = .ok t := by
  have := textThrows_text h
  have hp := throwsSig_texts t this.2 []
  rw [List.append_nil, this.1] at hp
  rw [parseThrows, hp, dropRest]

/-- C19. Exactly the thrown classes survive printing and parsing; a thrown type variable never does. -/
theorem C19_throws_iff (t : ThrowsSig) : parseThrows (showThrows t) = .ok t ↔ ∃ c, t = .cls c ∧ OkC c := by
  constructor
  · intro h
    obtain ⟨rest, h⟩ := dropRest_ok h
    cases t with
    | typeParam n =>
      simp only [showThrows, throwsSig, expect, if_true] at h
      split at h <;> cases h
    | cls c =>
      refine ⟨c, rfl, ?_⟩
      obtain ⟨cs, e⟩ := showC_ne c
      rw [showThrows, throwsSig, expect, if_pos rfl, e] at h
      simp only [if_true] at h
      split at h
      · rename_i hc
        cases h
        exact (okC _ _ _ _ hc).1
      · cases h
  · rintro ⟨c, rfl, hc⟩
    have hp := throwsSig_texts (.cls c) hc []
    rw [List.append_nil] at hp
    rw [parseThrows]
    show dropRest (throwsSig (textThrows (.cls c))) = _
    rw [hp, dropRest]

/-- C19. Exactly the type parameters with at most one bound survive printing and parsing. -/
theorem C19_param_iff (p : TypeParam) : parseParam (showParam p) = .ok p ↔
    0x3A ∉ p.name ∧
      ((∃ b, p.classBound = some b ∧ p.interfaceBounds = [] ∧ OkR b) ∨
        (∃ b, p.classBound = none ∧ p.interfaceBounds = [b] ∧ OkR b) ∨
        (p.classBound = none ∧ p.interfaceBounds = [])) := by
  constructor
  · intro h
    obtain ⟨rest, h⟩ := dropRest_ok h
    exact alone_ok h
  · intro h
    rw [parseParam, alone_text h, dropRest]

/-- C19. Of the JVMS texts of a type parameter, exactly those with one bound are parsed as what they
mean. -/
theorem C19_param_right_iff {p : TypeParam} {cs : Str} (h : ParamText p cs) :
    parseParam cs = .ok p ↔ SingleBounds [p] := by
  have hb := boundsOk_of_text h
  rw [← showParam_text h, C19_param_iff]
  constructor
  · rintro ⟨_, ⟨b, h1, h2, _⟩ | ⟨b, h1, h2, _⟩ | ⟨h1, h2⟩⟩ q hq <;> rw [List.mem_singleton.mp hq]
    · exact .inl ⟨by rw [h1]; rfl, h2⟩
    · exact .inr ⟨h1, b, h2⟩
    · exact absurd h2 (hb.2.2.2.2 h1)
  · intro hs
    refine ⟨hb.1, ?_⟩
    rcases hs p (by simp) with ⟨h1, h2⟩ | ⟨h1, b, h2⟩
    · obtain ⟨b, h1⟩ := Option.isSome_iff_exists.mp h1
      exact .inl ⟨b, h1, h2, hb.2.2.1 b h1⟩
    · exact .inr (.inl ⟨b, h1, h2, hb.2.2.2.1 b (by rw [h2]; simp)⟩)

/-- C19. These parsers, too, always answer, and panic only on 256 brackets in a row. -/
theorem C19_parts_total (s : Str) :
    ((∃ t, parseThrows s = .ok t) ∨ parseThrows s = .error .invalid ∨
      (parseThrows s = .error .panic ∧ ∃ a b, s = a ++ List.replicate 256 0x5B ++ b)) ∧
    ((∃ p, parseParam s = .ok p) ∨ parseParam s = .error .invalid ∨
      (parseParam s = .error .panic ∧ ∃ a b, s = a ++ List.replicate 256 0x5B ++ b)) := by
  refine ⟨?_, ?_⟩
  · rw [parseThrows]
    cases hx : throwsSig s with
    | ok x => exact .inl ⟨x.1, rfl⟩
    | error e =>
      rcases throwsSig_err hx with rfl | ⟨rfl, hd⟩
      · exact .inr (.inl rfl)
      · exact .inr (.inr ⟨rfl, hd⟩)
  · rw [parseParam]
    cases hx : typeParam s with
    | ok x => exact .inl ⟨x.1, rfl⟩
    | error e =>
      rcases typeParam_err hx with rfl | ⟨rfl, hd⟩
      · exact .inr (.inl rfl)
      · exact .inr (.inr ⟨rfl, hd⟩)

/-- `^TT;` is parsed as it should be, and lost when it is printed. -/
example : parseThrows [0x5E, 0x54, 0x54, 0x3B] = .ok (.typeParam [0x54]) ∧
    parseThrows (showThrows (.typeParam [0x54])) ≠ .ok (.typeParam [0x54]) :=
  ⟨C19_throws (.typeParam ident_T), fun h => by
    obtain ⟨c, h, _⟩ := (C19_throws_iff _).mp h
    cases h⟩

/-! ## C80 -/

/-- Full statement: what is accepted is printed as it was. -/
def C80_full : Prop :=
  (∀ s r, parseRef s = .ok r → showR r = s) ∧ (∀ s c, parseClass s = .ok c → showClass c = s) ∧
    ∀ s m, parseMethod s = .ok m → showMethod m = s

/-- `LA;!` is accepted, and printed as `LA;`. -/
theorem C80_violated : ¬ C80_full := by
  intro h
  have := h.1 [0x4C, 0x41, 0x3B, 0x21] (.cls clsA) (by rfl)
  have e : showR (.cls clsA) = [0x4C, 0x41, 0x3B] := by rfl
  rw [e] at this
  cases this

/-- `LA<>;` is accepted, and printed as `LA;`. -/
theorem C80_violated_empty : ∃ s r, parseRef s = .ok r ∧ showR r ≠ s ∧ ∀ rest, s ≠ showR r ++ rest := by
  have e : showR (.cls clsA) = [0x4C, 0x41, 0x3B] := by rfl
  refine ⟨[0x4C, 0x41, 0x3C, 0x3E, 0x3B], .cls clsA, by rfl, ?_, ?_⟩
  · rw [e]; simp
  · intro rest; rw [e]; simp

/-- `<>LA;` is accepted as a class signature, and printed as `LA;`. -/
theorem C80_violated_no_params : ∃ s c, parseClass s = .ok c ∧ ∀ rest, s ≠ showClass c ++ rest := by
  refine ⟨[0x3C, 0x3E, 0x4C, 0x41, 0x3B], ⟨[], clsA, []⟩, by rfl, ?_⟩
  intro rest
  rw [show showClass ⟨[], clsA, []⟩ = [0x4C, 0x41, 0x3B] by rfl]
  simp

/-- `()V^TT;`, a JVMS method signature, is printed as `()V^LT;`. -/
theorem C80_violated_throws : ∃ m cs, MethodText m cs ∧ parseMethod cs = .ok m ∧ showMethod m ≠ cs := by
  refine ⟨⟨[], [], none, [.typeParam [0x54]]⟩, _, .mk .nil .nil .void (.cons (.typeParam ident_T) .nil), by rfl, ?_⟩
  rw [show showMethod ⟨[], [], none, [.typeParam [0x54]]⟩ = [0x28, 0x29, 0x56, 0x5E, 0x4C, 0x54, 0x3B] by rfl]
  simp

/-- C80. What holds: text without `<>` is printed as it was, up to what was left over after the
signature. Missing: the rest is dropped without notice, and so is `<>`. -/
theorem C80_ref_partial {s : Str} {r : RefSig} (h : parseRef s = .ok r) (hn : NoEmpty s) :
    ∃ rest, s = showR r ++ rest := by
  obtain ⟨rest, h⟩ := dropRest_ok h
  exact ⟨rest, textR _ _ _ _ h hn⟩

theorem C80_type_partial {s : Str} {t : TypeSig} (h : parseTypeSig s = .ok t) (hn : NoEmpty s) :
    ∃ rest, s = showT t ++ rest := by
  obtain ⟨rest, h⟩ := dropRest_ok h
  exact ⟨rest, textT _ _ _ _ h hn⟩

theorem C80_class_type_partial {s : Str} {c : ClassTySig} (h : parseClassTy s = .ok c) (hn : NoEmpty s) :
    ∃ rest, s = showC c ++ rest := by
  obtain ⟨rest, h⟩ := dropRest_ok h
  exact ⟨rest, textC _ _ _ _ h hn⟩

theorem C80_simple_partial {s : Str} {c : SimpleSig} (h : parseSimple s = .ok c) (hn : NoEmpty s) :
    ∃ rest, s = showS c ++ rest := by
  obtain ⟨rest, h⟩ := dropRest_ok h
  exact ⟨rest, textS _ _ _ _ h hn⟩

theorem C80_class_partial {s : Str} {c : ClassSig} (h : parseClass s = .ok c) (hn : NoEmpty s) :
    ∃ rest, s = showClass c ++ rest := by
  obtain ⟨rest, h⟩ := dropRest_ok h
  exact ⟨rest, class_print h hn⟩

theorem textThrows_cls {ts : List ThrowsSig} (h : ∀ n, ThrowsSig.typeParam n ∉ ts) :
    ts.flatMap textThrows = ts.flatMap showThrows := by
  induction ts with
  | nil => rfl
  | cons t ts ih =>
    rw [List.flatMap_cons, List.flatMap_cons, ih fun n hn => h n (by simp [hn])]
    cases t with
    | typeParam n => exact absurd (by simp) (h n)
    | cls c => rfl

/-- C80. For methods: if no type variable is thrown. -/
theorem C80_method_partial {s : Str} {m : MethodSig} (h : parseMethod s = .ok m) (hn : NoEmpty s)
    (ht : ∀ n, ThrowsSig.typeParam n ∉ m.throws) : ∃ rest, s = showMethod m ++ rest := by
  obtain ⟨rest, h⟩ := dropRest_ok h
  have := method_print h hn
  rw [textMethod, textThrows_cls ht] at this
  exact ⟨rest, this⟩

/-- C80. A type parameter by itself: a colon is added if there is none. -/
theorem C80_param_partial {s : Str} {p : TypeParam} (h : parseParam s = .ok p) (hn : NoEmpty s) :
    (∃ rest, s = showParam p ++ rest) ∨ (0x3A ∉ s ∧ showParam p = s ++ [0x3A]) := by
  obtain ⟨rest, h⟩ := dropRest_ok h
  rcases param_text h hn with h1 | ⟨h1, rfl⟩
  · exact .inl ⟨rest, h1⟩
  · refine .inr ⟨h1, ?_⟩
    have h2 : ∀ c ∈ s, (c ≠ 0x3A) = true := by
      intro c hc
      simp
      rintro rfl
      exact h1 hc
    unfold typeParam at h
    have e1 := List.takeWhile_append_of_pos (p := (· ≠ 0x3A)) (l₂ := []) (by simpa using h2)
    have e2 := List.dropWhile_append_of_pos (p := (· ≠ 0x3A)) (l₂ := []) (by simpa using h2)
    rw [List.append_nil] at e1 e2
    simp only [e1, e2, List.takeWhile_nil, List.dropWhile_nil, List.append_nil, List.drop_nil, interfaceBounds] at h
    cases h
    simp [showParam]

/-- C80. Every JVMS class signature is accepted and printed as it was, also those that are parsed as
something else. -/
theorem C80_class_text {c : ClassSig} {cs : Str} (h : ClassText c cs) :
    ∃ d, parseClass cs = .ok d ∧ showClass d = cs := by
  refine ⟨_, C19_class_exact h, ?_⟩
  rw [← C19_print_class h]
  simp only [showClass, show_cuts]

/-- C80. Every JVMS method signature is accepted, and is printed as it was if no type variable is
thrown. -/
theorem C80_method_text_partial {m : MethodSig} {cs : Str} (h : MethodText m cs) :
    ∃ d, parseMethod cs = .ok d ∧ ((∀ n, ThrowsSig.typeParam n ∉ m.throws) → showMethod d = cs) := by
  refine ⟨_, C19_method_exact h, fun ht => ?_⟩
  rw [← C19_print_method_partial h ht]
  simp only [showMethod, show_cuts]

/-- `<T:LA;:LA;>LA;` is misread, but printed as it was. -/
example : ∃ cs d, ClassText ⟨[⟨[0x54], some (.cls clsA), [.cls clsA]⟩], clsA, []⟩ cs ∧
    parseClass cs = .ok d ∧ d ≠ ⟨[⟨[0x54], some (.cls clsA), [.cls clsA]⟩], clsA, []⟩ ∧ showClass d = cs := by
  have h : ClassText ⟨[⟨[0x54], some (.cls clsA), [.cls clsA]⟩], clsA, []⟩ _ :=
    .mk (.some (by simp) (.cons (.cls ident_T (.mk (.cls clsA_text))
      (.cons (.mk (.cls clsA_text)) .nil)) .nil)) clsA_text .nil
  obtain ⟨d, h1, h2⟩ := C80_class_text h
  refine ⟨_, d, h, h1, ?_, h2⟩
  rintro rfl
  rcases (C19_class_right_iff h).mp h1 _ (List.mem_singleton.mpr rfl) with ⟨_, h3⟩ | ⟨h3, _⟩ <;> cases h3

/-- Text left over after a class type with arguments: `LA<TT;>;x`. -/
example : ∃ r, parseRef [0x4C, 0x41, 0x3C, 0x54, 0x54, 0x3B, 0x3E, 0x3B, 0x78] = .ok r ∧
    NoEmpty [0x4C, 0x41, 0x3C, 0x54, 0x54, 0x3B, 0x3E, 0x3B, 0x78] := by
  refine ⟨.cls (.mk [] (.mk [0x41] [.exact (.typeVar [0x54])]) []), by rfl, ?_⟩
  intro a b h
  have : ∀ (a : Str) (s : Str), s = a ++ 0x3C :: 0x3E :: b →
      (s.zip (s.drop 1)).any (fun p => p.1 == 0x3C && p.2 == 0x3E) = true := by
    intro a
    induction a with
    | nil => rintro s rfl; simp
    | cons x a ih =>
      rintro s rfl
      have := ih _ rfl
      cases a with
      | nil => simp
      | cons y a =>
        simp only [List.cons_append, List.drop_succ_cons, List.drop_zero] at this ⊢
        rw [List.zip_cons_cons, List.any_cons, this, Bool.or_true]
  have := this a _ h
  simp at this

end Verif.Props
