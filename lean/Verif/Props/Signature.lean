import Verif.Lemmas.SignatureTop

/-!
# Generic signatures (C18, C19)

`Spec.RText`, `Spec.ClassText`, `Spec.MethodText` are the grammar of JVMS 4.7.9.1.
-/

namespace Verif.Props
open Verif.Spec Verif.Sig Verif.JType

/-! ## C18 -/

theorem ident_plain {n : Str} (h : IsIdent n) : Plain n ∧ 0x2F ∉ n ∧ 0x3B ∉ n ∧ 0x3A ∉ n ∧
    n.head? ≠ some 0x3E := by
  refine ⟨fun c hc => ?_, fun hc => ?_, fun hc => ?_, fun hc => ?_, fun hc => ?_⟩
  · have := h.2 c hc; omega
  · have := h.2 _ hc; omega
  · have := h.2 _ hc; omega
  · have := h.2 _ hc; omega
  · have := h.2 _ (List.mem_of_mem_head? hc); omega

mutual
theorem okT_of_text {t : TypeSig} {cs : Str} (h : TText t cs) : OkT t ∧ showT t = cs := by
  cases h with
  | ref h => have := okR_of_text h; exact ⟨by rw [OkT]; exact this.1, by rw [showT]; exact this.2⟩
  | _ => exact ⟨by simp [OkT], by rw [showT]⟩
theorem okR_of_text {r : RefSig} {cs : Str} (h : RText r cs) : OkR r ∧ showR r = cs := by
  cases h with
  | typeVar hn => exact ⟨by rw [OkR]; exact (ident_plain hn).2.2.1, by rw [showR]; simp⟩
  | array hd hna ht =>
    have := okT_of_text ht
    exact ⟨by rw [OkR]; exact ⟨hd, hna, this.1⟩, by rw [showR, this.2]⟩
  | cls hc => have := okC_of_text hc; exact ⟨by rw [OkR]; exact this.1, by rw [showR]; exact this.2⟩
theorem okC_of_text {c : ClassTySig} {cs : Str} (h : CText c cs) : OkC c ∧ showC c = cs := by
  cases h with
  | @mk pk n ss c1 c2 hpk hn hss =>
    have h1 := okS_of_text hn
    have h2 := okSs_of_text hss
    refine ⟨?_, ?_⟩
    · cases n with
      | mk n as =>
        rw [OkC]
        refine ⟨fun p hp => ⟨(ident_plain (hpk p hp)).1, (ident_plain (hpk p hp)).2.1⟩, ?_, h1.1, h2.1⟩
        cases hn with
        | plain hi => exact (ident_plain hi).2.1
        | args hi _ _ => exact (ident_plain hi).2.1
    · rw [showC, h1.2, h2.2, List.flatMap_def]
      simp
theorem okSs_of_text {ss : List SimpleSig} {cs : Str} (h : SsText ss cs) : OkSs ss ∧ showSuffix ss = cs := by
  cases h with
  | nil => exact ⟨by simp [OkSs], by rw [showSuffix]⟩
  | cons h1 h2 =>
    have h1 := okS_of_text h1
    have h2 := okSs_of_text h2
    exact ⟨by rw [OkSs]; exact ⟨h1.1, h2.1⟩, by rw [showSuffix, h1.2, h2.2]; simp⟩
theorem okS_of_text {s : SimpleSig} {cs : Str} (h : SText s cs) : OkS s ∧ showS s = cs := by
  cases h with
  | plain hi => exact ⟨by rw [OkS]; exact ⟨(ident_plain hi).1, by simp [OkAs]⟩, by simp [showS]⟩
  | @args n as cs hi hne has =>
    have h1 := okAs_of_text has
    refine ⟨by rw [OkS]; exact ⟨(ident_plain hi).1, h1.1⟩, ?_⟩
    rw [← h1.2]
    cases as with
    | nil => exact absurd rfl hne
    | cons a as => rw [showS, showArgs]; simp
theorem okAs_of_text {as : List TypeArg} {cs : Str} (h : AsText as cs) : OkAs as ∧ showArgs as = cs := by
  cases h with
  | nil => exact ⟨by simp [OkAs], by rw [showArgs]⟩
  | cons h1 h2 =>
    have h1 := okA_of_text h1
    have h2 := okAs_of_text h2
    exact ⟨by rw [OkAs]; exact ⟨h1.1, h2.1⟩, by rw [showArgs, h1.2, h2.2]⟩
theorem okA_of_text {a : TypeArg} {cs : Str} (h : AText a cs) : OkA a ∧ showA a = cs := by
  cases h with
  | any => exact ⟨by simp [OkA], by rw [showA]⟩
  | ext h => have := okR_of_text h; exact ⟨by rw [OkA]; exact this.1, by rw [showA, this.2]; rfl⟩
  | sup h => have := okR_of_text h; exact ⟨by rw [OkA]; exact this.1, by rw [showA, this.2]; rfl⟩
  | exact h => have := okR_of_text h; exact ⟨by rw [OkA]; exact this.1, by rw [showA, this.2]⟩
end

theorem parseRef_show (r : RefSig) (h : OkR r) : parseRef (showR r) = .ok r := by
  have := rtR r h (enough (showR r)) [] (by rw [enough]; omega)
  rw [List.append_nil] at this
  rw [parseRef, this, dropRest]

/-- `Display` prints the JVMS text. -/
theorem C18_print {r : RefSig} {cs : Str} (h : RText r cs) : showR r = cs := (okR_of_text h).2

/-- Parsing the JVMS text of a signature gives that signature. -/
theorem C18_parse {r : RefSig} {cs : Str} (h : RText r cs) : parseRef cs = .ok r := by
  have := okR_of_text h
  rw [← this.2]
  exact parseRef_show r this.1

/-- Exactly the signatures whose names avoid the delimiters after them (and whose arrays have
dimension 1..=255 over a non-array) survive printing and parsing. -/
theorem C18_round_trip_iff (r : RefSig) : parseRef (showR r) = .ok r ↔ OkR r := by
  constructor
  · intro h
    rw [parseRef] at h
    cases hx : refTypeSig (enough (showR r)) (showR r) with
    | error e => rw [hx, dropRest] at h; cases h
    | ok x =>
      obtain ⟨r', rest⟩ := x
      rw [hx, dropRest] at h
      cases h
      exact (okR _ _ _ _ hx).1
  · exact parseRef_show r

/-- Whatever was parsed survives printing and parsing again. -/
theorem C18_stable (s : Str) (r : RefSig) (h : parseRef s = .ok r) : parseRef (showR r) = .ok r := by
  rw [C18_round_trip_iff]
  rw [parseRef] at h
  cases hx : refTypeSig (enough s) s with
  | error e => rw [hx, dropRest] at h; cases h
  | ok x =>
    obtain ⟨r', rest⟩ := x
    rw [hx, dropRest] at h
    cases h
    exact (okR _ _ _ _ hx).1

/-- The same for class type signatures and type signatures on their own. -/
theorem C18_class_type {c : ClassTySig} {cs : Str} (h : CText c cs) :
    showC c = cs ∧ parseClassTy cs = .ok c := by
  have := okC_of_text h
  refine ⟨this.2, ?_⟩
  rw [← this.2]
  have hp := rtC c this.1 (enough (showC c)) [] (by rw [enough]; omega)
  rw [List.append_nil] at hp
  rw [parseClassTy, hp, dropRest]

theorem C18_type {t : TypeSig} {cs : Str} (h : TText t cs) :
    showT t = cs ∧ parseTypeSig cs = .ok t := by
  have := okT_of_text h
  refine ⟨this.2, ?_⟩
  rw [← this.2]
  have hp := rtT t this.1 (enough (showT t)) [] (by rw [enough]; omega)
  rw [List.append_nil] at hp
  rw [parseTypeSig, hp, dropRest]

/-- Parsing always ends with a signature or a rejection, except for an overflow on 256 brackets in a
row. -/
theorem C18_total (s : Str) : (∃ r, parseRef s = .ok r) ∨ parseRef s = .error .invalid ∨
    (parseRef s = .error .panic ∧ ∃ a b, s = a ++ List.replicate 256 0x5B ++ b) := by
  rw [parseRef]
  cases hx : refTypeSig (enough s) s with
  | ok x => exact .inl ⟨x.1, rfl⟩
  | error e =>
    rcases errR' hx with rfl | ⟨rfl, hd⟩
    · exact .inr (.inl rfl)
    · exact .inr (.inr ⟨rfl, hd⟩)

/-- `Ljava/Map<[TK;*+LX;>.E<-TV;>;` -/
def sampleRef : RefSig :=
  .cls (.mk [[0x6A, 0x61]] (.mk [0x4D] [.exact (.array 2 (.ref (.typeVar [0x4B]))), .any,
    .ext (.cls (.mk [] (.mk [0x58] []) []))]) [.mk [0x45] [.sup (.typeVar [0x56])]])

example : ∃ cs, RText sampleRef cs ∧ parseRef cs = .ok sampleRef := by
  have id1 : ∀ c : Nat, 0x41 ≤ c → c ≤ 0x5A → IsIdent [c] := by
    intro c h1 h2
    refine ⟨by simp, ?_⟩
    intro d hd
    simp at hd
    omega
  have h : RText sampleRef _ := .cls (.mk (by
      intro p hp; simp at hp; subst hp; exact ⟨by simp, by decide⟩)
    (.args (id1 _ (by omega) (by omega)) (by simp)
      (.cons (.exact (.array (by decide) (by simp) (.ref (.typeVar (id1 _ (by omega) (by omega))))))
        (.cons .any (.cons (.ext (.cls (.mk (by simp) (.plain (id1 _ (by omega) (by omega))) .nil)))
          .nil))))
    (.cons (.args (id1 _ (by omega) (by omega)) (by simp)
      (.cons (.sup (.typeVar (id1 _ (by omega) (by omega)))) .nil)) .nil))
  exact ⟨_, h, C18_parse h⟩

/-! ## C19 -/

/-- Full statement. -/
def C19_full : Prop :=
  (∀ c cs, ClassText c cs → parseClass (showClass c) = .ok c) ∧
    ∀ m cs, MethodText m cs → parseMethod (showMethod m) = .ok m

theorem ident_T : IsIdent [0x54] := ⟨by simp, by decide⟩
theorem ident_A : IsIdent [0x41] := ⟨by simp, by decide⟩

def clsA : ClassTySig := .mk [] (.mk [0x41] []) []
theorem clsA_text : CText clsA [0x4C, 0x41, 0x3B] :=
  .mk (pk := []) (by simp) (.plain ident_A) .nil

/-- `()V^TT;` is printed as `()V^LT;`. -/
theorem C19_violated : ¬ C19_full := by
  intro h
  have hm : MethodText ⟨[], [], none, [.typeParam [0x54]]⟩ _ :=
    .mk .nil .nil .void (.cons (.typeParam ident_T) .nil)
  have := h.2 _ _ hm
  have e : parseMethod (showMethod ⟨[], [], none, [.typeParam [0x54]]⟩) =
      .ok ⟨[], [], none, [.cls (.mk [] (.mk [0x54] []) [])]⟩ := by rfl
  rw [e] at this
  injection this with this
  simp at this

/-- `<T:LA;:LA;>LA;`: the interface bound becomes a second, nameless type parameter. -/
theorem C19_violated_class_and_interface :
    ∃ c cs, ClassText c cs ∧ parseClass (showClass c) ≠ .ok c := by
  refine ⟨⟨[⟨[0x54], some (.cls clsA), [.cls clsA]⟩], clsA, []⟩, _,
    .mk (.some (by simp) (.cons (.cls ident_T (.mk (.cls clsA_text))
      (.cons (.mk (.cls clsA_text)) .nil)) .nil)) clsA_text .nil, ?_⟩
  have e : parseClass (showClass ⟨[⟨[0x54], some (.cls clsA), [.cls clsA]⟩], clsA, []⟩) =
    .ok ⟨[⟨[0x54], some (.cls clsA), []⟩, ⟨[], some (.cls clsA), []⟩], clsA, []⟩ := by rfl
  rw [e]
  intro h
  injection h with h
  simp at h

/-- `<T::LA;:LA;>LA;`: the second interface bound is lost to a nameless parameter. -/
theorem C19_violated_two_interfaces :
    ∃ c cs, ClassText c cs ∧ parseClass (showClass c) ≠ .ok c := by
  refine ⟨⟨[⟨[0x54], none, [.cls clsA, .cls clsA]⟩], clsA, []⟩, _,
    .mk (.some (by simp) (.cons (.itf ident_T (by simp) (.cons (.mk (.cls clsA_text))
      (.cons (.mk (.cls clsA_text)) .nil))) .nil)) clsA_text .nil, ?_⟩
  have e : parseClass (showClass ⟨[⟨[0x54], none, [.cls clsA, .cls clsA]⟩], clsA, []⟩) =
    .ok ⟨[⟨[0x54], none, [.cls clsA]⟩, ⟨[], some (.cls clsA), []⟩], clsA, []⟩ := by rfl
  rw [e]
  intro h
  injection h with h
  simp at h

theorem many_show {α : Type} {R : α → Str → Prop} {f : α → Str} (h : ∀ a cs, R a cs → f a = cs)
    {as : List α} {cs : Str} (hm : Many R as cs) : as.flatMap f = cs := by
  induction hm with
  | nil => rfl
  | cons h1 _ ih => rw [List.flatMap_cons, h _ _ h1, ih]

theorem many_all {α : Type} {R : α → Str → Prop} {P : α → Prop} (h : ∀ a cs, R a cs → P a)
    {as : List α} {cs : Str} (hm : Many R as cs) : ∀ a ∈ as, P a := by
  induction hm with
  | nil => simp
  | cons h1 _ ih =>
    intro a ha
    rcases List.mem_cons.mp ha with rfl | ha
    · exact h _ _ h1
    · exact ih a ha

theorem showParam_text {p : TypeParam} {cs : Str} (h : ParamText p cs) : showParam p = cs := by
  have hb : ∀ b cs, BoundText b cs → 0x3A :: showR b = cs := by
    intro b cs hb; cases hb with | mk h => rw [C18_print h]; rfl
  cases h with
  | cls hn h1 h2 =>
    cases h1 with
    | mk hr => simp only [showParam, Option.elim, C18_print hr, many_show hb h2]; simp
  | itf hn hne h2 => simp only [showParam, Option.elim, many_show hb h2]; simp

theorem showParams_text {ps : List TypeParam} {cs : Str} (h : ParamsText ps cs) : showParams ps = cs := by
  cases h with
  | nil => rfl
  | some hne hm =>
    have := many_show (R := ParamText) (fun _ _ h => showParam_text h) hm
    cases ps with
    | nil => exact absurd rfl hne
    | cons p ps => rw [← this]; simp [showParams]

/-- Class signatures are printed as JVMS prescribes; only parsing is at fault. -/
theorem C19_print_class {c : ClassSig} {cs : Str} (h : ClassText c cs) : showClass c = cs := by
  cases h with
  | mk h1 h2 h3 =>
    rw [showClass]
    simp only [showParams_text h1, (okC_of_text h2).2, many_show (R := CText) (fun _ _ h => (okC_of_text h).2) h3]
    simp

/-- Method signatures without thrown type variables are printed as JVMS prescribes. -/
theorem C19_print_method_partial {m : MethodSig} {cs : Str} (h : MethodText m cs)
    (ht : ∀ n, ThrowsSig.typeParam n ∉ m.throws) : showMethod m = cs := by
  cases h with
  | @mk tps ps r ts c1 c2 c3 c4 h1 h2 h3 h4 =>
    have e4 : ts.flatMap showThrows = c4 := by
      simp only at ht
      clear h1 h2 h3
      induction h4 with
      | nil => rfl
      | cons ha _ ih =>
        rw [List.flatMap_cons, ih (fun n hn => ht n (by simp [hn]))]
        cases ha with
        | @typeParam n => exact absurd (by simp) (ht n)
        | cls hc => rw [showThrows, (okC_of_text hc).2]; rfl
    have e3 : r.elim [0x56] showT = c3 := by
      cases h3 with
      | void => rfl
      | some h => exact (okT_of_text h).2
    simp only [showMethod, showParams_text h1, many_show (R := TText) (fun _ _ h => (okT_of_text h).2) h2, e3, e4]
    simp

theorem okParams_of_text {ps : List TypeParam} {cs : Str} (h : ParamsText ps cs)
    (hs : SingleBounds ps) : OkParams ps := by
  have key : ∀ {ps : List TypeParam} {cs : Str}, Many ParamText ps cs → SingleBounds ps →
      OkParams ps := by
    intro ps cs hm
    induction hm with
    | nil => intro _; trivial
    | @cons p ps c1 c2 hp _ ih =>
      intro hs
      have h1 := hs p (by simp)
      refine ⟨?_, ?_, ih (fun q hq => hs q (by simp [hq]))⟩
      · cases hp with
        | @cls n b bs _ _ hn hb hbs =>
          have hb' : OkR b := by cases hb with | mk hr => exact (okR_of_text hr).1
          rcases h1 with ⟨_, e⟩ | ⟨e, _⟩
          · exact ⟨(ident_plain hn).2.2.2.1, (ident_plain hn).2.2.2.2, .inl ⟨b, rfl, e, hb'⟩⟩
          · cases e
        | @itf n bs _ hn hne hbs =>
          rcases h1 with ⟨e, _⟩ | ⟨_, b, e⟩
          · cases e
          · simp only at e
            subst e
            have hb' : OkR b := many_all (P := OkR)
              (fun _ _ hb => by cases hb with | mk hr => exact (okR_of_text hr).1) hbs b (by simp)
            exact ⟨(ident_plain hn).2.2.2.1, (ident_plain hn).2.2.2.2, .inr (.inl ⟨b, rfl, rfl, hb'⟩)⟩
      · intro e1 e2
        rcases h1 with ⟨h, _⟩ | ⟨_, b, h⟩
        · rw [e1] at h; cases h
        · rw [e2] at h; cases h
  cases h with
  | nil => trivial
  | some _ hm => exact key hm hs

/-- What holds for class signatures: every JVMS signature whose type parameters have one bound each.
Missing: a class bound with interface bounds, several interface bounds. -/
theorem C19_class_partial {c : ClassSig} {cs : Str} (h : ClassText c cs)
    (hs : SingleBounds c.typeParams) : parseClass cs = .ok c := by
  rw [← C19_print_class h, parseClass, classSig_text, dropRest]
  cases h with
  | mk h1 h2 h3 =>
    exact ⟨okParams_of_text h1 hs, (okC_of_text h2).1, many_all (R := CText) (P := OkC) (fun _ _ h => (okC_of_text h).1) h3⟩

/-- What holds for method signatures. Missing: as for classes, and thrown type variables. -/
theorem C19_method_partial {m : MethodSig} {cs : Str} (h : MethodText m cs)
    (hs : SingleBounds m.typeParams) (ht : ∀ n, ThrowsSig.typeParam n ∉ m.throws) :
    parseMethod cs = .ok m := by
  rw [← C19_print_method_partial h ht, parseMethod, methodSig_text, dropRest]
  cases h with
  | mk h1 h2 h3 h4 =>
    refine ⟨okParams_of_text h1 hs, many_all (R := TText) (P := OkT) (fun _ _ h => (okT_of_text h).1) h2, ?_, ?_⟩
    · cases h3 with
      | void => intro r hr; cases hr
      | some h => intro r hr; cases hr; exact (okT_of_text h).1
    · intro t htm
      cases t with
      | typeParam n => exact absurd htm (ht n)
      | cls c =>
        refine ⟨c, rfl, ?_⟩
        have := many_all (P := fun t => ∀ c, t = .cls c → OkC c) (fun t _ h => by
          cases h with
          | typeParam => intro c e; cases e
          | cls hc => intro c e; cases e; exact (okC_of_text hc).1) h4 _ htm
        exact this c rfl

/-- Exactly which class signatures survive printing and parsing. -/
theorem C19_class_iff (c : ClassSig) : parseClass (showClass c) = .ok c ↔ OkClass c := by
  constructor
  · intro h
    rw [parseClass] at h
    cases hx : classSig (showClass c) with
    | error e => rw [hx, dropRest] at h; cases h
    | ok x =>
      obtain ⟨r', rest⟩ := x
      rw [hx, dropRest] at h
      cases h
      exact classSig_ok hx
  · intro h
    rw [parseClass, classSig_text c h, dropRest]

/-- Whatever class signature was parsed survives printing and parsing again. -/
theorem C19_class_stable (s : Str) (c : ClassSig) (h : parseClass s = .ok c) :
    parseClass (showClass c) = .ok c := by
  rw [C19_class_iff]
  rw [parseClass] at h
  cases hx : classSig s with
  | error e => rw [hx, dropRest] at h; cases h
  | ok x =>
    obtain ⟨r', rest⟩ := x
    rw [hx, dropRest] at h
    cases h
    exact classSig_ok hx

/-- Both parsers always answer; they panic only on 256 brackets in a row. -/
theorem C19_total (s : Str) :
    ((∃ c, parseClass s = .ok c) ∨ parseClass s = .error .invalid ∨
      (parseClass s = .error .panic ∧ ∃ a b, s = a ++ List.replicate 256 0x5B ++ b)) ∧
    ((∃ m, parseMethod s = .ok m) ∨ parseMethod s = .error .invalid ∨
      (parseMethod s = .error .panic ∧ ∃ a b, s = a ++ List.replicate 256 0x5B ++ b)) := by
  refine ⟨?_, ?_⟩
  · rw [parseClass]
    cases hx : classSig s with
    | ok x => exact .inl ⟨x.1, rfl⟩
    | error e =>
      rcases classSig_err hx with rfl | ⟨rfl, hd⟩
      · exact .inr (.inl rfl)
      · exact .inr (.inr ⟨rfl, hd⟩)
  · rw [parseMethod]
    cases hx : methodSig s with
    | ok x => exact .inl ⟨x.1, rfl⟩
    | error e =>
      rcases methodSig_err hx with rfl | ⟨rfl, hd⟩
      · exact .inr (.inl rfl)
      · exact .inr (.inr ⟨rfl, hd⟩)

/-- `<T::LA;>LA;LA;` -/
example : ∃ cs, ClassText ⟨[⟨[0x54], none, [.cls clsA]⟩], clsA, [clsA]⟩ cs ∧
    parseClass cs = .ok ⟨[⟨[0x54], none, [.cls clsA]⟩], clsA, [clsA]⟩ := by
  have h : ClassText ⟨[⟨[0x54], none, [.cls clsA]⟩], clsA, [clsA]⟩ _ :=
    .mk (.some (by simp) (.cons (.itf ident_T (by simp) (.cons (.mk (.cls clsA_text)) .nil)) .nil))
      clsA_text (.cons clsA_text .nil)
  exact ⟨_, h, C19_class_partial h (by intro p hp; simp at hp; subst hp; exact .inr ⟨rfl, _, rfl⟩)⟩

/-- `<T:LA;>(ITT;)LA;^LA;` -/
example : ∃ m cs, MethodText m cs ∧ m.typeParams ≠ [] ∧ m.throws ≠ [] ∧ parseMethod cs = .ok m := by
  have h : MethodText ⟨[⟨[0x54], some (.cls clsA), []⟩], [.int, .ref (.typeVar [0x54])],
      some (.ref (.cls clsA)), [.cls clsA]⟩ _ :=
    .mk (.some (by simp) (.cons (.cls ident_T (.mk (.cls clsA_text)) .nil) .nil))
      (.cons .int (.cons (.ref (.typeVar ident_T)) .nil)) (.some (.ref (.cls clsA_text)))
      (.cons (.cls clsA_text) .nil)
  exact ⟨_, _, h, by simp, by simp, C19_method_partial h
    (by intro p hp; simp at hp; subst hp; exact .inl ⟨rfl, rfl⟩) (by simp)⟩

end Verif.Props
