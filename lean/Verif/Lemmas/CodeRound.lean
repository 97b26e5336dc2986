import Verif.Lemmas.CodeWrite

/-!
# Written bodies are read as they were
-/

namespace Verif
open Spec Fmt Sig

theorem pairwise_eq {α : Type} {R : α → α → Prop} {xs : List α} (h : xs.Pairwise fun a b => ¬ R a b)
    (hs : ∀ a b, R a b → R b a) : ∀ a ∈ xs, ∀ b ∈ xs, R a b → a = b := by
  induction h with
  | nil => simp
  | cons h1 _ ih =>
    intro a ha b hb hr
    rcases List.mem_cons.mp ha with rfl | ha' <;> rcases List.mem_cons.mp hb with rfl | hb'
    · rfl
    · exact absurd hr (h1 b hb')
    · exact absurd (hs _ _ hr) (h1 a ha')
    · exact ih a ha' b hb' hr

theorem getLast_eq {α : Type} {L : List α} {o : Option α} (h1 : ∀ a ∈ L, some a = o) (h2 : o.isSome → L ≠ []) :
    L.getLast? = o := by
  rcases h : L.getLast? with _ | a
  · have : L = [] := by simpa using h
    cases o with
    | none => rfl
    | some _ => exact absurd this (h2 rfl)
  · exact h1 a (List.mem_of_getLast? h)

theorem nodup_idx {α : Type} {L : List α} (h : L.Nodup) {i j : Nat} {a : α} (hi : L[i]? = some a)
    (hj : L[j]? = some a) : i = j := by
  obtain ⟨h1, h2⟩ := List.getElem?_eq_some_iff.mp hi
  obtain ⟨h3, h4⟩ := List.getElem?_eq_some_iff.mp hj
  exact (List.getElem_inj h).mp (h2.trans h4.symm)

theorem nodup_filterMap {α β : Type} {f : α → Option β} (hf : ∀ a a' b, f a = some b → f a' = some b → a = a')
    {L : List α} (h : L.Nodup) : (L.filterMap f).Nodup := by
  induction L with
  | nil => exact List.nodup_nil
  | cons a L ih =>
    obtain ⟨h1, h2⟩ := List.nodup_cons.mp h
    rcases e : f a with _ | b
    · rw [List.filterMap_cons_none e]
      exact ih h2
    · rw [List.filterMap_cons_some e, List.nodup_cons]
      refine ⟨fun hb => ?_, ih h2⟩
      obtain ⟨a', h3, h4⟩ := List.mem_filterMap.mp hb
      cases hf _ _ _ e h4
      exact h1 h3

theorem resolveI_marker (T : List Bsm) (i : Insn) :
    (∀ l, resolveI T i = .label l ↔ i = .label l) ∧ ∀ n, resolveI T i = .lineNumber n ↔ i = .lineNumber n := by
  constructor <;> intro l <;> cases i <;> simp [resolveI]

theorem placed_resolve (T : List Bsm) (is : List Insn) : placed (is.map (resolveI T)) = placed is := by
  unfold placed
  rw [List.filterMap_map]
  congr 1
  funext i
  cases i <;> rfl

theorem handler_at {a : Assembled} {catches : List Catch} (hl : catches.length < 65536) {W : World} {k : Catch}
    {n : Nat} (h : ((Code.env a catches).ctx W).handler k = some n) : catches[n]? = some k := by
  rcases hn : catches.findIdx? (fun c => c == k) with _ | m
  · simp [WEnv.ctx, Code.env, hn] at h
  · obtain ⟨h1, h2, _⟩ := List.findIdx?_eq_some_iff_getElem.mp hn
    have : m % 65536 = n := by simpa [WEnv.ctx, Code.env, hn] using h
    rw [Nat.mod_eq_of_lt (by omega)] at this
    subst this
    rw [List.getElem?_eq_getElem h1]
    simpa using h2

theorem label_at {a : Assembled} {is : List Insn} {cp cp1 : VecCp} (h1 : writeCode is cp = .ok (a, cp1))
    {catches : List Catch} {W : World} {l : Label} {p : Nat}
    (h : ((Code.env a catches).ctx W).pos l = some p) : .label l ∈ is ∧ p < 65536 := by
  simp only [WEnv.ctx, Code.env] at h
  split at h
  · rename_i o ho
    cases h
    exact ⟨writeCode_label h1 ho, UInt16.toNat_lt _⟩
  · cases h

/-- What lowered attributes say, for a list. -/
theorem lowers_all {c : Ctx} {xs : List CodeAttribute} {lss : List (List CodeAttr)} (h : Matched (Lowers c) xs lss)
    (hr : ∀ x ∈ xs, AttrReadable x) :
    (∀ a ∈ lss.flatten, lineEntries a = []) ∧ (∀ a ∈ lss.flatten, a.Readable) ∧
    (∀ f, lss.flatten.flatMap (keptAttr f) = xs.flatMap (renCodeAttr f)) ∧
    (∀ e ∈ lss.flatten.flatMap varInfos, ∃ v ∈ xs.flatMap attrVars, InfoOf c v e) ∧
    (∀ v ∈ xs.flatMap attrVars, ∀ d, v.descriptor = some d →
      ∃ e ∈ lss.flatten.flatMap varInfos, InfoOf c v e ∧ e.descriptor = some d) ∧
    (∀ v ∈ xs.flatMap attrVars, ∀ g, v.signature = some g →
      ∃ e ∈ lss.flatten.flatMap varInfos, InfoOf c v e ∧ e.signature = some g) ∧
    (∀ l ∈ lss.flatten.flatMap attrLabels, l ∈ xs.flatMap codeAttrLabels) := by
  induction h with
  | nil => simp
  | @cons x ls xs lss h1 _ ih =>
    obtain ⟨i1, i2, i3, i4, i5, i6, i7⟩ := ih fun y hy => hr y (by simp [hy])
    have j := fun f => lowers_facts h1 (hr x (by simp)) f
    obtain ⟨j1, j2, -, j4, j5, j6, j7⟩ := j id
    simp only [List.flatten_cons, List.flatMap_append, List.flatMap_cons, List.mem_append]
    refine ⟨?_, ?_, fun f => ?_, ?_, ?_, ?_, ?_⟩
    · rintro a (h | h)
      · exact j1 a h
      · exact i1 a h
    · rintro a (h | h)
      · exact j2 a h
      · exact i2 a h
    · rw [(j f).2.2.1, i3]
    · rintro a (h | h)
      · obtain ⟨v, hv, h⟩ := j4 a h
        exact ⟨v, .inl hv, h⟩
      · obtain ⟨v, hv, h⟩ := i4 a h
        exact ⟨v, .inr hv, h⟩
    · rintro a (h | h) d hd
      · obtain ⟨v, hv, h⟩ := j5 a h d hd
        exact ⟨v, .inl hv, h⟩
      · obtain ⟨v, hv, h⟩ := i5 a h d hd
        exact ⟨v, .inr hv, h⟩
    · rintro a (h | h) d hd
      · obtain ⟨v, hv, h⟩ := j6 a h d hd
        exact ⟨v, .inl hv, h⟩
      · obtain ⟨v, hv, h⟩ := i6 a h d hd
        exact ⟨v, .inr hv, h⟩
    · rintro a (h | h)
      · exact .inl (j7 a h)
      · exact .inr (i7 a h)

theorem InfoOf.start {c : Ctx} {v : LocalVariable} {e : VarInfo} (h : InfoOf c v e) : c.pos v.start = some e.start :=
  h.1

theorem InfoOf.stop {c : Ctx} {v : LocalVariable} {e : VarInfo} (h : InfoOf c v e) : c.pos v.stop = some e.stop :=
  h.2.1

/-- The labels of attributes have positions. -/
theorem attr_labels {c : Ctx} {xs : List CodeAttribute} {lss : List (List CodeAttr)} (h : Matched (Lowers c) xs lss)
    (hr : ∀ x ∈ xs, AttrReadable x) {bs : Bytes} (hb : Fmt.table2 codeAttr c lss.flatten bs) :
    ∀ l ∈ xs.flatMap codeAttrLabels, ∃ q, c.pos l = some q ∧
      (l ∈ lss.flatten.flatMap attrLabels ∨ ∃ e ∈ lss.flatten.flatMap varInfos, q = e.start ∨ q = e.stop) := by
  intro l hl
  obtain ⟨x, hx, hl⟩ := List.mem_flatMap.mp hl
  obtain ⟨ls, hls, hlow⟩ := h.left x hx
  have anns : ∀ {as : List (TypeAnnotation CodeTarget)} {b : Bytes},
      Fmt.table2 (typeAnnotation codeTarget) c as b →
      l ∈ as.flatMap (fun a => targetLabels a.target) → ∃ q, c.pos l = some q := by
    intro as b hb hl
    obtain ⟨a, ha, hl⟩ := List.mem_flatMap.mp hl
    obtain ⟨_, hb⟩ := Fmt.table2_mem hb a ha
    exact annotation_labels hb l hl
  cases hlow with
  | @visible as =>
    have hm : CodeAttr.visibleType as ∈ lss.flatten := List.mem_flatten.mpr ⟨_, hls, by simp⟩
    obtain ⟨b, n, b', hi, hb, _⟩ := Fmt.table2_mem hb _ hm
    obtain ⟨q, hq⟩ := anns hb hl
    exact ⟨q, hq, .inl (List.mem_flatMap.mpr ⟨_, hm, hl⟩)⟩
  | @invisible as =>
    have hm : CodeAttr.invisibleType as ∈ lss.flatten := List.mem_flatten.mpr ⟨_, hls, by simp⟩
    obtain ⟨b, n, b', hi, hb, _⟩ := Fmt.table2_mem hb _ hm
    obtain ⟨q, hq⟩ := anns hb hl
    exact ⟨q, hq, .inl (List.mem_flatMap.mpr ⟨_, hm, hl⟩)⟩
  | raw => cases hl
  | @locals vs es ts m1 m2 hne =>
    obtain ⟨v, hv, hl⟩ := List.mem_flatMap.mp hl
    have hv' : v ∈ xs.flatMap attrVars := List.mem_flatMap.mpr ⟨_, hx, hv⟩
    obtain ⟨-, -, -, -, f5, f6, -⟩ := lowers_all h hr
    have : ∃ e ∈ lss.flatten.flatMap varInfos, InfoOf c v e := by
      rcases hr _ hx v hv with h1 | h1
      · obtain ⟨d, hd⟩ := Option.isSome_iff_exists.mp h1
        obtain ⟨e, he, h2, _⟩ := f5 v hv' d hd
        exact ⟨e, he, h2⟩
      · obtain ⟨d, hd⟩ := Option.isSome_iff_exists.mp h1
        obtain ⟨e, he, h2, _⟩ := f6 v hv' d hd
        exact ⟨e, he, h2⟩
    obtain ⟨e, he, hi⟩ := this
    simp only [varLabels, List.mem_cons, List.not_mem_nil, or_false] at hl
    rcases hl with rfl | rfl
    · exact ⟨_, hi.start, .inr ⟨e, he, .inl rfl⟩⟩
    · exact ⟨_, hi.stop, .inr ⟨e, he, .inr rfl⟩⟩

/-- A body that is written is read, and what is read says what the body says. -/
theorem codeBody_describes (ord : Nat → List LocalVariable → List LocalVariable) (hord : ∀ n l, (ord n l).Perm l)
    {c : Ctx} (hT : c.bsm.length ≤ 65536) {x : Code} (hi : ∀ i ∈ x.code, Readable i) (ha : ∀ a ∈ x.attrs, AttrReadable a)
    (hpos : ∀ l p, c.pos l = some p → .label l ∈ x.code) (hsmall : ∀ l p, c.pos l = some p → p < 65536)
    (hhand : ∀ k n, c.handler k = some n → x.catches[n]? = some k) {b bs : Bytes} {lss : List (List CodeAttr)}
    (m : Matched (Lowers c) x.attrs lss) (h : bodyWith b c ⟨x.maxStack, x.maxLocals, x.code, x.catches, lss.flatten⟩ bs)
    {pis : List (Nat × Insn)} (hp : Positioned c 0 x.code b pis) (cs) (st) (rest) :
    ∃ y q ν ρ, Code.read ord ⟨c.pool, cs⟩ st (bs ++ rest) = .ok (y, ⟨q, st.labels⟩, rest) ∧
      Grown c.bsm st.pending q ∧
      Describes c b.length ⟨x.maxStack, x.maxLocals, x.code, x.catches, lss.flatten⟩ pis ν ρ y := by
  obtain ⟨f1, f2, f3, f4, f5, f6, f7⟩ := lowers_all m ha
  have hin : ∀ l p, c.pos l = some p → p ∈ pis.map Prod.fst ++ [b.length] := by
    intro l p h
    obtain ⟨q, h1, h2⟩ := hp.label (hpos l p h)
    cases h.symm.trans h1
    rwa [Nat.zero_add] at h2
  have hlines : lss.flatten.flatMap lineEntries = [] := List.flatMap_eq_nil_iff.mpr f1
  have ok : Body.Ok c b.length ⟨x.maxStack, x.maxLocals, x.code, x.catches, lss.flatten⟩ pis := by
    refine ⟨hi, hpos, ?_, ?_, ?_, f2⟩
    · simp only [hlines]
      simp
    · intro e he
      obtain ⟨v, _, hi⟩ := f4 e he
      exact ⟨hin _ _ hi.start, hin _ _ hi.stop, hsmall _ _ hi.stop⟩
    · exact fun k _ n hn => hhand k n hn
  exact read_body ord hord hT h hp ok cs st rest

/-- A body that is written is read as it was. -/
theorem codeBody_read (ord : Nat → List LocalVariable → List LocalVariable) (hord : ∀ n l, (ord n l).Perm l)
    {c : Ctx} (hT : c.bsm.length ≤ 65536) {x : Code} (hx : CodeReadable x)
    (hpos : ∀ l p, c.pos l = some p → .label l ∈ x.code) (hsmall : ∀ l p, c.pos l = some p → p < 65536)
    (hhand : ∀ k n, c.handler k = some n → x.catches[n]? = some k) {b bs : Bytes}
    (h : codeBody b c x bs) (cs) (st) (rest) :
    ∃ y q ρ, Code.read ord ⟨c.pool, cs⟩ st (bs ++ rest) = .ok (y, ⟨q, st.labels⟩, rest) ∧
      Grown c.bsm st.pending q ∧ SameBody c.bsm x y ρ := by
  obtain ⟨lss, m, h⟩ := h
  obtain ⟨f1, f2, f3, f4, f5, f6, f7⟩ := lowers_all m hx.attrs
  obtain ⟨hs, as, hlay, hlen, hhs, has, _⟩ := id h
  obtain ⟨pis, hp⟩ := layout_positioned hlay
  simp only at hp hhs has hlay
  have hnd : (pis.map Prod.fst ++ [b.length]).Nodup := by
    have := hp.bounds.2
    rwa [Nat.zero_add] at this
  have hlines : lss.flatten.flatMap lineEntries = [] := List.flatMap_eq_nil_iff.mpr f1
  obtain ⟨y, q, ν, ρ, hrd, hq, D⟩ := codeBody_describes ord hord hT hx.insns hx.attrs hpos hsmall hhand m h hp cs st rest
  refine ⟨y, q, ρ, hrd, hq, ?_⟩
  have hrefs : ∀ l ∈ codeLabels x, ∃ q, c.pos l = some q ∧ ν q = some (ρ l) := by
    have use : ∀ l ∈ Body.labels ⟨x.maxStack, x.maxLocals, x.code, x.catches, lss.flatten⟩, ∀ q,
        c.pos l = some q → ν q = some (ρ l) := fun l hl q hq =>
      D.names l q hq (List.mem_append.mpr (.inl (List.mem_filterMap.mpr ⟨l, hl, hq⟩)))
    intro l hl
    rcases List.mem_append.mp hl with hl | hl
    · rcases List.mem_append.mp hl with hl' | hl'
      · have : ∃ q, c.pos l = some q := by
          obtain ⟨i, hi, hl⟩ := List.mem_flatMap.mp hl'
          rw [← hp.insns] at hi
          obtain ⟨e, he, rfl⟩ := List.mem_map.mp hi
          exact (hp.targets e he).2 l hl
        obtain ⟨q, hq⟩ := this
        exact ⟨q, hq, use l (List.mem_append.mpr (.inl hl)) q hq⟩
      · have : ∃ q, c.pos l = some q := by
          obtain ⟨k, hk, hl⟩ := List.mem_flatMap.mp hl'
          obtain ⟨b, hb⟩ := Fmt.table2_mem hhs k hk
          exact handler_labels hb l hl
        obtain ⟨q, hq⟩ := this
        exact ⟨q, hq, use l (List.mem_append.mpr (.inl hl)) q hq⟩
    · obtain ⟨q, hq, h | ⟨e, he, h⟩⟩ := attr_labels m hx.attrs has l hl
      · exact ⟨q, hq, use l (List.mem_append.mpr (.inr h)) q hq⟩
      · refine ⟨q, hq, D.names l q hq (List.mem_append.mpr (.inr (List.mem_flatMap.mpr ⟨e, he, ?_⟩)))⟩
        simpa using h
  have hcode := D.code
  simp only [hlines] at hcode
  have hsol : ∀ e ∈ pis.map (fun e => (e.1, renI ρ e.2)), (normal e.2).isSome ∧ (∀ l, e.2 ≠ .label l) ∧
      ∀ n, e.2 ≠ .lineNumber n := by
    intro e he
    obtain ⟨e', he', rfl⟩ := List.mem_map.mp he
    obtain ⟨⟨i, hi⟩, _⟩ := hp.targets e' he'
    exact normal_solid hi ρ
  have hfst : (pis.map fun e => (e.1, renI ρ e.2)).map Prod.fst = pis.map Prod.fst := by simp
  have hmk := rebuild_solid (ν := ν) (line := lineAt []) (len := b.length) fun e he => (hsol e he).2
  have hplaced : placed y.code = (pis.map Prod.fst ++ [b.length]).filterMap ν := by
    rw [← placed_resolve c.bsm, hcode, hmk.2, hfst]
  have hplace : ∀ l ∈ codeLabels x, ∃ k q, place l x.code = some k ∧ c.pos l = some q ∧
      (pis.map Prod.fst ++ [b.length])[k]? = some q ∧ ν q = some (ρ l) := by
    intro l hl
    obtain ⟨q, hq, hν⟩ := hrefs l hl
    obtain ⟨k, q', h1, h2, h3⟩ := hp.place (hpos l q hq)
    cases hq.symm.trans h2
    rw [Nat.zero_add] at h3
    exact ⟨k, q, h1, hq, h3, hν⟩
  -- two labels at the same position have the same place
  have hsame : ∀ l l' q, c.pos l = some q → c.pos l' = some q → place l x.code = place l' x.code := by
    intro l l' q h h'
    obtain ⟨k, q1, h1, h2, h3⟩ := hp.place (hpos l q h)
    obtain ⟨k', q2, h4, h5, h6⟩ := hp.place (hpos l' q h')
    cases h.symm.trans h2
    cases h'.symm.trans h5
    rw [Nat.zero_add] at h3 h6
    rw [h1, h4, nodup_idx hnd h3 h6]
  have hvl : ∀ v ∈ x.attrs.flatMap attrVars, v.start ∈ codeLabels x ∧ v.stop ∈ codeLabels x := by
    intro v hv
    obtain ⟨t, ht, hv⟩ := List.mem_flatMap.mp hv
    have : ∀ l ∈ varLabels v, l ∈ codeLabels x := by
      intro l hl
      refine List.mem_append.mpr (.inr (List.mem_flatMap.mpr ⟨t, ht, ?_⟩))
      cases t with
      | locals vs => exact List.mem_flatMap.mpr ⟨v, hv, hl⟩
      | _ => cases hv
    exact ⟨this _ (by simp [varLabels]), this _ (by simp [varLabels])⟩
  have huniq : ∀ v ∈ x.attrs.flatMap attrVars, ∀ w ∈ x.attrs.flatMap attrVars, (place v.start x.code = place w.start x.code ∧
      place v.stop x.code = place w.stop x.code ∧ v.name = w.name ∧ v.index = w.index) → v = w :=
    pairwise_eq hx.vars fun v w h => ⟨h.1.symm, h.2.1.symm, h.2.2.1.symm, h.2.2.2.symm⟩
  have hne : ∀ v ∈ x.attrs.flatMap attrVars, ∃ e ∈ lss.flatten.flatMap varInfos, InfoOf c v e := by
    intro v hv
    obtain ⟨t, ht, hv'⟩ := List.mem_flatMap.mp hv
    have : v.descriptor.isSome ∨ v.signature.isSome := by
      have := hx.attrs t ht
      cases t with
      | locals vs => exact this v hv'
      | _ => cases hv'
    rcases this with h1 | h1
    · obtain ⟨d, hd⟩ := Option.isSome_iff_exists.mp h1
      obtain ⟨e, he, h2, _⟩ := f5 v hv d hd
      exact ⟨e, he, h2⟩
    · obtain ⟨d, hd⟩ := Option.isSome_iff_exists.mp h1
      obtain ⟨e, he, h2, _⟩ := f6 v hv d hd
      exact ⟨e, he, h2⟩
  have hν : ∀ v ∈ x.attrs.flatMap attrVars, ∀ e, InfoOf c v e → ν e.start = some (ρ v.start) ∧ ν e.stop = some (ρ v.stop) := by
    intro v hv e hi
    obtain ⟨h1, h2⟩ := hvl v hv
    obtain ⟨q, h3, h4⟩ := hrefs _ h1
    obtain ⟨q', h5, h6⟩ := hrefs _ h2
    cases h3.symm.trans hi.start
    cases h5.symm.trans hi.stop
    exact ⟨h4, h6⟩
  refine ⟨D.maxStack, D.maxLocals, ?_, ?_, ?_, ?_, ?_, D.catches, ?_⟩
  · rw [hcode, hmk.1, ← hp.insns]
    simp
  · intro n hn
    have h1 : Insn.lineNumber n ∈ y.code.map (resolveI c.bsm) := List.mem_map.mpr ⟨_, hn, rfl⟩
    rw [hcode] at h1
    have key : ∀ L : List (Nat × Insn), (∀ e ∈ L, ∀ n, e.2 ≠ .lineNumber n) → ∀ len,
        Insn.lineNumber n ∉ rebuild ν (lineAt []) L len := by
      have hm : ∀ p, Insn.lineNumber n ∉ markers ν (lineAt []) p := by
        intro p
        unfold markers lineAt
        cases ν p <;> simp
      intro L
      induction L with
      | nil => exact fun _ len => hm len
      | cons e L ih =>
        intro hL len hmem
        rcases List.mem_append.mp hmem with h | h
        · exact hm _ h
        · rcases List.mem_cons.mp h with h | h
          · exact hL e (by simp) n h.symm
          · exact ih (fun e he => hL e (by simp [he])) len h
    exact key _ (fun e he => (hsol e he).2.2) _ h1
  · rw [hplaced]
    exact nodup_filterMap D.inj hnd
  · intro l hl
    rw [hplaced] at hl
    obtain ⟨p, _, hp'⟩ := List.mem_filterMap.mp hl
    have hr := (D.dom p).mp (by rw [hp']; rfl)
    have fin : ∀ k ∈ codeLabels x, c.pos k = some p → ∃ k ∈ codeLabels x, l = ρ k := by
      intro k hk hq
      obtain ⟨q', h1, h2⟩ := hrefs k hk
      cases hq.symm.trans h1
      exact ⟨k, hk, Option.some.inj (hp'.symm.trans h2)⟩
    rcases List.mem_append.mp hr with h | h
    · obtain ⟨k, hk, hq⟩ := List.mem_filterMap.mp h
      refine fin k ?_ hq
      rcases List.mem_append.mp hk with h | h
      · exact List.mem_append.mpr (.inl h)
      · exact List.mem_append.mpr (.inr (f7 k h))
    · obtain ⟨e, he, h⟩ := List.mem_flatMap.mp h
      obtain ⟨v, hv, hi⟩ := f4 e he
      simp only [List.mem_cons, List.not_mem_nil, or_false] at h
      rcases h with rfl | rfl
      · exact fin _ (hvl v hv).1 hi.start
      · exact fin _ (hvl v hv).2 hi.stop
  · intro l hl
    obtain ⟨k, q, h1, h2, h3, h4⟩ := hplace l hl
    rw [h1]
    refine ⟨rfl, ?_⟩
    rw [hcode]
    refine rebuild_place D.inj (fun e he => ⟨(hsol e he).1, (hsol e he).2.1⟩) ?_ ?_ h4
    · rw [hfst]; exact hnd
    · rw [hfst]; exact h3
  · obtain ⟨vs, M, hy⟩ := D.attrs
    refine ⟨vs, ?_, by rw [hy, ← f3]⟩
    have one : ∀ v ∈ vs, ∀ u ∈ x.attrs.flatMap attrVars, ∀ e ∈ lss.flatten.flatMap varInfos, e.About ν v → InfoOf c u e →
        v = renVar ρ u := by
      intro v hv u hu e he ha hi
      have g := hν u hu e hi
      have same : ∀ e' ∈ lss.flatten.flatMap varInfos, e'.About ν v → InfoOf c u e' := by
        intro e' he' ha'
        obtain ⟨u', hu', hi'⟩ := f4 e' he'
        have s1 : e'.start = e.start := D.inj _ _ _ ha'.1 ha.1
        have s2 : e'.stop = e.stop := D.inj _ _ _ ha'.2.1 ha.2.1
        have : u' = u := by
          refine huniq u' hu' u hu ⟨hsame _ _ e.start ?_ hi.start, hsame _ _ e.stop ?_ hi.stop, ?_, ?_⟩
          · rw [← s1]; exact hi'.start
          · rw [← s2]; exact hi'.stop
          · rw [← hi'.2.2.1, ← hi.2.2.1, ha.2.2.1, ha'.2.2.1]
          · rw [← hi'.2.2.2.1, ← hi.2.2.2.1, ha.2.2.2, ha'.2.2.2]
        rwa [this] at hi'
      have about : ∀ e', InfoOf c u e' → e'.About ν v := by
        intro e' hi'
        have s1 : e'.start = e.start := Option.some.inj (hi'.start.symm.trans hi.start)
        have s2 : e'.stop = e.stop := Option.some.inj (hi'.stop.symm.trans hi.stop)
        refine ⟨by rw [s1]; exact ha.1, by rw [s2]; exact ha.2.1, ?_, ?_⟩
        · rw [hi'.2.2.1, ← hi.2.2.1]; exact ha.2.2.1
        · rw [hi'.2.2.2.1, ← hi.2.2.2.1]; exact ha.2.2.2
      have d1 : v.descriptor = u.descriptor := by
        rw [M.descriptor v hv]
        refine getLast_eq ?_ ?_
        · intro d hd
          obtain ⟨e', he', hd⟩ := List.mem_filterMap.mp hd
          obtain ⟨he', hab⟩ := List.mem_filter.mp he'
          rcases (same e' he' (by simpa using hab)).2.2.2.2 with ⟨_, h2, _⟩ | ⟨_, _, h3⟩
          · rw [← h2, hd]
          · rw [h3] at hd; cases hd
        · intro hsome hnil
          obtain ⟨d, hd⟩ := Option.isSome_iff_exists.mp hsome
          obtain ⟨e', he', hi', hd'⟩ := f5 u hu d hd
          have : d ∈ ((lss.flatten.flatMap varInfos).filter fun e => e.About ν v).filterMap VarInfo.descriptor :=
            List.mem_filterMap.mpr ⟨e', List.mem_filter.mpr ⟨he', by simpa using about e' hi'⟩, hd'⟩
          rw [hnil] at this
          cases this
      have d2 : v.signature = u.signature := by
        rw [M.signature v hv]
        refine getLast_eq ?_ ?_
        · intro d hd
          obtain ⟨e', he', hd⟩ := List.mem_filterMap.mp hd
          obtain ⟨he', hab⟩ := List.mem_filter.mp he'
          rcases (same e' he' (by simpa using hab)).2.2.2.2 with ⟨_, _, h3⟩ | ⟨_, h2, _⟩
          · rw [h3] at hd; cases hd
          · rw [← h2, hd]
        · intro hsome hnil
          obtain ⟨d, hd⟩ := Option.isSome_iff_exists.mp hsome
          obtain ⟨e', he', hi', hd'⟩ := f6 u hu d hd
          have : d ∈ ((lss.flatten.flatMap varInfos).filter fun e => e.About ν v).filterMap VarInfo.signature :=
            List.mem_filterMap.mpr ⟨e', List.mem_filter.mpr ⟨he', by simpa using about e' hi'⟩, hd'⟩
          rw [hnil] at this
          cases this
      have d3 : v.start = ρ u.start := Option.some.inj (ha.1.symm.trans g.1)
      have d4 : v.stop = ρ u.stop := Option.some.inj (ha.2.1.symm.trans g.2)
      have d5 : v.name = u.name := by rw [← ha.2.2.1, hi.2.2.1]
      have d6 : v.index = u.index := by rw [← ha.2.2.2, hi.2.2.2.1]
      cases v
      simp only at d1 d2 d3 d4 d5 d6
      simp only [renVar, d1, d2, d3, d4, d5, d6]
    refine (List.perm_ext_iff_of_nodup ?_ ?_).mpr fun v => ⟨?_, ?_⟩
    · exact M.once.imp fun h e => h (by rw [e]; exact ⟨rfl, rfl, rfl, rfl⟩)
    · refine List.pairwise_map.mpr (List.Pairwise.imp_of_mem ?_ hx.vars)
      intro v w hv hw hn he
      obtain ⟨e, he1, hi⟩ := hne v hv
      obtain ⟨e', he2, hi'⟩ := hne w hw
      have g := hν v hv e hi
      have g' := hν w hw e' hi'
      have q1 : ρ v.start = ρ w.start := congrArg LocalVariable.start he
      have q2 : ρ v.stop = ρ w.stop := congrArg LocalVariable.stop he
      have q3 : v.name = w.name := congrArg (fun v => v.name) he
      have q4 : v.index = w.index := congrArg (fun v => v.index) he
      have s1 : e.start = e'.start := D.inj _ _ _ g.1 (by rw [q1]; exact g'.1)
      have s2 : e.stop = e'.stop := D.inj _ _ _ g.2 (by rw [q2]; exact g'.2)
      refine hn ⟨hsame _ _ e.start hi.start ?_, hsame _ _ e.stop hi.stop ?_, q3, q4⟩
      · rw [s1]; exact hi'.start
      · rw [s2]; exact hi'.stop
    · intro hv
      obtain ⟨e, he, ha⟩ := M.only v hv
      obtain ⟨u, hu, hi⟩ := f4 e he
      exact List.mem_map.mpr ⟨u, hu, (one v hv u hu e he ha hi).symm⟩
    · intro hv
      obtain ⟨u, hu, rfl⟩ := List.mem_map.mp hv
      obtain ⟨e, he, hi⟩ := hne u hu
      obtain ⟨v, hv, ha⟩ := M.all e he
      rw [← one v hv u hu e he ha hi]
      exact hv

end Verif
