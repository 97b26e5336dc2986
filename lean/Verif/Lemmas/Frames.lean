import Verif.Lemmas.Unique
import Verif.Lemmas.NeatClass

/-! # Bodies that need stack map frames -/

namespace Verif
open Spec Sig

/-! ## Straight code -/

/-- What `Straight` looks at. -/
def SameKind (i j : Insn) : Prop := (targets i = [] ↔ targets j = []) ∧ (Stops i ↔ Stops j)

theorem straight_map {is : List Insn} {ks ks' : List Catch} {f : Insn → Insn} (hf : ∀ i ∈ is, SameKind (f i) i)
    (hk : ks' = [] ↔ ks = []) : Straight (is.map f) ks' ↔ Straight is ks := by
  constructor
  · rintro ⟨h1, h2, h3⟩
    refine ⟨fun i hi => ((hf i hi).1).mp (h1 _ (List.mem_map_of_mem hi)), hk.mp h2, ?_⟩
    rintro pre i j post rfl hs
    exact h3 (pre.map f) (f i) (f j) (post.map f) (by simp) (((hf i (by simp)).2).mpr hs)
  · rintro ⟨h1, h2, h3⟩
    refine ⟨fun i hi => ?_, hk.mpr h2, ?_⟩
    · obtain ⟨i, hi', rfl⟩ := List.mem_map.mp hi
      exact ((hf i hi').1).mpr (h1 i hi')
    · intro pre i j post e hs
      obtain ⟨pre', r, rfl, rfl, e1⟩ := List.map_eq_append_iff.mp e
      obtain ⟨i', r', rfl, rfl, e2⟩ := List.map_eq_cons_iff.mp e1
      obtain ⟨j', post', rfl, rfl, e3⟩ := List.map_eq_cons_iff.mp e2
      exact h3 _ _ _ _ rfl (((hf i' (by simp)).2).mp hs)

theorem renI_kind (f : Label → Label) (i : Insn) : SameKind (renI f i) i := by
  refine ⟨by rw [targets_ren]; simp, ?_⟩
  cases i with
  | jump c l => cases c <;> exact Iff.rfl
  | _ => exact Iff.rfl

theorem resolveI_kind (T : List Bsm) (i : Insn) : SameKind (resolveI T i) i := by
  refine ⟨by cases i <;> exact Iff.rfl, ?_⟩
  cases i with
  | jump c l => cases c <;> exact Iff.rfl
  | _ => exact Iff.rfl

theorem normal_resolved (T : List Bsm) (i : Insn) : normal (resolveI T i) = (normal i).map (resolveI T) := by
  cases i with
  | push c => cases c <;> rfl
  | field o t m => cases m <;> rfl
  | invokeExact t m => cases m <;> rfl
  | invokeSpecial m => cases m <;> rfl
  | invokeInterface m n => cases m <;> rfl
  | conversion a b => cases a <;> cases b <;> rfl
  | convertInt a => cases a <;> rfl
  | _ => rfl

/-- A value whose code needs no frames. -/
def StraightCode (y : Code) : Prop := Straight (y.code.filterMap normal) y.catches

theorem filterMap_comm {α β : Type} {g : α → Option β} {f : α → α} {h : β → β} (H : ∀ a, g (f a) = (g a).map h) :
    ∀ l : List α, (l.map f).filterMap g = (l.filterMap g).map h
  | [] => rfl
  | a :: l => by
    have ih := filterMap_comm H l
    rw [List.map_cons, List.filterMap_cons, List.filterMap_cons, H]
    cases g a with
    | none => exact ih
    | some b => simp only [Option.map_some, List.map_cons, ih]

theorem straightCode_resolve (T : List Bsm) (is : List Insn) (ks : List Catch) :
    Straight ((is.map (resolveI T)).filterMap normal) ks ↔ Straight (is.filterMap normal) ks := by
  rw [filterMap_comm (normal_resolved T)]
  exact straight_map (fun i _ => resolveI_kind T i) Iff.rfl

theorem reproduces_straight {c : Ctx} {x : PlacedBody} {bs : Bytes} (h : placedBody c x bs) {y : Code} {T : List Bsm}
    (hy : Reproduces T x y) : StraightCode y ↔ Straight (x.insns.map Prod.snd) x.body.catches := by
  obtain ⟨ν, ρ, d⟩ := hy
  unfold StraightCode
  rw [← straightCode_resolve T, d.code, filterMap_rebuild, List.map_map]
  · have : x.insns.map (Prod.snd ∘ fun e => (e.1, renI ρ e.2)) = (x.insns.map Prod.snd).map (renI ρ) := by
      rw [List.map_map]
      rfl
    rw [this]
    exact straight_map (fun i _ => renI_kind ρ i) (by rw [d.catches]; simp)
  · intro e he
    obtain ⟨e', he', rfl⟩ := List.mem_map.mp he
    obtain ⟨⟨i, hi⟩, _⟩ := h.2.1.targets e' he'
    show normal (renI ρ e'.2) = _
    rw [normal_ren, normal_idem hi]
    rfl

/-! ## Needs -/

theorem needs_iff {c : Ctx} {x : PlacedBody} {bs : Bytes} (h : placedBody c x bs) :
    (∀ q, ¬ NeedsFrame x q) ↔ Straight (x.insns.map Prod.snd) x.body.catches := by
  obtain ⟨⟨hs, as, _, _, h3, _⟩, h2, _⟩ := h
  constructor
  · intro H
    refine ⟨fun i hi => ?_, ?_, ?_⟩
    · obtain ⟨⟨p, i⟩, he, rfl⟩ := List.mem_map.mp hi
      rcases ht : targets i with _ | ⟨l, ls⟩
      · rfl
      · obtain ⟨q, hq⟩ := (h2.targets _ he).2 l (by simp [ht])
        exact absurd (.target he (by simp [ht]) hq) (H q)
    · rcases hk : x.body.catches with _ | ⟨k, ks⟩
      · rfl
      · obtain ⟨b, hb⟩ := Fmt.table2_mem h3 k (by simp [hk])
        obtain ⟨q, hq⟩ := handler_labels hb k.handler (by simp [catchLabels])
        exact absurd (.handler (by simp [hk]) hq) (H q)
    · intro pre i j post e hs
      obtain ⟨pre', r, e1, rfl, e2⟩ := List.map_eq_append_iff.mp e
      obtain ⟨⟨p, i'⟩, r', rfl, rfl, e3⟩ := List.map_eq_cons_iff.mp e2
      obtain ⟨⟨q, j'⟩, post', rfl, rfl, _⟩ := List.map_eq_cons_iff.mp e3
      exact H q (.after e1 hs)
  · rintro ⟨g1, g2, g3⟩ q hq
    cases hq with
    | target h1 h2 h3 =>
      rw [g1 _ (List.mem_map.mpr ⟨_, h1, rfl⟩)] at h2
      cases h2
    | handler h1 h2 =>
      rw [g2] at h1
      cases h1
    | after h1 h2 =>
      exact g3 _ _ _ _ (by rw [h1, List.map_append, List.map_cons, List.map_cons]) h2

/-- A body that is read needs frames exactly if the value is not straight. -/
theorem reads_needs (c : Ctx) (hT : c.bsm.length ≤ 65536) (cs : Option (List Catch)) :
    ReadsBodies c cs placedBody (fun _ => True) (fun x y => (∀ q, ¬ NeedsFrame x q) ↔ StraightCode y) := by
  intro o ho x bs h hx st rest
  obtain ⟨y, q, e, g, d⟩ := reads_placed c hT cs o ho x bs h hx st rest
  exact ⟨y, q, e, g, (needs_iff h).trans (reproduces_straight h d).symm⟩

/-! ## What is written -/

theorem matched_right {α β : Type} {R : α → β → Prop} {xs : List α} {ys : List β} (h : Matched R xs ys) :
    ∀ y ∈ ys, ∃ x ∈ xs, R x y := by
  induction h with
  | nil => nofun
  | cons h1 _ ih =>
    intro y hy
    rcases List.mem_cons.mp hy with rfl | hy
    · exact ⟨_, .head _, h1⟩
    · obtain ⟨x, hx, hr⟩ := ih y hy
      exact ⟨x, .tail _ hx, hr⟩

/-- A body that was written is a body of the JVM specification. -/
theorem codeFile_placed {c : Ctx} {x : Code} (hx : CodeReadable x) {bs : Bytes} (h : codeFile c x bs) :
    ∃ y, placedBody c y bs ∧ y.body.code = x.code ∧ y.body.catches = x.catches ∧ y.body.maxStack = x.maxStack ∧
      y.body.maxLocals = x.maxLocals ∧ (∀ a ∈ y.body.attrs, codeAttrName a ≠ N.stackMapTable) ∧
      y.insns.map Prod.snd = x.code.filterMap normal := by
  obtain ⟨c', b, hP, hB, hpos, hhand, lss, m, h⟩ := h
  obtain ⟨f1, f2, _, f4, _, _, _⟩ := lowers_all m hx.attrs
  obtain ⟨hs, as, hlay, hlen, hhs, has, _⟩ := id h
  obtain ⟨pis, hp⟩ := layout_positioned hlay
  have hin : ∀ l p, c'.pos l = some p → p ∈ pis.map Prod.fst ++ [b.length] := by
    intro l p h
    obtain ⟨q, h1, h2⟩ := hp.label (hpos l p h).1
    cases h.symm.trans h1
    rwa [Nat.zero_add] at h2
  have hlines : lss.flatten.flatMap lineEntries = [] := List.flatMap_eq_nil_iff.mpr f1
  have ok : Body.Ok c' b.length ⟨x.maxStack, x.maxLocals, x.code, x.catches, lss.flatten⟩ pis := by
    refine ⟨hx.insns, fun l p h => (hpos l p h).1, ?_, ?_, ?_, f2⟩
    · simp only [hlines]
      simp
    · intro e he
      obtain ⟨v, _, hi⟩ := f4 e he
      exact ⟨hin _ _ hi.start, hin _ _ hi.stop, (hpos _ _ hi.stop).2⟩
    · exact fun k _ n hn => hhand k n hn
  have ec : (PlacedBody.mk ⟨x.maxStack, x.maxLocals, x.code, x.catches, lss.flatten⟩ c'.pos c'.handler b pis).ctx c = c' := by
    unfold PlacedBody.ctx
    rw [← hP, ← hB]
  refine ⟨⟨⟨x.maxStack, x.maxLocals, x.code, x.catches, lss.flatten⟩, c'.pos, c'.handler, b, pis⟩,
    ⟨by rw [ec]; exact h, by rw [ec]; exact hp, by rw [ec]; exact ok⟩, rfl, rfl, rfl, rfl, ?_, hp.insns⟩
  intro a ha
  obtain ⟨ls, hls, hal⟩ := List.mem_flatten.mp ha
  obtain ⟨z, _, hz⟩ := matched_right m ls hls
  have hr := f2 a ha
  cases hz with
  | visible =>
    cases List.mem_singleton.mp hal
    dsimp only [codeAttrName]; decide
  | invisible =>
    cases List.mem_singleton.mp hal
    dsimp only [codeAttrName]; decide
  | raw =>
    cases List.mem_singleton.mp hal
    intro e
    dsimp only [codeAttrName] at e
    exact hr (by rw [e]; simp [codeAttrNames])
  | locals _ _ _ =>
    rcases List.mem_append.mp hal with h | h <;> split at h <;>
      first | (cases h; done) | (cases List.mem_singleton.mp h; dsimp only [codeAttrName]; decide)

theorem framesAt_nil {as : List CodeAttr} (h : ∀ a ∈ as, codeAttrName a ≠ N.stackMapTable) : framesAt as = [] := by
  refine List.flatMap_eq_nil_iff.mpr fun a ha => ?_
  cases a with
  | frames fs => exact absurd rfl (h _ ha)
  | _ => rfl

/-- However the bytes of a body that was written are taken apart, there are no frames, and none are needed exactly if
the value is straight. -/
theorem written_needs {c c' : Ctx} (hc : c.pool = c'.pool) (hT : c.bsm.length ≤ 65536) (hT' : c'.bsm.length ≤ 65536)
    {x : Code} (hx : CodeReadable x) {y : PlacedBody} {bs : Bytes} (h : codeFile c x bs) (h' : placedBody c' y bs) :
    framesAt y.body.attrs = [] ∧ ((∀ q, ¬ NeedsFrame y q) ↔ StraightCode x) := by
  obtain ⟨z, hz, e1, e2, _, _, hn, hi⟩ := codeFile_placed hx h
  constructor
  · obtain ⟨_, m⟩ := body_cut (c := z.ctx c) (c' := y.ctx c') hc hz.1 h'.1
    refine framesAt_nil fun a ha => ?_
    obtain ⟨b, hb, e⟩ := matched_right m a ha
    rw [← e]
    exact hn b hb
  · obtain ⟨v, q, r1, _, d1⟩ := reads_needs c hT none (fun _ l => l) (fun _ l => .refl l) z bs hz trivial ⟨[], none⟩ []
    obtain ⟨v', q', r2, _, d2⟩ := reads_needs c' hT' none (fun _ l => l) (fun _ l => .refl l) y bs h' trivial ⟨[], none⟩ []
    rw [hc, r2] at r1
    cases r1
    rw [d2, ← d1, needs_iff hz, hi, e2]
    exact Iff.rfl

/-! ## Classes -/

section
variable {C D : Type}

theorem codes_matched {R : C → D → Prop} {p : C → Prop} {q : D → Prop} (H : ∀ x y, R x y → (p x ↔ q y))
    {ms : List (MethodOf C)} {ms' : List (MethodOf D)} (h : Matched (TwinMethod R) ms ms') :
    (∀ m ∈ ms, ∀ b, .code b ∈ m.attrs → p b) ↔ ∀ m ∈ ms', ∀ b, .code b ∈ m.attrs → q b := by
  have ha : ∀ {as : List (MethodAttrOf C)} {as' : List (MethodAttrOf D)}, Matched (BothCode R) as as' →
      ((∀ b, .code b ∈ as → p b) ↔ ∀ b, .code b ∈ as' → q b) := by
    intro as as' h
    induction h with
    | nil => exact ⟨fun _ => nofun, fun _ => nofun⟩
    | @cons a a' _ _ h1 _ ih =>
      cases a <;> cases a' <;> simp only [BothCode] at h1 <;>
        simp only [List.mem_cons, reduceCtorEq, false_or, MethodAttrOf.code.injEq, forall_eq_or_imp] <;>
        first | exact ih | rw [H _ _ h1, ih]
  induction h with
  | nil => simp
  | cons h1 _ ih =>
    rw [List.forall_mem_cons, List.forall_mem_cons]
    exact and_congr (ha h1.attrs) ih

theorem SameMethod.code {R : C → D → Prop} {m : MethodOf C} {m' : MethodOf D} (h : SameMethod R m m') :
    TwinMethod R m m' := by
  refine ⟨h.name, h.descriptor, ?_⟩
  have := h.attrs
  revert this
  generalize m.attrs = as
  generalize m'.attrs = as'
  intro h
  induction h with
  | nil => exact .nil
  | @cons a a' _ _ h1 _ ih =>
    refine .cons ?_ ih
    cases a <;> cases a' <;> first | exact h1.elim | exact h1 | trivial

theorem classFile_short {f : Fmt C} {x : ClassOf C} {bs : Bytes} (h : classFile f x bs) :
    (bsmTable x.attrs).length ≤ 65536 := by
  obtain ⟨es, P, pool, body, hp, hP, hb, rfl⟩ := h
  obtain ⟨b1, r1, rfl, h1, b2, r2, rfl, h2, b3, r3, rfl, h3, b4, r4, rfl, h4, b5, r5, rfl, h5,
    b6, r6, rfl, h6, b7, r7, rfl, ⟨_, b, _, h7⟩, rfl⟩ := hb
  have := table_short h7
  omega

theorem matched_weaken {α β : Type} {R S : α → β → Prop} (H : ∀ a b, R a b → S a b) {xs : List α} {ys : List β}
    (h : Matched R xs ys) : Matched S xs ys := by
  induction h with
  | nil => exact .nil
  | cons h1 _ ih => exact .cons (H _ _ h1) ih

end

/-- The frames of a class that was written. -/
theorem class_frames {x : Class} {y : ClassOf PlacedBody} {bs : Bytes} (h : classFile codeFile x bs)
    (hx : x.Readable CodeReadable) (h' : classFile placedBody y bs) (hy : y.Readable fun _ => True) :
    y.version = x.version ∧ (∀ m ∈ y.methods, ∀ b, .code b ∈ m.attrs → framesAt b.body.attrs = []) ∧
      ((∀ m ∈ x.methods, ∀ b, .code b ∈ m.attrs → StraightCode b) ↔
        ∀ m ∈ y.methods, ∀ b, .code b ∈ m.attrs → ∀ q, ¬ NeedsFrame b q) := by
  obtain ⟨hv, hm⟩ := class_unique
    (R := fun x y => framesAt y.body.attrs = [] ∧ ((∀ q, ¬ NeedsFrame y q) ↔ StraightCode x))
    (fun a b bs P hok _ h1 h2 => written_needs (by rfl) (classFile_short h) (classFile_short h') hok h1 h2)
    hx.methods hy.methods h h'
  refine ⟨hv, (codes_matched (p := fun _ => True) (fun x y h => ⟨fun _ => h.1, fun _ => trivial⟩) hm).mp
    fun _ _ _ _ => trivial, codes_matched (fun x y h => h.2.symm) hm⟩

end Verif
