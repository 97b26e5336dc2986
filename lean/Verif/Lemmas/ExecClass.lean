import Verif.Lemmas.Exec
import Verif.Lemmas.Reread

/-! # Method bodies of class files as programs -/

namespace Verif
open Spec Sig

/-! ## Programs that do the same -/

theorem alike_equivalent {P Q : Prog} {φ : Nat → Nat} (h : Alike P Q φ) : Equivalent P Q := by
  intro σ M s n r
  obtain ⟨h1, h2⟩ := h σ M s n
  refine ⟨⟨fun h => h1 _ h, fun h => ?_⟩, ⟨fun h => h1 _ h, fun h => ?_⟩, ⟨?_, ?_⟩⟩
  · obtain ⟨d, e, hd⟩ := h2 _ h
    cases d <;> cases e
    exact hd
  · obtain ⟨d, e, hd⟩ := h2 _ h
    cases d <;> cases e
    exact hd
  · rintro ⟨pc, h⟩
    exact ⟨φ pc, h1 _ h⟩
  · rintro ⟨pc, h⟩
    obtain ⟨d, e, hd⟩ := h2 _ h
    cases d <;> cases e
    exact ⟨_, hd⟩

theorem _root_.Verif.Spec.Equivalent.symm {P Q : Prog} (h : Equivalent P Q) : Equivalent Q P := fun σ M s n r =>
  ⟨(h σ M s n r).1.symm, (h σ M s n r).2.1.symm, (h σ M s n r).2.2.symm⟩

theorem _root_.Verif.Spec.Equivalent.trans {P Q R : Prog} (h : Equivalent P Q) (h' : Equivalent Q R) : Equivalent P R := fun σ M s n r =>
  ⟨(h σ M s n r).1.trans (h' σ M s n r).1, (h σ M s n r).2.1.trans (h' σ M s n r).2.1,
    (h σ M s n r).2.2.trans (h' σ M s n r).2.2⟩

/-! ## Bodies in another form -/

section
variable {C D E : Type}

theorem all_through {α β : Type} {f : Fmt α} {g : Fmt β} {R : α → β → Prop} {c : Ctx} :
    ∀ {xs : List α} {bs : Bytes}, (∀ x ∈ xs, ∀ b, f c x b → ∃ y, g c y b ∧ R x y) → Fmt.all f c xs bs →
      ∃ ys, Fmt.all g c ys bs ∧ Matched R xs ys
  | [], _, _, h => ⟨[], h, .nil⟩
  | x :: xs, _, H, h => by
    obtain ⟨b, b', rfl, h1, h2⟩ := h
    obtain ⟨y, h3, h4⟩ := H x (by simp) b h1
    obtain ⟨ys, h5, h6⟩ := all_through (fun z hz => H z (by simp [hz])) h2
    exact ⟨y :: ys, ⟨b, b', rfl, h3, h5⟩, .cons h4 h6⟩

theorem matched_len {α β : Type} {R : α → β → Prop} {xs : List α} {ys : List β} (h : Matched R xs ys) :
    xs.length = ys.length := by
  induction h with
  | nil => rfl
  | cons _ _ ih => rw [List.length_cons, List.length_cons, ih]

theorem table_through {α β : Type} {f : Fmt α} {g : Fmt β} {R : α → β → Prop} {c : Ctx} {xs : List α} {bs : Bytes}
    (H : ∀ x ∈ xs, ∀ b, f c x b → ∃ y, g c y b ∧ R x y) (h : Fmt.table2 f c xs bs) :
    ∃ ys, Fmt.table2 g c ys bs ∧ Matched R xs ys := by
  obtain ⟨h1, b, rfl, h2⟩ := h
  obtain ⟨ys, h3, h4⟩ := all_through H h2
  have := matched_len h4
  exact ⟨ys, ⟨by omega, b, by rw [this], h3⟩, h4⟩

theorem attr_through {f : Fmt C} {g : Fmt D} {R : C → D → Prop} {c : Ctx}
    {a : MethodAttrOf C} {bs : Bytes} (H : ∀ x, a = .code x → ∀ b, f c x b → ∃ y, g c y b ∧ R x y)
    (h : methodAttr f c a bs) : ∃ a', methodAttr g c a' bs ∧ SameAttr R a a' := by
  cases a with
  | code x =>
    obtain ⟨i, b, h1, h2, h3, h4⟩ := h
    obtain ⟨y, h5, h6⟩ := H x rfl _ h2
    exact ⟨.code y, ⟨i, b, h1, h5, h3, h4⟩, h6⟩
  | deprecated => exact ⟨.deprecated, h, trivial⟩
  | synthetic => exact ⟨.synthetic, h, trivial⟩
  | signature s => exact ⟨.signature s, h, rfl⟩
  | visible as => exact ⟨.visible as, h, rfl⟩
  | invisible as => exact ⟨.invisible as, h, rfl⟩
  | visibleType as => exact ⟨.visibleType as, h, rfl⟩
  | invisibleType as => exact ⟨.invisibleType as, h, rfl⟩
  | visibleParams as => exact ⟨.visibleParams as, h, rfl⟩
  | invisibleParams as => exact ⟨.invisibleParams as, h, rfl⟩
  | exceptions as => exact ⟨.exceptions as, h, rfl⟩
  | annotationDefault as => exact ⟨.annotationDefault as, h, rfl⟩
  | methodParameters as => exact ⟨.methodParameters as, h, rfl⟩
  | raw as => exact ⟨.raw as, h, rfl⟩

theorem method_through {f : Fmt C} {g : Fmt D} {R : C → D → Prop} {c : Ctx}
    {m : MethodOf C} {bs : Bytes} (H : ∀ x, .code x ∈ m.attrs → ∀ b, f c x b → ∃ y, g c y b ∧ R x y)
    (h : method f c m bs) : ∃ m', method g c m' bs ∧ SameMethod R m m' := by
  obtain ⟨b1, r1, rfl, h1, b2, r2, rfl, h2, b3, r3, rfl, h3, b4, r4, rfl, h4, rfl⟩ := h
  obtain ⟨as, h5, h6⟩ := table_through (g := methodAttr g) (R := SameAttr R)
    (fun a ha b hb => attr_through (fun x e => H x (e ▸ ha)) hb) h4
  exact ⟨⟨m.access, m.name, m.descriptor, as⟩,
    ⟨b1, _, rfl, h1, b2, _, rfl, h2, b3, _, rfl, h3, b4, _, rfl, h5, rfl⟩, rfl, rfl, rfl, h6⟩

theorem class_through {f : Fmt C} {g : Fmt D} {R : C → D → Prop} {x : ClassOf C} {bs : Bytes}
    (H : ∀ m ∈ x.methods, ∀ y, .code y ∈ m.attrs → ∀ (P : Pool) b, (bsmTable x.attrs).length ≤ 65536 →
      f ⟨P, bsmTable x.attrs, fun _ => none, fun _ => none⟩ y b →
      ∃ z, g ⟨P, bsmTable x.attrs, fun _ => none, fun _ => none⟩ z b ∧ R y z)
    (h : classFile f x bs) : ∃ X, classFile g X bs ∧ SameParts R x X := by
  obtain ⟨es, P, pool, body, hp, hP, hb, rfl⟩ := h
  obtain ⟨b1, r1, rfl, h1, b2, r2, rfl, h2, b3, r3, rfl, h3, b4, r4, rfl, h4, b5, r5, rfl, h5,
    b6, r6, rfl, h6, b7, r7, rfl, h7, rfl⟩ := hb
  have hT : (bsmTable x.attrs).length ≤ 65536 := by
    obtain ⟨_, b, _, h7⟩ := h7
    have := table_short h7
    omega
  obtain ⟨ms, h8, h9⟩ := table_through (g := method g) (R := SameMethod R)
    (fun m hm b hb => method_through (fun y hy b hb => H m hm y hy P b hT hb) hb) h6
  exact ⟨⟨x.version, x.access, x.name, x.superName, x.interfaces, x.fields, ms, x.attrs⟩,
    ⟨es, P, pool, _, hp, hP, ⟨b1, _, rfl, h1, b2, _, rfl, h2, b3, _, rfl, h3, b4, _, rfl, h4, b5, _, rfl, h5,
      b6, _, rfl, h8, b7, _, rfl, h7, rfl⟩, rfl⟩, rfl, rfl, rfl, rfl, rfl, rfl, h9, rfl⟩

theorem matched_comp {α β γ : Type} {R : α → β → Prop} {S : β → γ → Prop} {U : α → γ → Prop}
    (H : ∀ a b c, R a b → S b c → U a c) {xs : List α} {ys : List β} {zs : List γ} (h : Matched R xs ys)
    (h' : Matched S ys zs) : Matched U xs zs := by
  induction h generalizing zs with
  | nil =>
    cases h'
    exact .nil
  | cons h1 _ ih =>
    cases h' with
    | cons h2 h3 => exact .cons (H _ _ _ h1 h2) (ih h3)

theorem matched_flip {α β : Type} {R : α → β → Prop} {S : β → α → Prop} (H : ∀ a b, R a b → S b a)
    {xs : List α} {ys : List β} (h : Matched R xs ys) : Matched S ys xs := by
  induction h with
  | nil => exact .nil
  | cons h1 _ ih => exact .cons (H _ _ h1) ih

theorem sameAttr_comp {R : C → D → Prop} {S : D → E → Prop} {U : C → E → Prop}
    (H : ∀ a b c, R a b → S b c → U a c) (a : MethodAttrOf C) (b : MethodAttrOf D) (c : MethodAttrOf E)
    (h : SameAttr R a b) (h' : SameAttr S b c) : SameAttr U a c := by
  cases a <;> cases b <;> first
    | exact h.elim
    | (cases c <;> first
        | exact h'.elim
        | exact H _ _ _ h h'
        | exact Eq.trans h h'
        | trivial)

theorem sameAttr_flip {R : C → D → Prop} {S : D → C → Prop} (H : ∀ a b, R a b → S b a) (a : MethodAttrOf C)
    (b : MethodAttrOf D) (h : SameAttr R a b) : SameAttr S b a := by
  cases a <;> cases b <;> first
    | exact h.elim
    | exact H _ _ h
    | exact Eq.symm h
    | trivial

theorem sameMethod_comp {R : C → D → Prop} {S : D → E → Prop} {U : C → E → Prop}
    (H : ∀ a b c, R a b → S b c → U a c) (a : MethodOf C) (b : MethodOf D) (c : MethodOf E)
    (h : SameMethod R a b) (h' : SameMethod S b c) : SameMethod U a c :=
  ⟨h'.access.trans h.access, h'.name.trans h.name, h'.descriptor.trans h.descriptor,
    matched_comp (sameAttr_comp H) h.attrs h'.attrs⟩

theorem sameMethod_flip {R : C → D → Prop} {S : D → C → Prop} (H : ∀ a b, R a b → S b a) (a : MethodOf C)
    (b : MethodOf D) (h : SameMethod R a b) : SameMethod S b a :=
  ⟨h.access.symm, h.name.symm, h.descriptor.symm, matched_flip (sameAttr_flip H) h.attrs⟩

theorem readable_through {R : C → D → Prop} {ok : C → Prop} {x : ClassOf C} {y : ClassOf D} (h : SameParts R x y)
    (hx : x.Readable ok) : y.Readable fun _ => True := by
  have ha : ∀ {as : List (MethodAttrOf C)} {bs : List (MethodAttrOf D)}, Matched (SameAttr R) as bs →
      (∀ a ∈ as, a.Readable ok) → ∀ b ∈ bs, b.Readable fun _ => True := by
    intro as bs h
    induction h with
    | nil => intro _ b hb; cases hb
    | @cons a b _ _ h1 _ ih =>
      intro H b' hb'
      rcases List.mem_cons.mp hb' with rfl | hb'
      · have h2 := H a (by simp)
        cases a <;> cases b' <;> first
          | exact h1.elim
          | trivial
          | (cases h1; exact h2)
      · exact ih (fun c hc => H c (by simp [hc])) b' hb'
  have hm : ∀ {as : List (MethodOf C)} {bs : List (MethodOf D)}, Matched (SameMethod R) as bs →
      (∀ a ∈ as, a.Readable ok) → ∀ b ∈ bs, b.Readable fun _ => True := by
    intro as bs h
    induction h with
    | nil => intro _ b hb; cases hb
    | @cons a b _ _ h1 _ ih =>
      intro H b' hb'
      rcases List.mem_cons.mp hb' with rfl | hb'
      · exact ha h1.attrs (H a (by simp))
      · exact ih (fun c hc => H c (by simp [hc])) b' hb'
  exact ⟨fun f hf => hx.fields f (h.fields ▸ hf), hm h.methods hx.methods, fun a ha => hx.attrs a (h.attrs ▸ ha)⟩

end

/-! ## Bodies that were written, and bodies that are read -/

theorem codeFile_alike {c : Ctx} (hT : c.bsm.length ≤ 65536) {x : Code} {bs : Bytes} (h : codeFile c x bs) :
    ∃ code ks φ, HasCode c.pool c.bsm bs code ks ∧ (∀ a b, a < b → φ a < φ b) ∧
      Alike (source x.code x.catches φ) (binary c.pool c.bsm code ks) φ := by
  obtain ⟨c', b, hP, hB, hl, _, lss, _, h⟩ := h
  rw [← hP, ← hB]
  rw [← hB] at hT
  obtain ⟨ks, φ, f, h1, h2⟩ := body_hom hT h fun l p hp => (hl l p hp).1
  exact ⟨b, ks, φ, h1, h2.mono, h2.alike⟩

theorem placed_alike {c : Ctx} (hT : c.bsm.length ≤ 65536) {x : PlacedBody} {bs : Bytes} (h : placedBody c x bs) :
    ∃ ks φ, HasCode c.pool c.bsm bs x.code ks ∧ (∀ a b, a < b → φ a < φ b) ∧
      Alike (source x.body.code x.body.catches φ) (binary c.pool c.bsm x.code ks) φ ∧
      ∀ y, Reproduces c.bsm x y → Alike (source (y.code.map (resolveI c.bsm)) y.catches φ) (binary c.pool c.bsm x.code ks) φ := by
  obtain ⟨h1, h2, h3⟩ := h
  obtain ⟨ks, φ, f, h4, h5⟩ := body_hom (c := x.ctx c) hT h1 h3.labels
  refine ⟨ks, φ, h4, h5.mono, h5.alike, ?_⟩
  rintro y ⟨ν, ρ, hd⟩
  have hk : ∀ k ∈ x.body.catches, ∀ l ∈ catchLabels k, ∃ p, x.pos l = some p := by
    obtain ⟨hs, as, _, _, ⟨_, hb, _, h6⟩, _⟩ := h1
    intro k hk
    obtain ⟨b, h⟩ := Fmt.all_mem h6 k hk
    exact handler_labels h
  have hd' : Describes (x.ctx c) x.code.length x.body x.insns ν ρ y :=
    ⟨hd.inj, hd.dom, hd.names, hd.maxStack, hd.maxLocals, hd.code, hd.catches, hd.attrs⟩
  exact alike_id (describes_hom h2 h3.labels hk hd' φ).alike h5.alike

end Verif
