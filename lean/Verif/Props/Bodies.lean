import Verif.Props.Exec

/-! # Method bodies that are not written or read as they should be: C39, C51, C53 -/

namespace Verif.Props
open Spec Sig

/-! ## C39 -/

/-- No two variables have the same name, index and range. -/
def VarsApart (x : Code) : Prop :=
  (x.attrs.flatMap attrVars).Pairwise fun v w => ¬ (place v.start x.code = place w.start x.code ∧
    place v.stop x.code = place w.stop x.code ∧ v.name = w.name ∧ v.index = w.index)

/-- Full claim: what is written for a body that can be written is read as the body, up to names of labels. -/
def C39_full : Prop := ∀ (ord : Nat → List LocalVariable → List LocalVariable) (_ : ∀ n l, (ord n l).Perm l)
  (x : Code), CodeWritable x → (∀ i ∈ x.code, Readable i) → (∀ a ∈ x.attrs, AttrReadable a) →
  ∀ (cp cp' : VecCp) (bs : Bytes), Steps VecCp.new cp → x.write cp = .ok (bs, cp') →
  (∀ a cp1, writeCode x.code cp = .ok (a, cp1) → Sized x.code a) → bs.length < 2 ^ 31 →
  ∀ W : World, W.Fits cp' → W.bsm.length ≤ 65536 → ∀ (cs : Option (List Catch)) (st : RSt),
  ∃ y q ρ, Code.read ord ⟨W.pool, cs⟩ st bs = .ok (y, ⟨q, st.labels⟩, []) ∧ SameBody W.bsm x y ρ

/-- Proved: it is read in any case, and as the body exactly if no two of its variables have the same name, index and
range. -/
theorem C39_exact_partial (ord : Nat → List LocalVariable → List LocalVariable) (hord : ∀ n l, (ord n l).Perm l)
    (x : Code) (hw : CodeWritable x) (hi : ∀ i ∈ x.code, Readable i) (ha : ∀ a ∈ x.attrs, AttrReadable a)
    (cp cp' : VecCp) (bs : Bytes) (h0 : Steps VecCp.new cp) (h : x.write cp = .ok (bs, cp'))
    (hs : ∀ a cp1, writeCode x.code cp = .ok (a, cp1) → Sized x.code a) (hlen : bs.length < 2 ^ 31)
    (W : World) (hW : W.Fits cp') (hT : W.bsm.length ≤ 65536) (cs : Option (List Catch)) (st : RSt) :
    ∃ y q, Code.read ord ⟨W.pool, cs⟩ st bs = .ok (y, ⟨q, st.labels⟩, []) ∧
      ((∃ ρ, SameBody W.bsm x y ρ) ↔ VarsApart x) := by
  obtain ⟨_, a, ⟨cp1, h1⟩, _, h2⟩ := write_body hw (steps_ok h0 VecCp.inv_new).1 h hs
  obtain ⟨lss, m, hb⟩ := h2 W hW (by omega)
  obtain ⟨_, _, hlay, _⟩ := id hb
  obtain ⟨pis, hp⟩ := layout_positioned hlay
  obtain ⟨y, q, ν, ρ', hr, _, D⟩ := codeBody_describes (c := (Code.env a x.catches).ctx W) ord hord hT hi ha
    (fun l p h => (label_at h1 h).1) (fun l p h => (label_at h1 h).2) (fun k n hn => handler_at hw.catches hn) m hb hp
    cs st []
  rw [List.append_nil] at hr
  refine ⟨y, q, hr, ?_, fun hv => ?_⟩
  · rintro ⟨ρ, S⟩
    obtain ⟨_, body, code, prs, ν', _, hrec⟩ := read_sound hord hr hlen
    have hn : ∀ i ∈ y.code, solid [i] = [i] → (normal i).isSome := by
      intro i hi hsol
      have : resolveI W.bsm i ∈ solid (y.code.map (resolveI W.bsm)) := by
        refine List.mem_filter.mpr ⟨List.mem_map.mpr ⟨i, hi, rfl⟩, ?_⟩
        cases i <;> first | rfl | cases hsol
      rw [S.insns] at this
      obtain ⟨j, hj, e⟩ := List.mem_map.mp this
      obtain ⟨k, _, hk⟩ := List.mem_filterMap.mp hj
      rw [← normal_resolve W.bsm i, ← e]
      exact (normal_solid hk ρ).1
    have hk : ((y.attrs.flatMap attrVars).map LocalVariable.key).Nodup := by
      obtain ⟨vs, hm, e⟩ := D.attrs
      have kept : ∀ ls : List CodeAttr, (ls.flatMap (keptAttr ρ')).flatMap attrVars = [] := by
        intro ls
        refine List.flatMap_eq_nil_iff.mpr fun b hb => ?_
        obtain ⟨l, _, hl⟩ := List.mem_flatMap.mp hb
        cases l <;> simp only [keptAttr, List.mem_singleton, List.not_mem_nil] at hl <;> subst hl <;> rfl
      have : y.attrs.flatMap attrVars = vs := by
        rw [e, List.flatMap_append, kept, List.nil_append]
        cases vs <;> simp [attrVars]
      rw [this, List.Nodup, List.pairwise_map]
      refine hm.once.imp fun {v w} hne e => hne ?_
      simp only [LocalVariable.key, Prod.mk.injEq] at e
      exact ⟨e.1, e.2.1, e.2.2.2, e.2.2.1⟩
    have hap := vars_apart hn hk hrec
    obtain ⟨vs, hvs, e⟩ := S.attrs
    have kept : ∀ as : List CodeAttribute, (as.flatMap (renCodeAttr ρ)).flatMap attrVars = [] := by
      intro ls
      refine List.flatMap_eq_nil_iff.mpr fun b hb => ?_
      obtain ⟨l, _, hl⟩ := List.mem_flatMap.mp hb
      cases l <;> simp only [renCodeAttr, List.mem_singleton, List.not_mem_nil] at hl <;> subst hl <;> rfl
    have hy : y.attrs.flatMap attrVars = vs := by
      rw [e, List.flatMap_append, kept, List.nil_append]
      cases vs <;> simp [attrVars]
    rw [hy] at hap
    have := (hvs.pairwise_iff fun {v w} hne ⟨h1, h2, h3, h4⟩ => hne ⟨h1.symm, h2.symm, h3.symm, h4.symm⟩).mp hap
    rw [List.pairwise_map] at this
    refine this.imp_of_mem fun {v w} hv hw hne ⟨h1, h2, h3, h4⟩ => hne ?_
    have hl : ∀ v ∈ x.attrs.flatMap attrVars, ∀ l ∈ varLabels v, place (ρ l) y.code = place l x.code := by
      intro v hv l hl
      rw [← place_resolve W.bsm]
      refine (S.places l (List.mem_append.mpr (.inr ?_))).2
      obtain ⟨b, hb, hv⟩ := List.mem_flatMap.mp hv
      refine List.mem_flatMap.mpr ⟨b, hb, ?_⟩
      cases b with
      | locals vs => exact List.mem_flatMap.mpr ⟨v, hv, hl⟩
      | _ => cases hv
    refine ⟨?_, ?_, h3, h4⟩
    · show place (ρ v.start) y.code = place (ρ w.start) y.code
      rw [hl v hv _ (by simp [varLabels]), hl w hw _ (by simp [varLabels]), h1]
    · show place (ρ v.stop) y.code = place (ρ w.stop) y.code
      rw [hl v hv _ (by simp [varLabels]), hl w hw _ (by simp [varLabels]), h2]
  · obtain ⟨y', q', ρ, hr', _, S⟩ := C39_roundtrip_partial ord hord x hw ⟨hi, ha, hv⟩ cp cp' bs h0 h hs (by omega) W hW hT
      cs st []
    rw [List.append_nil] at hr'
    cases hr.symm.trans hr'
    exact ⟨ρ, S⟩

/-- A body with two variables of the same name in the same place, of different types. -/
def twiceBody : Code := ⟨0, 1, [.label 0, .return none], [],
  [.locals [⟨0, 0, [105], some .int, none, 0⟩, ⟨0, 0, [105], some .long, none, 0⟩]]⟩

theorem twiceBody_ok : CodeWritable twiceBody ∧ (∀ i ∈ twiceBody.code, Readable i) ∧
    (∀ a ∈ twiceBody.attrs, AttrReadable a) ∧ ¬ VarsApart twiceBody := by
  have hi : ∀ i ∈ twiceBody.code, CodeOk i ∧ Readable i := by
    intro i hi
    simp only [twiceBody, List.mem_cons, List.not_mem_nil, or_false] at hi
    rcases hi with rfl | rfl <;> exact ⟨trivial, trivial⟩
  refine ⟨⟨fun i h => (hi i h).1, by decide, by decide, by decide, ?_⟩, fun i h => (hi i h).2, ?_, ?_⟩
  · intro a ha
    rw [show a = _ from List.mem_singleton.mp ha]
    intro v hv
    simp only [List.mem_cons, List.not_mem_nil, or_false] at hv
    rcases hv with rfl | rfl
    · exact ⟨fun d hd => by cases hd; exact .field .int, fun g hg => by cases hg⟩
    · exact ⟨fun d hd => by cases hd; exact .field .long, fun g hg => by cases hg⟩
  · intro a ha
    rw [show a = _ from List.mem_singleton.mp ha]
    intro v hv
    simp only [List.mem_cons, List.not_mem_nil, or_false] at hv
    rcases hv with rfl | rfl <;> exact .inl rfl
  · intro h
    exact (List.pairwise_cons.mp h).1 _ (List.mem_singleton.mpr rfl) ⟨rfl, rfl, rfl, rfl⟩

/-- The hypotheses of `C39_exact_partial` hold for `twiceBody`, and also where it says that the body is read. -/
example : VarsApart { twiceBody with attrs := [.locals [⟨0, 0, [105], some .int, none, 0⟩, ⟨0, 0, [106], some .long, none, 0⟩]] } := by
  refine .cons (fun w hw => ?_) (.cons (by simp) .nil)
  rw [List.mem_singleton.mp hw]
  exact fun h => by cases h.2.2.1

/-- Violated: of the two variables one is read. -/
theorem C39_violated : ¬ C39_full := by
  intro h
  obtain ⟨h1, h2, h3, h4⟩ := twiceBody_ok
  have e : ∃ bs cp', twiceBody.write VecCp.new = .ok (bs, cp') ∧ bs.length = 41 ∧ cp'.bsm = [] :=
    ⟨_, _, rfl, by decide +kernel, rfl⟩
  obtain ⟨bs, cp', e, hl, hb⟩ := e
  obtain ⟨P, hP⟩ := agrees_exists cp'.entries
  have hs : ∀ a cp1, writeCode twiceBody.code VecCp.new = .ok (a, cp1) → Sized twiceBody.code a := by
    intro a cp1 ha
    have e : writeCode [.label 0, .return none] VecCp.new = .ok (_, VecCp.new) := rfl
    rw [show twiceBody.code = [.label 0, .return none] from rfl, e] at ha
    cases ha
    exact .inl (by decide)
  have hW : World.Fits ⟨P, []⟩ cp' := ⟨hP, hb ▸ List.prefix_refl _⟩
  obtain ⟨y, q, ρ, hr, S⟩ := h (fun _ vs => vs) (fun _ _ => .refl _) twiceBody h1 h2 h3 VecCp.new cp' bs (.refl _) e hs
    (by omega) ⟨P, []⟩ hW (Nat.zero_le _) none ⟨[], none⟩
  obtain ⟨y', q', hr', hiff⟩ := C39_exact_partial (fun _ vs => vs) (fun _ _ => .refl _) twiceBody h1 h2 h3 VecCp.new cp' bs
    (.refl _) e hs (by omega) ⟨P, []⟩ hW (Nat.zero_le _) none ⟨[], none⟩
  rw [hr] at hr'
  cases hr'
  exact h4 (hiff.mp ⟨ρ, S⟩)

/-! ## C51 -/

/-- Full claim: what is written for a body is the content of an attribute `Code` with its parts. -/
def C51_full : Prop := ∀ (x : Code) (cp cp' : VecCp) (bs : Bytes), (∀ i ∈ x.code, CodeOk i) → (marks x.code).Nodup →
  (∀ a ∈ x.attrs, AttrWritable x.catches a) → Steps VecCp.new cp → x.write cp = .ok (bs, cp') →
  (∀ a cp1, writeCode x.code cp = .ok (a, cp1) → Sized x.code a) → bs.length < 2 ^ 32 →
  ∀ W : World, W.Fits cp' → codeFile (WEnv.outside.ctx W) x bs

/-- Violated: the number of handlers is cut to 16 bits (C41). -/
theorem C51_violated : ¬ C51_full := by
  intro h
  obtain ⟨bs, h1, h2⟩ := besieged_write 65536
  obtain ⟨P, hP⟩ := agrees_exists VecCp.new.entries
  obtain ⟨_, _, _, _, _, _, _, _, _, _, _, _, h3, _⟩ := h (besieged 65536) VecCp.new VecCp.new bs
    (by
      intro i hi
      simp only [besieged, List.mem_cons, List.not_mem_nil, or_false] at hi
      rcases hi with rfl | rfl <;> trivial) (by decide) (by intro a ha; cases ha) (.refl _) h1 (by
      intro a cp1 ha
      have : a.code = [0xB1] := by
        have e : writeCode [.label 0, .return none] VecCp.new = .ok (_, VecCp.new) := rfl
        rw [show (besieged 65536).code = [.label 0, .return none] from rfl, e] at ha
        cases ha
        rfl
      exact .inl (by rw [this]; decide)) (by omega) ⟨P, []⟩ ⟨hP, List.prefix_refl _⟩
  have h4 : (List.replicate 65536 (⟨0, 0, 0, none⟩ : Catch)).length < 65536 := h3.1
  rw [List.length_replicate] at h4
  omega

/-! ## C53 -/

/-- Full claim: what is written for a method has the layout of a method with its contents. -/
def C53_full : Prop := ∀ (m : Method) (cp cp' : VecCp) (bs : Bytes), m.Writable (fun b => (marks b.code).Nodup) →
  Steps VecCp.new cp → m.write cp = .ok (bs, cp') → bs.length < 2 ^ 32 →
  ∀ W : World, W.Fits cp' → method codeFile (WEnv.outside.ctx W) m bs

/-- A method that stores into a static field. -/
def storeMethod : Method := ⟨⟨0⟩, [109], .method [] none, [.code storeBody]⟩

/-- Where the body of a method stands whose only attribute it is. -/
theorem method_body {C : Type} {f : Fmt C} {c : Ctx} {a : Flags .method} {n : Bytes} {d : JType} {x : C} {bs : Bytes}
    (h : method f c ⟨a, n, d, [.code x]⟩ bs) : ∃ t u, bs = t ++ u ∧ t.length = 14 ∧ f c x u := by
  obtain ⟨b1, r1, rfl, h1, b2, r2, rfl, ⟨_, _, h2⟩, b3, r3, rfl, ⟨_, _, h3⟩, b4, r4, rfl, ⟨_, b5, h4, b6, r6, h5, h6, h7⟩, h8⟩ := h
  obtain ⟨i, u, _, h9, _, h10⟩ := h6
  cases h7
  cases h8
  refine ⟨b1 ++ (b2 ++ (b3 ++ (U2 1 ++ (U2 i.toNat ++ U4 u.length)))), u, ?_, ?_, h9⟩
  · rw [h4, h5, h10]
    simp
  · rw [h2, h3, show b1 = _ from h1.2]
    rfl

/-- Where the instructions of a body stand. -/
theorem body_insns {c : Ctx} {x : Code} {bs : Bytes} (h : codeFile c x bs) :
    ∃ c' t b u, bs = t ++ (b ++ u) ∧ t.length = 8 ∧ Layout c' 0 x.code b := by
  obtain ⟨c', b, _, _, _, _, lss, _, hs, as, hlay, _, _, _, h9⟩ := h
  exact ⟨c', U2 x.maxStack.toNat ++ U2 x.maxLocals.toNat ++ U4 b.length, b, hs ++ as,
    by rw [h9]; simp only [List.append_assoc], rfl, hlay⟩

/-- Violated: the store is written as a load (C34). -/
theorem C53_violated : ¬ C53_full := by
  intro h
  have e : ∃ bs cp', storeMethod.write VecCp.new = .ok (bs, cp') ∧ bs.length < 2 ^ 32 ∧ cp'.bsm = [] ∧
      (bs.drop 22).head? = some 0xB2 := by
    have e : (match storeMethod.write VecCp.new with
        | .ok (bs, cp') => decide (bs.length < 2 ^ 32) && cp'.bsm.isEmpty && (bs.drop 22).head? == some 0xB2
        | .error _ => false) = true := by decide +kernel
    cases hw : storeMethod.write VecCp.new with
    | error => rw [hw] at e; cases e
    | ok r =>
      rw [hw] at e
      simp only [Bool.and_eq_true, decide_eq_true_eq, List.isEmpty_iff, beq_iff_eq] at e
      exact ⟨r.1, r.2, rfl, e.1.1, e.1.2, e.2⟩
  obtain ⟨bs, cp', hw, hl, hb, hd⟩ := e
  obtain ⟨P, hP⟩ := agrees_exists cp'.entries
  have h1 := h storeMethod VecCp.new cp' bs ⟨knownFlags_of (by decide), .void (by simp), by
      intro a ha
      rw [show a = _ from List.mem_singleton.mp ha]
      exact .nil⟩ (.refl _) hw hl ⟨P, []⟩ ⟨hP, hb ▸ List.prefix_refl _⟩
  obtain ⟨t, u, rfl, ht, h2⟩ := method_body h1
  obtain ⟨c', t', b, u', rfl, ht', h3⟩ := body_insns h2
  have e : (t ++ (t' ++ (b ++ u'))).drop 22 = b ++ u' := by
    rw [← List.append_assoc, List.drop_left' (by rw [List.length_append, ht, ht'])]
  rw [e] at hd
  cases h3 with
  | @cons _ _ _ b b' h4 _ =>
    have hh := field_head h4
    cases b with
    | nil => cases hh
    | cons y b =>
      cases hd
      cases hh

end Verif.Props
