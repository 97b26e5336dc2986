import Verif.Lemmas.NeatCode

/-! What readers return: methods and classes. -/

namespace Verif
open Spec Sig

variable {α β : Type}

/-! ## Readers of short inputs -/

theorem shrinks_lift {r : Reader α} (h : Plain r) : Shrinks (Rd.lift r) := by
  intro env st bs x st' rest hr
  unfold Rd.lift at hr
  have := h bs
  split at hr
  · rename_i e
    cases hr
    rw [e] at this
    exact this.length_le
  · cases hr

theorem shrinks_opt {f : UInt16 → Rd α} (h : ∀ i, Shrinks (f i)) : Shrinks (rOpt f) := by
  refine Shrinks.bind (Shrinks.num _) fun i => ?_
  by_cases hi : i = 0
  · rw [if_pos hi]; exact .pure _
  · rw [if_neg hi]; exact Shrinks.map (h i)

theorem shrinks_str {tag : UInt8} : Shrinks (rStr tag) := .idx _
theorem shrinks_clsOpt : Shrinks rClsOpt := shrinks_opt fun _ => .lookup _ _

theorem shrinks_flags {t : FlagType} : Shrinks (rFlags t) := by
  intro env st bs x st' rest hr
  unfold rFlags at hr
  exact shrinks_lift (plain_map (plain_num _)) _ _ _ _ _ _ hr

/-- A frame: the payload is not longer than the input. -/
theorem framed_ok {nm : Bytes} {r : Rd α} {env : REnv} {st st' : RSt} {bs rest : Bytes} {x : α}
    (h : rFramed nm r env st bs = .ok (x, st', rest)) :
    ∃ body, body.length ≤ bs.length ∧ rest.length ≤ bs.length ∧ r env st body = .ok (x, st', []) := by
  unfold rFramed at h
  split at h
  · cases h
  rename_i len bs1 h1
  split at h
  · cases h
  rename_i body bs2 h2
  split at h
  · cases h
  · rename_i h3
    cases h
    have e1 := plain_num u32 bs
    rw [h1] at e1
    have e1 : bs1.length ≤ bs.length := List.IsSuffix.length_le e1
    have e2 := readExact_parts h2
    rw [e2.1, List.length_append] at e1
    exact ⟨body, by omega, by omega, h3⟩
  · cases h

theorem shrinks_framed {nm : Bytes} {r : Rd α} : Shrinks (rFramed nm r) := fun _ _ _ _ _ _ h => (framed_ok h).choose_spec.2.1

theorem shrinks_rawBody : Shrinks rRawBody := by
  intro env st bs x st' rest h
  unfold rRawBody at h
  split at h
  · cases h
  rename_i len bs1 h1
  split at h
  · cases h
  rename_i body bs2 h2
  cases h
  have e1 := plain_num u32 bs
  rw [h1] at e1
  have e1 : bs1.length ≤ bs.length := List.IsSuffix.length_le e1
  have e2 := readExact_parts h2
  rw [e2.1, List.length_append] at e1
  omega

theorem shrinks_attr {table : Bytes → Option (Rd α)} {raw : RawAttribute → α} : Shrinks (rAttr table raw) := by
  refine Shrinks.bind Shrinks.utf8 fun s => ?_
  rcases table s with _ | r
  · exact Shrinks.map shrinks_rawBody
  · exact shrinks_framed

theorem shrinks_field : Shrinks Field.read :=
  Shrinks.ap (Shrinks.ap (Shrinks.ap (Shrinks.map shrinks_flags) Shrinks.utf8) Shrinks.type) (Shrinks.vec shrinks_attr)

theorem shrinks_methodAttr {ord : Order} : Shrinks (MethodAttr.read ord) :=
  fun env st bs x st' rest h => shrinks_attr env st bs x st' rest h

theorem shrinks_method {ord : Order} : Shrinks (Method.read ord) :=
  Shrinks.ap (Shrinks.ap (Shrinks.ap (Shrinks.map shrinks_flags) Shrinks.utf8) Shrinks.type) (Shrinks.vec shrinks_methodAttr)

/-- Like `Gives`, for inputs of fewer than `N` bytes. -/
def GivesUnder (N : Nat) (Q : α → Prop) (r : Rd α) : Prop := ∀ env st bs x st' rest, LegiblePool env.pool →
  bs.length < N → r env st bs = .ok (x, st', rest) → Q x

theorem Gives.under {N : Nat} {Q : α → Prop} {r : Rd α} (h : Gives Q r) : GivesUnder N Q r :=
  fun _ _ _ _ _ _ hp _ hr => h _ _ _ _ _ _ hp hr

theorem GivesUnder.mono {N : Nat} {P Q : α → Prop} {r : Rd α} (h : GivesUnder N P r) (hq : ∀ x, P x → Q x) : GivesUnder N Q r :=
  fun _ _ _ _ _ _ hp hl hr => hq _ (h _ _ _ _ _ _ hp hl hr)

theorem under_and {N : Nat} {P Q : α → Prop} {r : Rd α} (h : GivesUnder N P r) (h' : GivesUnder N Q r) :
    GivesUnder N (fun x => P x ∧ Q x) r :=
  fun _ _ _ _ _ _ hp hl hr => ⟨h _ _ _ _ _ _ hp hl hr, h' _ _ _ _ _ _ hp hl hr⟩

theorem under_bind {N : Nat} {P : α → Prop} {Q : β → Prop} {r : Rd α} {f : α → Rd β} (h : GivesUnder N P r) (hs : Shrinks r)
    (hf : ∀ a, P a → GivesUnder N Q (f a)) : GivesUnder N Q (Rd.bind r f) := by
  intro env st bs x st' rest hp hl hr
  obtain ⟨a, st1, bs1, h1, h2⟩ := Rd.bind_ok hr
  have := hs _ _ _ _ _ _ h1
  exact hf a (h _ _ _ _ _ _ hp hl h1) _ _ _ _ _ _ hp (by omega) h2

theorem under_pure {N : Nat} {Q : α → Prop} {a : α} (h : Q a) : GivesUnder N Q (Rd.pure a) := (gives_pure h).under

theorem under_map {N : Nat} {Q : β → Prop} {r : Rd α} {f : α → β} (h : GivesUnder N (fun a => Q (f a)) r) :
    GivesUnder N Q (Rd.map f r) := by
  intro env st bs x st' rest hp hl hr
  obtain ⟨a, st1, bs1, h1, h2⟩ := Rd.bind_ok hr
  cases h2
  exact h _ _ _ _ _ _ hp hl h1

theorem under_ap {N : Nat} {R : α → Prop} {Q : β → Prop} {f : Rd (α → β)} {r : Rd α}
    (h : GivesUnder N (fun g => ∀ a, R a → Q (g a)) f) (hs : Shrinks f) (hr : GivesUnder N R r) : GivesUnder N Q (Rd.ap f r) :=
  under_bind h hs fun _ hg => under_map (f := _) (hr.mono fun a ha => hg a ha)

theorem under_replicate {N : Nat} {Q : α → Prop} {r : Rd α} (h : GivesUnder N Q r) (hs : Shrinks r) :
    ∀ n, GivesUnder N (fun xs => ∀ x ∈ xs, Q x) (Rd.replicate n r)
  | 0 => under_pure (by simp)
  | n + 1 => under_bind h hs fun a ha => under_bind (under_replicate h hs n) (Shrinks.replicate hs n) fun as has =>
      under_pure (by simpa using ⟨ha, has⟩)

theorem under_vec {N : Nat} {ν : Type} {l : NumCodec ν} {Q : α → Prop} {r : Rd α} (h : GivesUnder N Q r) (hs : Shrinks r) :
    GivesUnder N (fun xs => ∀ x ∈ xs, Q x) (rVec l r) :=
  under_bind (P := fun _ => True) (gives_any _).under (Shrinks.num l) fun _ _ => under_replicate h hs _

theorem under_list {N : Nat} {Q : α → Prop} {r : Rd α} (h : GivesUnder N Q r) (hs : Shrinks r) :
    GivesUnder N (fun xs => xs.length < 65536 ∧ ∀ x ∈ xs, Q x) (rVec u16 r) := under_and gives_len.under (under_vec h hs)

theorem under_attr {N : Nat} {Q : α → Prop} {table : Bytes → Option (Rd α)} {raw : RawAttribute → α}
    (h : ∀ name r, table name = some r → GivesUnder N Q r) (hr : ∀ s b, table s = none → Q (raw ⟨s, b⟩)) :
    GivesUnder N Q (rAttr table raw) := by
  refine under_bind (P := fun _ => True) (gives_any _).under Shrinks.utf8 fun s _ => ?_
  rcases ht : table s with _ | r
  · exact under_map (gives_all (fun b => hr s b ht) _).under
  · intro env st bs x st' rest hp hl hr
    obtain ⟨body, h1, _, h2⟩ := framed_ok hr
    exact h s r ht _ _ _ _ _ _ hp (by omega) h2

theorem under_table {N : Nat} {Q : α → Prop} {c : Prop} [Decidable c] {r : Rd α} {o : Option (Rd α)} (h : GivesUnder N Q r)
    (ho : ∀ r, o = some r → GivesUnder N Q r) : ∀ r', (if c then some r else o) = some r' → GivesUnder N Q r' := by
  intro r' e
  split at e
  · cases e; exact h
  · exact ho r' e

/-! ## Bodies -/

/-- A body with its cells filled. -/
def fillCode (T : List Bsm) (x : Code) : Code := { x with code := x.code.map (resolveI T) }

theorem resolveD_descriptor (T : List Bsm) (d : Dynamic) : (resolveD T d).descriptor = d.descriptor := by
  unfold resolveD
  split
  · rfl
  · split <;> rfl

theorem codeOk_resolve (T : List Bsm) {i : Insn} (h : CodeOk i) : CodeOk (resolveI T i) := by
  have dyn : ∀ d, DynOk d → DynOk (resolveD T d) := fun d hd => by
    unfold DynOk
    rw [resolveD_descriptor]
    exact hd
  have or : ∀ {α : Type} {ok : α → Prop} {x : OrDynamic α}, OrDynOk ok x → OrDynOk ok (resolveO T x) := by
    intro α ok x hx
    cases x with
    | dynamic d => exact dyn d hx
    | static a => exact hx
  cases i with
  | push c => cases c with
    | dynamic d =>
      refine ⟨dyn d h.1, ?_⟩
      exact h.2
    | static c => exact h
  | checkCast t => exact or h
  | instanceOf t => exact or h
  | newArray t n => exact h.elim
  | new t => exact or h
  | field o t m => cases o <;> cases t <;> first | exact or h | exact (show False from h).elim
  | invokeExact t m => exact or h
  | invokeSpecial m => exact or h
  | invokeInterface m n => exact or h
  | invokeDynamic d =>
    have h : Printable d.descriptor ∧ ∃ ps r, d.descriptor = .method ps r := h
    show Printable (resolveD T d).descriptor ∧ ∃ ps r, (resolveD T d).descriptor = .method ps r
    rw [resolveD_descriptor]
    exact h
  | _ => exact h

theorem readable_resolve (T : List Bsm) {i : Insn} (h : Readable i) (hc : CodeOk i) : Readable (resolveI T i) := by
  cases i with
  | push c => cases c with
    | dynamic d => exact h.elim
    | static c => exact trivial
  | newArray t n => exact (show False from hc).elim
  | _ => trivial

theorem room_resolve (T : List Bsm) (i : Insn) : room (resolveI T i) = room i := by cases i <;> rfl

theorem branches_resolve (T : List Bsm) (is : List Insn) : branches (is.map (resolveI T)) = branches is := by
  induction is with
  | nil => rfl
  | cons i is ih => cases i <;> simp [branches, resolveI, ih]

theorem compact_resolve (T : List Bsm) {is : List Insn} (h : Compact is) : Compact (is.map (resolveI T)) := by
  have : (is.map (resolveI T)).map room = is.map room := by
    rw [List.map_map]
    exact List.map_congr_left fun i _ => room_resolve T i
  unfold Compact
  rw [this, branches_resolve]
  exact h

theorem normal_resolve (T : List Bsm) (i : Insn) : (normal (resolveI T i)).isSome = (normal i).isSome := by
  cases i with
  | push c => cases c <;> rfl
  | field o t m => cases m <;> rfl
  | invokeExact t m => cases m <;> rfl
  | invokeSpecial m => cases m <;> rfl
  | invokeInterface m n => cases m <;> rfl
  | _ => rfl

theorem place_resolve (T : List Bsm) (l : Label) : ∀ is : List Insn, place l (is.map (resolveI T)) = place l is
  | [] => rfl
  | i :: is => by
    have ih := place_resolve T l is
    have hn := normal_resolve T i
    cases i with
    | label l' =>
      rw [List.map_cons, resolveI, place, place, ih]
      all_goals nofun
    | _ =>
      rw [resolveI] at hn
      rw [List.map_cons, resolveI, place, place, ih]
      all_goals first | rw [hn] | nofun

theorem filterMap_nodup {ν : Nat → Option Label} (hν : ∀ p q l, ν p = some l → ν q = some l → p = q) :
    ∀ {ps : List Nat}, ps.Nodup → (ps.filterMap ν).Nodup
  | [], _ => by simp
  | p :: ps, h => by
    rw [List.nodup_cons] at h
    have ih := filterMap_nodup hν h.2
    rcases e : ν p with _ | l
    · rw [List.filterMap_cons, e]; exact ih
    · rw [List.filterMap_cons, e]
      refine List.nodup_cons.mpr ⟨fun hl => ?_, ih⟩
      obtain ⟨q, hq, hl⟩ := List.mem_filterMap.mp hl
      exact h.1 (hν p q l e hl ▸ hq)

theorem solid_mark {i : Insn} (h : solid [i] = [i]) : ∀ l, i ≠ .label l := by
  rintro l rfl
  cases h

theorem rebuild_mem {ν : Nat → Option Label} {line : Nat → Option UInt16} {pis : List (Nat × Insn)} {len : Nat} :
    ∀ e ∈ pis, e.2 ∈ rebuild ν line pis len := by
  induction pis with
  | nil => nofun
  | cons e pis ih =>
    obtain ⟨p, i⟩ := e
    intro e he
    rw [rebuild, List.mem_append, List.mem_cons]
    rcases List.mem_cons.mp he with rfl | he
    · exact .inr (.inl rfl)
    · exact .inr (.inr (ih e he))

/-- No two variables of a body that was read have the same name, index and range. -/
theorem vars_apart {P : Pool} {bs : Bytes} {x : Code} {code : Bytes} {prs : List (Nat × RInsn)} {ν : Nat → Option Label}
    (hi : ∀ i ∈ x.code, solid [i] = [i] → (normal i).isSome)
    (hv : ((x.attrs.flatMap attrVars).map LocalVariable.key).Nodup) (r : Recovers P bs x code prs ν) :
    (x.attrs.flatMap attrVars).Pairwise fun v w => ¬ (place v.start x.code = place w.start x.code ∧
      place v.stop x.code = place w.stop x.code ∧ v.name = w.name ∧ v.index = w.index) := by
  obtain ⟨line, pis, hm, hcode⟩ := r.insns
  have hfst : pis.map Prod.fst = prs.map Prod.fst :=
    matched_fst (R := fun r i p => Refers (reach ν p) r i) hm
  have hnd := (decodes_pos r.decodes).2
  rw [Nat.zero_add, ← hfst] at hnd
  have hsol : ∀ e ∈ pis, solid [e.2] = [e.2] := fun e he => by
    obtain ⟨e', _, h⟩ := hm.right e he
    exact refers_solid h.2
  have hplace : ∀ l, (∃ v ∈ x.attrs.flatMap attrVars, l ∈ varLabels v) → ∃ p k, ν p = some l ∧
      (pis.map Prod.fst ++ [code.length])[k]? = some p ∧ place l x.code = some k := by
    rintro l ⟨v, hv, hl⟩
    obtain ⟨a, ha, hv⟩ := List.mem_flatMap.mp hv
    obtain ⟨p, hp⟩ := r.used l (by
      unfold usedLabels
      refine List.mem_append.mpr (.inr (List.mem_flatMap.mpr ⟨a, ha, ?_⟩))
      cases a with
      | locals vs => exact List.mem_flatMap.mpr ⟨v, hv, hl⟩
      | _ => cases hv)
    have hr := r.range p l hp
    rw [← hfst] at hr
    obtain ⟨k, hk⟩ := List.getElem?_of_mem hr
    refine ⟨p, k, hp, hk, ?_⟩
    rw [hcode]
    refine rebuild_place r.inj (fun e he => ⟨?_, solid_mark (hsol e he)⟩) hnd hk hp
    exact hi _ (hcode ▸ rebuild_mem e he) (hsol e he)
  have hinj : ∀ l l', (∃ v ∈ x.attrs.flatMap attrVars, l ∈ varLabels v) →
      (∃ v ∈ x.attrs.flatMap attrVars, l' ∈ varLabels v) → place l x.code = place l' x.code → l = l' := by
    intro l l' hl hl' e
    obtain ⟨p, k, h1, h2, h3⟩ := hplace l hl
    obtain ⟨p', k', h1', h2', h3'⟩ := hplace l' hl'
    rw [h3, h3'] at e
    cases e
    rw [h2] at h2'
    cases h2'
    rw [h1] at h1'
    cases h1'
    rfl
  rw [List.Nodup, List.pairwise_map] at hv
  refine hv.imp_of_mem fun {v w} hvm hwm hne ⟨h1, h2, h3, h4⟩ => hne ?_
  have e1 := hinj _ _ ⟨v, hvm, by simp [varLabels]⟩ ⟨w, hwm, by simp [varLabels]⟩ h1
  have e2 := hinj _ _ ⟨v, hvm, by simp [varLabels]⟩ ⟨w, hwm, by simp [varLabels]⟩ h2
  unfold LocalVariable.key
  rw [e1, e2, h3, h4]

/-- A body that was read can be written and read again, if it is regular. -/
def BodyGood (x : Code) : Prop := RegularBody x → ∀ T : List Bsm,
  (CodeWritable (fillCode T x) ∧ Compact (fillCode T x).code) ∧ CodeReadable (fillCode T x)

theorem body_good {P : Pool} {bs : Bytes} {x : Code} {code : Bytes} {prs : List (Nat × RInsn)} {ν : Nat → Option Label}
    (g : GoodParts x) (r : Recovers P bs x code prs ν) : BodyGood x := by
  intro hx T
  obtain ⟨line, pis, hm, hcode⟩ := r.insns
  have hfst : pis.map Prod.fst = prs.map Prod.fst :=
    matched_fst (R := fun r i p => Refers (reach ν p) r i) hm
  have hnd := (decodes_pos r.decodes).2
  rw [Nat.zero_add, ← hfst] at hnd
  have hsol : ∀ e ∈ pis, solid [e.2] = [e.2] := fun e he => by
    obtain ⟨e', _, h⟩ := hm.right e he
    exact refers_solid h.2
  have hok : ∀ i ∈ x.code, CodeOk i ∧ Readable i := fun i hi => goodInsn_ok (g.insns i hi) (hx.insns i hi)
  have hplaced : (placed x.code).Nodup := by
    rw [hcode, placed_rebuild fun e he => solid_mark (hsol e he)]
    exact filterMap_nodup r.inj hnd
  have hann : ∀ {as : List (TypeAnnotation CodeTarget)}, (∀ a ∈ as, NeatElems a.vals) → (∀ a ∈ as, RegularTypeAnn a) →
      (∀ a ∈ as, ∀ k ∈ targetCatches a.target, k ∈ x.catches) → ∀ a ∈ as, Verif.AnnWritable x.catches a :=
    fun h1 h2 h3 a ha => by
      have := typeAnnWritable (h1 a ha) (h2 a ha)
      exact ⟨⟨this.1, this.2.1, this.2.2⟩, h3 a ha⟩
  have hcatch : ∀ {as : List (TypeAnnotation CodeTarget)} {y : CodeAttribute}, y ∈ x.attrs →
      (∀ a ∈ as, ∀ k ∈ targetCatches a.target, k ∈ annCatches y) → ∀ a ∈ as, ∀ k ∈ targetCatches a.target, k ∈ x.catches :=
    fun hy h a ha k hk => r.catches k (List.mem_flatMap.mpr ⟨_, hy, h a ha k hk⟩)
  refine ⟨⟨⟨?_, ?_, g.catches, g.attrs, ?_⟩, compact_resolve T hx.compact⟩, ?_, ?_, ?_⟩
  · intro i hi
    obtain ⟨j, hj, rfl⟩ := List.mem_map.mp hi
    exact codeOk_resolve T (hok j hj).1
  · show (marks (x.code.map (resolveI T))).Nodup
    rw [marks_placed, placed_resolve]
    exact hplaced
  · intro a ha
    have hr := hx.attrs a ha
    show AttrWritable x.catches a
    rcases g.attr a ha with hn | ⟨vs, rfl, hv⟩
    · cases a with
      | locals vs => exact hn.elim
      | raw a => trivial
      | visibleType as =>
        refine hann hn hr (hcatch ha fun b hb k hk => List.mem_flatMap.mpr ⟨b, hb, ?_⟩)
        cases ht : b.target <;> rw [ht] at hk <;> first | exact hk | cases hk
      | invisibleType as =>
        refine hann hn hr (hcatch ha fun b hb k hk => List.mem_flatMap.mpr ⟨b, hb, ?_⟩)
        cases ht : b.target <;> rw [ht] at hk <;> first | exact hk | cases hk
    · exact fun v hv => hr v hv
  · intro i hi
    obtain ⟨j, hj, rfl⟩ := List.mem_map.mp hi
    exact readable_resolve T (hok j hj).2 (hok j hj).1
  · intro a ha
    rcases g.attr a ha with hn | ⟨vs, rfl, hv⟩
    · cases a with
      | locals vs => exact hn.elim
      | raw a => exact hn
      | visibleType as => exact fun b hb => neat_keyed (hn b hb)
      | invisibleType as => exact fun b hb => neat_keyed (hn b hb)
    · exact fun v h => hv v h
  · have := vars_apart (fun i hi hs => goodInsn_normal (g.insns i hi) hs) g.vars r
    show (x.attrs.flatMap attrVars).Pairwise _
    simpa only [fillCode, place_resolve] using this

theorem under_code {ord : Nat → List LocalVariable → List LocalVariable} (ho : ∀ n l, (ord n l).Perm l) :
    GivesUnder 2147483648 BodyGood (Code.read ord) := by
  intro env st bs x st' rest hp hl hr
  obtain ⟨_, body, code, prs, ν, _, hrec⟩ := read_sound ho hr hl
  exact body_good (good_code ho _ _ _ _ _ _ hp hr) hrec

end Verif
