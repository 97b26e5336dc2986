import Verif.Lemmas.Members
import Verif.Lemmas.Method
import Verif.Props.Parts

/-! # C98 for fields, methods and bodies, and C100: attributes that are not known can be added and removed -/

namespace Verif.Props
open Verif Spec

/-! ## The parts of fields, methods and bodies -/

/-- The bytes of a method are accepted if and only if they are parts that are accepted one by one; the method consists
of what the parts give. -/
theorem C98_method_parts (f : List LocalVariable → List LocalVariable) (P : Pool) (b : Bytes) (m : Method) :
    Alone (Method.read fun _ _ => f) P b m ↔ ∃ y : MemberParts, b = y.bytes ∧ y.GivesMethod f P m := method_parts

/-- The same for a field. -/
theorem C98_field_parts (P : Pool) (b : Bytes) (d : Field) :
    Alone Field.read P b d ↔ ∃ y : MemberParts, b = y.bytes ∧ y.GivesField P d := field_parts

/-- There is only one way to cut a method or a field. -/
theorem C98_members_unique (f : List LocalVariable → List LocalVariable) (P : Pool) (y y' : MemberParts)
    (e : y.bytes = y'.bytes) :
    (∀ m m', y.GivesMethod f P m → y'.GivesMethod f P m' → y = y') ∧ ∀ d d', y.GivesField P d → y'.GivesField P d' → y = y' :=
  ⟨fun _ _ h h' => method_same h h' e, fun _ _ h h' => field_same h h' e⟩

theorem alone_unique {α : Type} {r : Rd α} {P : Pool} {b : Bytes} {a a' : α} (h : Alone r P b a) (h' : Alone r P b a') :
    a = a' := by
  obtain ⟨st, h⟩ := h
  obtain ⟨st', h'⟩ := h'
  rw [h] at h'
  cases h'
  rfl

/-- The attribute `Code` of a method is its name, its length, and the body. -/
theorem code_attr {f : List LocalVariable → List LocalVariable} {P : Pool} {i : UInt16} {b : Bytes} (hi : IsUtf8 P i N.code)
    (hl : b.length < 2 ^ 32) (a : MethodAttr) : Alone (MethodAttr.read fun _ _ => f) P (attrBytes i b) a ↔
      ∃ k st, a = .code k ∧ (Code.readIn fun _ => f) ⟨P, some []⟩ ⟨[], some []⟩ b = .ok (k, st, []) := by
  have h1 : rUtf8 ⟨P, none⟩ ⟨[], none⟩ (attrBytes i b) = .ok (N.code, ⟨[], none⟩, U4 b.length ++ b) := by
    unfold rUtf8 rIdx Rd.bind rNum Rd.lift attrBytes
    rw [readsU2]
    simp only
    unfold rLookup Pool.wtf8
    simp only
    rw [show P i = some (.utf8 N.code) from hi]
  have h2 : MethodAttr.read (fun _ _ => f) ⟨P, none⟩ ⟨[], none⟩ (attrBytes i b) =
      rFramed N.code (Rd.map .code (Code.read fun _ => f)) ⟨P, none⟩ ⟨[], none⟩ (U4 b.length ++ b) := by
    unfold MethodAttr.read rAttr Rd.bind
    rw [h1]
    have ht : MethodAttr.table (fun _ => f) N.code = some (Rd.map .code (Code.read fun _ => f)) := if_pos rfl
    simp only [ht]
  have hn : (UInt32.ofNat b.length).toNat = b.length := by
    rw [UInt32.toNat_ofNat']
    exact Nat.mod_eq_of_lt hl
  have h3 : readExact b.length b = .ok (b, []) := by
    have := readExact_append b.length b [] rfl
    rwa [List.append_nil] at this
  unfold Alone
  rw [h2]
  unfold rFramed
  rw [readsU4' _ hl]
  simp only [hn, h3]
  constructor
  · rintro ⟨st, h⟩
    split at h
    · cases h
    · rename_i k1
      cases h
      obtain ⟨k', rfl, k2⟩ := map_ok k1
      unfold Code.read at k2
      split at k2
      · cases k2
      · rename_i h4
        cases k2
        exact ⟨_, _, rfl, h4⟩
    · cases h
  · rintro ⟨k, st, rfl, h⟩
    have h4 : Code.read (fun _ => f) ⟨P, none⟩ ⟨[], none⟩ b = .ok (k, ⟨st.pending, none⟩, []) := by
      unfold Code.read
      rw [h]
    exact ⟨⟨st.pending, none⟩, by rw [map_of h4]⟩

theorem code_table {f : List LocalVariable → List LocalVariable} {name : Bytes} {r : Rd MethodAttr} {env : REnv} {st st' : RSt}
    {bs rest : Bytes} {k : Code} (ht : MethodAttr.table (fun _ => f) name = some r)
    (h : r env st bs = .ok (.code k, st', rest)) : name = N.code := by
  unfold MethodAttr.table at ht
  by_cases hn : name = N.code
  · exact hn
  rw [if_neg hn] at ht
  by_cases e0 : name = N.deprecated
  · rw [if_pos e0] at ht; cases ht; cases h
  rw [if_neg e0] at ht
  by_cases e1 : name = N.synthetic
  · rw [if_pos e1] at ht; cases ht; cases h
  rw [if_neg e1] at ht
  by_cases e2 : name = N.signature
  · rw [if_pos e2] at ht; cases ht; obtain ⟨a, h5, _⟩ := map_ok h; cases h5
  rw [if_neg e2] at ht
  by_cases e3 : name = N.runtimeVisibleAnnotations
  · rw [if_pos e3] at ht; cases ht; obtain ⟨a, h5, _⟩ := map_ok h; cases h5
  rw [if_neg e3] at ht
  by_cases e4 : name = N.runtimeInvisibleAnnotations
  · rw [if_pos e4] at ht; cases ht; obtain ⟨a, h5, _⟩ := map_ok h; cases h5
  rw [if_neg e4] at ht
  by_cases e5 : name = N.runtimeVisibleTypeAnnotations
  · rw [if_pos e5] at ht; cases ht; obtain ⟨a, h5, _⟩ := map_ok h; cases h5
  rw [if_neg e5] at ht
  by_cases e6 : name = N.runtimeInvisibleTypeAnnotations
  · rw [if_pos e6] at ht; cases ht; obtain ⟨a, h5, _⟩ := map_ok h; cases h5
  rw [if_neg e6] at ht
  by_cases e7 : name = N.runtimeVisibleParameterAnnotations
  · rw [if_pos e7] at ht; cases ht; obtain ⟨a, h5, _⟩ := map_ok h; cases h5
  rw [if_neg e7] at ht
  by_cases e8 : name = N.runtimeInvisibleParameterAnnotations
  · rw [if_pos e8] at ht; cases ht; obtain ⟨a, h5, _⟩ := map_ok h; cases h5
  rw [if_neg e8] at ht
  by_cases e9 : name = N.exceptions
  · rw [if_pos e9] at ht; cases ht; obtain ⟨a, h5, _⟩ := map_ok h; cases h5
  rw [if_neg e9] at ht
  by_cases e10 : name = N.annotationDefault
  · rw [if_pos e10] at ht; cases ht; obtain ⟨a, h5, _⟩ := map_ok h; cases h5
  rw [if_neg e10] at ht
  by_cases e11 : name = N.methodParameters
  · rw [if_pos e11] at ht; cases ht; obtain ⟨a, h5, _⟩ := map_ok h; cases h5
  rw [if_neg e11] at ht
  cases ht

/-- Every body is cut into its limits, its code, the entries of its exception table, and its attributes. -/
theorem C98_body_parts (f : List LocalVariable → List LocalVariable) (P : Pool) (b : Bytes) (k : Code)
    (h : Alone (MethodAttr.read fun _ _ => f) P b (.code k)) :
    ∃ (i : UInt16) (z : BodyParts), b = attrBytes i z.bytes ∧ IsUtf8 P i N.code ∧ z.Sized ∧ z.bytes.length < 2 ^ 32 := by
  obtain ⟨st, h⟩ := h
  obtain ⟨i, data, e, hl⟩ := attr_cut (show rAttr _ _ _ _ _ = _ from h)
  rw [List.append_nil] at e
  subst e
  have hi : IsUtf8 P i N.code := by
    unfold MethodAttr.read rAttr at h
    obtain ⟨name, st1, bs1, h1, h2⟩ := Rd.bind_ok h
    unfold rUtf8 rIdx at h1
    obtain ⟨j, st2, bs2, h3, h4⟩ := Rd.bind_ok h1
    obtain ⟨rfl, e⟩ := num16_cut h3
    unfold attrBytes at e
    obtain ⟨e, _⟩ := U2_same i.toNat_lt j.toNat_lt e
    obtain rfl := UInt16.toNat_inj.mp e
    unfold rLookup at h4
    split at h4
    · rename_i hp
      cases h4
      by_cases hn : name = N.code
      · subst hn
        unfold Pool.wtf8 at hp
        simp only at hp
        split at hp
        · rename_i hp'
          cases hp
          exact hp'
        · cases hp
      · rcases ht : MethodAttr.table (fun _ => f) name with _ | r
        · simp only [ht] at h2
          obtain ⟨a, h5, _⟩ := map_ok h2
          cases h5
        · simp only [ht] at h2
          unfold rFramed at h2
          split at h2
          · cases h2
          · split at h2
            · cases h2
            · split at h2
              · cases h2
              · rename_i k
                cases h2
                exact absurd (code_table ht k) hn
              · cases h2
    · cases h4
  obtain ⟨k', st', _, h5⟩ := (code_attr (f := f) hi hl _).mp ⟨st, h⟩
  obtain ⟨z, rfl, hz⟩ := code_cut_parts h5
  exact ⟨i, z, rfl, hi, hz, hl⟩

/-! ## Adding and removing attributes -/

theorem matched_both {α β : Type} {R : α → β → Prop} : ∀ {as as' : List α} {xs : List β}, Matched R (as ++ as') xs →
    ∃ cs ds, xs = cs ++ ds ∧ cs.length = as.length ∧ Matched R as cs ∧ Matched R as' ds
  | [], _, _, h => ⟨[], _, rfl, rfl, .nil, h⟩
  | _ :: _, _, _, .cons h1 h2 => by
    obtain ⟨cs, ds, rfl, e, h3, h4⟩ := matched_both h2
    exact ⟨_ :: cs, ds, rfl, congrArg (· + 1) e, .cons h1 h3, h4⟩

theorem matched_joined {α β : Type} {R : α → β → Prop} {as as' : List α} {cs ds : List β} (h : Matched R as cs)
    (h' : Matched R as' ds) : Matched R (as ++ as') (cs ++ ds) := by
  induction h with
  | nil => exact h'
  | cons h1 _ ih => exact .cons h1 ih

theorem matched_at {α β : Type} {R : α → β → Prop} {as : List α} {bs : List β} (h : Matched R as bs) : ∀ {i : Nat} {a : α},
    as[i]? = some a → ∃ b, bs[i]? = some b ∧ R a b := by
  induction h with
  | nil => intro i a h; cases i <;> cases h
  | cons h1 _ ih =>
    intro i a h
    cases i with
    | zero => cases h; exact ⟨_, rfl, h1⟩
    | succ i => exact ih h

theorem each_added {α : Type} {r : Rd α} {P : Pool} {as bs : List Bytes} {xs : List α} {b : Bytes} {a : α}
    (h : EachAlone r P (as ++ bs) xs) (hb : Alone r P b a) (hl : (as ++ bs).length + 1 < 65536) :
    ∃ cs ds, xs = cs ++ ds ∧ cs.length = as.length ∧ EachAlone r P (as ++ b :: bs) (cs ++ a :: ds) := by
  obtain ⟨cs, ds, rfl, e, h1, h2⟩ := matched_both h.2
  refine ⟨cs, ds, rfl, e, ?_, matched_joined h1 (.cons hb h2)⟩
  rw [List.length_append, List.length_cons]
  rw [List.length_append] at hl
  omega

theorem each_removed {α : Type} {r : Rd α} {P : Pool} {as bs : List Bytes} {xs : List α} {b : Bytes}
    (h : EachAlone r P (as ++ b :: bs) xs) :
    ∃ cs a ds, xs = cs ++ a :: ds ∧ cs.length = as.length ∧ Alone r P b a ∧ EachAlone r P (as ++ bs) (cs ++ ds) := by
  obtain ⟨cs, ds, rfl, e, h1, h2⟩ := matched_both h.2
  have hl := h.1
  cases h2 with
  | cons h2 h3 =>
    refine ⟨cs, _, _, rfl, e, h2, ?_, matched_joined h1 h3⟩
    rw [List.length_append, List.length_cons] at hl
    rw [List.length_append]
    omega

theorem table_without {cs ds : List ClassAttr} {a : ClassAttr} (ha : ∀ t, a ≠ .bootstrapMethods t) :
    bootstrapTable (cs ++ a :: ds) = bootstrapTable (cs ++ ds) := by
  induction cs with
  | nil =>
    cases a with
    | bootstrapMethods t => exact absurd rfl (ha t)
    | _ => rfl
  | cons c cs ih => cases c <;> first | exact ih | rfl

theorem entries_less {c c' : Class} (h : EntriesFound c) (h1 : bootstrapTable c'.attrs = bootstrapTable c.attrs)
    (h2 : ∀ k ∈ openClass c', k ∈ openClass c) : EntriesFound c' := by
  intro pre ms post e hp k hk
  have h3 := (bootstrapTable_first c'.attrs ms).mpr ⟨pre, post, e, hp⟩
  rw [h1] at h3
  obtain ⟨pre', post', e', hp'⟩ := (bootstrapTable_first c.attrs ms).mp h3
  exact h pre' ms post' e' hp' k (h2 k hk)

theorem unknown_alone {α : Type} {table : Bytes → Option (Rd α)} {raw : RawAttribute → α} {P : Pool} {i : UInt16}
    {name data : Bytes} (hi : IsUtf8 P i name) (ht : table name = none) (hl : data.length < 2 ^ 32) :
    Alone (rAttr table raw) P (attrBytes i data) (raw ⟨name, data⟩) := by
  have := unknown_read (raw := raw) hi ht hl none ⟨[], none⟩ []
  rw [List.append_nil] at this
  exact ⟨_, this⟩

/-- An attribute with a name that is not known is added to the class file, at any place: the class has one more
attribute at that place, which holds the name and the bytes, and nothing else is different. -/
theorem C100_class_added (f : List LocalVariable → List LocalVariable) (x : Parts) (c : Class) (rest : Bytes) (cp : MapCp)
    (as bs : List Bytes) (hx : x.Gives f c) (hcp : MapCp.read x.pool = .ok (cp, [])) (ha : x.attrs = as ++ bs)
    (i : UInt16) (name data : Bytes) (hi : IsUtf8 cp.get i name) (hn : name ∉ classAttrNames)
    (hd : data.length < 2 ^ 32) (hl : x.attrs.length + 1 < 65536) :
    ∃ cs ds, c.attrs = cs ++ ds ∧ cs.length = as.length ∧
      Class.read (fun _ _ => f) ({ x with attrs := as ++ attrBytes i data :: bs }.bytes ++ rest) =
        .ok ({ c with attrs := cs ++ .raw ⟨name, data⟩ :: ds }, rest) := by
  obtain ⟨cp', hv, hp, a1, a2, a3, a4, a5, a6, a7, h⟩ := hx
  rw [hcp] at hp
  cases hp
  rw [ha] at a7 hl
  obtain ⟨cs, ds, e, e1, h1⟩ := each_added a7 (unknown_alone (table := ClassAttr.table) (raw := .raw) hi (classTable_none hn) hd) hl
  refine ⟨cs, ds, e, e1, parts_read (x := { x with attrs := as ++ attrBytes i data :: bs })
    (c := { c with attrs := cs ++ .raw ⟨name, data⟩ :: ds }) ⟨cp, hv, hcp, a1, a2, a3, a4, a5, a6, h1, entries_less h ?_ ?_⟩ rest⟩
  · rw [e]
    exact table_without (fun t h => nomatch h)
  · intro k hk
    unfold openClass at hk ⊢
    simp only [e, List.flatMap_append, List.flatMap_cons] at hk ⊢
    exact hk

/-- An attribute of the class file is removed: the class has lost the attribute that stood at that place, and nothing
else is different. Only the table of the bootstrap methods is needed elsewhere. -/
theorem C100_class_removed (f : List LocalVariable → List LocalVariable) (x : Parts) (c : Class) (rest : Bytes)
    (as bs : List Bytes) (b : Bytes) (hx : x.Gives f c) (ha : x.attrs = as ++ b :: bs)
    (hb : ∀ t, c.attrs[as.length]? ≠ some (.bootstrapMethods t)) :
    ∃ cs a ds, c.attrs = cs ++ a :: ds ∧ cs.length = as.length ∧
      Class.read (fun _ _ => f) ({ x with attrs := as ++ bs }.bytes ++ rest) = .ok ({ c with attrs := cs ++ ds }, rest) := by
  obtain ⟨cp, hv, hp, a1, a2, a3, a4, a5, a6, a7, h⟩ := hx
  rw [ha] at a7
  obtain ⟨cs, a, ds, e, e1, _, h1⟩ := each_removed a7
  have hb' : ∀ t, a ≠ .bootstrapMethods t := by
    rintro t rfl
    refine hb t ?_
    rw [e, ← e1]
    simp
  refine ⟨cs, a, ds, e, e1, parts_read (x := { x with attrs := as ++ bs })
    (c := { c with attrs := cs ++ ds }) ⟨cp, hv, hp, a1, a2, a3, a4, a5, a6, h1, entries_less h ?_ ?_⟩ rest⟩
  · rw [e]
    exact (table_without hb').symm
  · intro k hk
    unfold openClass at hk ⊢
    simp only [e, List.flatMap_append, List.flatMap_cons, List.mem_append] at hk ⊢
    rcases hk with hk | hk | hk
    · exact .inl hk
    · exact .inr (.inl hk)
    · exact .inr (.inr (.inr hk))

/-! ### In a field -/

theorem field_changed {f : List LocalVariable → List LocalVariable} {x : Parts} {c : Class} {cp : MapCp} {j : Nat}
    {y y' : MemberParts} {d d' : Field} (hx : x.Gives f c) (hcp : MapCp.read x.pool = .ok (cp, []))
    (hj : x.fields[j]? = some y.bytes) (hy : y.GivesField cp.get d) (hy' : y'.GivesField cp.get d') (rest : Bytes) :
    c.fields[j]? = some d ∧ Class.read (fun _ _ => f) ({ x with fields := x.fields.set j y'.bytes }.bytes ++ rest) =
      .ok ({ c with fields := c.fields.set j d' }, rest) := by
  refine ⟨?_, C98_field f x c rest cp hx hcp j _ _ (field_parts.mpr ⟨y', rfl, hy'⟩)⟩
  obtain ⟨cp', _, hp, _, _, _, _, a5, _⟩ := hx
  rw [hcp] at hp
  cases hp
  obtain ⟨d1, h1, h2⟩ := matched_at a5.2 hj
  rw [h1, alone_unique h2 (field_parts.mpr ⟨y, rfl, hy⟩)]

/-- The same for an attribute of a field. -/
theorem C100_field_added (f : List LocalVariable → List LocalVariable) (x : Parts) (c : Class) (rest : Bytes) (cp : MapCp)
    (hx : x.Gives f c) (hcp : MapCp.read x.pool = .ok (cp, [])) (j : Nat) (y : MemberParts) (d : Field)
    (hj : x.fields[j]? = some y.bytes) (hy : y.GivesField cp.get d) (as bs : List Bytes) (ha : y.attrs = as ++ bs)
    (i : UInt16) (name data : Bytes) (hi : IsUtf8 cp.get i name) (hn : name ∉ fieldAttrNames)
    (hd : data.length < 2 ^ 32) (hl : y.attrs.length + 1 < 65536) :
    c.fields[j]? = some d ∧ ∃ cs ds, d.attrs = cs ++ ds ∧ cs.length = as.length ∧
      Class.read (fun _ _ => f)
        ({ x with fields := x.fields.set j { y with attrs := as ++ attrBytes i data :: bs }.bytes }.bytes ++ rest) =
        .ok ({ c with fields := c.fields.set j { d with attrs := cs ++ .raw ⟨name, data⟩ :: ds } }, rest) := by
  have hy0 := hy
  obtain ⟨a1, a2, a3, a4⟩ := hy
  rw [ha] at a4 hl
  obtain ⟨cs, ds, e, e1, h1⟩ := each_added a4 (unknown_alone (table := FieldAttr.table) (raw := .raw) hi (fieldTable_none hn) hd) hl
  obtain ⟨k1, k2⟩ := field_changed (y' := { y with attrs := as ++ attrBytes i data :: bs })
    (d' := { d with attrs := cs ++ .raw ⟨name, data⟩ :: ds }) hx hcp hj hy0 ⟨a1, a2, a3, h1⟩ rest
  exact ⟨k1, cs, ds, e, e1, k2⟩

theorem C100_field_removed (f : List LocalVariable → List LocalVariable) (x : Parts) (c : Class) (rest : Bytes) (cp : MapCp)
    (hx : x.Gives f c) (hcp : MapCp.read x.pool = .ok (cp, [])) (j : Nat) (y : MemberParts) (d : Field)
    (hj : x.fields[j]? = some y.bytes) (hy : y.GivesField cp.get d) (as bs : List Bytes) (b : Bytes)
    (ha : y.attrs = as ++ b :: bs) :
    c.fields[j]? = some d ∧ ∃ cs a ds, d.attrs = cs ++ a :: ds ∧ cs.length = as.length ∧
      Class.read (fun _ _ => f) ({ x with fields := x.fields.set j { y with attrs := as ++ bs }.bytes }.bytes ++ rest) =
        .ok ({ c with fields := c.fields.set j { d with attrs := cs ++ ds } }, rest) := by
  have hy0 := hy
  obtain ⟨a1, a2, a3, a4⟩ := hy
  rw [ha] at a4
  obtain ⟨cs, a, ds, e, e1, _, h1⟩ := each_removed a4
  obtain ⟨k1, k2⟩ := field_changed (y' := { y with attrs := as ++ bs })
    (d' := { d with attrs := cs ++ ds }) hx hcp hj hy0 ⟨a1, a2, a3, h1⟩ rest
  exact ⟨k1, cs, a, ds, e, e1, k2⟩

/-! ### In a method -/

theorem set_flatMap {α β : Type} {g : α → List β} {b : α} : ∀ {l : List α} {i : Nat} {a : α}, l[i]? = some a →
    (∀ x ∈ g b, x ∈ g a) → ∀ x ∈ (l.set i b).flatMap g, x ∈ l.flatMap g
  | [], i, a, h, _ => by cases i <;> cases h
  | z :: l, 0, a, h, hs => by
    cases h
    intro x hx
    rw [List.set_cons_zero, List.flatMap_cons, List.mem_append] at hx
    rw [List.flatMap_cons, List.mem_append]
    exact hx.imp (hs x) id
  | z :: l, i + 1, a, h, hs => by
    intro x hx
    rw [List.set_cons_succ, List.flatMap_cons, List.mem_append] at hx
    rw [List.flatMap_cons, List.mem_append]
    exact hx.imp id (set_flatMap (l := l) (i := i) h hs x)

theorem method_changed {f : List LocalVariable → List LocalVariable} {x : Parts} {c : Class} {cp : MapCp} {j : Nat}
    {y y' : MemberParts} {m m' : Method} (hx : x.Gives f c) (hcp : MapCp.read x.pool = .ok (cp, []))
    (hj : x.methods[j]? = some y.bytes) (hy : y.GivesMethod f cp.get m) (hy' : y'.GivesMethod f cp.get m')
    (hm : ∀ k ∈ m'.attrs.flatMap openMethodAttr, k ∈ m.attrs.flatMap openMethodAttr) (rest : Bytes) :
    c.methods[j]? = some m ∧ Class.read (fun _ _ => f) ({ x with methods := x.methods.set j y'.bytes }.bytes ++ rest) =
      .ok ({ c with methods := c.methods.set j m' }, rest) := by
  have hx0 := hx
  obtain ⟨cp', _, hp, _, _, _, _, _, a6, _, h⟩ := hx
  rw [hcp] at hp
  cases hp
  obtain ⟨m1, h1, h2⟩ := matched_at a6.2 hj
  obtain rfl := alone_unique h2 (method_parts.mpr ⟨y, rfl, hy⟩)
  refine ⟨h1, C98_method f x c rest cp hx0 hcp j _ _ (method_parts.mpr ⟨y', rfl, hy'⟩) (entries_less h rfl ?_)⟩
  intro k hk
  unfold openClass at hk ⊢
  rw [List.mem_append] at hk ⊢
  exact hk.imp (set_flatMap h1 hm k) id

/-- The same for an attribute of a method. -/
theorem C100_method_added (f : List LocalVariable → List LocalVariable) (x : Parts) (c : Class) (rest : Bytes) (cp : MapCp)
    (hx : x.Gives f c) (hcp : MapCp.read x.pool = .ok (cp, [])) (j : Nat) (y : MemberParts) (m : Method)
    (hj : x.methods[j]? = some y.bytes) (hy : y.GivesMethod f cp.get m) (as bs : List Bytes) (ha : y.attrs = as ++ bs)
    (i : UInt16) (name data : Bytes) (hi : IsUtf8 cp.get i name) (hn : name ∉ methodAttrNames)
    (hd : data.length < 2 ^ 32) (hl : y.attrs.length + 1 < 65536) :
    c.methods[j]? = some m ∧ ∃ cs ds, m.attrs = cs ++ ds ∧ cs.length = as.length ∧
      Class.read (fun _ _ => f)
        ({ x with methods := x.methods.set j { y with attrs := as ++ attrBytes i data :: bs }.bytes }.bytes ++ rest) =
        .ok ({ c with methods := c.methods.set j { m with attrs := cs ++ .raw ⟨name, data⟩ :: ds } }, rest) := by
  have hy0 := hy
  obtain ⟨a1, a2, a3, a4⟩ := hy
  rw [ha] at a4 hl
  obtain ⟨cs, ds, e, e1, h1⟩ := each_added (r := MethodAttr.read fun _ _ => f) (b := attrBytes i data) (a := .raw ⟨name, data⟩) a4
    (unknown_alone (table := MethodAttr.table fun _ => f) (raw := .raw) hi (methodTable_none hn) hd) hl
  obtain ⟨k1, k2⟩ := method_changed (y' := { y with attrs := as ++ attrBytes i data :: bs })
    (m' := { m with attrs := cs ++ .raw ⟨name, data⟩ :: ds }) hx hcp hj hy0 ⟨a1, a2, a3, h1⟩ (by
      intro k hk
      simp only [e, List.flatMap_append, List.flatMap_cons] at hk ⊢
      exact hk) rest
  exact ⟨k1, cs, ds, e, e1, k2⟩

theorem C100_method_removed (f : List LocalVariable → List LocalVariable) (x : Parts) (c : Class) (rest : Bytes) (cp : MapCp)
    (hx : x.Gives f c) (hcp : MapCp.read x.pool = .ok (cp, [])) (j : Nat) (y : MemberParts) (m : Method)
    (hj : x.methods[j]? = some y.bytes) (hy : y.GivesMethod f cp.get m) (as bs : List Bytes) (b : Bytes)
    (ha : y.attrs = as ++ b :: bs) :
    c.methods[j]? = some m ∧ ∃ cs a ds, m.attrs = cs ++ a :: ds ∧ cs.length = as.length ∧
      Class.read (fun _ _ => f) ({ x with methods := x.methods.set j { y with attrs := as ++ bs }.bytes }.bytes ++ rest) =
        .ok ({ c with methods := c.methods.set j { m with attrs := cs ++ ds } }, rest) := by
  have hy0 := hy
  obtain ⟨a1, a2, a3, a4⟩ := hy
  rw [ha] at a4
  obtain ⟨cs, a, ds, e, e1, _, h1⟩ := each_removed a4
  obtain ⟨k1, k2⟩ := method_changed (y' := { y with attrs := as ++ bs })
    (m' := { m with attrs := cs ++ ds }) hx hcp hj hy0 ⟨a1, a2, a3, h1⟩ (by
      intro k hk
      simp only [e, List.flatMap_append, List.flatMap_cons, List.mem_append] at hk ⊢
      exact hk.imp id .inr) rest
  exact ⟨k1, cs, a, ds, e, e1, k2⟩

/-! ### In the body of a method -/

theorem body_changed {f : List LocalVariable → List LocalVariable} {x : Parts} {c : Class} {cp : MapCp} {j l : Nat}
    {y : MemberParts} {m : Method} {ic : UInt16} {b b' : Bytes} (hx : x.Gives f c)
    (hcp : MapCp.read x.pool = .ok (cp, [])) (hj : x.methods[j]? = some y.bytes) (hy : y.GivesMethod f cp.get m)
    (hl : y.attrs[l]? = some (attrBytes ic b)) (hic : IsUtf8 cp.get ic N.code) (hb : b.length < 2 ^ 32)
    (hb' : b'.length < 2 ^ 32) (rest : Bytes) : ∃ k st,
      (Code.readIn fun _ => f) ⟨cp.get, some []⟩ ⟨[], some []⟩ b = .ok (k, st, []) ∧
      c.methods[j]? = some m ∧ m.attrs[l]? = some (.code k) ∧ ∀ k' st',
        (Code.readIn fun _ => f) ⟨cp.get, some []⟩ ⟨[], some []⟩ b' = .ok (k', st', []) →
        k'.code = k.code →
        Class.read (fun _ _ => f)
          ({ x with methods := x.methods.set j { y with attrs := y.attrs.set l (attrBytes ic b') }.bytes }.bytes ++ rest) =
          .ok ({ c with methods := c.methods.set j { m with attrs := m.attrs.set l (.code k') } }, rest) := by
  have hy0 := hy
  obtain ⟨a1, a2, a3, a4⟩ := hy
  obtain ⟨a, h1, h2⟩ := matched_at a4.2 hl
  obtain ⟨k, st, rfl, h3⟩ := (code_attr hic hb a).mp h2
  refine ⟨k, st, h3, (method_changed hx hcp hj hy0 hy0 (fun _ h => h) rest).1, h1, fun k' st' h4 h5 => ?_⟩
  refine (method_changed (y' := { y with attrs := y.attrs.set l (attrBytes ic b') })
    (m' := { m with attrs := m.attrs.set l (.code k') }) hx hcp hj hy0
    ⟨a1, a2, a3, eachAlone_set ((code_attr hic hb' _).mpr ⟨k', st', rfl, h4⟩) a4 l⟩ (set_flatMap h1 ?_) rest).2
  intro z hz
  unfold openMethodAttr at hz ⊢
  simp only at hz ⊢
  rwa [h5] at hz

/-- An attribute with a name that is not known is added to the body of a method, at any place: the body has one more
attribute, which holds the name and the bytes, and nothing else in the class is different; the instructions, the labels,
the line numbers and the local variables are the same. -/
theorem C100_body_added (f : List LocalVariable → List LocalVariable) (x : Parts) (c : Class) (rest : Bytes) (cp : MapCp)
    (hx : x.Gives f c) (hcp : MapCp.read x.pool = .ok (cp, [])) (j l : Nat) (y : MemberParts) (m : Method)
    (hj : x.methods[j]? = some y.bytes) (hy : y.GivesMethod f cp.get m) (ic : UInt16) (hic : IsUtf8 cp.get ic N.code)
    (z : BodyParts) (as bs : List (UInt16 × Bytes)) (hl : y.attrs[l]? = some (attrBytes ic z.bytes)) (ha : z.attrs = as ++ bs)
    (i : UInt16) (name data : Bytes) (hi : IsUtf8 cp.get i name) (hn : name ∉ codeAttrNames)
    (hz : BodyParts.Sized { z with attrs := as ++ (i, data) :: bs })
    (hs : { z with attrs := as ++ (i, data) :: bs }.bytes.length < 2 ^ 32) :
    ∃ k pre post, c.methods[j]? = some m ∧ m.attrs[l]? = some (.code k) ∧ k.attrs = pre ++ post ∧
      Class.read (fun _ _ => f)
        ({ x with methods := x.methods.set j { y with attrs := y.attrs.set l (attrBytes ic { z with attrs := as ++ (i, data) :: bs }.bytes) }.bytes }.bytes ++ rest) =
        .ok ({ c with methods := c.methods.set j { m with attrs := m.attrs.set l (.code { k with attrs := pre ++ .raw ⟨name, data⟩ :: post }) } }, rest) := by
  obtain ⟨lim, co, hs', at'⟩ := z
  simp only at ha
  subst ha
  have hs0 : (⟨lim, co, hs', as ++ bs⟩ : BodyParts).bytes.length < 2 ^ 32 := by
    refine Nat.lt_of_le_of_lt ?_ hs
    simp only [body_bytes, BodyParts.front, flatAttrs_append, List.length_append, U2, List.length_cons, List.length_nil]
    have : flatAttrs ((i, data) :: bs) = attrBytes i data ++ flatAttrs bs := rfl
    rw [this, List.length_append]
    omega
  obtain ⟨k, st, h1, h2, h3, h4⟩ := body_changed hx hcp hj hy hl hic hs0 hs rest
  obtain ⟨pre, post, e, h5⟩ := (body_unknown (y := ⟨lim, co, hs', as ++ bs⟩) hi (codeTable_none hn) hz st).1 k h1
  exact ⟨k, pre, post, h2, h3, e, h4 _ _ h5 rfl⟩

/-- And it can be removed. -/
theorem C100_body_removed (f : List LocalVariable → List LocalVariable) (x : Parts) (c : Class) (rest : Bytes) (cp : MapCp)
    (hx : x.Gives f c) (hcp : MapCp.read x.pool = .ok (cp, [])) (j l : Nat) (y : MemberParts) (m : Method)
    (hj : x.methods[j]? = some y.bytes) (hy : y.GivesMethod f cp.get m) (ic : UInt16) (hic : IsUtf8 cp.get ic N.code)
    (z : BodyParts) (as bs : List (UInt16 × Bytes)) (i : UInt16) (name data : Bytes)
    (hl : y.attrs[l]? = some (attrBytes ic z.bytes)) (ha : z.attrs = as ++ (i, data) :: bs)
    (hi : IsUtf8 cp.get i name) (hn : name ∉ codeAttrNames) (hz : z.Sized) (hs : z.bytes.length < 2 ^ 32) :
    ∃ k pre post, c.methods[j]? = some m ∧ m.attrs[l]? = some (.code k) ∧ k.attrs = pre ++ .raw ⟨name, data⟩ :: post ∧
      Class.read (fun _ _ => f)
        ({ x with methods := x.methods.set j { y with attrs := y.attrs.set l (attrBytes ic { z with attrs := as ++ bs }.bytes) }.bytes }.bytes ++ rest) =
        .ok ({ c with methods := c.methods.set j { m with attrs := m.attrs.set l (.code { k with attrs := pre ++ post }) } }, rest) := by
  obtain ⟨lim, co, hs', at'⟩ := z
  simp only at ha
  subst ha
  have hs0 : (⟨lim, co, hs', as ++ bs⟩ : BodyParts).bytes.length < 2 ^ 32 := by
    refine Nat.lt_of_le_of_lt ?_ hs
    simp only [body_bytes, BodyParts.front, flatAttrs_append, List.length_append, U2, List.length_cons, List.length_nil]
    have : flatAttrs ((i, data) :: bs) = attrBytes i data ++ flatAttrs bs := rfl
    rw [this, List.length_append]
    omega
  obtain ⟨k, st, h1, h2, h3, h4⟩ := body_changed hx hcp hj hy hl hic hs hs0 rest
  obtain ⟨pre, post, e, h5⟩ := (body_unknown (y := ⟨lim, co, hs', as ++ bs⟩) hi (codeTable_none hn) hz st).2 k h1
  exact ⟨k, pre, post, h2, h3, e, h4 _ _ h5 rfl⟩

/-! ### A class with attributes that are not known in every place -/

def bodyCut : BodyParts := ⟨[0, 1, 0, 1], [0xb1], [], [(1, [7])]⟩
def fieldCut : MemberParts := ⟨[0, 1], [0, 1], [0, 5], [attrBytes 1 []]⟩
def methodCut : MemberParts := ⟨[0, 1], [0, 1], [0, 3], [attrBytes 4 bodyCut.bytes, attrBytes 1 [9, 9]]⟩

def foreign : Parts where
  version := [0, 0, 0, 52]
  pool := [0, 6, 1, 0, 1, 0x41, 7, 0, 1] ++ utf8Bytes noArgs ++ utf8Bytes N.code ++ [1, 0, 1, 0x49]
  access := [0, 0x21]
  name := [0, 2]
  super := [0, 0]
  interfaces := []
  fields := [fieldCut.bytes]
  methods := [methodCut.bytes]
  attrs := [attrBytes 1 [1, 2, 3]]

def foreignPool : Pool := match MapCp.read foreign.pool with
  | .ok (cp, _) => cp.get
  | .error _ => fun _ => none

theorem foreignPool_read : ∃ cp, MapCp.read foreign.pool = .ok (cp, []) ∧ cp.get = foreignPool := by
  have h : (match MapCp.read foreign.pool with
    | .ok (_, rest) => rest.isEmpty
    | .error _ => false) = true := by decide +kernel
  unfold foreignPool
  split at h
  · rename_i hr
    rw [hr]
    exact ⟨_, by rw [List.isEmpty_iff.mp h], rfl⟩
  · cases h

theorem foreign_name : IsUtf8 foreignPool 1 [0x41] := by with_unfolding_all rfl
theorem foreign_code : IsUtf8 foreignPool 4 N.code := by with_unfolding_all rfl

theorem foreign_gives : ∃ c d m, foreign.Gives id c ∧ fieldCut.GivesField foreignPool d ∧
    methodCut.GivesMethod id foreignPool m ∧ c.attrs = [.raw ⟨[0x41], [1, 2, 3]⟩] := by
  obtain ⟨cp, h1, h2⟩ := foreignPool_read
  obtain ⟨acc, h3⟩ := alone_of (r := rFlags .cls) (P := foreignPool) (b := foreign.access) (by decide +kernel)
  obtain ⟨nm, h4⟩ := alone_of (r := rStr 7) (P := foreignPool) (b := foreign.name) (by decide +kernel)
  obtain ⟨sup, h5⟩ := alone_of (r := rClsOpt) (P := foreignPool) (b := foreign.super) (by decide +kernel)
  obtain ⟨d, h6⟩ := alone_of (r := Field.read) (P := foreignPool) (b := fieldCut.bytes) (by decide +kernel)
  obtain ⟨m, h7⟩ := alone_of (r := Method.read fun _ _ => id) (P := foreignPool) (b := methodCut.bytes) (by decide +kernel)
  have h8 := unknown_alone (table := ClassAttr.table) (raw := .raw) (data := [1, 2, 3]) foreign_name
    (classTable_none (by decide)) (by decide)
  obtain ⟨fa, k1⟩ := alone_of (r := rFlags .field) (P := foreignPool) (b := fieldCut.access) (by decide +kernel)
  obtain ⟨n, k2⟩ := alone_of (r := rUtf8) (P := foreignPool) (b := fieldCut.name) (by decide +kernel)
  obtain ⟨ft, k3⟩ := alone_of (r := rType) (P := foreignPool) (b := fieldCut.type) (by decide +kernel)
  have k4 := unknown_alone (table := FieldAttr.table) (raw := .raw) (data := []) foreign_name
    (fieldTable_none (by decide)) (by decide)
  have hd : fieldCut.GivesField foreignPool ⟨fa, n, ft, [.raw ⟨[0x41], []⟩]⟩ :=
    ⟨k1, k2, k3, by decide, .cons k4 .nil⟩
  obtain ⟨ma, k5⟩ := alone_of (r := rFlags .method) (P := foreignPool) (b := methodCut.access) (by decide +kernel)
  obtain ⟨mt, k6⟩ := alone_of (r := rType) (P := foreignPool) (b := methodCut.type) (by decide +kernel)
  obtain ⟨bd, k7⟩ := alone_of (r := MethodAttr.read fun _ _ => id) (P := foreignPool) (b := attrBytes 4 bodyCut.bytes)
    (by decide +kernel)
  have k8 : Alone (MethodAttr.read fun _ _ => id) foreignPool (attrBytes 1 [9, 9]) (.raw ⟨[0x41], [9, 9]⟩) :=
    unknown_alone (table := MethodAttr.table fun _ => id) (raw := .raw) foreign_name (methodTable_none (by decide)) (by decide)
  have hm : methodCut.GivesMethod id foreignPool ⟨ma, n, mt, [bd, .raw ⟨[0x41], [9, 9]⟩]⟩ :=
    ⟨k5, k2, k6, by decide, .cons k7 (.cons k8 .nil)⟩
  refine ⟨⟨⟨0, .j8⟩, acc, nm, sup, [], [d], [m], [.raw ⟨[0x41], [1, 2, 3]⟩]⟩, _, _, ⟨cp, by with_unfolding_all rfl, h1, ?_⟩,
    hd, hm, rfl⟩
  rw [h2]
  refine ⟨h3, h4, h5, ⟨by decide, .nil⟩, ⟨by decide, .cons h6 .nil⟩, ⟨by decide, .cons h7 .nil⟩,
    ⟨by decide, .cons h8 .nil⟩, ?_⟩
  intro pre ms post e
  cases pre with
  | nil => cases e
  | cons a pre => exact absurd (List.cons.inj e).2 (by cases pre <;> exact nofun)

/-- All of them can be removed, and others can be added behind them. -/
example : ∃ c, Class.read (fun _ _ => id) { foreign with attrs := [] }.bytes = .ok (c, []) ∧ c.attrs = [] := by
  obtain ⟨c, d, m, hx, _, _, e⟩ := foreign_gives
  obtain ⟨cs, a, ds, e1, e2, h⟩ := C100_class_removed id foreign c [] [] [] _ hx rfl (by rw [e]; exact nofun)
  obtain rfl := List.eq_nil_of_length_eq_zero e2
  rw [e] at e1
  cases e1
  rw [List.append_nil] at h
  exact ⟨_, h, rfl⟩

example (data : Bytes) (hd : data.length < 2 ^ 32) : ∃ c, Class.read (fun _ _ => id)
    { foreign with attrs := [attrBytes 1 [1, 2, 3], attrBytes 1 data] }.bytes = .ok (c, []) ∧
      c.attrs = [.raw ⟨[0x41], [1, 2, 3]⟩, .raw ⟨[0x41], data⟩] := by
  obtain ⟨c, d, m, hx, _, _, e⟩ := foreign_gives
  obtain ⟨cp, h1, h2⟩ := foreignPool_read
  obtain ⟨cs, ds, e1, e2, h⟩ := C100_class_added id foreign c [] cp foreign.attrs [] hx h1 (List.append_nil _).symm 1 [0x41] data
    (h2 ▸ foreign_name) (by decide) hd (by decide)
  rw [e] at e1
  obtain ⟨e3, rfl⟩ : cs = [.raw ⟨[0x41], [1, 2, 3]⟩] ∧ ds = [] := by
    have := List.append_inj (s₁ := [ClassAttr.raw ⟨[0x41], [1, 2, 3]⟩]) (t₁ := []) e1 e2.symm
    exact ⟨this.1.symm, this.2.symm⟩
  rw [List.append_nil, e3] at h
  exact ⟨_, h, rfl⟩

example (data : Bytes) (hd : data.length < 2 ^ 32) : ∃ c, Class.read (fun _ _ => id)
    { foreign with fields := [{ fieldCut with attrs := [attrBytes 1 data, attrBytes 1 []] }.bytes] }.bytes = .ok (c, []) := by
  obtain ⟨c, d, m, hx, hf, _, _⟩ := foreign_gives
  obtain ⟨cp, h1, h2⟩ := foreignPool_read
  obtain ⟨_, cs, ds, _, _, h⟩ := C100_field_added id foreign c [] cp hx h1 0 fieldCut d rfl (h2 ▸ hf) [] _ rfl 1 [0x41] data
    (h2 ▸ foreign_name) (by decide) hd (by decide)
  rw [List.append_nil] at h
  exact ⟨_, h⟩

example (data : Bytes) (hd : data.length < 2 ^ 32) : ∃ c, Class.read (fun _ _ => id)
    { foreign with methods :=
      [{ methodCut with attrs := attrBytes 1 data :: methodCut.attrs }.bytes] }.bytes = .ok (c, []) := by
  obtain ⟨c, d, m, hx, _, hm, _⟩ := foreign_gives
  obtain ⟨cp, h1, h2⟩ := foreignPool_read
  obtain ⟨_, cs, ds, _, _, h⟩ := C100_method_added id foreign c [] cp hx h1 0 methodCut m rfl (h2 ▸ hm) [] _ rfl 1 [0x41] data
    (h2 ▸ foreign_name) (by decide) hd (by decide)
  rw [List.append_nil] at h
  exact ⟨_, h⟩

theorem bodyCut_sized : bodyCut.Sized :=
  ⟨rfl, by decide, by decide, fun _ h => (nomatch h), by decide, by
    intro a ha
    cases ha with
    | head => decide
    | tail _ h => cases h⟩

example : ∃ c, Class.read (fun _ _ => id)
    { foreign with methods :=
      [{ methodCut with attrs := methodCut.attrs.set 0 (attrBytes 4 { bodyCut with attrs := [] }.bytes) }.bytes] }.bytes =
        .ok (c, []) := by
  obtain ⟨c, d, m, hx, _, hm, _⟩ := foreign_gives
  obtain ⟨cp, h1, h2⟩ := foreignPool_read
  obtain ⟨k, pre, post, _, _, _, h⟩ := C100_body_removed id foreign c [] cp hx h1 0 0 methodCut m rfl (h2 ▸ hm) 4
    (h2 ▸ foreign_code) bodyCut [] [] 1 [0x41] [7] rfl rfl (h2 ▸ foreign_name) (by decide) bodyCut_sized (by decide)
  rw [List.append_nil] at h
  exact ⟨_, h⟩

example : ∃ c, Class.read (fun _ _ => id)
    { foreign with methods :=
      [{ methodCut with attrs :=
        methodCut.attrs.set 0 (attrBytes 4 { bodyCut with attrs := [(1, [7]), (1, [8])] }.bytes) }.bytes] }.bytes =
        .ok (c, []) := by
  obtain ⟨c, d, m, hx, _, hm, _⟩ := foreign_gives
  obtain ⟨cp, h1, h2⟩ := foreignPool_read
  obtain ⟨k, pre, post, _, _, _, h⟩ := C100_body_added id foreign c [] cp hx h1 0 0 methodCut m rfl (h2 ▸ hm) 4
    (h2 ▸ foreign_code) bodyCut [(1, [7])] [] rfl rfl 1 [0x41] [8] (h2 ▸ foreign_name) (by decide)
    ⟨rfl, by decide, by decide, fun _ h => (nomatch h), by decide, by
      intro a ha
      cases ha with
      | head => decide
      | tail _ h =>
        cases h with
        | head => decide
        | tail _ h => cases h⟩ (by decide)
  rw [List.append_nil] at h
  exact ⟨_, h⟩

end Verif.Props
