import Verif.Lemmas.Attr

/-! # Readers do not look beyond what they consume -/

namespace Verif
open Spec Sig

/-- What is read is read from a prefix of the input, whatever follows it. -/
def Local {α : Type} (r : Rd α) : Prop :=
  ∀ env st bs a st' rest, r env st bs = .ok (a, st', rest) →
    ∃ b, bs = b ++ rest ∧ ∀ t, r env st (b ++ t) = .ok (a, st', t)

/-- What is read from an input is read from every longer one. -/
theorem Local.more {α : Type} {r : Rd α} (hr : Local r) {env : REnv} {st : RSt} {bs : Bytes} {a : α} {st' : RSt}
    {rest : Bytes} (t : Bytes) (h : r env st bs = .ok (a, st', rest)) :
    r env st (bs ++ t) = .ok (a, st', rest ++ t) := by
  obtain ⟨b, rfl, h'⟩ := hr _ _ _ _ _ _ h
  rw [List.append_assoc, h']

theorem Local.bind {α β : Type} {x : Rd α} {f : α → Rd β} (hx : Local x) (hf : ∀ a, Local (f a)) :
    Local (Rd.bind x f) := by
  intro env st bs b st' rest h
  obtain ⟨a, st1, bs1, h1, h2⟩ := Rd.bind_ok h
  obtain ⟨b1, rfl, e1⟩ := hx _ _ _ _ _ _ h1
  obtain ⟨b2, rfl, e2⟩ := hf a _ _ _ _ _ _ h2
  refine ⟨b1 ++ b2, (List.append_assoc _ _ _).symm, fun t => ?_⟩
  unfold Rd.bind
  rw [List.append_assoc, e1]
  exact e2 t

theorem Local.still {α : Type} {r : Rd α}
    (h : ∀ env st, (∃ e, ∀ bs, r env st bs = .error e) ∨ ∃ a st', ∀ bs, r env st bs = .ok (a, st', bs)) :
    Local r := by
  intro env st bs a st' rest h'
  rcases h env st with ⟨e, h⟩ | ⟨x, st1, h⟩
  · rw [h] at h'; cases h'
  · rw [h] at h'
    cases h'
    exact ⟨[], rfl, h⟩

theorem Local.pure {α : Type} (a : α) : Local (Rd.pure a) := .still fun _ _ => .inr ⟨_, _, fun _ => rfl⟩

theorem Local.fail {α : Type} (e : Err) : Local (Rd.fail e : Rd α) := .still fun _ _ => .inl ⟨_, fun _ => rfl⟩

theorem Local.map {α β : Type} {x : Rd α} {f : α → β} (hx : Local x) : Local (Rd.map f x) :=
  hx.bind (fun _ => .pure _)

theorem Local.ap {α β : Type} {g : Rd (α → β)} {x : Rd α} (hg : Local g) (hx : Local x) :
    Local (Rd.ap g x) := hg.bind (fun _ => hx.bind (fun _ => .pure _))

theorem Local.replicate {α : Type} {r : Rd α} (h : Local r) : ∀ n, Local (Rd.replicate n r)
  | 0 => .pure _
  | n + 1 => h.bind (fun _ => (Local.replicate h n).bind (fun _ => .pure _))

theorem Local.lookup {α : Type} (f : Pool → UInt16 → Option α) (i : UInt16) : Local (rLookup f i) := by
  refine .still fun env st => ?_
  unfold rLookup
  split
  · exact .inr ⟨_, _, fun _ => rfl⟩
  · exact .inl ⟨_, fun _ => rfl⟩

theorem Local.lookupR {α : Type} (f : Pool → UInt16 → Res (Option α)) (i : UInt16) :
    Local (rLookupR f i) := by
  refine .still fun env st => ?_
  unfold rLookupR
  split
  · exact .inr ⟨_, _, fun _ => rfl⟩
  · exact .inl ⟨_, fun _ => rfl⟩
  · exact .inl ⟨_, fun _ => rfl⟩

theorem Local.lookupD {α : Type} (f : Pool → UInt16 → List UInt16 → Res (Option α × List UInt16))
    (i : UInt16) : Local (rLookupD f i) := by
  refine .still fun env st => ?_
  unfold rLookupD
  split
  · exact .inr ⟨_, _, fun _ => rfl⟩
  · exact .inl ⟨_, fun _ => rfl⟩
  · exact .inl ⟨_, fun _ => rfl⟩

theorem Local.ofRes {α : Type} (r : Res α) : Local (Rd.ofRes r) := by
  refine .still fun env st => ?_
  unfold Rd.ofRes
  split
  · exact .inr ⟨_, _, fun _ => rfl⟩
  · exact .inl ⟨_, fun _ => rfl⟩

theorem readExact_ok {n : Nat} {bs a rest : Bytes} (h : readExact n bs = .ok (a, rest)) :
    bs = a ++ rest ∧ a.length = n := by
  unfold readExact at h
  split at h <;> cases h
  exact ⟨(List.take_append_drop _ _).symm, by simp; omega⟩

theorem readExact_more {n : Nat} {bs a rest : Bytes} (t : Bytes) (h : readExact n bs = .ok (a, rest)) :
    readExact n (bs ++ t) = .ok (a, rest ++ t) := by
  obtain ⟨rfl, h2⟩ := readExact_ok h
  rw [List.append_assoc, readExact_append _ _ _ h2]

theorem numRead_more {α : Type} {c : NumCodec α} {bs : Bytes} {a : α} {rest : Bytes} (t : Bytes)
    (h : c.read bs = .ok (a, rest)) : c.read (bs ++ t) = .ok (a, rest ++ t) := by
  unfold NumCodec.read at h ⊢
  split at h
  · rename_i h1
    rw [readExact_more t h1]
    cases h
    rfl
  · cases h

/-- Plain readers that read from a prefix of the input. -/
def Prefixed {α : Type} (r : Reader α) : Prop :=
  ∀ bs a rest, r bs = .ok (a, rest) → ∃ b, bs = b ++ rest ∧ ∀ t, r (b ++ t) = .ok (a, t)

theorem prefixed_readExact (n : Nat) : Prefixed (readExact n) := fun _ _ _ h =>
  have ⟨h1, h2⟩ := readExact_ok h
  ⟨_, h1, fun _ => readExact_append _ _ _ h2⟩

theorem prefixed_num {α : Type} (c : NumCodec α) : Prefixed c.read := by
  intro bs a rest h
  unfold NumCodec.read at h ⊢
  split at h
  · rename_i h1
    cases h
    obtain ⟨b, e1, e2⟩ := prefixed_readExact _ _ _ _ h1
    exact ⟨b, e1, fun t => by rw [e2]⟩
  · cases h

theorem prefixed_map {α β : Type} {r : Reader α} {f : α → β} (h : Prefixed r) : Prefixed (Reader.map f r) := by
  intro bs a rest h'
  unfold Reader.map Reader.bind at h' ⊢
  split at h'
  · rename_i h1
    cases h'
    obtain ⟨b, e1, e2⟩ := h _ _ _ h1
    exact ⟨b, e1, fun t => by rw [e2]; rfl⟩
  · cases h'

theorem Local.lift {α : Type} {r : Reader α} (hr : Prefixed r) : Local (Rd.lift r) := by
  intro env st bs b st' rest h
  unfold Rd.lift at h ⊢
  split at h
  · rename_i h1
    cases h
    obtain ⟨b, e1, e2⟩ := hr _ _ _ h1
    exact ⟨b, e1, fun t => by rw [e2]⟩
  · cases h

theorem Local.num {α : Type} (c : NumCodec α) : Local (rNum c) := .lift (prefixed_num c)

theorem Local.flags (t : FlagType) : Local (rFlags t) := .lift (prefixed_map (prefixed_num _))

theorem Local.vec {ℓ α : Type} {l : NumCodec ℓ} {r : Rd α} (h : Local r) : Local (rVec l r) :=
  (Local.num l).bind (fun _ => h.replicate _)
theorem Local.idx {α : Type} (f : Pool → UInt16 → Option α) : Local (rIdx f) :=
  (Local.num _).bind (fun _ => .lookup _ _)
theorem Local.idxR {α : Type} (f : Pool → UInt16 → Res (Option α)) : Local (rIdxR f) :=
  (Local.num _).bind (fun _ => .lookupR _ _)
theorem Local.utf8 : Local rUtf8 := .idx _
theorem Local.str (t : UInt8) : Local (rStr t) := .idx _
theorem Local.type : Local rType := Local.utf8.bind (fun _ => .ofRes _)

theorem Local.ite {α : Type} {p : Prop} [Decidable p] {r r' : Rd α} (h : Local r)
    (h' : Local r') : Local (if p then r else r') := by
  split
  · exact h
  · exact h'

theorem Local.opt {α : Type} {f : UInt16 → Rd α} (h : ∀ i, Local (f i)) : Local (rOpt f) :=
  (Local.num _).bind (fun i => .ite (.pure _) (h i).map)

theorem Local.intIn (lo hi : Int) (f : Int32 → AnnValue) : Local (rIntIn lo hi f) :=
  (Local.idx _).bind (fun _ => .ite (.pure _) (.fail _))

theorem Local.classText : Local rClassText :=
  Local.utf8.bind (fun _ => .ite (.pure _) (.map (.ofRes _)))

theorem Local.elemsWith {r : Rd AnnValue} (h : Local r) : Local (Elems.readWith r) :=
  .map (.vec (Local.utf8.bind (fun _ => h.map)))

theorem Local.annValueF : ∀ n, Local (AnnValue.readF n)
  | 0 => .fail _
  | n + 1 => by
    refine (Local.num _).bind (fun tag => ?_)
    have ih := Local.annValueF n
    exact .ite (.intIn _ _ _) <| .ite (.intIn _ _ _) <| .ite (.map (.idx _)) <| .ite (.map (.idx _)) <|
      .ite (.map (.idx _)) <| .ite (.map (.idx _)) <| .ite (.intIn _ _ _) <| .ite (.intIn _ _ _) <|
      .ite (.map .utf8) <| .ite (.ap (.map .type) .utf8) <| .ite (.map .classText) <|
      .ite (.ap (.map .type) (.elemsWith ih)) <| .ite (.map (.vec ih)) (.fail _)

theorem Local.annValue : Local AnnValue.read := by
  intro env st bs a st' rest h
  unfold AnnValue.read at h ⊢
  have key : ∀ m, bs.length < m → AnnValue.readF m env st bs = .ok (a, st', rest) := fun m hm => by
    rw [← readF_same (bs.length + 1) m env st bs (by omega)]; exact h
  obtain ⟨b, rfl, _⟩ := Local.annValueF _ _ _ _ _ _ _ h
  refine ⟨b, rfl, fun t => ?_⟩
  obtain ⟨b', e, h'⟩ := Local.annValueF _ _ _ _ _ _ _ (key ((b ++ rest).length + (b ++ t).length + 1) (by omega))
  cases List.append_cancel_right e
  rw [← readF_same ((b ++ rest).length + (b ++ t).length + 1) ((b ++ t).length + 1) env st (b ++ t) (by omega)]
  exact h' t

theorem Local.annotation : Local Annotation.read := .ap (.map .type) (.elemsWith .annValue)

theorem Local.classTarget : Local ClassTarget.read :=
  (Local.num _).bind (fun _ => .ite (.map (.num _)) (.ite (.map (.num _))
    (.ite (.ap (.map (.num _)) (.num _)) (.fail _))))
theorem Local.fieldTarget : Local FieldTarget.read :=
  (Local.num _).bind (fun _ => .ite (.pure _) (.fail _))
theorem Local.pathStep : Local PathStep.read :=
  (Local.num _).bind (fun _ => .ite (.map (.num _)) (.ite (.map (.num _)) (.ite (.map (.num _))
    (.ite (.map (.num _)) (.fail _)))))
theorem Local.typeAnnotation {T : Type} {r : Rd T} (h : Local r) : Local (TypeAnnotation.read r) :=
  .ap (.ap (.ap (.map h) (.vec .pathStep)) .type) (.elemsWith .annValue)

theorem Local.sig {α : Type} (p : Str → Res α) : Local (rSig p) := by
  refine Local.utf8.bind (fun s => ?_)
  split
  · exact .fail _
  · exact .ofRes _

theorem Local.arg : Local rArg := (Local.num _).bind (fun _ => .map (.lookupD _ _))
theorem Local.bsm : Local Bsm.read := .ap (.map (.idxR _)) (.vec .arg)
theorem Local.utf8Opt : Local rUtf8Opt := .opt (fun _ => .lookup _ _)
theorem Local.clsOpt : Local rClsOpt := .opt (fun _ => .lookup _ _)
theorem Local.natOpt : Local rNatOpt := .opt (fun _ => .lookupR _ _)
theorem Local.innerClass : Local InnerClass.read := .ap (.ap (.ap (.map (.str _)) .clsOpt) .utf8Opt) (.flags _)
theorem Local.require : Local Require.read := .ap (.ap (.map (.str _)) (.flags _)) .utf8Opt
theorem Local.export : Local Export.read := .ap (.ap (.map (.str _)) (.flags _)) (.vec (.str _))
theorem Local.provide : Local Provide.read := .ap (.map (.str _)) (.vec (.str _))
theorem Local.module : Local Module.read :=
  .ap (.ap (.ap (.ap (.ap (.ap (.ap (.map (.str _)) (.flags _)) .utf8Opt) (.vec .require)) (.vec .export))
    (.vec .export)) (.vec (.str _))) (.vec .provide)
theorem Local.methodParameter : Local MethodParameter.read := .ap (.map .utf8Opt) (.flags _)

theorem opt_ite {α : Type} {p : Prop} [Decidable p] {a : α} {o : Option α} {Q : α → Prop}
    (h1 : p → Q a) (h2 : ¬ p → ∀ r, o = some r → Q r) : ∀ r, (if p then some a else o) = some r → Q r := by
  intro r h
  split at h
  · cases h; exact h1 ‹_›
  · exact h2 ‹_› r h

theorem Local.fieldTable {n : Bytes} : ∀ r, FieldAttr.table n = some r → Local r := by
  unfold FieldAttr.table
  refine opt_ite (fun _ => .pure _) fun _ => opt_ite (fun _ => .pure _) fun _ =>
    opt_ite (fun _ => .map (.sig _)) fun _ => opt_ite (fun _ => .map (.idxR _)) fun _ =>
    opt_ite (fun _ => .map (.vec .annotation)) fun _ => opt_ite (fun _ => .map (.vec .annotation)) fun _ =>
    opt_ite (fun _ => .map (.vec (.typeAnnotation .fieldTarget))) fun _ =>
    opt_ite (fun _ => .map (.vec (.typeAnnotation .fieldTarget))) fun _ r h => by cases h

theorem Local.classTable {n : Bytes} (hn : n ≠ N.sourceDebugExtension) :
    ∀ r, ClassAttr.table n = some r → Local r := by
  unfold ClassAttr.table
  refine opt_ite (fun _ => .map (.sig _)) fun _ => opt_ite (fun _ => .pure _) fun _ =>
    opt_ite (fun _ => .pure _) fun _ => opt_ite (fun _ => .map .utf8) fun _ =>
    opt_ite (fun _ => .map (.vec .innerClass)) fun _ =>
    opt_ite (fun _ => .ap (.map (.str _)) .natOpt) fun _ => opt_ite (fun h => absurd h hn) fun _ =>
    opt_ite (fun _ => .map (.vec .bsm)) fun _ => opt_ite (fun _ => .map .module) fun _ =>
    opt_ite (fun _ => .map (.vec (.str _))) fun _ => opt_ite (fun _ => .map (.str _)) fun _ =>
    opt_ite (fun _ => .map (.str _)) fun _ => opt_ite (fun _ => .map (.vec (.str _))) fun _ =>
    opt_ite (fun _ => .map (.vec .annotation)) fun _ => opt_ite (fun _ => .map (.vec .annotation)) fun _ =>
    opt_ite (fun _ => .map (.vec (.typeAnnotation .classTarget))) fun _ =>
    opt_ite (fun _ => .map (.vec (.typeAnnotation .classTarget))) fun _ r h => by cases h

/-! ## Attributes of the wrong length -/

/-- The outcome for an attribute is determined by its payload. -/
theorem rAttr_eq {α : Type} (table : Bytes → Option (Rd α)) (raw : RawAttribute → α) {P : Pool}
    {cs : Option (List Catch)} {name body rest : Bytes} {i : UInt16} {r : Rd α}
    (hi : IsUtf8 P i name) (ht : table name = some r) (hl : body.length < 4294967296) (st : RSt) :
    rAttr table raw ⟨P, cs⟩ st (U2 i.toNat ++ U4 body.length ++ body ++ rest) =
      match r ⟨P, cs⟩ st body with
      | .error e => .error e
      | .ok (a, st, []) => .ok (a, st, rest)
      | .ok (_, _, left@(_ :: _)) =>
        .error (.attrLen (UInt32.ofNat body.length) (UInt32.ofNat body.length - UInt32.ofNat left.length) name) := by
  unfold rAttr Rd.bind
  rw [List.append_assoc, List.append_assoc,
    show rUtf8 ⟨P, cs⟩ st (U2 i.toNat ++ (U4 body.length ++ (body ++ rest))) =
      .ok (name, st, U4 body.length ++ (body ++ rest)) from PReads.idx (wtf8_of hi) st _]
  simp only [ht]
  unfold rFramed
  rw [readsU4' _ hl]
  simp only [UInt32.toNat_ofNat', Nat.mod_eq_of_lt (show body.length < 2 ^ 32 by omega)]
  rw [readExact_append _ _ _ rfl]
  rcases h : r ⟨P, cs⟩ st body with e | ⟨a, st1, _ | ⟨x, xs⟩⟩ <;> simp only [h]

theorem used_length (body more : Bytes) :
    UInt32.ofNat (body ++ more).length - UInt32.ofNat more.length = UInt32.ofNat body.length := by
  rw [List.length_append, UInt32.ofNat_add, UInt32.add_sub_cancel]

theorem attr_longer {α : Type} {table : Bytes → Option (Rd α)} {raw : RawAttribute → α} {P : Pool}
    {cs : Option (List Catch)} {name body more rest : Bytes} {i : UInt16} {r : Rd α} {a : α} {st st' : RSt}
    (hi : IsUtf8 P i name) (ht : table name = some r) (hr : Local r)
    (h : r ⟨P, cs⟩ st body = .ok (a, st', [])) (hm : more ≠ []) (hl : (body ++ more).length < 4294967296) :
    rAttr table raw ⟨P, cs⟩ st (U2 i.toNat ++ U4 (body ++ more).length ++ (body ++ more) ++ rest) =
      .error (.attrLen (UInt32.ofNat (body ++ more).length) (UInt32.ofNat body.length) name) := by
  rw [rAttr_eq table raw hi ht hl st, hr.more more h]
  cases more with
  | nil => exact absurd rfl hm
  | cons x xs =>
    exact congrArg (fun u => Except.error (Err.attrLen _ u _)) (used_length body (x :: xs))

theorem attr_shorter {α : Type} {table : Bytes → Option (Rd α)} {raw : RawAttribute → α} {P : Pool}
    {cs : Option (List Catch)} {name body more rest : Bytes} {i : UInt16} {r : Rd α} {a : α} {st st' : RSt}
    (hi : IsUtf8 P i name) (ht : table name = some r) (hr : Local r)
    (h : r ⟨P, cs⟩ st (body ++ more) = .ok (a, st', [])) (hm : more ≠ [])
    (hl : body.length < 4294967296) :
    ∃ e, rAttr table raw ⟨P, cs⟩ st (U2 i.toNat ++ U4 body.length ++ body ++ rest) = .error e := by
  rw [rAttr_eq table raw hi ht hl st]
  rcases hb : r ⟨P, cs⟩ st body with e | ⟨x, st1, left⟩
  · exact ⟨e, rfl⟩
  · cases left with
    | cons y ys => exact ⟨_, rfl⟩
    | nil =>
      have := hr.more more hb
      rw [h] at this
      simp only [List.nil_append, Except.ok.injEq, Prod.mk.injEq] at this
      exact absurd this.2.2.symm hm

end Verif
