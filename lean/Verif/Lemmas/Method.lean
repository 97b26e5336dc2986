import Verif.Spec.Class
import Verif.Lemmas.CodeRound
import Verif.Lemmas.Size
import Verif.Lemmas.Attr

/-! # Lemmas about methods -/

namespace Verif
open Spec Sig

/-! ## Reading up to a relation, with references registered on the way -/

theorem Spec.Grown.refl {T : List Bsm} (p : List UInt16) : Grown T p p := ⟨[], by simp, by simp⟩

theorem Spec.Grown.trans {T : List Bsm} {p q r : List UInt16} (h1 : Grown T p q) (h2 : Grown T q r) :
    Grown T p r := by
  obtain ⟨t, rfl, ht⟩ := h1
  obtain ⟨u, rfl, hu⟩ := h2
  exact ⟨t ++ u, by simp, fun k hk => (List.mem_append.mp hk).elim (ht k) (hu k)⟩

def QReads {α : Type} (T : List Bsm) (r : Rd α) (env : REnv) (bs : Bytes) (R : α → Prop) : Prop :=
  ∀ (st : RSt) (rest : Bytes), ∃ v q, r env st (bs ++ rest) = .ok (v, ⟨q, st.labels⟩, rest) ∧
    Grown T st.pending q ∧ R v

theorem RReads.q {α : Type} {T : List Bsm} {r : Rd α} {env : REnv} {bs : Bytes} {R : α → Prop}
    (h : RReads T r env bs R) : QReads T r env bs R := by
  intro st rest
  obtain ⟨v, pend, hv, hp, h⟩ := h
  refine ⟨v, st.pending ++ pend, ?_, ⟨pend, rfl, hp⟩, hv⟩
  rcases hl : st.labels with _ | ls
  · rw [h st rest (by simp) [] (by simp [hl])]
    rw [hl]
    rfl
  · rw [h st rest (by simp) ls (by simp [hl, LabelMap.addAll])]
    rw [hl]
    rfl

theorem PReads.q {α : Type} {T : List Bsm} {r : Rd α} {env : REnv} {bs : Bytes} {x : α} {R : α → Prop}
    (h : PReads r env bs x) (hR : R x) : QReads T r env bs R :=
  fun st rest => ⟨x, st.pending, h st rest, .refl _, hR⟩

theorem QReads.mono {T : List Bsm} {α : Type} {r : Rd α} {env : REnv} {bs : Bytes} {R S : α → Prop}
    (h : QReads T r env bs R) (hS : ∀ x, R x → S x) : QReads T r env bs S := by
  intro st rest
  obtain ⟨v, q, h1, h2, h3⟩ := h st rest
  exact ⟨v, q, h1, h2, hS v h3⟩

theorem QReads.cast {T : List Bsm} {α : Type} {r : Rd α} {env : REnv} {bs bs' : Bytes} {R : α → Prop}
    (h : QReads T r env bs R) (hb : bs = bs') : QReads T r env bs' R := hb ▸ h

theorem QReads.bind {T : List Bsm} {α β : Type} {r : Rd α} {f : α → Rd β} {env : REnv} {b1 b2 : Bytes}
    {R : α → Prop} {S : β → Prop} (h : QReads T r env b1 R) (h2 : ∀ x, R x → QReads T (f x) env b2 S) :
    QReads T (Rd.bind r f) env (b1 ++ b2) S := by
  intro st rest
  obtain ⟨v, q, e1, g1, hv⟩ := h st (b2 ++ rest)
  obtain ⟨w, q', e2, g2, hw⟩ := h2 v hv ⟨q, st.labels⟩ rest
  refine ⟨w, q', ?_, g1.trans g2, hw⟩
  unfold Rd.bind
  rw [List.append_assoc, e1]
  exact e2

theorem QReads.map {T : List Bsm} {α β : Type} {r : Rd α} {f : α → β} {env : REnv} {bs : Bytes}
    {R : α → Prop} {S : β → Prop} (h : QReads T r env bs R) (hS : ∀ x, R x → S (f x)) :
    QReads T (Rd.map f r) env bs S :=
  (QReads.bind (f := fun a => Rd.pure (f a)) h
    (fun x hx => (Rd.reads_pure env (f x)).q (hS x hx))).cast (by simp)

theorem QReads.ap {T : List Bsm} {α β : Type} {g : Rd (α → β)} {r : Rd α} {env : REnv} {b1 b2 : Bytes}
    {G : (α → β) → Prop} {R : α → Prop} {S : β → Prop} (h1 : QReads T g env b1 G) (h2 : QReads T r env b2 R)
    (hS : ∀ f x, G f → R x → S (f x)) : QReads T (Rd.ap g r) env (b1 ++ b2) S :=
  QReads.bind h1 (fun f hf => QReads.map h2 (fun x hx => hS f x hf hx))

theorem QReads.replicate {T : List Bsm} {α β : Type} {f : Fmt β} {r : Rd α} {c : Ctx}
    {cs : Option (List Catch)} {R : β → α → Prop} {xs : List β} {bs : Bytes} (ha : Fmt.all f c xs bs)
    (hr : ∀ x ∈ xs, ∀ bs, f c x bs → QReads T r ⟨c.pool, cs⟩ bs (R x)) :
    QReads T (Rd.replicate xs.length r) ⟨c.pool, cs⟩ bs (fun ys => Matched R xs ys) := by
  induction xs generalizing bs with
  | nil =>
    cases ha
    exact (Rd.reads_pure _ _).q .nil
  | cons x xs ih =>
    obtain ⟨b, b', rfl, h1, h2⟩ := ha
    refine QReads.bind (hr x (by simp) b h1) (fun y hy => ?_)
    exact QReads.map (f := fun as => y :: as) (ih h2 (fun z hz => hr z (by simp [hz])))
      (fun ys hys => .cons hy hys)

theorem QReads.vec2 {T : List Bsm} {α β : Type} {f : Fmt β} {r : Rd α} {c : Ctx}
    {cs : Option (List Catch)} {R : β → α → Prop} {xs : List β} {bs : Bytes} (h : Fmt.table2 f c xs bs)
    (hr : ∀ x ∈ xs, ∀ bs, f c x bs → QReads T r ⟨c.pool, cs⟩ bs (R x)) :
    QReads T (rVec u16 r) ⟨c.pool, cs⟩ bs (fun ys => Matched R xs ys) := by
  obtain ⟨h0, b, rfl, h1⟩ := h
  refine QReads.bind (R := fun n => u16.bits n = xs.length) ((reads_u2' _ h0).q ?_) (fun n hn => ?_)
  · simp [u16]; omega
  · rw [hn]; exact QReads.replicate h1 hr

theorem QReads.framed {T : List Bsm} {α : Type} {nm : Bytes} {r : Rd α} {env : REnv} {body : Bytes} {R : α → Prop}
    (h : QReads T r env body R) (hl : body.length < 4294967296) :
    QReads T (rFramed nm r) env (U4 body.length ++ body) R := by
  intro st rest
  obtain ⟨v, q, e, g, hv⟩ := h st []
  refine ⟨v, q, ?_, g, hv⟩
  unfold rFramed
  rw [List.append_assoc, readsU4' _ hl]
  simp only [UInt32.toNat_ofNat', Nat.mod_eq_of_lt (show body.length < 2 ^ 32 by omega)]
  rw [readExact_append _ _ _ rfl]
  rw [List.append_nil] at e
  simp only [e]

theorem QReads.attr {T : List Bsm} {α : Type} {table : Bytes → Option (Rd α)} {raw : RawAttribute → α}
    {c : Ctx} {cs : Option (List Catch)} {name body : Bytes} {i : UInt16} {r : Rd α} {R : α → Prop}
    (hi : IsUtf8 c.pool i name) (ht : table name = some r) (h : QReads T r ⟨c.pool, cs⟩ body R)
    (hl : body.length < 4294967296) :
    QReads T (rAttr table raw) ⟨c.pool, cs⟩ (U2 i.toNat ++ U4 body.length ++ body) R := by
  refine (QReads.bind (b2 := U4 body.length ++ body) (R := fun x => x = name)
    ((reads_utf8 ⟨i, hi, rfl⟩ cs).q rfl) ?_).cast (by simp)
  rintro x rfl
  rw [ht]
  exact h.framed hl

/-! ## Methods -/

variable {C : Type}

theorem methodTable_none {o : Nat → List LocalVariable → List LocalVariable} {n : Bytes}
    (h : n ∉ methodAttrNames) : MethodAttr.table o n = none := by
  simp only [methodAttrNames, List.mem_cons, List.not_mem_nil, or_false, not_or] at h
  simp only [MethodAttr.table, h, if_false]

/-- How bodies with the layout `code` are read. -/
def ReadsBodies (c : Ctx) (cs : Option (List Catch)) (code : Fmt C) (ok : C → Prop)
    (R : C → Code → Prop) : Prop :=
  ∀ o : Nat → List LocalVariable → List LocalVariable, (∀ n l, (o n l).Perm l) → ∀ x bs, code c x bs → ok x →
    QReads c.bsm (Code.read o) ⟨c.pool, cs⟩ bs (R x)

theorem reads_methodAttr {c : Ctx} {cs : Option (List Catch)} {code : Fmt C} {ok : C → Prop}
    {R : C → Code → Prop} (hc : ReadsBodies c cs code ok R) (ord : Order) (hord : ∀ k n l, (ord k n l).Perm l)
    {a : MethodAttrOf C} {bs : Bytes} (h : methodAttr code c a bs) (hr : a.Readable ok) :
    QReads c.bsm (MethodAttr.read ord) ⟨c.pool, cs⟩ bs (SameAttr R a) := by
  intro st rest
  show ∃ v q, rAttr (MethodAttr.table (ord (bs ++ rest).length)) .raw _ st _ = _ ∧ _
  have ho := hord (bs ++ rest).length
  generalize ord (bs ++ rest).length = o at ho
  revert st rest
  show QReads c.bsm (rAttr (MethodAttr.table o) .raw) ⟨c.pool, cs⟩ bs (SameAttr R a)
  cases a with
  | code x =>
    obtain ⟨i, body, hi, hb, hl, rfl⟩ := h
    exact QReads.attr hi rfl (QReads.map (f := MethodAttrOf.code) (hc o ho x body hb hr) (fun _ h => h)) hl
  | deprecated =>
    obtain ⟨i, body, hi, rfl, hl, rfl⟩ := h
    exact (PReads.attr (x := MethodAttrOf.deprecated) hi rfl (Rd.reads_pure _ _) hl).q trivial
  | synthetic =>
    obtain ⟨i, body, hi, rfl, hl, rfl⟩ := h
    exact (PReads.attr (x := MethodAttrOf.synthetic) hi rfl (Rd.reads_pure _ _) hl).q trivial
  | signature s =>
    obtain ⟨i, body, hi, hb, hl, rfl⟩ := h
    exact (PReads.attr hi rfl (PReads.map (f := MethodAttrOf.signature)
      (reads_sig (fun _ h => Props.C19_method_partial h hr.1 hr.2) hb cs)) hl).q rfl
  | visible as =>
    obtain ⟨i, body, hi, hb, hl, rfl⟩ := h
    exact (PReads.attr hi rfl (PReads.map (f := MethodAttrOf.visible) (reads_anns cs hb hr)) hl).q rfl
  | invisible as =>
    obtain ⟨i, body, hi, hb, hl, rfl⟩ := h
    exact (PReads.attr hi rfl (PReads.map (f := MethodAttrOf.invisible) (reads_anns cs hb hr)) hl).q rfl
  | visibleType as =>
    obtain ⟨i, body, hi, hb, hl, rfl⟩ := h
    exact (PReads.attr hi rfl (PReads.map (f := MethodAttrOf.visibleType)
      (reads_tanns (fun _ _ h => reads_methodTarget cs h) hb hr)) hl).q rfl
  | invisibleType as =>
    obtain ⟨i, body, hi, hb, hl, rfl⟩ := h
    exact (PReads.attr hi rfl (PReads.map (f := MethodAttrOf.invisibleType)
      (reads_tanns (fun _ _ h => reads_methodTarget cs h) hb hr)) hl).q rfl
  | visibleParams ps =>
    obtain ⟨i, body, hi, hb, hl, rfl⟩ := h
    exact (PReads.attr hi rfl (PReads.map (f := MethodAttrOf.visibleParams)
      (PReads.vec1M hb (fun a ha _ h => reads_anns cs h (hr a ha)))) hl).q rfl
  | invisibleParams ps =>
    obtain ⟨i, body, hi, hb, hl, rfl⟩ := h
    exact (PReads.attr hi rfl (PReads.map (f := MethodAttrOf.invisibleParams)
      (PReads.vec1M hb (fun a ha _ h => reads_anns cs h (hr a ha)))) hl).q rfl
  | exceptions ks =>
    obtain ⟨i, body, hi, hb, hl, rfl⟩ := h
    exact (PReads.attr hi rfl (PReads.map (f := MethodAttrOf.exceptions)
      (PReads.vec2 (fun _ _ h => reads_cls h cs) hb)) hl).q rfl
  | annotationDefault v =>
    obtain ⟨i, body, hi, hb, hl, rfl⟩ := h
    exact (PReads.attr hi rfl (PReads.map (f := MethodAttrOf.annotationDefault)
      (reads_annValue cs hb hr)) hl).q rfl
  | methodParameters ps =>
    obtain ⟨i, body, hi, hb, hl, rfl⟩ := h
    exact (PReads.attr hi rfl (PReads.map (f := MethodAttrOf.methodParameters)
      (PReads.vec1M hb (fun _ _ _ h => reads_methodParameter cs h))) hl).q rfl
  | raw a =>
    obtain ⟨i, body, hi, rfl, hl, rfl⟩ := h
    exact (PReads.rawAttr hi (methodTable_none hr) hl).q rfl

theorem reads_method {c : Ctx} {cs : Option (List Catch)} {code : Fmt C} {ok : C → Prop}
    {R : C → Code → Prop} (hc : ReadsBodies c cs code ok R) (ord : Order) (hord : ∀ k n l, (ord k n l).Perm l)
    {m : MethodOf C} {bs : Bytes} (h : method code c m bs) (hr : m.Readable ok) :
    QReads c.bsm (Method.read ord) ⟨c.pool, cs⟩ bs (SameMethod R m) := by
  obtain ⟨b, b', rfl, h1, b1, b2, rfl, h2, b3, b4, rfl, h3, b5, b6, rfl, h4, rfl⟩ := h
  refine (QReads.ap (G := fun f => f = MethodOf.mk m.access m.name m.descriptor)
    ((PReads.ap (PReads.ap (PReads.map (f := MethodOf.mk) (reads_flags h1 cs))
      (reads_utf8 h2 cs)) (reads_descr h3 cs)).q rfl)
    (QReads.vec2 h4 (fun a ha _ h => reads_methodAttr hc ord hord h (hr a ha))) ?_).cast (by simp)
  rintro f as rfl has
  exact ⟨rfl, rfl, rfl, has⟩

/-! ## Bodies -/

theorem reads_placed (c : Ctx) (hT : c.bsm.length ≤ 65536) (cs : Option (List Catch)) :
    ReadsBodies c cs placedBody (fun _ => True) (Reproduces c.bsm) := by
  intro o ho x bs h _ st rest
  obtain ⟨h1, h2, h3⟩ := h
  obtain ⟨y, q, ν, ρ, e, g, d⟩ := read_body (c := x.ctx c) o ho hT h1 h2 h3 cs st rest
  exact ⟨y, q, e, g, ν, ρ, ⟨d.inj, d.dom, d.names, d.maxStack, d.maxLocals, d.code, d.catches, d.attrs⟩⟩

theorem reads_codeFile (c : Ctx) (hT : c.bsm.length ≤ 65536) (cs : Option (List Catch)) :
    ReadsBodies c cs codeFile CodeReadable (fun x y => ∃ ρ, SameBody c.bsm x y ρ) := by
  intro o ho x bs h hx st rest
  obtain ⟨c', b, hp, hb, hpos, hhand, h⟩ := h
  obtain ⟨y, q, ρ, e, g, d⟩ := codeBody_read o ho (c := c') (by rw [hb]; exact hT) hx (fun l p h => (hpos l p h).1)
    (fun l p h => (hpos l p h).2) hhand h cs st rest
  rw [hp] at e
  rw [hb] at g d
  exact ⟨y, q, e, g, ρ, d⟩

theorem writes_code (env : WEnv) {x : Code} (hx : CodeWritable x) (hs : Compact x.code) :
    Writes env x.write (Fmt.small codeFile) x := by
  intro cp bs cp' hc h
  obtain ⟨s, a, ⟨cp1, h0⟩, _, h2⟩ := write_body hx hc h (fun a cp1 h => sized_of_compact hx.insns hs hc h)
  refine ⟨s, fun W hW hlen => ?_⟩
  exact ⟨(Code.env a x.catches).ctx W, a.code, rfl, rfl, fun l p h => label_at h0 h,
    fun k n hn => handler_at hx.catches hn, h2 W hW hlen⟩

theorem writes_methodAttr (env : WEnv) (a : MethodAttr)
    (h : a.Writable fun b => CodeWritable b ∧ Compact b.code) :
    Writes env a.write (Fmt.small (methodAttr codeFile)) a := by
  cases a with
  | code x => exact Writes.weaken (Writes.sattr (writes_code env h.1 h.2)) (fun _ _ h => h)
  | deprecated => exact Writes.weaken (Writes.sattr (writes_unit env).toSmall) (fun _ _ h => h)
  | synthetic => exact Writes.weaken (Writes.sattr (writes_unit env).toSmall) (fun _ _ h => h)
  | signature s =>
    exact Writes.weaken (Writes.sattr (writes_sig env
      (fun _ h' => Props.C19_print_method_partial h' h.2) h.1).toSmall) (fun _ _ h => h)
  | visible as => exact Writes.weaken (Writes.sattr (writes_anns env h).toSmall) (fun _ _ h => h)
  | invisible as => exact Writes.weaken (Writes.sattr (writes_anns env h).toSmall) (fun _ _ h => h)
  | visibleType as =>
    exact Writes.weaken (Writes.sattr (writes_tanns (writes_methodTarget env) h).toSmall) (fun _ _ h => h)
  | invisibleType as =>
    exact Writes.weaken (Writes.sattr (writes_tanns (writes_methodTarget env) h).toSmall) (fun _ _ h => h)
  | visibleParams ps =>
    exact Writes.weaken (Writes.sattr (Writes.vec1 fun as ha => writes_anns env (h as ha)).toSmall)
      (fun _ _ h => h)
  | invisibleParams ps =>
    exact Writes.weaken (Writes.sattr (Writes.vec1 fun as ha => writes_anns env (h as ha)).toSmall)
      (fun _ _ h => h)
  | exceptions ks =>
    exact Writes.weaken (Writes.sattr (Writes.vec2 fun x _ => writes_cls env x).toSmall) (fun _ _ h => h)
  | annotationDefault v =>
    exact Writes.weaken (Writes.sattr (writes_value env v h).toSmall) (fun _ _ h => h)
  | methodParameters ps =>
    exact Writes.weaken (Writes.sattr (Writes.vec1 fun x hx => writes_methodParameter env (h x hx)).toSmall)
      (fun _ _ h => h)
  | raw a => exact Writes.weaken (writes_raw env a) (fun _ _ h => h)

theorem writes_method (env : WEnv) {m : Method}
    (h : m.Writable fun b => CodeWritable b ∧ Compact b.code) :
    Writes env m.write (Fmt.small (method codeFile)) m :=
  Writes.scons (Writes.on (f := Fmt.small _) (writes_flags env h.1).toSmall)
    (Writes.scons (Writes.on (f := Fmt.small _) (writes_utf8 env _).toSmall)
    (Writes.scons (Writes.on (f := Fmt.small _) (writes_type env h.2.1).toSmall)
    (Writes.scons (Writes.on (f := Fmt.small _) (Writes.svec2 fun a ha => writes_methodAttr env a (h.2.2 a ha)))
      (Writes.snil env _))))

end Verif
