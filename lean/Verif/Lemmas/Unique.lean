import Verif.Lemmas.ExecClass
import Verif.Lemmas.Skeleton
import Verif.Spec.Frames

/-! # A class file can be taken apart in one way only -/

namespace Verif
open Spec Sig

/-! ## Tables -/

theorem all_cut {α β : Type} {f : Fmt α} {g : Fmt β} {c c' : Ctx} {R : α → β → Prop} :
    ∀ {xs : List α} {ys : List β} {b b' t t' : Bytes},
      (∀ x ∈ xs, ∀ y ∈ ys, ∀ b b' t t', f c x b → g c' y b' → b ++ t = b' ++ t' → R x y ∧ t = t') →
      xs.length = ys.length → Fmt.all f c xs b → Fmt.all g c' ys b' → b ++ t = b' ++ t' →
      Matched R xs ys ∧ t = t'
  | [], [], _, _, _, _, _, _, h, h', e => by
    cases h
    cases h'
    exact ⟨.nil, e⟩
  | x :: xs, y :: ys, _, _, _, _, H, hl, h, h', e => by
    obtain ⟨b1, b2, rfl, h1, h2⟩ := h
    obtain ⟨b1', b2', rfl, h1', h2'⟩ := h'
    rw [List.append_assoc, List.append_assoc] at e
    obtain ⟨r, e⟩ := H x (by simp) y (by simp) _ _ _ _ h1 h1' e
    obtain ⟨m, e⟩ := all_cut (fun x hx y hy => H x (by simp [hx]) y (by simp [hy]))
      (by simpa using hl) h2 h2' e
    exact ⟨.cons r m, e⟩

theorem table_cut {α β : Type} {f : Fmt α} {g : Fmt β} {c c' : Ctx} {R : α → β → Prop}
    {xs : List α} {ys : List β} {b b' t t' : Bytes}
    (H : ∀ x ∈ xs, ∀ y ∈ ys, ∀ b b' t t', f c x b → g c' y b' → b ++ t = b' ++ t' → R x y ∧ t = t')
    (h : Fmt.table2 f c xs b) (h' : Fmt.table2 g c' ys b') (e : b ++ t = b' ++ t') : Matched R xs ys ∧ t = t' := by
  obtain ⟨l, b1, rfl, h⟩ := h
  obtain ⟨l', b1', rfl, h'⟩ := h'
  rw [List.append_assoc, List.append_assoc] at e
  obtain ⟨hl, e⟩ := u2_cancel l l' e
  exact all_cut H hl h h' e

/-! ## Parts of a fixed size -/

theorem len_cut {b b' t t' : Bytes} {n : Nat} (h : b.length = n) (h' : b'.length = n) (e : b ++ t = b' ++ t') :
    b = b' ∧ t = t' := List.append_inj e (h.trans h'.symm)

theorem U2_len (n : Nat) : (U2 n).length = 2 := rfl

theorem index_len {α : Type} {is : Pool → UInt16 → α → Prop} {c : Ctx} {x : α} {b : Bytes}
    (h : Fmt.index is c x b) : b.length = 2 := by
  obtain ⟨i, _, rfl⟩ := h
  rfl

theorem indexOpt_len {α : Type} {is : Pool → UInt16 → α → Prop} {c : Ctx} {x : Option α} {b : Bytes}
    (h : Fmt.indexOpt is c x b) : b.length = 2 := by
  cases x with
  | none => cases h; rfl
  | some x =>
    obtain ⟨i, _, _, rfl⟩ := h
    rfl

theorem label_len {c : Ctx} {l : Label} {b : Bytes} (h : Fmt.label c l b) : b.length = 2 := by
  obtain ⟨n, _, _, rfl⟩ := h
  rfl

theorem flags_len {t : FlagType} {c : Ctx} {f : Flags t} {b : Bytes} (h : Fmt.flags t c f b) : b.length = 2 := by
  obtain ⟨_, rfl⟩ := h
  rfl

theorem handler_len {c : Ctx} {k : Catch} {b : Bytes} (h : handlerEntry c k b) : b.length = 8 := by
  obtain ⟨b1, _, rfl, h1, b2, _, rfl, h2, b3, _, rfl, h3, b4, _, rfl, h4, rfl⟩ := h
  have h1 := label_len h1
  have h2 := label_len h2
  have h3 := label_len h3
  have h4 := indexOpt_len h4
  simp only [List.length_append, List.length_nil]
  omega

/-! ## Attributes -/

/-- The bytes are an attribute of this name with this content. -/
def Encl (P : Pool) (name body bs : Bytes) : Prop :=
  ∃ i : UInt16, IsUtf8 P i name ∧ body.length < 4294967296 ∧ bs = U2 i.toNat ++ U4 body.length ++ body

theorem encl_cut {P : Pool} {n n' b b' bs bs' t t' : Bytes} (h : Encl P n b bs) (h' : Encl P n' b' bs')
    (e : bs ++ t = bs' ++ t') : n = n' ∧ b = b' ∧ t = t' := by
  obtain ⟨i, h1, h2, rfl⟩ := h
  obtain ⟨i', h1', h2', rfl⟩ := h'
  simp only [List.append_assoc] at e
  obtain ⟨rfl, e1⟩ := idx_cancel e
  obtain ⟨hl, e2⟩ := u4_cancel h2 h2' e1
  obtain ⟨rfl, rfl⟩ := List.append_inj e2 hl
  exact ⟨isUtf8_unique h1 h1', rfl, rfl⟩

theorem attr_encl {α : Type} {name : Bytes} {f : Fmt α} {c : Ctx} {x : α} {bs : Bytes} (h : Fmt.attr name f c x bs) :
    ∃ body, Encl c.pool name body bs ∧ f c x body := by
  obtain ⟨i, b, h1, h2, h3, h4⟩ := h
  exact ⟨b, ⟨i, h1, h3, h4⟩, h2⟩

/-- The names of the attributes. -/
def methodAttrName {C : Type} : MethodAttrOf C → Bytes
  | .code _ => N.code
  | .deprecated => N.deprecated
  | .synthetic => N.synthetic
  | .signature _ => N.signature
  | .visible _ => N.runtimeVisibleAnnotations
  | .invisible _ => N.runtimeInvisibleAnnotations
  | .visibleType _ => N.runtimeVisibleTypeAnnotations
  | .invisibleType _ => N.runtimeInvisibleTypeAnnotations
  | .visibleParams _ => N.runtimeVisibleParameterAnnotations
  | .invisibleParams _ => N.runtimeInvisibleParameterAnnotations
  | .exceptions _ => N.exceptions
  | .annotationDefault _ => N.annotationDefault
  | .methodParameters _ => N.methodParameters
  | .raw a => a.name

def codeAttrName : CodeAttr → Bytes
  | .lines _ => N.lineNumberTable
  | .vars _ => N.localVariableTable
  | .varTypes _ => N.localVariableTypeTable
  | .invisibleType _ => N.runtimeInvisibleTypeAnnotations
  | .visibleType _ => N.runtimeVisibleTypeAnnotations
  | .frames _ => N.stackMapTable
  | .raw a => a.name

theorem methodAttr_encl {C : Type} {f : Fmt C} {c : Ctx} {a : MethodAttrOf C} {bs : Bytes} (h : methodAttr f c a bs) :
    ∃ body, Encl c.pool (methodAttrName a) body bs ∧ ∀ x, a = .code x → f c x body := by
  cases a with
  | code x =>
    obtain ⟨b, h1, h2⟩ := attr_encl h
    exact ⟨b, h1, fun y e => by cases e; exact h2⟩
  | _ =>
    obtain ⟨b, h1, _⟩ := attr_encl h
    exact ⟨b, h1, nofun⟩

theorem codeAttr_encl {c : Ctx} {a : CodeAttr} {bs : Bytes} (h : codeAttr c a bs) :
    ∃ body, Encl c.pool (codeAttrName a) body bs := by
  cases a <;> (obtain ⟨b, h1, _⟩ := attr_encl h; exact ⟨b, h1⟩)

theorem fieldAttr_encl {c : Ctx} {a : FieldAttr} {bs : Bytes} (h : fieldAttr c a bs) :
    ∃ name body, Encl c.pool name body bs := by
  cases a <;> (obtain ⟨b, h1, _⟩ := attr_encl h; exact ⟨_, b, h1⟩)

/-! ## Methods and classes -/

section
variable {C D : Type}

/-- Both are bodies, or neither is. -/
def BothCode (R : C → D → Prop) : MethodAttrOf C → MethodAttrOf D → Prop
  | .code x, .code y => R x y
  | .code _, _ => False
  | _, .code _ => False
  | _, _ => True

structure TwinMethod (R : C → D → Prop) (m : MethodOf C) (m' : MethodOf D) : Prop where
  name : m'.name = m.name
  descriptor : m'.descriptor = m.descriptor
  attrs : Matched (BothCode R) m.attrs m'.attrs

theorem raw_not_code {ok : C → Prop} {a : RawAttribute} (h : (MethodAttrOf.raw a).Readable ok) : a.name ≠ N.code :=
  fun e => h (by rw [e]; simp [methodAttrNames])

theorem code_name {ok : C → Prop} {a : MethodAttrOf C} (h : a.Readable ok) (e : methodAttrName a = N.code) :
    ∃ x, a = .code x := by
  cases a with
  | code x => exact ⟨x, rfl⟩
  | raw r => exact absurd e (raw_not_code h)
  | _ => exact absurd e (by dsimp only [methodAttrName]; decide)

theorem methodAttr_cut {f : Fmt C} {g : Fmt D} {R : C → D → Prop} {ok : C → Prop} {ok' : D → Prop} {c c' : Ctx}
    (hc : c.pool = c'.pool) (H : ∀ x y b, ok x → ok' y → f c x b → g c' y b → R x y)
    {a : MethodAttrOf C} {a' : MethodAttrOf D} {b b' t t' : Bytes} (ha : a.Readable ok) (ha' : a'.Readable ok')
    (h : methodAttr f c a b) (h' : methodAttr g c' a' b') (e : b ++ t = b' ++ t') : BothCode R a a' ∧ t = t' := by
  obtain ⟨body, h1, h2⟩ := methodAttr_encl h
  obtain ⟨body', h1', h2'⟩ := methodAttr_encl h'
  rw [hc] at h1
  obtain ⟨hn, rfl, e⟩ := encl_cut h1 h1' e
  refine ⟨?_, e⟩
  by_cases hk : methodAttrName a = N.code
  · obtain ⟨x, rfl⟩ := code_name ha hk
    obtain ⟨y, rfl⟩ := code_name ha' (hn ▸ hk)
    exact H x y body ha ha' (h2 x rfl) (h2' y rfl)
  · have hk' : methodAttrName a' ≠ N.code := hn ▸ hk
    cases a with
    | code x => exact absurd rfl hk
    | _ => cases a' with
      | code y => exact absurd rfl hk'
      | _ => trivial

theorem method_cut {f : Fmt C} {g : Fmt D} {R : C → D → Prop} {ok : C → Prop} {ok' : D → Prop} {c c' : Ctx}
    (hc : c.pool = c'.pool) (H : ∀ x y b, ok x → ok' y → f c x b → g c' y b → R x y)
    {m : MethodOf C} {m' : MethodOf D} {b b' t t' : Bytes} (hm : m.Readable ok) (hm' : m'.Readable ok')
    (h : method f c m b) (h' : method g c' m' b') (e : b ++ t = b' ++ t') : TwinMethod R m m' ∧ t = t' := by
  obtain ⟨b1, _, rfl, h1, b2, _, rfl, h2, b3, _, rfl, h3, b4, _, rfl, h4, rfl⟩ := h
  obtain ⟨b1', _, rfl, h1', b2', _, rfl, h2', b3', _, rfl, h3', b4', _, rfl, h4', rfl⟩ := h'
  simp only [List.append_assoc, List.nil_append] at e
  obtain ⟨_, e1⟩ := len_cut (flags_len h1) (flags_len h1') e
  obtain ⟨i, g2, rfl⟩ := h2
  obtain ⟨i', g2', rfl⟩ := h2'
  obtain ⟨rfl, e2⟩ := idx_cancel e1
  obtain ⟨j, g3, rfl⟩ := h3
  obtain ⟨j', g3', rfl⟩ := h3'
  obtain ⟨rfl, e3⟩ := idx_cancel e2
  rw [hc] at g2 g3
  obtain ⟨h5, e4⟩ := table_cut (R := BothCode R) (fun a ha a' ha' b b' t t' h h' e =>
    methodAttr_cut hc H (hm a ha) (hm' a' ha') h h' e) h4 h4' e3
  exact ⟨⟨isUtf8_unique g2' g2, isDescr_unique g3' g3, h5⟩, e4⟩

theorem field_cut {c c' : Ctx} (hc : c.pool = c'.pool) {m m' : Field} {b b' t t' : Bytes}
    (h : field c m b) (h' : field c' m' b') (e : b ++ t = b' ++ t') : True ∧ t = t' := by
  obtain ⟨b1, _, rfl, h1, b2, _, rfl, h2, b3, _, rfl, h3, b4, _, rfl, h4, rfl⟩ := h
  obtain ⟨b1', _, rfl, h1', b2', _, rfl, h2', b3', _, rfl, h3', b4', _, rfl, h4', rfl⟩ := h'
  simp only [List.append_assoc, List.nil_append] at e
  obtain ⟨_, e⟩ := len_cut (flags_len h1) (flags_len h1') e
  obtain ⟨_, e⟩ := len_cut (index_len h2) (index_len h2') e
  obtain ⟨_, e⟩ := len_cut (index_len h3) (index_len h3') e
  obtain ⟨_, e⟩ := table_cut (R := fun _ _ => True) (fun a ha a' ha' b b' t t' h h' e => by
    obtain ⟨n, body, h1⟩ := fieldAttr_encl h
    obtain ⟨n', body', h1'⟩ := fieldAttr_encl h'
    rw [hc] at h1
    exact ⟨trivial, (encl_cut h1 h1' e).2.2⟩) h4 h4' e
  exact ⟨trivial, e⟩

theorem pool_same {es es' : List Entry} {p p' b b' : Bytes} {P P' : Pool} (hp : PoolBytes es p)
    (hp' : PoolBytes es' p') (hP : ∀ i e, P i = some e ↔ Spec.At es i.toNat e)
    (hP' : ∀ i e, P' i = some e ↔ Spec.At es' i.toNat e) (e : p ++ b = p' ++ b') : P = P' ∧ b = b' := by
  obtain ⟨m, hm, h1⟩ := mapCp_read hp
  obtain ⟨m', hm', h1'⟩ := mapCp_read hp'
  have h2 := h1 b
  have h2' := h1' b'
  rw [e, h2'] at h2
  injection h2 with h2
  injection h2 with h2 h3
  subst h2
  refine ⟨?_, h3.symm⟩
  funext i
  refine Option.ext fun x => ?_
  rw [hP, hP', ← hm, ← hm']

theorem major_unique {v v' : Major} (h : majorNumber v = majorNumber v') : v = v' := by
  revert h
  cases v <;> cases v' <;> first | exact fun _ => rfl | exact fun h => absurd h (by decide)

/-- Two descriptions of one class file agree on the version and on where the bodies are. -/
theorem class_unique {f : Fmt C} {g : Fmt D} {R : C → D → Prop} {ok : C → Prop} {ok' : D → Prop} {x : ClassOf C}
    {y : ClassOf D} {bs : Bytes}
    (H : ∀ a b bs P, ok a → ok' b → f ⟨P, bsmTable x.attrs, fun _ => none, fun _ => none⟩ a bs →
      g ⟨P, bsmTable y.attrs, fun _ => none, fun _ => none⟩ b bs → R a b)
    (hx : ∀ m ∈ x.methods, m.Readable ok) (hy : ∀ m ∈ y.methods, m.Readable ok') (h : classFile f x bs)
    (h' : classFile g y bs) : y.version = x.version ∧ Matched (TwinMethod R) x.methods y.methods := by
  obtain ⟨es, P, pool, body, hp, hP, hb, rfl⟩ := h
  obtain ⟨es', P', pool', body', hp', hP', hb', e⟩ := h'
  simp only [List.append_assoc] at e
  have e := (List.append_inj e rfl).2
  obtain ⟨v1, e⟩ := idx_cancel e
  have lt : ∀ v : Major, majorNumber v < 65536 := by intro v; cases v <;> decide
  obtain ⟨v2, e⟩ := u2_cancel (lt _) (lt _) e
  obtain ⟨rfl, e⟩ := pool_same hp hp' hP hP' e
  subst e
  obtain ⟨b1, _, rfl, h1, b2, _, rfl, h2, b3, _, rfl, h3, b4, _, rfl, h4, b5, _, rfl, h5,
    b6, _, rfl, h6, b7, _, rfl, h7, rfl⟩ := hb
  obtain ⟨b1', _, e, h1', b2', _, rfl, h2', b3', _, rfl, h3', b4', _, rfl, h4', b5', _, rfl, h5',
    b6', _, rfl, h6', b7', _, rfl, h7', rfl⟩ := hb'
  obtain ⟨_, e⟩ := len_cut (flags_len h1) (flags_len h1') e
  obtain ⟨_, e⟩ := len_cut (index_len h2) (index_len h2') e
  obtain ⟨_, e⟩ := len_cut (indexOpt_len h3) (indexOpt_len h3') e
  obtain ⟨_, e⟩ := table_cut (R := fun _ _ => True)
    (fun a _ a' _ b b' t t' h h' e => ⟨trivial, (len_cut (index_len h) (index_len h') e).2⟩) h4 h4' e
  obtain ⟨_, e⟩ := table_cut (R := fun _ _ => True) (c := ⟨P, bsmTable x.attrs, fun _ => none, fun _ => none⟩)
    (c' := ⟨P, bsmTable y.attrs, fun _ => none, fun _ => none⟩)
    (fun a _ a' _ b b' t t' h h' e => field_cut (by rfl) h h' e) h5 h5' e
  obtain ⟨h8, _⟩ := table_cut (R := TwinMethod R) (f := method f) (g := method g)
    (c := ⟨P, bsmTable x.attrs, fun _ => none, fun _ => none⟩)
    (c' := ⟨P, bsmTable y.attrs, fun _ => none, fun _ => none⟩) (fun a ha a' ha' b b' t t' h h' e =>
    method_cut (by rfl) (fun x y b => fun h1 h2 h3 h4 => H x y b P h1 h2 h3 h4) (hx a ha) (hy a' ha') h h' e) h6 h6' e
  refine ⟨?_, h8⟩
  rcases hv : x.version with ⟨a, b⟩
  rcases hv' : y.version with ⟨a', b'⟩
  rw [hv, hv'] at v1 v2
  dsimp only at v1 v2
  rw [v1, major_unique v2]

end

/-! ## Bodies -/

theorem body_cut {c c' : Ctx} (hc : c.pool = c'.pool) {x y : Body} {b b' bs : Bytes} (h : bodyWith b c x bs)
    (h' : bodyWith b' c' y bs) : b = b' ∧ Matched (fun a a' => codeAttrName a = codeAttrName a') x.attrs y.attrs := by
  obtain ⟨hs, as, h1, h2, h3, h4, rfl⟩ := h
  obtain ⟨hs', as', h1', h2', h3', h4', e⟩ := h'
  simp only [List.append_assoc] at e
  obtain ⟨_, e⟩ := idx_cancel e
  obtain ⟨_, e⟩ := idx_cancel e
  obtain ⟨hl, e⟩ := u4_cancel h2 h2' e
  obtain ⟨rfl, e1⟩ := List.append_inj e hl
  refine ⟨rfl, ?_⟩
  obtain ⟨_, e⟩ := table_cut (R := fun _ _ => True)
    (fun a _ a' _ b b' t t' h h' e => ⟨trivial, (len_cut (handler_len h) (handler_len h') e).2⟩) h3 h3' e1
  rw [← List.append_nil as, ← List.append_nil as'] at e
  refine (table_cut (fun a ha a' ha' b b' t t' h h' e => ?_) h4 h4' e).1
  obtain ⟨body, h1⟩ := codeAttr_encl h
  obtain ⟨body', h1'⟩ := codeAttr_encl h'
  rw [hc] at h1
  obtain ⟨hn, _, e⟩ := encl_cut h1 h1' e
  exact ⟨hn, e⟩

end Verif
