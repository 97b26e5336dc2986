import Verif.Spec.Strings
import Verif.Lemmas.Method

/-! # What writers do to the pool besides appending: bootstrap methods and strings -/

namespace Verif
open Spec Sig

/-- The bootstrap methods `l` are registered, only strings with the property `S` are inserted, and
otherwise the pool is what it was. -/
def Eff {α : Type} (S : Bytes → Prop) (m : Ins α) (l : List Bsm) : Prop :=
  ∀ cp a cp', m cp = .ok (a, cp') → cp'.bsm = cp.bsm ++ l ∧
    (∀ s, .utf8 s ∈ cp'.entries → .utf8 s ∈ cp.entries ∨ S s) ∧
    (cp.Inv → cp'.Inv ∧ cp.entries <+: cp'.entries)

namespace Eff
variable {S : Bytes → Prop} {α β : Type}

theorem pure (a : α) : Eff S (Pure.pure a : Ins α) [] := by
  intro cp b cp' h
  cases h
  exact ⟨by simp, fun s h => .inl h, fun h => ⟨h, List.prefix_refl _⟩⟩

theorem fail (e : Err) (l : List Bsm) : Eff S (Ins.fail e : Ins α) l := by
  intro cp b cp' h
  cases h

theorem lift (r : Res α) : Eff S (Ins.lift r) [] := by
  intro cp b cp' h
  obtain ⟨_, rfl⟩ := Ins.lift_ok h
  exact ⟨by simp, fun s h => .inl h, fun h => ⟨h, List.prefix_refl _⟩⟩

theorem bind {m : Ins α} {f : α → Ins β} {l l' : List Bsm} (h1 : Eff S m l) (h2 : ∀ a, Eff S (f a) l') :
    Eff S (m >>= f) (l ++ l') := by
  intro cp b cp' h
  obtain ⟨a, cp1, e1, e2⟩ := Ins.bind_ok h
  obtain ⟨g1, g2, g3⟩ := h1 _ _ _ e1
  obtain ⟨k1, k2, k3⟩ := h2 a _ _ _ e2
  refine ⟨by rw [k1, g1, List.append_assoc], fun s hs => ?_, fun hi => ?_⟩
  · rcases k2 s hs with h | h
    · exact g2 s h
    · exact .inr h
  · exact ⟨(k3 (g3 hi).1).1, (g3 hi).2.trans (k3 (g3 hi).1).2⟩

theorem bind0 {m : Ins α} {f : α → Ins β} {l : List Bsm} (h1 : Eff S m []) (h2 : ∀ a, Eff S (f a) l) :
    Eff S (m >>= f) l := bind h1 h2

theorem bind1 {m : Ins α} {f : α → Ins β} {l : List Bsm} (h1 : Eff S m l) (h2 : ∀ a, Eff S (f a) []) :
    Eff S (m >>= f) l := by
  have := bind h1 h2
  rwa [List.append_nil] at this

theorem raw {e : Entry} (h : ∀ s, e = .utf8 s → S s) : Eff S (insertRaw e) [] := by
  intro cp a cp' h1
  have hi : cp.Inv → cp'.Inv ∧ cp.entries <+: cp'.entries := fun hi =>
    ⟨(insertRaw_ok hi h1).1, (insertRaw_ok hi h1).2.1.entries⟩
  suffices h0 : cp'.bsm = cp.bsm ++ [] ∧ ∀ s, .utf8 s ∈ cp'.entries → .utf8 s ∈ cp.entries ∨ S s from
    ⟨h0.1, h0.2, hi⟩
  clear hi
  unfold insertRaw at h1
  split at h1
  · cases h1
    exact ⟨by simp, fun s h => .inl h⟩
  · split at h1
    · cases h1
      refine ⟨by simp, fun s hs => ?_⟩
      rcases List.mem_append.mp hs with hs | hs
      · exact .inl hs
      · exact .inr (h s (List.mem_singleton.mp hs).symm)
    · cases h1

theorem utf8 {s : Bytes} (h : S s) : Eff S (insertWtf8 s) [] := raw (by rintro t ⟨⟩; exact h)

theorem raw' {e : Entry} (h : ∀ s, e ≠ .utf8 s := by intro s h; cases h) : Eff S (insertRaw e) [] :=
  raw fun s e => absurd e (h s)

theorem cls {s : Bytes} (h : S s) : Eff S (insertClass s) [] := bind0 (utf8 h) fun _ => raw'

theorem indirect (tag : UInt8) {s : Bytes} (h : S s) : Eff S (insertIndirect tag s) [] := by
  refine bind0 (utf8 h) fun i => ?_
  split
  · exact raw'
  · exact raw'
  · exact raw'
  · exact raw'
  · exact fail _ _

theorem nat {n d : Bytes} (h1 : S n) (h2 : S d) : Eff S (insertNameAndType n d) [] :=
  bind0 (utf8 h1) fun _ => bind0 (utf8 h2) fun _ => raw'

theorem member {m : MemberRef} (h : AllMember S m) : Eff S (insertMember m) [] := by
  refine bind0 (cls h.1) fun _ => bind0 (nat h.2.1 h.2.2) fun _ => raw' ?_
  intro s
  split
  · split <;> simp
  · simp

theorem handle {h : MethodHandle} (hh : AllMember S h.member) : Eff S (insertMethodHandle h) [] :=
  bind0 (member hh) fun _ => raw'

theorem const {k : Constant} (h : AllConst S k) : Eff S (insertConstant k) [] := by
  cases k with
  | string s => exact indirect 8 h
  | cls s => exact indirect 7 h
  | member m => exact member h
  | methodType t => exact bind0 (utf8 h) fun _ => raw'
  | methodHandle h' => exact handle h
  | _ => exact raw'

theorem bsm (b : Bsm) : Eff S (insertBsm b) [b] := by
  intro cp a cp' h
  cases h
  exact ⟨rfl, fun s h => .inl h, fun h => ⟨⟨h.len, h.cache⟩, List.prefix_refl _⟩⟩

theorem dynamic {d : Dynamic} (h : AllDyn S d) : Eff S (insertDynamic d) (ownBsm d) := by
  intro cp a cp' h1
  obtain ⟨b, cp1, e0, h2⟩ := Ins.bind_ok h1
  obtain ⟨e1, rfl⟩ := Ins.lift_ok e0
  have e : ownBsm d = [b] := by
    unfold Dynamic.getBsm at e1
    unfold ownBsm
    split at e1
    · cases e1
    · rename_i hd
      cases e1
      rw [hd]
  rw [e]
  have hh : Eff S (insertNameAndType d.name (JType.display d.descriptor)) [] := nat h.1 h.2
  refine bind1 (bsm b) (fun i => bind0 hh fun j => raw' ?_) _ _ _ h2
  intro s
  split <;> simp

theorem orDynamic {f : α → Ins UInt16} {p : α → Prop} (hf : ∀ a, p a → Eff S (f a) []) {x : OrDynamic α}
    (h : AllOr S p x) : Eff S (insertOrDynamic f x) ((orDynamics x).flatMap ownBsm) := by
  cases x with
  | dynamic d =>
    show Eff S (insertDynamic d) _
    have := dynamic h
    simpa [orDynamics] using this
  | static a => exact hf a h

/-! ## Combinators -/

theorem idx {i : Ins UInt16} {l : List Bsm} (h : Eff S i l) : Eff S (wIdx i) l := bind1 h fun _ => pure _

theorem nil : Eff S (wSeq []) [] := pure _

theorem cons {w : Ins Bytes} {ws : List (Ins Bytes)} {l l' : List Bsm} (h : Eff S w l)
    (hs : Eff S (wSeq ws) l') : Eff S (wSeq (w :: ws)) (l ++ l') :=
  bind h fun _ => bind1 hs fun _ => pure _

theorem cons0 {w : Ins Bytes} {ws : List (Ins Bytes)} {l : List Bsm} (h : Eff S w [])
    (hs : Eff S (wSeq ws) l) : Eff S (wSeq (w :: ws)) l := cons h hs

theorem cons1 {w : Ins Bytes} {ws : List (Ins Bytes)} {l : List Bsm} (h : Eff S w l)
    (hs : Eff S (wSeq ws) []) : Eff S (wSeq (w :: ws)) l := by
  have := cons h hs
  rwa [List.append_nil] at this

theorem all {w : α → Ins Bytes} {f : α → List Bsm} {xs : List α} (h : ∀ x ∈ xs, Eff S (w x) (f x)) :
    Eff S (wAll w xs) (xs.flatMap f) := by
  induction xs with
  | nil => exact pure _
  | cons x xs ih =>
    have h1 : Eff S (wAll w xs) (xs.flatMap f) := ih fun y hy => h y (by simp [hy])
    have := cons (h x (by simp)) h1
    rwa [List.flatMap_cons]

theorem all0 {w : α → Ins Bytes} {xs : List α} (h : ∀ x ∈ xs, Eff S (w x) []) : Eff S (wAll w xs) [] := by
  have := all (f := fun _ => []) h
  rwa [List.flatMap_eq_nil_iff.mpr (by simp)] at this

theorem vec {ℓ : Type} {c : NumCodec ℓ} {w : α → Ins Bytes} {f : α → List Bsm} {xs : List α}
    (h : ∀ x ∈ xs, Eff S (w x) (f x)) : Eff S (wVec c w xs) (xs.flatMap f) := by
  unfold wVec
  split
  · exact bind1 (all h) fun _ => pure _
  · exact fail _ _

theorem vec0 {ℓ : Type} {c : NumCodec ℓ} {w : α → Ins Bytes} {xs : List α}
    (h : ∀ x ∈ xs, Eff S (w x) []) : Eff S (wVec c w xs) [] := by
  have := vec (c := c) (f := fun _ => []) h
  rwa [List.flatMap_eq_nil_iff.mpr (by simp)] at this

theorem cut {w : α → Ins Bytes} {f : α → List Bsm} {xs : List α}
    (h : ∀ x ∈ xs, Eff S (w x) (f x)) : Eff S (wCut w xs) (xs.flatMap f) :=
  cons0 (pure _) (cons1 (all h) nil)

theorem cut0 {w : α → Ins Bytes} {xs : List α} (h : ∀ x ∈ xs, Eff S (w x) []) : Eff S (wCut w xs) [] :=
  cons0 (pure _) (cons1 (all0 h) nil)

theorem num {c : NumCodec α} {x : α} : Eff S (wNum c x) [] := pure _
theorem flags {t : FlagType} {f : Flags t} : Eff S (wFlags f) [] := pure _
theorem wutf8 {s : Bytes} (h : S s) : Eff S (wUtf8 s) [] := idx (utf8 h)
theorem wstr {tag : UInt8} {s : Bytes} (h : S s) : Eff S (wStr tag s) [] := idx (indirect tag h)
theorem wtype {t : JType} (h : S t.toWtf8) : Eff S (wType t) [] := idx (utf8 h)
theorem wsig {t : Str} (h : S (sigString t)) : Eff S (wSig t) [] := idx (utf8 h)

theorem opt {f : α → Ins UInt16} {p : α → Prop} {x : Option α} (h : AllOpt p x) (hf : ∀ a, p a → Eff S (f a) []) :
    Eff S (wOpt f x) [] := by
  cases x with
  | none => exact pure _
  | some a => exact idx (hf a (h a rfl))

theorem utf8Opt {x : Option Bytes} (h : AllOpt S x) : Eff S (wUtf8Opt x) [] := opt h fun _ => utf8
theorem clsOpt {x : Option Bytes} (h : AllOpt S x) : Eff S (wClsOpt x) [] := opt h fun _ => indirect 7
theorem label {env : WEnv} {l : Label} : Eff S (wLabel env l) [] := bind0 (lift _) fun _ => pure _
theorem catch_ {env : WEnv} {k : Catch} : Eff S (wCatch env k) [] := by
  refine bind0 (lift _) fun o => ?_
  split <;> exact pure _

theorem attr {n : Bytes} {w : Ins Bytes} {l : List Bsm} (hn : S n) (h : Eff S w l) : Eff S (wAttr n w) l :=
  bind0 (utf8 hn) fun _ => bind1 h fun _ => pure _

theorem rawAttr {a : RawAttribute} (h : S a.name) : Eff S (wRaw a) [] := bind0 (utf8 h) fun _ => pure _

end Eff

/-! ## Annotations -/

section
open Eff
variable {S : Bytes → Prop}

mutual
theorem eff_value : (v : AnnValue) → AllValue S v → Eff S v.write []
  | .byte x, _ => by rw [AnnValue.write]; exact cons0 num (cons0 (idx raw') nil)
  | .char x, _ => by rw [AnnValue.write]; exact cons0 num (cons0 (idx raw') nil)
  | .double x, _ => by rw [AnnValue.write]; exact cons0 num (cons0 (idx raw') nil)
  | .float x, _ => by rw [AnnValue.write]; exact cons0 num (cons0 (idx raw') nil)
  | .int x, _ => by rw [AnnValue.write]; exact cons0 num (cons0 (idx raw') nil)
  | .long x, _ => by rw [AnnValue.write]; exact cons0 num (cons0 (idx raw') nil)
  | .short x, _ => by rw [AnnValue.write]; exact cons0 num (cons0 (idx raw') nil)
  | .boolean x, _ => by rw [AnnValue.write]; exact cons0 num (cons0 (idx raw') nil)
  | .string s, h => by
    rw [AllValue] at h
    rw [AnnValue.write]; exact cons0 num (cons0 (wutf8 h) nil)
  | .enum t n, h => by
    rw [AllValue] at h
    rw [AnnValue.write]; exact cons0 num (cons0 (wtype h.1) (cons0 (wutf8 h.2) nil))
  | .cls none, h => by
    rw [AllValue] at h
    rw [AnnValue.write]; exact cons0 num (cons0 (wutf8 h) nil)
  | .cls (some t), h => by
    rw [AllValue] at h
    rw [AnnValue.write]; exact cons0 num (cons0 (wutf8 h) nil)
  | .annotation t vs, h => by
    rw [AllValue] at h
    rw [AnnValue.write]; exact cons0 num (cons0 (wtype h.1) (cons0 num (cons0 (eff_elems vs h.2) nil)))
  | .array vs, h => by
    rw [AllValue] at h
    rw [AnnValue.write]; exact cons0 num (cons0 num (cons0 (eff_values vs h) nil))
theorem eff_values : (vs : List AnnValue) → AllValues S vs → Eff S (AnnValue.writeList vs) []
  | [], _ => by rw [AnnValue.writeList]; exact pure _
  | v :: vs, h => by
    rw [AllValues] at h
    rw [AnnValue.writeList]; exact cons0 (eff_value v h.1) (cons0 (eff_values vs h.2) nil)
theorem eff_elems : (vs : List (Bytes × AnnValue)) → AllElems S vs → Eff S (AnnValue.writeElems vs) []
  | [], _ => by rw [AnnValue.writeElems]; exact pure _
  | (k, v) :: vs, h => by
    rw [AllElems] at h
    rw [AnnValue.writeElems]
    exact cons0 (wutf8 h.1) (cons0 (eff_value v h.2.1) (cons0 (eff_elems vs h.2.2) nil))
end

theorem eff_ann {a : Annotation} (h : AllAnn S a) : Eff S a.write [] :=
  cons0 (wtype h.1) (cons0 (cons0 num (cons0 (eff_elems _ h.2) nil)) nil)

theorem eff_anns {as : List Annotation} (h : ∀ a ∈ as, AllAnn S a) : Eff S (wVec u16 Annotation.write as) [] :=
  vec0 fun a ha => eff_ann (h a ha)

theorem eff_tann {T : Type} {w : T → Ins Bytes} (hw : ∀ t, Eff S (w t) []) {a : TypeAnnotation T}
    (h : AllTypeAnn S a) : Eff S (TypeAnnotation.write w a) [] := by
  refine cons0 (hw _) (cons0 (vec0 fun p _ => ?_) (cons0 (wtype h.1) (cons0 (cons0 num (cons0 (eff_elems _ h.2) nil)) nil)))
  cases p <;> exact cons0 num (cons0 num nil)

theorem eff_tanns {T : Type} {w : T → Ins Bytes} (hw : ∀ t, Eff S (w t) []) {as : List (TypeAnnotation T)}
    (h : ∀ a ∈ as, AllTypeAnn S a) : Eff S (wVec u16 (TypeAnnotation.write w) as) [] :=
  vec0 fun a ha => eff_tann hw (h a ha)

theorem eff_classTarget (t : ClassTarget) : Eff S t.write [] := by
  cases t
  · exact cons0 num (cons0 num nil)
  · exact cons0 num (cons0 num nil)
  · exact cons0 num (cons0 num (cons0 num nil))

theorem eff_methodTarget (t : MethodTarget) : Eff S t.write [] := by
  cases t
  · exact cons0 num (cons0 num nil)
  · exact cons0 num (cons0 num (cons0 num nil))
  · exact cons0 num nil
  · exact cons0 num nil
  · exact cons0 num (cons0 num nil)
  · exact cons0 num (cons0 num nil)

theorem eff_fieldTarget (t : FieldTarget) : Eff S t.write [] := by
  cases t
  exact cons0 num nil

theorem eff_localVarTarget (env : WEnv) (t : LocalVarTarget) : Eff S (t.write env) [] := by
  refine bind0 (lift _) fun s => bind0 (lift _) fun e => ?_
  split
  · exact fail _ _
  · exact pure _

theorem eff_codeTarget (env : WEnv) (t : CodeTarget) : Eff S (t.write env) [] := by
  cases t with
  | localVar ts => exact cons0 num (cons0 (vec0 fun t _ => eff_localVarTarget env t) nil)
  | resourceVar ts => exact cons0 num (cons0 (vec0 fun t _ => eff_localVarTarget env t) nil)
  | catchParam k => exact cons0 num (cons0 catch_ nil)
  | instanceOf l => exact cons0 num (cons0 label nil)
  | new l => exact cons0 num (cons0 label nil)
  | newRef l => exact cons0 num (cons0 label nil)
  | methodRef l => exact cons0 num (cons0 label nil)
  | _ => exact cons0 num (cons0 label (cons0 num nil))

/-! ## Attributes -/

/-- The names of all attributes that are written. -/
def allNames : List Bytes := [N.constantValue, N.code, N.exceptions, N.annotationDefault, N.methodParameters,
  N.runtimeVisibleParameterAnnotations, N.runtimeInvisibleParameterAnnotations, N.signature, N.synthetic,
  N.deprecated, N.sourceFile, N.innerClasses, N.enclosingMethod, N.sourceDebugExtension, N.bootstrapMethods,
  N.module_, N.modulePackages, N.moduleMainClass, N.nestHost, N.nestMembers, N.runtimeVisibleAnnotations,
  N.runtimeInvisibleAnnotations, N.runtimeVisibleTypeAnnotations, N.runtimeInvisibleTypeAnnotations,
  N.localVariableTable, N.localVariableTypeTable]

variable (hN : ∀ n ∈ allNames, S n)
include hN

theorem eff_fieldAttr {a : FieldAttr} (h : AllFieldAttr S a) : Eff S a.write [] := by
  cases a with
  | deprecated => exact attr (hN _ (by decide)) nil
  | synthetic => exact attr (hN _ (by decide)) nil
  | signature s => exact attr (hN _ (by decide)) (wsig h)
  | constantValue k => exact attr (hN _ (by decide)) (idx (const h))
  | visible as => exact attr (hN _ (by decide)) (eff_anns h)
  | invisible as => exact attr (hN _ (by decide)) (eff_anns h)
  | visibleType as => exact attr (hN _ (by decide)) (eff_tanns eff_fieldTarget h)
  | invisibleType as => exact attr (hN _ (by decide)) (eff_tanns eff_fieldTarget h)
  | raw a => exact rawAttr h

theorem eff_field {f : Field} (h : AllField S f) : Eff S f.write [] :=
  cons0 flags (cons0 (wutf8 h.1) (cons0 (wtype h.2.1) (cons0 (vec0 fun a ha => eff_fieldAttr hN (h.2.2 a ha)) nil)))

omit hN in
theorem eff_module {m : Module} (h : AllModule S m) : Eff S m.write [] := by
  obtain ⟨h1, h2, h3, h4, h5, h6, h7⟩ := h
  exact cons0 (wstr h1) (cons0 flags (cons0 (utf8Opt h2)
    (cons0 (vec0 fun r hr => cons0 (wstr (h3 r hr).1) (cons0 flags (cons0 (utf8Opt (h3 r hr).2) nil)))
    (cons0 (vec0 fun r hr => cons0 (wstr (h4 r hr).1) (cons0 flags (cons0 (vec0 fun s hs => wstr ((h4 r hr).2 s hs)) nil)))
    (cons0 (vec0 fun r hr => cons0 (wstr (h5 r hr).1) (cons0 flags (cons0 (vec0 fun s hs => wstr ((h5 r hr).2 s hs)) nil)))
    (cons0 (vec0 fun s hs => wstr (h6 s hs))
    (cons0 (vec0 fun r hr => cons0 (wstr (h7 r hr).1) (cons0 (vec0 fun s hs => wstr ((h7 r hr).2 s hs)) nil)) nil)))))))

theorem eff_classAttr {a : ClassAttr} (h : AllClassAttr S a) : Eff S a.writeOther [] := by
  cases a with
  | signature s => exact attr (hN _ (by decide)) (wsig h)
  | deprecated => exact attr (hN _ (by decide)) nil
  | synthetic => exact attr (hN _ (by decide)) nil
  | sourceFile s => exact attr (hN _ (by decide)) (wutf8 h)
  | innerClasses xs =>
    exact attr (hN _ (by decide)) (vec0 fun x hx => cons0 (wstr (h x hx).1) (cons0 (clsOpt (h x hx).2.1)
      (cons0 (utf8Opt (h x hx).2.2) (cons0 flags nil))))
  | enclosingMethod o m =>
    exact attr (hN _ (by decide)) (cons0 (wstr h.1) (cons0 (opt h.2 fun p hp => nat hp.1 hp.2) nil))
  | debugExtension s => exact attr (hN _ (by decide)) (lift _)
  | bootstrapMethods ms => exact nil
  | module_ m => exact attr (hN _ (by decide)) (eff_module h)
  | modulePackages ps => exact attr (hN _ (by decide)) (vec0 fun s hs => wstr (h s hs))
  | mainClass o => exact attr (hN _ (by decide)) (wstr h)
  | nestHost o => exact attr (hN _ (by decide)) (wstr h)
  | nestMembers ps => exact attr (hN _ (by decide)) (vec0 fun s hs => wstr (h s hs))
  | visible as => exact attr (hN _ (by decide)) (eff_anns h)
  | invisible as => exact attr (hN _ (by decide)) (eff_anns h)
  | visibleType as => exact attr (hN _ (by decide)) (eff_tanns eff_classTarget h)
  | invisibleType as => exact attr (hN _ (by decide)) (eff_tanns eff_classTarget h)
  | raw a => exact rawAttr h

/-! ## Code -/

omit hN in
theorem eff_ldc {c : OrDynamic Constant} (h : AllOr S (AllConst S) c) :
    Eff S (writeLdc c) ((orDynamics c).flatMap ownBsm) := by
  refine bind1 (orDynamic (fun a => const) h) fun i => ?_
  split
  all_goals
    simp only
    split
    · exact cons0 num (cons0 num nil)
    · split
      · exact cons0 num (cons0 num nil)
      · exact cons0 num (cons0 num nil)

omit hN in
theorem eff_push {c : OrDynamic Constant} (h : AllOr S (AllConst S) c) :
    Eff S (writePush c) ((orDynamics c).flatMap ownBsm) := by
  unfold writePush
  repeat' split
  all_goals first
    | exact num
    | exact cons0 num (cons0 num nil)
    | exact eff_ldc h

omit hN in
theorem eff_orDyn {α : Type} {f : α → Ins UInt16} {p : α → Prop} (hf : ∀ a, p a → Eff S (f a) []) {x : OrDynamic α}
    (h : AllOr S p x) {o : Ins Bytes} (ho : Eff S o []) {l : List (Ins Bytes)} (hl : Eff S (wSeq l) []) :
    Eff S (wSeq (o :: wOrDyn f x :: l)) ((orDynamics x).flatMap ownBsm) :=
  cons0 ho (cons1 (idx (orDynamic hf h)) hl)

omit hN in
theorem eff_insn {i : Insn} (h : AllInsn S i) :
    Eff S i.encode ((insnDynamics i).flatMap ownBsm) := by
  cases i with
  | push c => exact eff_push h
  | checkCast t => exact eff_orDyn (fun a => cls) h num nil
  | instanceOf t => exact eff_orDyn (fun a => cls) h num nil
  | new t => exact eff_orDyn (fun a => cls) h num nil
  | field a b m => exact eff_orDyn (fun a => member) h num nil
  | invokeExact a m => cases a <;> exact eff_orDyn (fun a => member) h num nil
  | invokeSpecial m => exact eff_orDyn (fun a => member) h num nil
  | invokeInterface m n => exact eff_orDyn (fun a => member) h num (cons0 num (cons0 (pure _) nil))
  | invokeDynamic d =>
    have : Eff S (Insn.encode (.invokeDynamic d)) (ownBsm d) :=
      cons0 num (cons1 (idx (dynamic h)) (cons0 (pure _) nil))
    simpa [insnDynamics] using this
  | localVariable m t l =>
    show Eff S (wideOrNormal _ _) _
    unfold wideOrNormal
    split
    · exact cons0 num (cons0 num nil)
    · exact cons0 num (cons0 num (cons0 num nil))
  | ret l =>
    show Eff S (wideOrNormal _ _) _
    unfold wideOrNormal
    split
    · exact cons0 num (cons0 num nil)
    · exact cons0 num (cons0 num (cons0 num nil))
  | intIncrement l n =>
    show Eff S (if _ then _ else _) _
    split
    · exact cons0 num (cons0 num (cons0 num nil))
    · exact cons0 num (cons0 num (cons0 num (cons0 num nil)))
  | monitor m => cases m <;> exact num
  | conversion a b =>
    show Eff S (match conversionOp a b with | some o => op o | none => Pure.pure []) []
    split
    · exact num
    · exact pure _
  | convertInt a =>
    show Eff S (match convertIntOp a with | some o => op o | none => Pure.pure []) []
    split
    · exact num
    · exact pure _
  | _ => first | exact num | exact pure _

omit hN in
theorem eff_writeInsn {i : Insn} (h : AllInsn S i) (b : CodeBuf) :
    Eff S (writeInsn b i) ((insnDynamics i).flatMap ownBsm) := by
  cases i with
  | lookupSwitch _ _ => exact pure _
  | tableSwitch _ _ _ => exact pure _
  | jump _ _ => exact pure _
  | jsr _ => exact pure _
  | label _ => exact pure _
  | lineNumber _ => exact pure _
  | _ => exact bind1 (eff_insn h) fun _ => pure _

omit hN in
theorem eff_writeInsns {is : List Insn} (h : ∀ i ∈ is, AllInsn S i)
    (b : CodeBuf) : Eff S (writeInsns b is) ((is.flatMap insnDynamics).flatMap ownBsm) := by
  induction is generalizing b with
  | nil => exact pure _
  | cons i is ih =>
    have := bind (eff_writeInsn (h i (by simp)) b)
      (fun b' => ih (fun j hj => h j (by simp [hj])) b')
    rw [List.flatMap_cons, List.flatMap_append]
    exact this

omit hN in
theorem eff_lowers {env : WEnv} {vs : List LocalVariable} (h : ∀ v ∈ vs, AllVar S v)
    {ts : List VarTypeEntry} {es : List VarEntry} (e : splitVars env vs = .ok (ts, es)) :
    (∀ t ∈ ts, S t.name ∧ S (sigString (showR t.signature))) ∧ ∀ x ∈ es, S x.name ∧ S x.descriptor.toWtf8 := by
  induction vs generalizing ts es with
  | nil =>
    cases e
    exact ⟨by simp, by simp⟩
  | cons v vs ih =>
    obtain ⟨var, e1, e⟩ := Res.bind_ok e
    obtain ⟨ty, e2, e⟩ := Res.bind_ok e
    obtain ⟨r, e3, e⟩ := Res.bind_ok e
    cases e
    obtain ⟨i1, i2⟩ := ih (fun v hv => h v (by simp [hv])) e3
    obtain ⟨hn, hd, hg⟩ := h v (by simp)
    constructor
    · intro t ht
      rcases List.mem_append.mp ht with ht | ht
      · unfold LocalVariable.varTypeEntries at e2
        split at e2
        · cases e2
          cases ht
        · rename_i g hv
          split at e2
          · cases e2
          · cases e2
            rw [List.mem_singleton.mp ht]
            exact ⟨hn, hg g hv⟩
      · exact i1 t ht
    · intro t ht
      rcases List.mem_append.mp ht with ht | ht
      · unfold LocalVariable.varEntries at e1
        split at e1
        · cases e1
          cases ht
        · rename_i g hv
          split at e1
          · cases e1
          · cases e1
            rw [List.mem_singleton.mp ht]
            exact ⟨hn, hd g hv⟩
      · exact i2 t ht

theorem eff_vars (env : WEnv) {es : List VarEntry} (h : ∀ x ∈ es, S x.name ∧ S x.descriptor.toWtf8) :
    Eff S (CodeAttr.write env (.vars es)) [] :=
  attr (hN _ (by decide)) (vec0 fun x hx => cons0 num (cons0 num (cons0 (wutf8 (h x hx).1)
    (cons0 (wtype (h x hx).2) (cons0 num nil)))))

theorem eff_varTypes (env : WEnv) {es : List VarTypeEntry}
    (h : ∀ x ∈ es, S x.name ∧ S (sigString (showR x.signature))) :
    Eff S (CodeAttr.write env (.varTypes es)) [] :=
  attr (hN _ (by decide)) (vec0 fun x hx => cons0 num (cons0 num (cons0 (wutf8 (h x hx).1)
    (cons0 (wsig (h x hx).2) (cons0 num nil)))))

theorem eff_lower (env : WEnv) {a : CodeAttribute} (h : AllCodeAttr S a) {ls : List CodeAttr}
    (e : a.lower env = .ok ls) : Eff S (wAll (CodeAttr.write env) ls) [] := by
  refine all0 ?_
  intro l hl
  cases a with
  | visibleType as =>
    cases e
    rw [List.mem_singleton.mp hl]
    exact attr (hN _ (by decide)) (eff_tanns (eff_codeTarget env) h)
  | invisibleType as =>
    cases e
    rw [List.mem_singleton.mp hl]
    exact attr (hN _ (by decide)) (eff_tanns (eff_codeTarget env) h)
  | raw a =>
    cases e
    rw [List.mem_singleton.mp hl]
    exact rawAttr h
  | locals vs =>
    obtain ⟨⟨ts, es⟩, e1, e⟩ := Res.bind_ok e
    obtain ⟨h1, h2⟩ := eff_lowers h e1
    simp only at e
    split at e
    · cases e
    · cases e
      rw [List.mem_singleton.mp hl]
      exact eff_varTypes hN env h1
    · cases e
      rw [List.mem_singleton.mp hl]
      exact eff_vars hN env h2
    · cases e
      simp only [List.mem_cons, List.not_mem_nil, or_false] at hl
      rcases hl with rfl | rfl
      · exact eff_vars hN env h2
      · exact eff_varTypes hN env h1

theorem eff_codeAttrs (env : WEnv) {as : List CodeAttribute} (h : ∀ a ∈ as, AllCodeAttr S a) (n : Nat) :
    Eff S (writeCodeAttrs env n as) [] := by
  induction as generalizing n with
  | nil => exact pure _
  | cons a as ih =>
    intro cp r cp' e
    obtain ⟨ls, cp1, e0, e2⟩ := Ins.bind_ok e
    obtain ⟨e1, rfl⟩ := Ins.lift_ok e0
    have hl := eff_lower hN env (h a (by simp)) e1
    simp only at e2
    split at e2
    · exact bind0 hl (fun b => bind0 (ih (fun x hx => h x (by simp [hx])) _) fun r => pure _) _ _ _ e2
    · cases e2

theorem eff_code {x : Code} (h : AllCode S x) :
    Eff S x.write ((x.code.flatMap insnDynamics).flatMap ownBsm) := by
  refine bind1 (bind1 (eff_writeInsns h.1 _) fun _ => lift _) fun a => ?_
  refine bind0 (all0 fun k hk => ?_) fun hs => bind0 (eff_codeAttrs hN _ h.2.2 _) fun r => ?_
  · exact cons0 label (cons0 label (cons0 label (cons0 (opt (h.2.1 k hk) fun s => cls) nil)))
  · obtain ⟨extra, as⟩ := r
    simp only
    split
    · exact pure _
    · exact fail _ _

theorem eff_methodAttr {a : MethodAttr} (h : AllMethodAttr S a) :
    Eff S a.write ((attrDynamics a).flatMap ownBsm) := by
  cases a with
  | code x => exact attr (hN _ (by decide)) (eff_code hN h)
  | deprecated => exact attr (hN _ (by decide)) nil
  | synthetic => exact attr (hN _ (by decide)) nil
  | signature s => exact attr (hN _ (by decide)) (wsig h)
  | visible as => exact attr (hN _ (by decide)) (eff_anns h)
  | invisible as => exact attr (hN _ (by decide)) (eff_anns h)
  | visibleType as => exact attr (hN _ (by decide)) (eff_tanns eff_methodTarget h)
  | invisibleType as => exact attr (hN _ (by decide)) (eff_tanns eff_methodTarget h)
  | visibleParams ps => exact attr (hN _ (by decide)) (vec0 fun as ha => eff_anns (h as ha))
  | invisibleParams ps => exact attr (hN _ (by decide)) (vec0 fun as ha => eff_anns (h as ha))
  | exceptions ss => exact attr (hN _ (by decide)) (vec0 fun s hs => wstr (h s hs))
  | annotationDefault v => exact attr (hN _ (by decide)) (eff_value v h)
  | methodParameters ps =>
    exact attr (hN _ (by decide)) (vec0 fun p hp => cons0 (utf8Opt (h p hp)) (cons0 flags nil))
  | raw a => exact rawAttr h

theorem eff_method {m : Method} (h : AllMethod S m) : Eff S m.write ((m.attrs.flatMap attrDynamics).flatMap ownBsm) := by
  have := vec (c := u16) (f := fun a => (attrDynamics a).flatMap ownBsm)
    (fun a ha => eff_methodAttr hN (h.2.2 a ha))
  rw [List.flatMap_assoc]
  exact cons0 flags (cons0 (wutf8 h.1) (cons0 (wtype h.2.1) (cons1 this nil)))

/-! ## Bootstrap methods -/

omit hN in
theorem allArgs_mem : {as : List Arg} → AllArgs S as → ∀ a ∈ as, AllOr S (AllConst S) a.toOrDynamic
  | .static c :: as, h, a, ha => by
    rw [AllArgs] at h
    rcases List.mem_cons.mp ha with rfl | ha
    · exact h.1
    · exact allArgs_mem h.2 a ha
  | .dynamic c n t :: as, h, a, ha => by
    rw [AllArgs] at h
    rcases List.mem_cons.mp ha with rfl | ha
    · exact ⟨h.1.1, h.1.2.1⟩
    · exact allArgs_mem h.2 a ha

omit hN in
theorem allArgs_bsms : {as : List Arg} → AllArgs S as →
    ∀ b ∈ as.flatMap (fun a => (orDynamics a.toOrDynamic).flatMap ownBsm), AllBsm S b
  | .static c :: as, h, b, hb => by
    rw [AllArgs] at h
    exact allArgs_bsms h.2 b hb
  | .dynamic c n t :: as, h, b, hb => by
    rw [AllArgs] at h
    rw [List.flatMap_cons] at hb
    rcases List.mem_append.mp hb with hb | hb
    · cases c with
      | pending i => cases hb
      | filled hd as' =>
        rw [AllCell] at h
        have : b = ⟨hd, as'⟩ := List.mem_singleton.mp hb
        rw [this]
        exact h.1.2.2
    · exact allArgs_bsms h.2 b hb

omit hN in
theorem eff_bsm {b : Bsm} (h : AllBsm S b) : Eff S b.write (argBsms b) :=
  cons0 (idx (handle h.1)) (cons0 num (cons1 (all fun a ha => idx (orDynamic (fun _ => const) (allArgs_mem h.2 a ha))) nil))

end

/-! ## The loop over the bootstrap methods -/

theorem argNodes_bsms : (as : List Arg) →
    bsmNodes (as.flatMap fun a => (orDynamics a.toOrDynamic).flatMap ownBsm) = argNodes as
  | [] => by rw [argNodes]; rfl
  | .static c :: as => by
    rw [argNodes]
    exact argNodes_bsms as
  | .dynamic c n t :: as => by
    rw [argNodes, List.flatMap_cons, bsmNodes, List.map_append, List.sum_append]
    have := argNodes_bsms as
    rw [bsmNodes] at this
    rw [this]
    cases c with
    | pending i => rw [Cell.nodes]; simp [orDynamics, Arg.toOrDynamic, ownBsm]
    | filled hd as' => rw [Cell.nodes]; simp [orDynamics, Arg.toOrDynamic, ownBsm]

theorem bsmNodes_cons (m : Bsm) (ms : List Bsm) : bsmNodes (m :: ms) = 1 + argNodes m.arguments + bsmNodes ms := by
  simp [bsmNodes]

theorem bsmNodes_append (ms ms' : List Bsm) : bsmNodes (ms ++ ms') = bsmNodes ms + bsmNodes ms' := by
  simp [bsmNodes]

/-- The bootstrap methods of one round have fewer nodes than those of the round before. -/
theorem bsmNodes_args (ms : List Bsm) : bsmNodes (ms.flatMap argBsms) + ms.length = bsmNodes ms := by
  induction ms with
  | nil => rfl
  | cons m ms ih =>
    rw [List.flatMap_cons, bsmNodes_append, bsmNodes_cons, argBsms, argNodes_bsms, List.length_cons]
    omega

/-- Any strings. -/
theorem allArgs_true : (as : List Arg) → AllArgs (fun _ => True) as
  | [] => by rw [AllArgs]; trivial
  | .static c :: as => by
    rw [AllArgs]
    refine ⟨?_, allArgs_true as⟩
    cases c <;> first | trivial | exact ⟨trivial, trivial, trivial⟩
  | .dynamic (.pending i) n t :: as => by
    rw [AllArgs, AllCell]
    exact ⟨⟨trivial, trivial, trivial⟩, allArgs_true as⟩
  | .dynamic (.filled h as') n t :: as => by
    rw [AllArgs, AllCell]
    exact ⟨⟨trivial, trivial, ⟨trivial, trivial, trivial⟩, allArgs_true as'⟩, allArgs_true as⟩

theorem allBsm_true (b : Bsm) : AllBsm (fun _ => True) b := ⟨⟨trivial, trivial, trivial⟩, allArgs_true _⟩

/-- The rounds of the loop: what is written in each, and what is registered for the next. -/
theorem round_bsm {cp cp' : VecCp} {bs : Bytes} (h : wAll Bsm.write cp.bsm { cp with bsm := [] } = .ok (bs, cp')) :
    cp'.bsm = cp.bsm.flatMap argBsms ∧ (cp.bsm ≠ [] → bsmNodes cp'.bsm < bsmNodes cp.bsm) := by
  have f := (Eff.all (fun b _ => eff_bsm (allBsm_true b)) _ _ _ h).1
  rw [List.nil_append] at f
  refine ⟨f, fun hne => ?_⟩
  rw [f]
  show bsmNodes (cp.bsm.flatMap argBsms) < _
  have := bsmNodes_args cp.bsm
  have := List.length_pos_iff.mpr hne
  omega

theorem batches_ok {S : Bytes → Prop} {i n : Nat} {cp cp' : VecCp} {bs : Bytes}
    (h : writeBatches i cp = .ok (n, bs, cp')) (hS : ∀ b ∈ cp.bsm, AllBsm S b) (hi : cp.Inv) :
    cp'.Inv ∧ cp.entries <+: cp'.entries ∧ (∀ s, .utf8 s ∈ cp'.entries → .utf8 s ∈ cp.entries ∨ S s) := by
  fun_induction writeBatches i cp generalizing n bs cp' with
  | case1 i cp h0 =>
    cases h
    exact ⟨hi, List.prefix_refl _, fun s h => .inl h⟩
  | case2 => cases h
  | case3 => cases h
  | case4 i cp h0 h1 b cp1 e1 hn n' b' cp2 e2 ih =>
    cases h
    have hc0 : VecCp.Inv { cp with bsm := [] } := ⟨hi.len, hi.cache⟩
    have f := Eff.all (fun b hb => eff_bsm (hS b hb)) _ _ _ e1
    have := ih e2 (by
      rw [(round_bsm e1).1]
      intro b hb
      obtain ⟨m, hm, hb⟩ := List.mem_flatMap.mp hb
      exact allArgs_bsms (hS m hm).2 b hb) (f.2.2 hc0).1
    refine ⟨this.1, (f.2.2 hc0).2.trans this.2.1, fun s hs => ?_⟩
    rcases this.2.2 s hs with h | h
    · exact f.2.1 s h
    · exact .inr h
  | case5 => cases h
  | case6 => cases h

end Verif
