import Verif.Lemmas.ReleaseWrite
import Verif.Lemmas.Class

/-! # Bootstrap methods and strings in a build without overflow checks

As in `Lemmas/Effect`. -/

namespace Verif
open Spec Sig

/-- The bootstrap methods `l` are registered, and only strings with the property `S` are inserted. -/
def EffW {α : Type} (S : Bytes → Prop) (m : Ins α) (l : List Bsm) : Prop :=
  ∀ cp a cp', m cp = .ok (a, cp') → cp'.bsm = cp.bsm ++ l ∧
    (∀ s, .utf8 s ∈ cp'.entries → .utf8 s ∈ cp.entries ∨ S s)

namespace EffW
variable {S : Bytes → Prop} {α β : Type}

theorem pure (a : α) : EffW S (Pure.pure a : Ins α) [] := by
  intro cp b cp' h
  cases h
  exact ⟨by simp, fun s h => .inl h⟩

theorem fail (e : Err) (l : List Bsm) : EffW S (Ins.fail e : Ins α) l := by
  intro cp b cp' h
  cases h

theorem lift (r : Res α) : EffW S (Ins.lift r) [] := by
  intro cp b cp' h
  obtain ⟨_, rfl⟩ := Ins.lift_ok h
  exact ⟨by simp, fun s h => .inl h⟩

theorem bind {m : Ins α} {f : α → Ins β} {l l' : List Bsm} (h1 : EffW S m l) (h2 : ∀ a, EffW S (f a) l') :
    EffW S (m >>= f) (l ++ l') := by
  intro cp b cp' h
  obtain ⟨a, cp1, e1, e2⟩ := Ins.bind_ok h
  obtain ⟨g1, g2⟩ := h1 _ _ _ e1
  obtain ⟨k1, k2⟩ := h2 a _ _ _ e2
  refine ⟨by rw [k1, g1, List.append_assoc], fun s hs => ?_⟩
  rcases k2 s hs with h | h
  · exact g2 s h
  · exact .inr h

theorem bind0 {m : Ins α} {f : α → Ins β} {l : List Bsm} (h1 : EffW S m []) (h2 : ∀ a, EffW S (f a) l) :
    EffW S (m >>= f) l := bind h1 h2

theorem bind1 {m : Ins α} {f : α → Ins β} {l : List Bsm} (h1 : EffW S m l) (h2 : ∀ a, EffW S (f a) []) :
    EffW S (m >>= f) l := by
  have := bind h1 h2
  rwa [List.append_nil] at this

theorem raw {e : Entry} (h : ∀ s, e = .utf8 s → S s) : EffW S (insertEntryW e) [] := by
  intro cp a cp' h1
  have h2 : insertRawW e cp = (a, cp') := Except.ok.inj h1
  unfold insertRawW at h2
  split at h2
  · cases h2
    exact ⟨by simp, fun s h => .inl h⟩
  · cases h2
    refine ⟨by simp, fun s hs => ?_⟩
    rcases List.mem_append.mp hs with h' | h'
    · exact .inl h'
    · exact .inr (h s (List.mem_singleton.mp h').symm)

theorem utf8 {s : Bytes} (h : S s) : EffW S (insertWtf8W s) [] := raw (by rintro t ⟨⟩; exact h)

theorem raw' {e : Entry} (h : ∀ s, e ≠ .utf8 s := by intro s h; cases h) : EffW S (insertEntryW e) [] :=
  raw fun s e => absurd e (h s)

theorem cls {s : Bytes} (h : S s) : EffW S (insertClassW s) [] := bind0 (utf8 h) fun _ => raw'

theorem indirect (tag : UInt8) {s : Bytes} (h : S s) : EffW S (insertIndirectW tag s) [] := by
  refine bind0 (utf8 h) fun i => ?_
  split
  · exact raw'
  · exact raw'
  · exact raw'
  · exact raw'
  · exact fail _ _

theorem nat {n d : Bytes} (h1 : S n) (h2 : S d) : EffW S (insertNameAndTypeW n d) [] :=
  bind0 (utf8 h1) fun _ => bind0 (utf8 h2) fun _ => raw'

theorem member {m : MemberRef} (h : AllMember S m) : EffW S (insertMemberW m) [] := by
  refine bind0 (cls h.1) fun _ => bind0 (nat h.2.1 h.2.2) fun _ => raw' ?_
  intro s
  split
  · split <;> simp
  · simp

theorem handle {h : MethodHandle} (hh : AllMember S h.member) : EffW S (insertMethodHandleW h) [] :=
  bind0 (member hh) fun _ => raw'

theorem const {k : Constant} (h : AllConst S k) : EffW S (insertConstantW k) [] := by
  cases k with
  | string s => exact indirect 8 h
  | cls s => exact indirect 7 h
  | member m => exact member h
  | methodType t => exact bind0 (utf8 h) fun _ => raw'
  | methodHandle h' => exact handle h
  | _ => exact raw'

theorem bsm (b : Bsm) : EffW S (insertBsm b) [b] := by
  intro cp a cp' h
  cases h
  exact ⟨rfl, fun s h => .inl h⟩

theorem dynamic {d : Dynamic} (h : AllDyn S d) : EffW S (insertDynamicW d) (ownBsm d) := by
  intro cp a cp' h1
  obtain ⟨b, cp1, e0, h2⟩ := Ins.bind_ok h1
  obtain ⟨e1, rfl⟩ := Ins.lift_ok e0
  have e : ownBsm d = [b] := by
    unfold Dynamic.getBsm at e1
    unfold ownBsm
    split at e1
    · cases e1
    · rename_i hd
      cases e1
      rw [hd]
  rw [e]
  have hh : EffW S (insertNameAndTypeW d.name (JType.display d.descriptor)) [] := nat h.1 h.2
  refine bind1 (bsm b) (fun i => bind0 hh fun j => raw' ?_) _ _ _ h2
  intro s
  split <;> simp

theorem orDynamic {f : α → Ins UInt16} {p : α → Prop} (hf : ∀ a, p a → EffW S (f a) []) {x : OrDynamic α}
    (h : AllOr S p x) : EffW S (insertOrDynamicW f x) ((orDynamics x).flatMap ownBsm) := by
  cases x with
  | dynamic d =>
    show EffW S (insertDynamicW d) _
    have := dynamic h
    simpa [orDynamics] using this
  | static a => exact hf a h

/-! ## Combinators -/

theorem idx {i : Ins UInt16} {l : List Bsm} (h : EffW S i l) : EffW S (wIdx i) l := bind1 h fun _ => pure _

theorem nil : EffW S (wSeq []) [] := pure _

theorem cons {w : Ins Bytes} {ws : List (Ins Bytes)} {l l' : List Bsm} (h : EffW S w l)
    (hs : EffW S (wSeq ws) l') : EffW S (wSeq (w :: ws)) (l ++ l') :=
  bind h fun _ => bind1 hs fun _ => pure _

theorem cons0 {w : Ins Bytes} {ws : List (Ins Bytes)} {l : List Bsm} (h : EffW S w [])
    (hs : EffW S (wSeq ws) l) : EffW S (wSeq (w :: ws)) l := cons h hs

theorem cons1 {w : Ins Bytes} {ws : List (Ins Bytes)} {l : List Bsm} (h : EffW S w l)
    (hs : EffW S (wSeq ws) []) : EffW S (wSeq (w :: ws)) l := by
  have := cons h hs
  rwa [List.append_nil] at this

theorem all {w : α → Ins Bytes} {f : α → List Bsm} {xs : List α} (h : ∀ x ∈ xs, EffW S (w x) (f x)) :
    EffW S (wAll w xs) (xs.flatMap f) := by
  induction xs with
  | nil => exact pure _
  | cons x xs ih =>
    have h1 : EffW S (wAll w xs) (xs.flatMap f) := ih fun y hy => h y (by simp [hy])
    have := cons (h x (by simp)) h1
    rwa [List.flatMap_cons]

theorem all0 {w : α → Ins Bytes} {xs : List α} (h : ∀ x ∈ xs, EffW S (w x) []) : EffW S (wAll w xs) [] := by
  have := all (f := fun _ => []) h
  rwa [List.flatMap_eq_nil_iff.mpr (by simp)] at this

theorem vec {ℓ : Type} {c : NumCodec ℓ} {w : α → Ins Bytes} {f : α → List Bsm} {xs : List α}
    (h : ∀ x ∈ xs, EffW S (w x) (f x)) : EffW S (wVec c w xs) (xs.flatMap f) := by
  unfold wVec
  split
  · exact bind1 (all h) fun _ => pure _
  · exact fail _ _

theorem vec0 {ℓ : Type} {c : NumCodec ℓ} {w : α → Ins Bytes} {xs : List α}
    (h : ∀ x ∈ xs, EffW S (w x) []) : EffW S (wVec c w xs) [] := by
  have := vec (c := c) (f := fun _ => []) h
  rwa [List.flatMap_eq_nil_iff.mpr (by simp)] at this

theorem cut {w : α → Ins Bytes} {f : α → List Bsm} {xs : List α}
    (h : ∀ x ∈ xs, EffW S (w x) (f x)) : EffW S (wCut w xs) (xs.flatMap f) :=
  cons0 (pure _) (cons1 (all h) nil)

theorem cut0 {w : α → Ins Bytes} {xs : List α} (h : ∀ x ∈ xs, EffW S (w x) []) : EffW S (wCut w xs) [] :=
  cons0 (pure _) (cons1 (all0 h) nil)

theorem num {c : NumCodec α} {x : α} : EffW S (wNum c x) [] := pure _
theorem flags {t : FlagType} {f : Flags t} : EffW S (wFlags f) [] := pure _
theorem wutf8 {s : Bytes} (h : S s) : EffW S (wUtf8W s) [] := idx (utf8 h)
theorem wstr {tag : UInt8} {s : Bytes} (h : S s) : EffW S (wStrW tag s) [] := idx (indirect tag h)
theorem wtype {t : JType} (h : S t.toWtf8) : EffW S (wTypeW t) [] := idx (utf8 h)
theorem wsig {t : Str} (h : S (sigString t)) : EffW S (wSigW t) [] := idx (utf8 h)

theorem opt {f : α → Ins UInt16} {p : α → Prop} {x : Option α} (h : AllOpt p x) (hf : ∀ a, p a → EffW S (f a) []) :
    EffW S (wOpt f x) [] := by
  cases x with
  | none => exact pure _
  | some a => exact idx (hf a (h a rfl))

theorem utf8Opt {x : Option Bytes} (h : AllOpt S x) : EffW S (wUtf8OptW x) [] := opt h fun _ => utf8
theorem clsOpt {x : Option Bytes} (h : AllOpt S x) : EffW S (wClsOptW x) [] := opt h fun _ => indirect 7
theorem label {env : WEnv} {l : Label} : EffW S (wLabel env l) [] := bind0 (lift _) fun _ => pure _
theorem catch_ {env : WEnv} {k : Catch} : EffW S (wCatch env k) [] := by
  refine bind0 (lift _) fun o => ?_
  split <;> exact pure _

theorem attr {n : Bytes} {w : Ins Bytes} {l : List Bsm} (hn : S n) (h : EffW S w l) : EffW S (wAttrW n w) l :=
  bind0 (utf8 hn) fun _ => bind1 h fun _ => pure _

theorem rawAttr {a : RawAttribute} (h : S a.name) : EffW S (wRawW a) [] := bind0 (utf8 h) fun _ => pure _

end EffW

/-! ## Annotations -/

section
open EffW
variable {S : Bytes → Prop}

mutual
theorem eff_valueW : (v : AnnValue) → AllValue S v → EffW S v.writeW []
  | .byte x, _ => by rw [AnnValue.writeW]; exact cons0 num (cons0 (idx raw') nil)
  | .char x, _ => by rw [AnnValue.writeW]; exact cons0 num (cons0 (idx raw') nil)
  | .double x, _ => by rw [AnnValue.writeW]; exact cons0 num (cons0 (idx raw') nil)
  | .float x, _ => by rw [AnnValue.writeW]; exact cons0 num (cons0 (idx raw') nil)
  | .int x, _ => by rw [AnnValue.writeW]; exact cons0 num (cons0 (idx raw') nil)
  | .long x, _ => by rw [AnnValue.writeW]; exact cons0 num (cons0 (idx raw') nil)
  | .short x, _ => by rw [AnnValue.writeW]; exact cons0 num (cons0 (idx raw') nil)
  | .boolean x, _ => by rw [AnnValue.writeW]; exact cons0 num (cons0 (idx raw') nil)
  | .string s, h => by
    rw [AllValue] at h
    rw [AnnValue.writeW]; exact cons0 num (cons0 (wutf8 h) nil)
  | .enum t n, h => by
    rw [AllValue] at h
    rw [AnnValue.writeW]; exact cons0 num (cons0 (wtype h.1) (cons0 (wutf8 h.2) nil))
  | .cls none, h => by
    rw [AllValue] at h
    rw [AnnValue.writeW]; exact cons0 num (cons0 (wutf8 h) nil)
  | .cls (some t), h => by
    rw [AllValue] at h
    rw [AnnValue.writeW]; exact cons0 num (cons0 (wutf8 h) nil)
  | .annotation t vs, h => by
    rw [AllValue] at h
    rw [AnnValue.writeW]; exact cons0 num (cons0 (wtype h.1) (cons0 num (cons0 (eff_elemsW vs h.2) nil)))
  | .array vs, h => by
    rw [AllValue] at h
    rw [AnnValue.writeW]; exact cons0 num (cons0 num (cons0 (eff_valuesW vs h) nil))
theorem eff_valuesW : (vs : List AnnValue) → AllValues S vs → EffW S (AnnValue.writeListW vs) []
  | [], _ => by rw [AnnValue.writeListW]; exact pure _
  | v :: vs, h => by
    rw [AllValues] at h
    rw [AnnValue.writeListW]; exact cons0 (eff_valueW v h.1) (cons0 (eff_valuesW vs h.2) nil)
theorem eff_elemsW : (vs : List (Bytes × AnnValue)) → AllElems S vs → EffW S (AnnValue.writeElemsW vs) []
  | [], _ => by rw [AnnValue.writeElemsW]; exact pure _
  | (k, v) :: vs, h => by
    rw [AllElems] at h
    rw [AnnValue.writeElemsW]
    exact cons0 (wutf8 h.1) (cons0 (eff_valueW v h.2.1) (cons0 (eff_elemsW vs h.2.2) nil))
end

theorem eff_annW {a : Annotation} (h : AllAnn S a) : EffW S a.writeW [] :=
  cons0 (wtype h.1) (cons0 (cons0 num (cons0 (eff_elemsW _ h.2) nil)) nil)

theorem eff_annsW {as : List Annotation} (h : ∀ a ∈ as, AllAnn S a) : EffW S (wVec u16 Annotation.writeW as) [] :=
  vec0 fun a ha => eff_annW (h a ha)

theorem eff_tannW {T : Type} {w : T → Ins Bytes} (hw : ∀ t, EffW S (w t) []) {a : TypeAnnotation T}
    (h : AllTypeAnn S a) : EffW S (TypeAnnotation.writeW w a) [] := by
  refine cons0 (hw _) (cons0 (vec0 fun p _ => ?_) (cons0 (wtype h.1) (cons0 (cons0 num (cons0 (eff_elemsW _ h.2) nil)) nil)))
  cases p <;> exact cons0 num (cons0 num nil)

theorem eff_tannsW {T : Type} {w : T → Ins Bytes} (hw : ∀ t, EffW S (w t) []) {as : List (TypeAnnotation T)}
    (h : ∀ a ∈ as, AllTypeAnn S a) : EffW S (wVec u16 (TypeAnnotation.writeW w) as) [] :=
  vec0 fun a ha => eff_tannW hw (h a ha)

theorem eff_classTargetW (t : ClassTarget) : EffW S t.write [] := by
  cases t
  · exact cons0 num (cons0 num nil)
  · exact cons0 num (cons0 num nil)
  · exact cons0 num (cons0 num (cons0 num nil))

theorem eff_methodTargetW (t : MethodTarget) : EffW S t.write [] := by
  cases t
  · exact cons0 num (cons0 num nil)
  · exact cons0 num (cons0 num (cons0 num nil))
  · exact cons0 num nil
  · exact cons0 num nil
  · exact cons0 num (cons0 num nil)
  · exact cons0 num (cons0 num nil)

theorem eff_fieldTargetW (t : FieldTarget) : EffW S t.write [] := by
  cases t
  exact cons0 num nil

theorem eff_localVarTargetW (env : WEnv) (t : LocalVarTarget) : EffW S (t.writeW env) [] := by
  refine bind0 (lift _) fun s => bind0 (lift _) fun e => ?_
  exact pure _

theorem eff_codeTargetW (env : WEnv) (t : CodeTarget) : EffW S (t.writeW env) [] := by
  cases t with
  | localVar ts => exact cons0 num (cons0 (vec0 fun t _ => eff_localVarTargetW env t) nil)
  | resourceVar ts => exact cons0 num (cons0 (vec0 fun t _ => eff_localVarTargetW env t) nil)
  | catchParam k => exact cons0 num (cons0 catch_ nil)
  | instanceOf l => exact cons0 num (cons0 label nil)
  | new l => exact cons0 num (cons0 label nil)
  | newRef l => exact cons0 num (cons0 label nil)
  | methodRef l => exact cons0 num (cons0 label nil)
  | _ => exact cons0 num (cons0 label (cons0 num nil))

/-! ## Attributes -/

variable (hN : ∀ n ∈ allNames, S n)
include hN

theorem eff_fieldAttrW {a : FieldAttr} (h : AllFieldAttr S a) : EffW S a.writeW [] := by
  cases a with
  | deprecated => exact attr (hN _ (by decide)) nil
  | synthetic => exact attr (hN _ (by decide)) nil
  | signature s => exact attr (hN _ (by decide)) (wsig h)
  | constantValue k => exact attr (hN _ (by decide)) (idx (const h))
  | visible as => exact attr (hN _ (by decide)) (eff_annsW h)
  | invisible as => exact attr (hN _ (by decide)) (eff_annsW h)
  | visibleType as => exact attr (hN _ (by decide)) (eff_tannsW eff_fieldTargetW h)
  | invisibleType as => exact attr (hN _ (by decide)) (eff_tannsW eff_fieldTargetW h)
  | raw a => exact rawAttr h

theorem eff_fieldW {f : Field} (h : AllField S f) : EffW S f.writeW [] :=
  cons0 flags (cons0 (wutf8 h.1) (cons0 (wtype h.2.1) (cons0 (vec0 fun a ha => eff_fieldAttrW hN (h.2.2 a ha)) nil)))

omit hN in
theorem eff_moduleW {m : Module} (h : AllModule S m) : EffW S m.writeW [] := by
  obtain ⟨h1, h2, h3, h4, h5, h6, h7⟩ := h
  exact cons0 (wstr h1) (cons0 flags (cons0 (utf8Opt h2)
    (cons0 (vec0 fun r hr => cons0 (wstr (h3 r hr).1) (cons0 flags (cons0 (utf8Opt (h3 r hr).2) nil)))
    (cons0 (vec0 fun r hr => cons0 (wstr (h4 r hr).1) (cons0 flags (cons0 (vec0 fun s hs => wstr ((h4 r hr).2 s hs)) nil)))
    (cons0 (vec0 fun r hr => cons0 (wstr (h5 r hr).1) (cons0 flags (cons0 (vec0 fun s hs => wstr ((h5 r hr).2 s hs)) nil)))
    (cons0 (vec0 fun s hs => wstr (h6 s hs))
    (cons0 (vec0 fun r hr => cons0 (wstr (h7 r hr).1) (cons0 (vec0 fun s hs => wstr ((h7 r hr).2 s hs)) nil)) nil)))))))

theorem eff_classAttrW {a : ClassAttr} (h : AllClassAttr S a) : EffW S a.writeOtherW [] := by
  cases a with
  | signature s => exact attr (hN _ (by decide)) (wsig h)
  | deprecated => exact attr (hN _ (by decide)) nil
  | synthetic => exact attr (hN _ (by decide)) nil
  | sourceFile s => exact attr (hN _ (by decide)) (wutf8 h)
  | innerClasses xs =>
    exact attr (hN _ (by decide)) (vec0 fun x hx => cons0 (wstr (h x hx).1) (cons0 (clsOpt (h x hx).2.1)
      (cons0 (utf8Opt (h x hx).2.2) (cons0 flags nil))))
  | enclosingMethod o m =>
    exact attr (hN _ (by decide)) (cons0 (wstr h.1) (cons0 (opt h.2 fun p hp => nat hp.1 hp.2) nil))
  | debugExtension s => exact attr (hN _ (by decide)) (lift _)
  | bootstrapMethods ms => exact nil
  | module_ m => exact attr (hN _ (by decide)) (eff_moduleW h)
  | modulePackages ps => exact attr (hN _ (by decide)) (vec0 fun s hs => wstr (h s hs))
  | mainClass o => exact attr (hN _ (by decide)) (wstr h)
  | nestHost o => exact attr (hN _ (by decide)) (wstr h)
  | nestMembers ps => exact attr (hN _ (by decide)) (vec0 fun s hs => wstr (h s hs))
  | visible as => exact attr (hN _ (by decide)) (eff_annsW h)
  | invisible as => exact attr (hN _ (by decide)) (eff_annsW h)
  | visibleType as => exact attr (hN _ (by decide)) (eff_tannsW eff_classTargetW h)
  | invisibleType as => exact attr (hN _ (by decide)) (eff_tannsW eff_classTargetW h)
  | raw a => exact rawAttr h

/-! ## Code -/

omit hN in
theorem eff_ldcW {c : OrDynamic Constant} (h : AllOr S (AllConst S) c) :
    EffW S (writeLdcW c) ((orDynamics c).flatMap ownBsm) := by
  refine bind1 (orDynamic (fun a => const) h) fun i => ?_
  split
  all_goals
    simp only
    split
    · exact cons0 num (cons0 num nil)
    · split
      · exact cons0 num (cons0 num nil)
      · exact cons0 num (cons0 num nil)

omit hN in
theorem eff_pushW {c : OrDynamic Constant} (h : AllOr S (AllConst S) c) :
    EffW S (writePushW c) ((orDynamics c).flatMap ownBsm) := by
  unfold writePushW
  repeat' split
  all_goals first
    | exact num
    | exact cons0 num (cons0 num nil)
    | exact eff_ldcW h

omit hN in
theorem eff_orDynW {α : Type} {f : α → Ins UInt16} {p : α → Prop} (hf : ∀ a, p a → EffW S (f a) []) {x : OrDynamic α}
    (h : AllOr S p x) {o : Ins Bytes} (ho : EffW S o []) {l : List (Ins Bytes)} (hl : EffW S (wSeq l) []) :
    EffW S (wSeq (o :: wOrDynW f x :: l)) ((orDynamics x).flatMap ownBsm) :=
  cons0 ho (cons1 (idx (orDynamic hf h)) hl)

omit hN in
theorem eff_insnW {i : Insn} (h : AllInsn S i) :
    EffW S i.encodeW ((insnDynamics i).flatMap ownBsm) := by
  cases i with
  | push c => exact eff_pushW h
  | checkCast t => exact eff_orDynW (fun a => cls) h num nil
  | instanceOf t => exact eff_orDynW (fun a => cls) h num nil
  | new t => exact eff_orDynW (fun a => cls) h num nil
  | field a b m => exact eff_orDynW (fun a => member) h num nil
  | invokeExact a m => cases a <;> exact eff_orDynW (fun a => member) h num nil
  | invokeSpecial m => exact eff_orDynW (fun a => member) h num nil
  | invokeInterface m n => exact eff_orDynW (fun a => member) h num (cons0 num (cons0 (pure _) nil))
  | invokeDynamic d =>
    have : EffW S (Insn.encodeW (.invokeDynamic d)) (ownBsm d) :=
      cons0 num (cons1 (idx (dynamic h)) (cons0 (pure _) nil))
    simpa [insnDynamics] using this
  | localVariable m t l =>
    show EffW S (wideOrNormal _ _) _
    unfold wideOrNormal
    split
    · exact cons0 num (cons0 num nil)
    · exact cons0 num (cons0 num (cons0 num nil))
  | ret l =>
    show EffW S (wideOrNormal _ _) _
    unfold wideOrNormal
    split
    · exact cons0 num (cons0 num nil)
    · exact cons0 num (cons0 num (cons0 num nil))
  | intIncrement l n =>
    show EffW S (if _ then _ else _) _
    split
    · exact cons0 num (cons0 num (cons0 num nil))
    · exact cons0 num (cons0 num (cons0 num (cons0 num nil)))
  | monitor m => cases m <;> exact num
  | conversion a b =>
    show EffW S (match conversionOp a b with | some o => op o | none => Pure.pure []) []
    split
    · exact num
    · exact pure _
  | convertInt a =>
    show EffW S (match convertIntOp a with | some o => op o | none => Pure.pure []) []
    split
    · exact num
    · exact pure _
  | _ => first | exact num | exact pure _

omit hN in
theorem eff_writeInsnW {i : Insn} (h : AllInsn S i) (b : CodeBuf) :
    EffW S (writeInsnW b i) ((insnDynamics i).flatMap ownBsm) := by
  cases i with
  | lookupSwitch _ _ => exact pure _
  | tableSwitch _ _ _ => exact pure _
  | jump _ _ => exact pure _
  | jsr _ => exact pure _
  | label _ => exact pure _
  | lineNumber _ => exact pure _
  | _ => exact bind1 (eff_insnW h) fun _ => pure _

omit hN in
theorem eff_writeInsnsW {is : List Insn} (h : ∀ i ∈ is, AllInsn S i)
    (b : CodeBuf) : EffW S (writeInsnsW b is) ((is.flatMap insnDynamics).flatMap ownBsm) := by
  induction is generalizing b with
  | nil => exact pure _
  | cons i is ih =>
    have := bind (eff_writeInsnW (h i (by simp)) b)
      (fun b' => ih (fun j hj => h j (by simp [hj])) b')
    rw [List.flatMap_cons, List.flatMap_append]
    exact this

omit hN in
theorem eff_lowersW {env : WEnv} {vs : List LocalVariable} (h : ∀ v ∈ vs, AllVar S v)
    {ts : List VarTypeEntry} {es : List VarEntry} (e : splitVarsW env vs = .ok (ts, es)) :
    (∀ t ∈ ts, S t.name ∧ S (sigString (showR t.signature))) ∧ ∀ x ∈ es, S x.name ∧ S x.descriptor.toWtf8 := by
  induction vs generalizing ts es with
  | nil =>
    cases e
    exact ⟨by simp, by simp⟩
  | cons v vs ih =>
    obtain ⟨var, e1, e⟩ := Res.bind_ok e
    obtain ⟨ty, e2, e⟩ := Res.bind_ok e
    obtain ⟨r, e3, e⟩ := Res.bind_ok e
    cases e
    obtain ⟨i1, i2⟩ := ih (fun v hv => h v (by simp [hv])) e3
    obtain ⟨hn, hd, hg⟩ := h v (by simp)
    constructor
    · intro t ht
      rcases List.mem_append.mp ht with ht | ht
      · unfold LocalVariable.varTypeEntriesW at e2
        split at e2
        · cases e2
          cases ht
        · rename_i g hv
          split at e2
          · cases e2
          · cases e2
            rw [List.mem_singleton.mp ht]
            exact ⟨hn, hg g hv⟩
      · exact i1 t ht
    · intro t ht
      rcases List.mem_append.mp ht with ht | ht
      · unfold LocalVariable.varEntriesW at e1
        split at e1
        · cases e1
          cases ht
        · rename_i g hv
          split at e1
          · cases e1
          · cases e1
            rw [List.mem_singleton.mp ht]
            exact ⟨hn, hd g hv⟩
      · exact i2 t ht

theorem eff_varsW (env : WEnv) {es : List VarEntry} (h : ∀ x ∈ es, S x.name ∧ S x.descriptor.toWtf8) :
    EffW S (CodeAttr.writeW env (.vars es)) [] :=
  attr (hN _ (by decide)) (vec0 fun x hx => cons0 num (cons0 num (cons0 (wutf8 (h x hx).1)
    (cons0 (wtype (h x hx).2) (cons0 num nil)))))

theorem eff_varTypesW (env : WEnv) {es : List VarTypeEntry}
    (h : ∀ x ∈ es, S x.name ∧ S (sigString (showR x.signature))) :
    EffW S (CodeAttr.writeW env (.varTypes es)) [] :=
  attr (hN _ (by decide)) (vec0 fun x hx => cons0 num (cons0 num (cons0 (wutf8 (h x hx).1)
    (cons0 (wsig (h x hx).2) (cons0 num nil)))))

theorem eff_lowerW (env : WEnv) {a : CodeAttribute} (h : AllCodeAttr S a) {ls : List CodeAttr}
    (e : a.lowerW env = .ok ls) : EffW S (wAll (CodeAttr.writeW env) ls) [] := by
  refine all0 ?_
  intro l hl
  cases a with
  | visibleType as =>
    cases e
    rw [List.mem_singleton.mp hl]
    exact attr (hN _ (by decide)) (eff_tannsW (eff_codeTargetW env) h)
  | invisibleType as =>
    cases e
    rw [List.mem_singleton.mp hl]
    exact attr (hN _ (by decide)) (eff_tannsW (eff_codeTargetW env) h)
  | raw a =>
    cases e
    rw [List.mem_singleton.mp hl]
    exact rawAttr h
  | locals vs =>
    obtain ⟨⟨ts, es⟩, e1, e⟩ := Res.bind_ok e
    obtain ⟨h1, h2⟩ := eff_lowersW h e1
    simp only at e
    split at e
    · cases e
    · cases e
      rw [List.mem_singleton.mp hl]
      exact eff_varTypesW hN env h1
    · cases e
      rw [List.mem_singleton.mp hl]
      exact eff_varsW hN env h2
    · cases e
      simp only [List.mem_cons, List.not_mem_nil, or_false] at hl
      rcases hl with rfl | rfl
      · exact eff_varsW hN env h2
      · exact eff_varTypesW hN env h1

theorem eff_codeAttrsW (env : WEnv) {as : List CodeAttribute} (h : ∀ a ∈ as, AllCodeAttr S a) (n : UInt16) :
    EffW S (writeCodeAttrsW env n as) [] := by
  induction as generalizing n with
  | nil => exact pure _
  | cons a as ih =>
    intro cp r cp' e
    obtain ⟨ls, cp1, e0, e2⟩ := Ins.bind_ok e
    obtain ⟨e1, rfl⟩ := Ins.lift_ok e0
    have hl := eff_lowerW hN env (h a (by simp)) e1
    exact bind0 hl (fun b => bind0 (ih (fun x hx => h x (by simp [hx])) _) fun r => pure _) _ _ _ e2

theorem eff_codeW {x : Code} (h : AllCode S x) :
    EffW S x.writeW ((x.code.flatMap insnDynamics).flatMap ownBsm) := by
  refine bind1 (bind1 (eff_writeInsnsW h.1 _) fun _ => lift _) fun a => ?_
  refine bind0 (all0 fun k hk => ?_) fun hs => bind0 (eff_codeAttrsW hN _ h.2.2 _) fun r => ?_
  · exact cons0 label (cons0 label (cons0 label (cons0 (opt (h.2.1 k hk) fun s => cls) nil)))
  · exact pure _

theorem eff_methodAttrW {a : MethodAttr} (h : AllMethodAttr S a) :
    EffW S a.writeW ((attrDynamics a).flatMap ownBsm) := by
  cases a with
  | code x => exact attr (hN _ (by decide)) (eff_codeW hN h)
  | deprecated => exact attr (hN _ (by decide)) nil
  | synthetic => exact attr (hN _ (by decide)) nil
  | signature s => exact attr (hN _ (by decide)) (wsig h)
  | visible as => exact attr (hN _ (by decide)) (eff_annsW h)
  | invisible as => exact attr (hN _ (by decide)) (eff_annsW h)
  | visibleType as => exact attr (hN _ (by decide)) (eff_tannsW eff_methodTargetW h)
  | invisibleType as => exact attr (hN _ (by decide)) (eff_tannsW eff_methodTargetW h)
  | visibleParams ps => exact attr (hN _ (by decide)) (vec0 fun as ha => eff_annsW (h as ha))
  | invisibleParams ps => exact attr (hN _ (by decide)) (vec0 fun as ha => eff_annsW (h as ha))
  | exceptions ss => exact attr (hN _ (by decide)) (vec0 fun s hs => wstr (h s hs))
  | annotationDefault v => exact attr (hN _ (by decide)) (eff_valueW v h)
  | methodParameters ps =>
    exact attr (hN _ (by decide)) (vec0 fun p hp => cons0 (utf8Opt (h p hp)) (cons0 flags nil))
  | raw a => exact rawAttr h

theorem eff_methodW {m : Method} (h : AllMethod S m) : EffW S m.writeW ((m.attrs.flatMap attrDynamics).flatMap ownBsm) := by
  have := vec (c := u16) (f := fun a => (attrDynamics a).flatMap ownBsm)
    (fun a ha => eff_methodAttrW hN (h.2.2 a ha))
  rw [List.flatMap_assoc]
  exact cons0 flags (cons0 (wutf8 h.1) (cons0 (wtype h.2.1) (cons1 this nil)))

/-! ## Bootstrap methods -/

omit hN in
theorem eff_bsmW {b : Bsm} (h : AllBsm S b) : EffW S b.writeW (argBsms b) :=
  cons0 (idx (handle h.1)) (cons0 num (cons1 (all fun a ha => idx (orDynamic (fun _ => const) (allArgs_mem h.2 a ha))) nil))

end

/-! ## The loop over the bootstrap methods -/

/-- The rounds of the loop: what is written in each, and what is registered for the next. -/
theorem round_bsmW {cp cp' : VecCp} {bs : Bytes} (h : wAll Bsm.writeW cp.bsm { cp with bsm := [] } = .ok (bs, cp')) :
    cp'.bsm = cp.bsm.flatMap argBsms ∧ (cp.bsm ≠ [] → bsmNodes cp'.bsm < bsmNodes cp.bsm) := by
  have f := (EffW.all (fun b _ => eff_bsmW (allBsm_true b)) _ _ _ h).1
  rw [List.nil_append] at f
  refine ⟨f, fun hne => ?_⟩
  rw [f]
  show bsmNodes (cp.bsm.flatMap argBsms) < _
  have := bsmNodes_args cp.bsm
  have := List.length_pos_iff.mpr hne
  omega

theorem batches_okW {S : Bytes → Prop} {i n : UInt16} {cp cp' : VecCp} {bs : Bytes}
    (h : writeBatchesW i cp = .ok (n, bs, cp')) (hS : ∀ b ∈ cp.bsm, AllBsm S b) :
    ∀ s, .utf8 s ∈ cp'.entries → .utf8 s ∈ cp.entries ∨ S s := by
  fun_induction writeBatchesW i cp generalizing n bs cp' with
  | case1 i cp h0 =>
    cases h
    exact fun s h => .inl h
  | case2 => cases h
  | case3 => cases h
  | case4 i cp h0 b cp1 e1 hn n' b' cp2 e2 ih =>
    cases h
    have f := EffW.all (fun b hb => eff_bsmW (hS b hb)) _ _ _ e1
    have := ih e2 (by
      rw [(round_bsmW e1).1]
      intro b hb
      obtain ⟨m, hm, hb⟩ := List.mem_flatMap.mp hb
      exact allArgs_bsms (hS m hm).2 b hb)
    intro s hs
    rcases this s hs with h | h
    · exact f.2 s h
    · exact .inr h
  | case5 => cases h

theorem eff_classBodyW {S : Bytes → Prop} (hN : ∀ n ∈ allNames, S n) {x : Class} (h : AllClass S x) :
    EffW S (Class.writeBodyW x) ((classDynamics x).flatMap ownBsm) := by
  have hm := EffW.cut (f := fun m : Method => (m.attrs.flatMap attrDynamics).flatMap ownBsm)
    (fun m hm => eff_methodW hN (h.methods m hm))
  rw [← List.flatMap_assoc] at hm
  exact .cons0 .flags (.cons0 (.idx (.cls h.name)) (.cons0 (.opt h.superName fun _ => .cls)
    (.cons0 (.cut0 fun s hs => .idx (.cls (h.interfaces s hs)))
    (.cons0 (.cut0 fun f hf => eff_fieldW hN (h.fields f hf))
    (.cons1 hm (.cons0 (.cut0 fun a ha => eff_classAttrW hN (h.attrs a ha)) .nil))))))

/-- The strings in the pool of a class are its own and the names of attributes. -/
theorem class_stringsW {S : Bytes → Prop} (hN : ∀ n ∈ allNames, S n) {x : Class} (hs : AllClass S x) {buf : Bytes}
    {cp : VecCp}
    (e : wSeq [Class.writeBodyW x, wBootstrapW] { VecCp.new with bsm := ownBsms x.attrs } = .ok (buf, cp)) :
    ∀ s, .utf8 s ∈ cp.entries → S s := by
  obtain ⟨b1, cp1, e1, e⟩ := Ins.bind_ok e
  obtain ⟨b2', cp2, e2, e⟩ := Ins.bind_ok e
  cases e
  obtain ⟨b2, cp2', e2, e⟩ := Ins.bind_ok e2
  cases e
  have f1 := eff_classBodyW hN hs _ _ _ e1
  have hb1 : cp1.bsm = usedBsms x := by rw [f1.1, ownBsms_eq]; rfl
  have h1 : ∀ s, .utf8 s ∈ cp1.entries → S s := fun s hm => by
    rcases f1.2 s hm with h | h
    · cases h
    · exact h
  unfold wBootstrapW at e2
  split at e2
  · cases e2
    exact h1
  · rcases e3 : writeBatchesW 0 cp1 with e | ⟨n, b, cp3⟩
    · rw [e3] at e2
      cases e2
    · rw [e3] at e2
      simp only at e2
      have f2 := batches_okW e3 (by rw [hb1]; exact hs.table)
      rcases e4 : wUtf8W N.bootstrapMethods cp3 with e | ⟨name, cp4⟩
      · rw [e4] at e2
        cases e2
      · rw [e4] at e2
        simp only at e2
        have f3 := (EffW.wutf8 (S := S) (hN N.bootstrapMethods (by decide)) _ _ _ e4).2
        cases e2
        intro s hm
        rcases f3 s hm with h | h
        · rcases f2 s h with h | h
          · exact h1 s h
          · exact h
        · exact h

end Verif
