import Verif.Lemmas.ReleaseEnds
import Verif.Lemmas.HeftClass

/-! # The size of a class that is written in a build without overflow checks

As in `Lemmas/Heft` and `Lemmas/HeftClass`. -/

namespace Verif
open Spec Sig

theorem Weighs.rawW (e : Entry) : WeighsI (heftEntry e) (insertEntryW e) := by
  intro cp a cp' h
  have h2 : insertRawW e cp = (a, cp') := Except.ok.inj h
  unfold insertRawW at h2
  split at h2
  · cases h2
    show 0 + heft cp ≤ _
    omega
  · cases h2
    simp only [heft, List.map_append, List.sum_append, List.map_cons, List.map_nil, List.sum_cons, List.sum_nil]
    omega

theorem resolveAllW_length {L : List (Label × (Nat × Nat))} {I : List Nat} {s idx : Nat} {ls : List Label} {bs : Bytes}
    (h : resolveAllW L I s idx ls = .ok bs) : bs.length = ls.length * 4 := by
  induction ls generalizing bs with
  | nil => cases h; rfl
  | cons l ls ih =>
    rw [resolveAllW] at h
    obtain ⟨o, h1, h⟩ := Res.bind_ok h
    obtain ⟨b, h2, h⟩ := Res.bind_ok h
    cases h
    simp only [List.length_append, List.length_cons, i32_write_length, ih h2]
    omega

theorem resolvePairsW_length {L : List (Label × (Nat × Nat))} {I : List Nat} {s idx : Nat}
    {es : List (Int32 × Label)} {bs : Bytes}
    (h : resolvePairsW L I s idx es = .ok bs) : bs.length = es.length * 8 := by
  induction es generalizing bs with
  | nil => cases h; rfl
  | cons e es ih =>
    obtain ⟨k, l⟩ := e
    rw [resolvePairsW] at h
    obtain ⟨o, h1, h⟩ := Res.bind_ok h
    obtain ⟨b, h2, h⟩ := Res.bind_ok h
    cases h
    simp only [List.length_append, List.length_cons, i32_write_length, ih h2]
    omega

theorem Branch.emitW_cond {L : List (Label × (Nat × Nat))} {I : List Nat} {s idx : Nat} {k : Cond} {l : Label}
    (hk : k ≠ .always) : (Branch.jump k l).emitW L I s idx = (do
      let o ← resolveLabelW L I s idx l
      if fitsI16 o then return u8.write k.opcode ++ i16.write o.toInt16
      else match k.neg with
        | none => .error .panic
        | some n => return u8.write n.opcode ++ i32.write 5 ++ u8.write opc.GOTO_W ++ i32.write o) := by
  cases k <;> first | rfl | exact absurd rfl hk

theorem emitW_cons {L : List (Label × (Nat × Nat))} {I : List Nat} {j : Branch} {js : List Branch}
    {b : Bytes} {bs : List Bytes} {s idx : Nat} {r : List (Nat × Nat)} {code : Bytes}
    (h : emitFromW L I (j :: js) (b :: bs) ((s, idx) :: r) = .ok code) :
    ∃ o rest, j.emitW L I s idx = .ok o ∧ emitFromW L I js bs r = .ok rest ∧ code = o ++ b ++ rest := by
  rw [emitFromW] at h
  split at h
  · cases h
  · rename_i o h1
    split at h
    · cases h
    · rename_i rest h2
      cases h
      exact ⟨o, rest, h1, h2, rfl⟩

theorem Branch.emit_roomW {L : List (Label × (Nat × Nat))} {I : List Nat} {s idx : Nat} {j : Branch} {o : Bytes}
    (he : j.emitW L I s idx = .ok o) : o.length ≤ room j.insn := by
  cases j with
  | lookup d t =>
    rw [Branch.emitW] at he
    obtain ⟨x, h1, h⟩ := Res.bind_ok he
    obtain ⟨es, h2, h⟩ := Res.bind_ok h
    cases h
    have := padding_le (idx - s + 1)
    simp only [List.length_append, List.length_replicate, i32_write_length, u32_write_length, u8_write_length,
      resolvePairsW_length h2, List.length_mergeSort, Branch.insn, room]
    omega
  | table d low ls =>
    rw [Branch.emitW] at he
    obtain ⟨x, h1, h⟩ := Res.bind_ok he
    have := padding_le (idx - s + 1)
    obtain ⟨es, h2, h⟩ := Res.bind_ok h
    cases h
    simp only [List.length_append, List.length_replicate, i32_write_length, u8_write_length,
      resolveAllW_length h2, Branch.insn, room]
    omega
  | jsr l =>
    rw [Branch.emitW] at he
    obtain ⟨x, h1, h⟩ := Res.bind_ok he
    cases h
    show List.length _ ≤ 10
    split <;> simp [i32_write_length, i16_write_length, u8_write_length]
  | jump k l =>
    by_cases hk : k = .always
    · subst hk
      rw [Branch.emitW] at he
      obtain ⟨x, h1, h⟩ := Res.bind_ok he
      cases h
      show List.length _ ≤ 10
      split <;> simp [i32_write_length, i16_write_length, u8_write_length]
    · rw [Branch.emitW_cond hk] at he
      obtain ⟨x, h1, h⟩ := Res.bind_ok he
      show o.length ≤ 10
      split at h
      · cases h
        simp only [List.length_append, i16_write_length, u8_write_length]
        omega
      · split at h
        · cases h
        · cases h
          simp only [List.length_append, i32_write_length, u8_write_length]
          omega

theorem emit_roomW {L : List (Label × (Nat × Nat))} {I : List Nat} {js : List Branch} {bs : List Bytes}
    {r : List (Nat × Nat)} {code : Bytes} (h : emitFromW L I js bs r = .ok code) :
    code.length ≤ ((js.zip bs).map fun e => room e.1.insn + e.2.length).sum := by
  induction js generalizing bs r code with
  | nil =>
    have : code = [] := by
      cases bs <;> cases r <;> first | (cases h; rfl) | cases h
    subst this
    exact Nat.zero_le _
  | cons j js ih =>
    cases bs with
    | nil => cases h; exact Nat.zero_le _
    | cons b bs =>
      cases r with
      | nil => cases h; exact Nat.zero_le _
      | cons e r =>
        obtain ⟨o, rest, h1, h2, rfl⟩ := emitW_cons h
        have := ih h2
        have := Branch.emit_roomW h1
        simp only [List.length_append, List.zip_cons_cons, List.map_cons, List.sum_cons]
        omega

namespace Weighs

theorem utf8W {s : Bytes} : WeighsI (3 + 6 * s.length) (insertWtf8W s) := rawW _

theorem raw9W {e : Entry} (h : ∀ s, e ≠ .utf8 s) : WeighsI 9 (insertEntryW e) := (rawW e).mono (by
  cases e with
  | utf8 s => exact absurd rfl (h s)
  | _ => exact Nat.le_refl _)

theorem clsW {s : Bytes} : WeighsI (12 + 6 * s.length) (insertClassW s) :=
  (bind (k := 9) utf8W fun i => raw9W (by intro s h; cases h)).mono (by omega)

theorem indirectW {tag : UInt8} {s : Bytes} : WeighsI (12 + 6 * s.length) (insertIndirectW tag s) := by
  refine (bind (k := 9) utf8W fun i => ?_).mono (by omega)
  split
  · exact raw9W (by intro s h; cases h)
  · exact raw9W (by intro s h; cases h)
  · exact raw9W (by intro s h; cases h)
  · exact raw9W (by intro s h; cases h)
  · exact fail

theorem natW {n d : Bytes} : WeighsI (15 + 6 * n.length + 6 * d.length) (insertNameAndTypeW n d) :=
  (bind utf8W fun i => (bind (k := 9) utf8W fun j => raw9W (by intro s h; cases h)).mono
    (by exact Nat.le_of_eq (Nat.zero_add _).symm)).mono (by omega)

theorem memberW {m : MemberRef} : WeighsI (8192 * bulkMember m) (insertMemberW m) := by
  refine (bind clsW fun i => (bind (k := 9) natW fun j => raw9W ?_).mono (by exact Nat.le_of_eq (Nat.zero_add _).symm)).mono ?_
  · intro s
    split
    · split <;> nofun
    · nofun
  · have := display_len m.descriptor
    have := bulkType_pos m.descriptor
    simp only [bulkMember, bulkS]
    omega

theorem handleW {h : MethodHandle} : WeighsI (8192 * bulkHandle h) (insertMethodHandleW h) :=
  (bind (k := 9) memberW fun i => raw9W (by intro s h; cases h)).mono (by rw [bulkHandle]; omega)

theorem constW {k : Constant} : WeighsI (8192 * bulkConst k) (insertConstantW k) := by
  cases k with
  | string s => exact (indirectW (tag := 8) (s := s)).mono (by rw [bulkConst, bulkS]; omega)
  | cls s => exact (indirectW (tag := 7) (s := s)).mono (by rw [bulkConst, bulkS]; omega)
  | member m => exact memberW.mono (by rw [bulkConst]; omega)
  | methodType t =>
    exact (bind (k := 9) utf8W fun i => raw9W (by intro s h; cases h)).mono (by have := display_len t; rw [bulkConst]; omega)
  | methodHandle h' => exact handleW.mono (by rw [bulkConst]; omega)
  | _ => exact (rawW _).mono (by simp [heftEntry, bulkConst])

theorem dynamicW {d : Dynamic} : WeighsI (8192 * bulkDynamic d - 8192) (insertDynamicW d) := by
  refine lift_bind fun b hb => ?_
  have hb' : bulkBsm b = bulkCell d.bsm := by
    unfold Dynamic.getBsm at hb
    split at hb
    · cases hb
    · rename_i h as hc
      cases hb
      rw [hc, bulkCell, bulkBsm, cellArgs]
  refine (bind (bsm b) fun i => (bind (k := 9) natW fun j => raw9W ?_).mono
    (by exact Nat.le_of_eq (Nat.zero_add _).symm)).mono ?_
  · intro s
    split <;> nofun
  · have := display_len d.descriptor
    have := bulkType_pos d.descriptor
    simp only [bulkDynamic, bulkS]
    omega

theorem orDynamicW {α : Type} {f : α → Ins UInt16} {g : α → Nat} (hf : ∀ a, WeighsI (8192 * g a) (f a)) {x : OrDynamic α} :
    WeighsI (8192 * bulkOrDyn g x - 8192) (insertOrDynamicW f x) := by
  cases x with
  | dynamic d => exact dynamicW.mono (by rw [bulkOrDyn]; omega)
  | static a => exact (hf a).mono (by rw [bulkOrDyn]; omega)

theorem wutf8W {s : Bytes} : WeighsB (8192 * bulkS s) (wUtf8W s) := (idx utf8W).mono (by rw [bulkS]; omega)

theorem wstrW {tag : UInt8} {s : Bytes} : WeighsB (8192 * bulkS s) (wStrW tag s) := (idx indirectW).mono (by rw [bulkS]; omega)

theorem wclsW {s : Bytes} : WeighsB (8192 * bulkS s) (wIdx (insertClassW s)) := (idx clsW).mono (by rw [bulkS]; omega)

theorem wtypeW {t : JType} : WeighsB (8192 * bulkType t) (wTypeW t) := (idx utf8W).mono (by
  have := toWtf8_len t
  have := bulkType_pos t
  omega)

theorem wsigW {t : Str} {n : Nat} (h : t.length ≤ 256 * n) : WeighsB (6144 * n + 5) (wSigW t) := (idx utf8W).mono (by
  have := pushChars_len t []
  rw [List.length_nil] at this
  omega)

theorem clsSW {s : Bytes} : WeighsI (8192 * bulkS s) (insertClassW s) := clsW.mono (by rw [bulkS]; omega)

theorem utf8OptW {x : Option Bytes} : WeighsB (8192 * bulkO bulkS x + 2) (wUtf8OptW x) :=
  opt fun s => utf8W.mono (by rw [bulkS]; omega)

theorem clsOptW {x : Option Bytes} : WeighsB (8192 * bulkO bulkS x + 2) (wClsOptW x) :=
  opt fun s => indirectW.mono (by rw [bulkS]; omega)

theorem attrW {n : Bytes} (hn : n.length ≤ 100) {w : Ins Bytes} {k : Nat} (h : WeighsB k w) : WeighsB (k + 1000) (wAttrW n w) :=
  (bind (utf8W (s := n)) fun i => (bind (k := 6) h fun b => (pure _).mono (by
    have h1 := u16_len i
    have h2 : (u32.write (UInt32.ofNat b.length)).length = 4 := toBe_length 4 _
    simp only [List.length_append]
    omega)).mono (by exact Nat.le_of_eq (Nat.zero_add _).symm)).mono (by omega)

theorem rawAttrW {a : RawAttribute} : WeighsB (8192 * bulkRaw a) (wRawW a) :=
  (bind (k := 6 + a.inner.length) utf8W fun i => (pure _).mono (by
    have h1 := u16_len i
    have h2 : (u32.write (UInt32.ofNat a.inner.length)).length = 4 := toBe_length 4 _
    simp only [List.length_append]
    omega)).mono (by rw [bulkRaw, bulkS, bulkS]; omega)

end Weighs

section
open Weighs

/-- A tag and an entry. -/
theorem weighs_taggedW {t : UInt8} {e : Entry} (h : ∀ s, e ≠ .utf8 s) : WeighsB 8192 (wSeq [wNum u8 t, wIdx (insertEntryW e)]) :=
  (cons u8n (cons (idx (raw9W h)) nil)).mono (by decide)

mutual
theorem weighs_valueW : (v : AnnValue) → WeighsB (8192 * bulkValue v) v.writeW
  | .byte _ => by rw [AnnValue.writeW]; exact weighs_taggedW (by intro s h; cases h)
  | .char _ => by rw [AnnValue.writeW]; exact weighs_taggedW (by intro s h; cases h)
  | .double _ => by rw [AnnValue.writeW]; exact weighs_taggedW (by intro s h; cases h)
  | .float _ => by rw [AnnValue.writeW]; exact weighs_taggedW (by intro s h; cases h)
  | .int _ => by rw [AnnValue.writeW]; exact weighs_taggedW (by intro s h; cases h)
  | .long _ => by rw [AnnValue.writeW]; exact weighs_taggedW (by intro s h; cases h)
  | .short _ => by rw [AnnValue.writeW]; exact weighs_taggedW (by intro s h; cases h)
  | .boolean _ => by rw [AnnValue.writeW]; exact weighs_taggedW (by intro s h; cases h)
  | .string s => by rw [AnnValue.writeW]; exact (cons u8n (cons wutf8W nil)).mono (by rw [bulkValue]; omega)
  | .enum t n => by rw [AnnValue.writeW]; exact (cons u8n (cons wtypeW (cons wutf8W nil))).mono (by rw [bulkValue]; omega)
  | .cls none => by
    rw [AnnValue.writeW]
    exact (cons u8n (cons (idx utf8W) nil)).mono (by decide)
  | .cls (some t) => by
    rw [AnnValue.writeW]
    exact (cons u8n (cons (idx utf8W) nil)).mono (by
      have := display_len t
      rw [bulkValue, bulkO]
      omega)
  | .annotation t vs => by
    rw [AnnValue.writeW]
    exact (cons u8n (cons wtypeW (cons u16n (cons (weighs_elemsW vs) nil)))).mono (by rw [bulkValue]; omega)
  | .array vs => by
    rw [AnnValue.writeW]
    exact (cons u8n (cons u16n (cons (weighs_valuesW vs) nil))).mono (by rw [bulkValue]; omega)
theorem weighs_valuesW : (vs : List AnnValue) → WeighsB (8192 * bulkValues vs) (AnnValue.writeListW vs)
  | [] => by rw [AnnValue.writeListW]; exact (pure _).mono (Nat.zero_le _)
  | v :: vs => by
    rw [AnnValue.writeListW]
    exact (cons (weighs_valueW v) (cons (weighs_valuesW vs) nil)).mono (by rw [bulkValues]; omega)
theorem weighs_elemsW : (vs : List (Bytes × AnnValue)) → WeighsB (8192 * bulkElems vs) (AnnValue.writeElemsW vs)
  | [] => by rw [AnnValue.writeElemsW]; exact (pure _).mono (Nat.zero_le _)
  | (k, v) :: vs => by
    rw [AnnValue.writeElemsW]
    exact (cons wutf8W (cons (weighs_valueW v) (cons (weighs_elemsW vs) nil))).mono (by rw [bulkElems]; omega)
end

theorem weighs_annW {a : Annotation} : WeighsB (8192 * bulkAnn a) a.writeW :=
  (cons wtypeW (cons (cons u16n (cons (weighs_elemsW _) nil)) nil)).mono (by rw [bulkAnn]; omega)

theorem weighs_annsW {as : List Annotation} : WeighsB (8192 * bulkL bulkAnn as) (wVec u16 Annotation.writeW as) :=
  vec16 fun _ _ => weighs_annW

theorem weighs_tannsW {T : Type} {w : T → Ins Bytes} {f : T → Nat} (hw : ∀ t, WeighsB (8192 * f t) (w t))
    {as : List (TypeAnnotation T)} : WeighsB (8192 * bulkL (bulkTyAnn f) as) (wVec u16 (TypeAnnotation.writeW w) as) := by
  refine vec16 fun a _ => ?_
  have hp : WeighsB (8192 * bulkL (fun _ => 1) a.path) (wVec u8 PathStep.write a.path) := by
    refine vec (by decide) fun p _ => ?_
    cases p <;> exact (cons u8n (cons u8n nil)).mono (by decide)
  rw [bulkL_ones] at hp
  exact (cons (hw _) (cons hp (cons wtypeW (cons (cons u16n (cons (weighs_elemsW _) nil)) nil)))).mono (by
    rw [bulkTyAnn]
    omega)

theorem weighs_fieldAttrW {a : FieldAttr} : WeighsB (8192 * bulkFieldAttr a) a.writeW := by
  cases a with
  | visible as => exact (attrW (by decide) weighs_annsW).mono (by rw [bulkFieldAttr]; omega)
  | invisible as => exact (attrW (by decide) weighs_annsW).mono (by rw [bulkFieldAttr]; omega)
  | visibleType as => exact (attrW (by decide) (weighs_tannsW weighs_fieldTarget)).mono (by rw [bulkFieldAttr]; omega)
  | invisibleType as => exact (attrW (by decide) (weighs_tannsW weighs_fieldTarget)).mono (by rw [bulkFieldAttr]; omega)
  | constantValue k => exact (attrW (by decide) (idx constW)).mono (by rw [bulkFieldAttr]; omega)
  | signature s =>
    exact (attrW (by decide) (wsigW (Nat.le_of_succ_le (showR_len s)))).mono (by rw [bulkFieldAttr]; omega)
  | raw a => exact rawAttrW.mono (by rw [bulkFieldAttr]; omega)
  | _ => exact (attrW (by decide) nil).mono (by decide)

theorem weighs_fieldW {f : Field} : WeighsB (8192 * bulkField f) f.writeW :=
  (cons flags (cons wutf8W (cons wtypeW (cons (vec16 (f := bulkFieldAttr) fun _ _ => weighs_fieldAttrW) nil)))).mono (by rw [bulkField]; omega)

theorem weighs_strsW {t : UInt8} {ss : List Bytes} : WeighsB (8192 * bulkL bulkS ss) (wVec u16 (wStrW t) ss) :=
  vec16 fun _ _ => wstrW

theorem weighs_exportsW {es : List Export} : WeighsB (8192 * bulkL bulkExport es) (wVec u16 Export.writeW es) :=
  vec16 fun _ _ => (cons wstrW (cons flags (cons weighs_strsW nil))).mono (by rw [bulkExport]; omega)

theorem weighs_moduleW {m : Module} : WeighsB (8192 * bulkModule m) m.writeW :=
  (cons wstrW (cons flags (cons utf8OptW (cons (vec16 (f := bulkRequire) fun _ _ =>
    (cons wstrW (cons flags (cons utf8OptW nil))).mono (by rw [bulkRequire]; omega))
    (cons weighs_exportsW (cons weighs_exportsW (cons weighs_strsW (cons (vec16 (f := bulkProvide) fun _ _ =>
      (cons wstrW (cons weighs_strsW nil)).mono (by rw [bulkProvide]; omega)) nil)))))))).mono (by rw [bulkModule]; omega)

theorem weighs_classAttrW {a : ClassAttr} : WeighsB (8192 * bulkOther a) a.writeOtherW := by
  cases a with
  | signature s => exact (attrW (by decide) (wsigW (showClass_len s))).mono (by rw [bulkOther, bulkClassAttr] <;> first | omega | nofun)
  | deprecated => exact (attrW (by decide) nil).mono (by decide)
  | synthetic => exact (attrW (by decide) nil).mono (by decide)
  | sourceFile s => exact (attrW (by decide) wutf8W).mono (by rw [bulkOther, bulkClassAttr] <;> first | omega | nofun)
  | innerClasses xs =>
    exact (attrW (by decide) (vec16 (f := bulkInner) fun _ _ =>
      (cons wstrW (cons clsOptW (cons utf8OptW (cons flags nil)))).mono (by rw [bulkInner]; omega))).mono
        (by rw [bulkOther, bulkClassAttr] <;> first | omega | nofun)
  | enclosingMethod o m =>
    refine (attrW (by decide) (cons wstrW (cons (opt (g := fun p => bulkS p.1 + bulkType p.2) fun p => ?_) nil))).mono
      (by rw [bulkOther, bulkClassAttr] <;> first | omega | nofun)
    refine natW.mono ?_
    have := display_len p.2
    simp only [bulkS]
    omega
  | debugExtension s =>
    have h : WeighsB (6 * s.length) (Ins.lift (Mutf8.encode s)) := by
      intro cp a cp' e
      rcases he : Mutf8.encode s with e' | b
      · rw [he] at e
        cases e
      · rw [he] at e
        cases e
        have := encode_len he
        omega
    exact (attrW (by decide) h).mono (by rw [bulkOther, bulkClassAttr, bulkS] <;> first | omega | nofun)
  | bootstrapMethods ms => exact nil.mono (Nat.zero_le _)
  | module_ m => exact (attrW (by decide) weighs_moduleW).mono (by rw [bulkOther, bulkClassAttr] <;> first | omega | nofun)
  | modulePackages ps => exact (attrW (by decide) weighs_strsW).mono (by rw [bulkOther, bulkClassAttr] <;> first | omega | nofun)
  | mainClass o => exact (attrW (by decide) wstrW).mono (by rw [bulkOther, bulkClassAttr] <;> first | omega | nofun)
  | nestHost o => exact (attrW (by decide) wstrW).mono (by rw [bulkOther, bulkClassAttr] <;> first | omega | nofun)
  | nestMembers ps => exact (attrW (by decide) weighs_strsW).mono (by rw [bulkOther, bulkClassAttr] <;> first | omega | nofun)
  | visible as => exact (attrW (by decide) weighs_annsW).mono (by rw [bulkOther, bulkClassAttr] <;> first | omega | nofun)
  | invisible as => exact (attrW (by decide) weighs_annsW).mono (by rw [bulkOther, bulkClassAttr] <;> first | omega | nofun)
  | visibleType as =>
    exact (attrW (by decide) (weighs_tannsW weighs_classTarget)).mono (by rw [bulkOther, bulkClassAttr] <;> first | omega | nofun)
  | invisibleType as =>
    exact (attrW (by decide) (weighs_tannsW weighs_classTarget)).mono (by rw [bulkOther, bulkClassAttr] <;> first | omega | nofun)
  | raw a => exact rawAttrW.mono (by rw [bulkOther, bulkClassAttr] <;> first | omega | nofun)

/-! ## Code -/

theorem weighs_ldcW {c : OrDynamic Constant} : WeighsB (8192 * bulkOrDyn bulkConst c) (writeLdcW c) := by
  have hb : 1 ≤ bulkOrDyn bulkConst c := by cases c <;> rw [bulkOrDyn] <;> omega
  refine (bind (k := 3) (orDynamicW (g := bulkConst) fun _ => constW) fun i => ?_).mono (by omega)
  split
  all_goals
    simp only
    split
    · exact (cons num (cons num nil)).mono (by decide)
    · split
      · exact (cons num (cons num nil)).mono (by decide)
      · exact (cons num (cons num nil)).mono (by decide)

theorem weighs_pushW {c : OrDynamic Constant} : WeighsB (8192 * (1 + bulkOrDyn bulkConst c)) (writePushW c) := by
  unfold writePushW
  repeat' split
  all_goals first
    | exact (num (c := u8)).mono (by show 1 ≤ _; omega)
    | exact (cons num (cons num nil)).mono (by show 1 + (1 + 0) ≤ _; omega)
    | exact (cons num (cons num nil)).mono (by show 1 + (2 + 0) ≤ _; omega)
    | exact weighs_ldcW.mono (by omega)

theorem weighs_orDynW {α : Type} {f : α → Ins UInt16} {g : α → Nat} (hf : ∀ a, WeighsI (8192 * g a) (f a)) {x : OrDynamic α}
    {o : UInt8} {l : List (Ins Bytes)} {n : Nat} (hl : WeighsB n (wSeq l)) (hn : n ≤ 100) :
    WeighsB (8192 * (1 + bulkOrDyn g x)) (wSeq (op o :: wOrDynW f x :: l)) :=
  (cons u8n (cons (idx (orDynamicW hf)) hl)).mono (by omega)

theorem weighs_toStrW (t : ClassType) : WeighsI (8192 * bulkClassType t) (insertClassW t.toStr) := by
  refine clsW.mono ?_
  cases t with
  | object s => rw [ClassType.toStr, bulkClassType, bulkS]; omega
  | array d t =>
    have := display_len t
    have := d.toNat_lt
    rw [ClassType.toStr, bulkClassType, List.length_append, List.length_replicate]
    omega

theorem weighs_insnW {i : Insn} : WeighsB (8192 * bulkInsn i) i.encodeW := by
  cases i with
  | push c => exact weighs_pushW
  | checkCast t => exact weighs_orDynW weighs_toStrW nil (by decide)
  | instanceOf t => exact weighs_orDynW weighs_toStrW nil (by decide)
  | new t => exact weighs_orDynW (fun _ => clsSW) nil (by decide)
  | field a b m => exact weighs_orDynW (fun _ => memberW) nil (by decide)
  | invokeExact a m => cases a <;> exact weighs_orDynW (fun _ => memberW) nil (by decide)
  | invokeSpecial m => exact weighs_orDynW (fun _ => memberW) nil (by decide)
  | invokeInterface m n => exact weighs_orDynW (fun _ => memberW) (cons u8n (cons (pure _) nil)) (by decide)
  | invokeDynamic d =>
    refine (cons u8n (cons (idx dynamicW) (cons (pure [0, 0]) nil))).mono ?_
    rw [bulkInsn]
    simp only [List.length_cons, List.length_nil]
    omega
  | localVariable m t l => exact weighs_wide
  | ret l => exact weighs_wide
  | intIncrement l n =>
    show WeighsB (8192 * 1) (if _ then _ else _)
    split
    · exact (cons num (cons num (cons num nil))).mono (by decide)
    · exact (cons num (cons num (cons num (cons num nil)))).mono (by decide)
  | monitor m => cases m <;> exact u8n.mono (by decide)
  | conversion a b =>
    show WeighsB (8192 * 1) (match conversionOp a b with | some o => op o | none => Pure.pure [])
    split
    · exact u8n.mono (by decide)
    · exact (pure _).mono (by decide)
  | convertInt a =>
    show WeighsB (8192 * 1) (match convertIntOp a with | some o => op o | none => Pure.pure [])
    split
    · exact u8n.mono (by decide)
    · exact (pure _).mono (by decide)
  | _ => first
    | exact (pure ([] : Bytes)).mono (Nat.zero_le _)
    | exact u8n.mono (by show 1 ≤ 8192 * 1; decide)

theorem weighs_appendW {i : Insn} (b : CodeBuf) : Weighs mass (mass b + 8192 * bulkInsn i) (do
    let bs ← i.encodeW
    Pure.pure { b with cur := b.cur ++ bs }) := by
  refine Weighs.mono (Weighs.bind (k := mass b) weighs_insnW fun bs => Weighs.mono (Weighs.pure _) ?_)
    (Nat.le_of_eq (Nat.add_comm _ _))
  unfold mass
  simp only [List.length_append]
  omega

theorem weighs_writeInsnW {i : Insn} (b : CodeBuf) : Weighs mass (mass b + 8192 * bulkInsn i) (writeInsnW b i) := by
  cases i with
  | lookupSwitch d t =>
    exact (pure _).mono (by rw [mass_branch, bulkInsn, Branch.insn, room]; omega)
  | tableSwitch d l t => exact (pure _).mono (by rw [mass_branch, bulkInsn, Branch.insn, room]; omega)
  | jump c l => exact (pure _).mono (by rw [mass_branch, Branch.insn, room]; show _ ≤ _ + 8192 * 1; omega)
  | jsr l => exact (pure _).mono (by rw [mass_branch, Branch.insn, room]; show _ ≤ _ + 8192 * 1; omega)
  | label l => exact (pure _).mono (Nat.le_add_right (mass b) _)
  | lineNumber n => exact (pure _).mono (Nat.le_add_right (mass b) _)
  | _ => exact weighs_appendW b

theorem weighs_writeInsnsW {is : List Insn} (b : CodeBuf) :
    Weighs mass (mass b + 8192 * bulkL bulkInsn is) (writeInsnsW b is) := by
  induction is generalizing b with
  | nil => exact (pure _).mono (Nat.le_add_right _ _)
  | cons i is ih =>
    exact (bind (k := 8192 * bulkL bulkInsn is) (weighs_writeInsnW b) fun b' => ih b').mono (by rw [bulkL]; omega)

theorem assemble_massW {b : CodeBuf} {a : Assembled} (h : assembleW b = .ok a) : a.code.length ≤ mass b := by
  unfold assembleW at h
  simp only at h
  split at h
  · cases h
  · split at h
    · cases h
    · split at h
      · cases h
      · split at h
        · cases h
        · rename_i first rest hb
          split at h
          · cases h
          · rename_i code he
            cases h
            have h1 := emit_roomW he
            have h2 : ∀ (js : List Branch) (bs : List Bytes), ((js.zip bs).map fun e => room e.1.insn + e.2.length).sum ≤
                (js.map fun j => room j.insn).sum + (bs.map List.length).sum := by
              intro js
              induction js with
              | nil => intro bs; exact Nat.zero_le _
              | cons j js ih =>
                intro bs
                cases bs with
                | nil => exact Nat.zero_le _
                | cons x bs =>
                  have := ih bs
                  simp only [List.zip_cons_cons, List.map_cons, List.sum_cons]
                  omega
            have h3 := h2 b.jumps rest
            have h4 : ((b.buf ++ [b.cur]).map List.length).sum = first.length + (rest.map List.length).sum := by
              rw [hb, List.map_cons, List.sum_cons]
            simp only [List.map_append, List.sum_append, List.map_cons, List.map_nil, List.sum_cons, List.sum_nil] at h4
            unfold mass
            rw [List.length_append]
            omega

theorem weighs_codeTargetW {env : WEnv} (t : CodeTarget) : WeighsB (8192 * bulkTarget t) (t.writeW env) := by
  have hl : ∀ ts : List LocalVarTarget, WeighsB (8192 * (ts.length + 1)) (wVec u16 (LocalVarTarget.writeW env) ts) := by
    intro ts
    rw [← bulkL_ones]
    refine vec16 fun t _ => lift_bind fun s _ => lift_bind fun e _ => ?_
    refine Weighs.mono (Weighs.pure _) ?_
    simp only [List.length_append, u16_len]
    omega
  cases t with
  | localVar ts => exact (cons u8n (cons (hl _) nil)).mono (by rw [bulkTarget]; omega)
  | resourceVar ts => exact (cons u8n (cons (hl _) nil)).mono (by rw [bulkTarget]; omega)
  | catchParam k =>
    refine (cons (k := 2) u8n (cons (n := 2) (k := 0) (lift_bind fun o _ => ?_) nil)).mono (by rw [bulkTarget]; omega)
    split
    · exact (pure _).mono (by rw [u16_len]; omega)
    · exact (pure _).mono (by decide)
  | instanceOf l => exact (cons u8n (cons weighs_label nil)).mono (by show 1 + (2 + 0) ≤ 8192 * 1; decide)
  | new l => exact (cons u8n (cons weighs_label nil)).mono (by show 1 + (2 + 0) ≤ 8192 * 1; decide)
  | newRef l => exact (cons u8n (cons weighs_label nil)).mono (by show 1 + (2 + 0) ≤ 8192 * 1; decide)
  | methodRef l => exact (cons u8n (cons weighs_label nil)).mono (by show 1 + (2 + 0) ≤ 8192 * 1; decide)
  | _ => exact (cons u8n (cons weighs_label (cons u8n nil))).mono (by show 1 + (2 + (1 + 0)) ≤ 8192 * 1; decide)

theorem split_heftW {env : WEnv} : ∀ {vs : List LocalVariable} {r : List VarTypeEntry × List VarEntry},
    splitVarsW env vs = .ok r → (r.1.map varTypeHeft).sum + (r.2.map varHeft).sum ≤ 8192 * bulkL bulkVar vs
  | [], r, h => by
    cases h
    exact Nat.zero_le _
  | v :: vs, r, h => by
    obtain ⟨var, h1, h⟩ := Res.bind_ok h
    obtain ⟨ty, h2, h⟩ := Res.bind_ok h
    obtain ⟨r', h3, h⟩ := Res.bind_ok h
    cases h
    have ih := split_heftW h3
    have e1 : (var.map varHeft).sum ≤ 20 + 6 * v.name.length + 6144 * bulkO bulkType v.descriptor := by
      unfold LocalVariable.varEntriesW at h1
      split at h1
      · cases h1
        exact Nat.zero_le _
      · rename_i d hd
        split at h1
        · cases h1
        · cases h1
          rw [hd, bulkO]
          simp [varHeft]
    have e2 : (ty.map varTypeHeft).sum ≤ 20 + 6 * v.name.length + 6144 * bulkO bulkRef v.signature := by
      unfold LocalVariable.varTypeEntriesW at h2
      split at h2
      · cases h2
        exact Nat.zero_le _
      · rename_i d hd
        split at h2
        · cases h2
        · cases h2
          rw [hd, bulkO]
          simp [varTypeHeft]
    simp only [List.map_append, List.sum_append, bulkL, bulkVar, bulkS]
    omega

theorem weighs_varsW {env : WEnv} {es : List VarEntry} :
    WeighsB ((es.map varHeft).sum + 1002) (CodeAttr.writeW env (.vars es)) :=
  (attrW (by decide) (weighs_table (g := varHeft) fun e _ => (cons u16n (cons u16n (cons (idx utf8W) (cons (idx utf8W)
    (cons u16n nil))))).mono (by
      have := toWtf8_len e.descriptor
      unfold varHeft
      omega))).mono (by omega)

theorem weighs_varTypesW {env : WEnv} {es : List VarTypeEntry} :
    WeighsB ((es.map varTypeHeft).sum + 1002) (CodeAttr.writeW env (.varTypes es)) :=
  (attrW (by decide) (weighs_table (g := varTypeHeft) fun e _ => (cons u16n (cons u16n (cons (idx utf8W)
    (cons (wsigW (Nat.le_of_succ_le (showR_len e.signature))) (cons u16n nil))))).mono (by
      unfold varTypeHeft
      omega))).mono (by omega)

theorem weighs_loweredW {env : WEnv} {a : CodeAttribute} {ls : List CodeAttr} (e : a.lowerW env = .ok ls) :
    WeighsB (8192 * bulkCodeAttr a) (wAll (CodeAttr.writeW env) ls) := by
  cases a with
  | visibleType as =>
    cases e
    exact weighs_single ((attrW (by decide) (weighs_tannsW weighs_codeTargetW)).mono (by rw [bulkCodeAttr]; omega))
  | invisibleType as =>
    cases e
    exact weighs_single ((attrW (by decide) (weighs_tannsW weighs_codeTargetW)).mono (by rw [bulkCodeAttr]; omega))
  | raw a =>
    cases e
    exact weighs_single (rawAttrW.mono (by rw [bulkCodeAttr]; omega))
  | locals vs =>
    obtain ⟨⟨ts, es⟩, e1, e⟩ := Res.bind_ok e
    have hs := split_heftW e1
    simp only at e hs
    rw [bulkCodeAttr]
    split at e
    · cases e
    · cases e
      exact weighs_single (weighs_varTypesW.mono (by omega))
    · cases e
      exact weighs_single (weighs_varsW.mono (by omega))
    · cases e
      exact (cons weighs_varsW (cons weighs_varTypesW nil)).mono (by omega)

theorem weighs_codeAttrsW {env : WEnv} (n : UInt16) (as : List CodeAttribute) :
    Weighs (fun r => r.2.length) (8192 * bulkL bulkCodeAttr as) (writeCodeAttrsW env n as) := by
  induction as generalizing n with
  | nil => exact Weighs.mono (Weighs.pure _) (Nat.zero_le _)
  | cons a as ih =>
    refine lift_bind fun ls e => ?_
    refine Weighs.mono (Weighs.bind (k := 8192 * bulkL bulkCodeAttr as) (weighs_loweredW e) fun b => Weighs.mono
      (Weighs.bind (k := b.length) (ih _) fun r => Weighs.mono (Weighs.pure _) ?_) ?_) ?_
    · simp only [List.length_append]
      omega
    · omega
    · rw [bulkL]
      omega

theorem weighs_catchW {env : WEnv} {c : Catch} : WeighsB (8192 * bulkCatch c) (c.writeW env) :=
  (cons weighs_label (cons weighs_label (cons weighs_label (cons (opt (g := bulkS) fun _ => clsSW) nil)))).mono (by
    rw [bulkCatch]
    omega)

theorem weighs_codeW {x : Code} : WeighsB (8192 * bulkCode x) x.writeW := by
  intro cp out cp' h
  obtain ⟨a, cp1, h1, h⟩ := Ins.bind_ok h
  obtain ⟨b, cp0, h0, h1⟩ := Ins.bind_ok h1
  have w0 := weighs_writeInsnsW _ _ _ _ h0
  have hm : mass CodeBuf.empty = 0 := rfl
  rcases ha : assembleW b with e | a'
  · rw [ha] at h1
    cases h1
  · rw [ha] at h1
    cases h1
    have w1 := assemble_massW ha
    obtain ⟨hs, cp2, h2, h⟩ := Ins.bind_ok h
    have hb := bulkL_least bulkCatch x.catches
    have w2 := Weighs.all (n := 8192 * bulkL bulkCatch x.catches) (f := bulkCatch) (fun c _ => weighs_catchW) (by omega) _ _ _ h2
    obtain ⟨⟨extra, as⟩, cp3, h3, h⟩ := Ins.bind_ok h
    have w3 := weighs_codeAttrsW _ _ _ _ _ h3
    simp only at h w3
    cases h
    have u4 : (u32.write a.len).length = 4 := toBe_length 4 _
    rw [bulkCode]
    simp only [List.length_append, u16_len, u4]
    omega

theorem weighs_methodAttrW {a : MethodAttr} : WeighsB (8192 * bulkMethodAttr a) a.writeW := by
  cases a with
  | code x => exact (attrW (by decide) weighs_codeW).mono (by rw [bulkMethodAttr]; omega)
  | deprecated => exact (attrW (by decide) nil).mono (by decide)
  | synthetic => exact (attrW (by decide) nil).mono (by decide)
  | signature s => exact (attrW (by decide) (wsigW (showMethod_len s))).mono (by rw [bulkMethodAttr]; omega)
  | visible as => exact (attrW (by decide) weighs_annsW).mono (by rw [bulkMethodAttr]; omega)
  | invisible as => exact (attrW (by decide) weighs_annsW).mono (by rw [bulkMethodAttr]; omega)
  | visibleType as => exact (attrW (by decide) (weighs_tannsW weighs_methodTarget)).mono (by rw [bulkMethodAttr]; omega)
  | invisibleType as => exact (attrW (by decide) (weighs_tannsW weighs_methodTarget)).mono (by rw [bulkMethodAttr]; omega)
  | visibleParams ps =>
    exact (attrW (by decide) (vec (f := bulkL bulkAnn) (by decide) fun _ _ => weighs_annsW)).mono (by rw [bulkMethodAttr]; omega)
  | invisibleParams ps =>
    exact (attrW (by decide) (vec (f := bulkL bulkAnn) (by decide) fun _ _ => weighs_annsW)).mono (by rw [bulkMethodAttr]; omega)
  | exceptions ss => exact (attrW (by decide) weighs_strsW).mono (by rw [bulkMethodAttr]; omega)
  | annotationDefault v => exact (attrW (by decide) (weighs_valueW v)).mono (by rw [bulkMethodAttr]; omega)
  | methodParameters ps =>
    exact (attrW (by decide) (vec (f := bulkMethodParam) (by decide) fun _ _ => (cons utf8OptW (cons flags nil)).mono (by
      rw [bulkMethodParam]; omega))).mono (by rw [bulkMethodAttr]; omega)
  | raw a => exact rawAttrW.mono (by rw [bulkMethodAttr]; omega)

theorem weighs_methodW {m : Method} : WeighsB (8192 * bulkMethod m) m.writeW :=
  (cons flags (cons wutf8W (cons wtypeW (cons (vec16 (f := bulkMethodAttr) fun _ _ => weighs_methodAttrW) nil)))).mono (by
    rw [bulkMethod]; omega)

/-! ## Bootstrap methods -/

theorem weighs_bsmW {b : Bsm} : WeighsB (8192 * bulkBsm b) b.writeW := by
  have hb := bulkL_least bulkArg b.arguments
  refine (cons (idx handleW) (cons u16n (cons (all (f := bulkArg) (n := 8192 * bulkL bulkArg b.arguments)
    (fun a _ => ?_) (by omega)) nil))).mono (by rw [bulkBsm]; omega)
  cases a with
  | dynamic c n t => exact (idx dynamicW).mono (by rw [bulkArg]; simp only [bulkDynamic, bulkS]; omega)
  | static c => exact (idx constW).mono (by rw [bulkArg]; omega)

theorem batches_heftW {i n : UInt16} {cp cp' : VecCp} {bs : Bytes} (h : writeBatchesW i cp = .ok (n, bs, cp')) :
    bs.length + heft cp' ≤ heft cp := by
  fun_induction writeBatchesW i cp generalizing n bs cp' with
  | case1 i cp h0 =>
    cases h
    exact Nat.le_of_eq (Nat.zero_add _)
  | case2 => cases h
  | case3 => cases h
  | case4 i cp h0 b cp1 e1 hn n' b' cp2 e2 ih =>
    cases h
    have h2 := ih e2
    have h3 := weighs_sum (g := fun b => 8192 * bulkBsm b) (fun b _ => weighs_bsmW) _ _ _ e1
    have h4 : (cp.bsm.map fun b => 8192 * bulkBsm b).sum = 8192 * (cp.bsm.map bulkBsm).sum := by
      generalize cp.bsm = l
      induction l with
      | nil => rfl
      | cons b l ih => simp only [List.map_cons, List.sum_cons, ih]; omega
    have h5 : heft { cp with bsm := [] } + 8192 * (cp.bsm.map bulkBsm).sum = heft cp := by
      simp [heft]
    rw [List.length_append]
    omega
  | case5 => cases h

theorem weighs_bootstrapW : WeighsB 200 wBootstrapW := by
  intro cp out cp' h
  unfold wBootstrapW at h
  split at h
  · cases h
    show 0 + _ ≤ _
    omega
  · rcases h1 : writeBatchesW 0 cp with e | ⟨n, bs, cp1⟩
    · rw [h1] at h
      cases h
    · rw [h1] at h
      simp only at h
      have w1 := batches_heftW h1
      rcases h2 : wUtf8W N.bootstrapMethods cp1 with e | ⟨name, cp2⟩
      · rw [h2] at h
        cases h
      · rw [h2] at h
        simp only at h
        have w2 := idx (utf8W (s := N.bootstrapMethods)) _ _ _ h2
        have hn : N.bootstrapMethods.length = 16 := by decide
        cases h
        have u4 : (u32.write (UInt32.ofNat bs.length + 2)).length = 4 := toBe_length 4 _
        simp only [List.length_append, u16_len, u4]
        omega

theorem weighs_bodyW {x : Class} : WeighsB (8192 * (bulkS x.name + bulkO bulkS x.superName + bulkL bulkS x.interfaces +
    bulkL bulkField x.fields + bulkL bulkMethod x.methods + bulkL bulkOther x.attrs) + 4) (Class.writeBodyW x) :=
  (cons flags (cons wclsW (cons (opt (g := bulkS) fun _ => clsSW) (cons (cut (f := bulkS) fun _ _ => wclsW)
    (cons (cut (f := bulkField) fun _ _ => weighs_fieldW) (cons (cut (f := bulkMethod) fun _ _ => weighs_methodW)
      (cons (cut (f := bulkOther) fun _ _ => weighs_classAttrW) nil))))))).mono (by omega)

theorem class_heftW {x : Class} {out : Bytes} (h : x.writeW = .ok out) : out.length ≤ 8192 * bulkClass x := by
  unfold Class.writeW at h
  rcases h1 : wSeq [Class.writeBodyW x, wBootstrapW] { VecCp.new with bsm := ownBsms x.attrs } with e | ⟨buf, cp⟩
  · rw [h1] at h
    cases h
  · rw [h1] at h
    simp only at h
    have w1 := cons weighs_bodyW (cons weighs_bootstrapW nil) _ _ _ h1
    have w2 := bulk_other x.attrs
    have w3 : heft { VecCp.new with bsm := ownBsms x.attrs } = 8192 * ((ownBsms x.attrs).map bulkBsm).sum := by
      simp [heft, VecCp.new]
    rcases h2 : cp.write with e | pool
    · rw [h2] at h
      cases h
    · rw [h2] at h
      cases h
      unfold VecCp.write at h2
      rcases h3 : writeAll Entry.write cp.entries with e | bs
      · rw [h3] at h2
        cases h2
      · rw [h3] at h2
        cases h2
        have w4 := pool_heft h3
        have w5 : (cp.entries.map heftEntry).sum ≤ heft cp := Nat.le_add_right _ _
        have u4 : (u32.write jvmMagic).length = 4 := toBe_length 4 _
        rw [bulkClass, Version.write]
        simp only [List.length_append, u16_len, u4]
        omega

end
end Verif
