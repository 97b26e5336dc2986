import Verif.Lemmas.Heft

/-! # The size of a class that is written -/

namespace Verif
open Spec Sig

section
open Weighs

theorem bulkL_ones {α : Type} (xs : List α) : bulkL (fun _ => 1) xs = xs.length + 1 := by
  induction xs with
  | nil => rfl
  | cons x xs ih => rw [bulkL, ih, List.length_cons]; omega

theorem bulkL_least {α : Type} (f : α → Nat) (xs : List α) : 1 ≤ bulkL f xs := by
  induction xs with
  | nil => exact Nat.le_refl _
  | cons y ys ih => rw [bulkL]; omega

/-- A tag and an entry. -/
theorem weighs_tagged {t : UInt8} {e : Entry} (h : ∀ s, e ≠ .utf8 s) : WeighsB 8192 (wSeq [wNum u8 t, wIdx (insertRaw e)]) :=
  (cons u8n (cons (idx (raw9 h)) nil)).mono (by decide)

mutual
theorem weighs_value : (v : AnnValue) → WeighsB (8192 * bulkValue v) v.write
  | .byte _ => by rw [AnnValue.write]; exact weighs_tagged (by intro s h; cases h)
  | .char _ => by rw [AnnValue.write]; exact weighs_tagged (by intro s h; cases h)
  | .double _ => by rw [AnnValue.write]; exact weighs_tagged (by intro s h; cases h)
  | .float _ => by rw [AnnValue.write]; exact weighs_tagged (by intro s h; cases h)
  | .int _ => by rw [AnnValue.write]; exact weighs_tagged (by intro s h; cases h)
  | .long _ => by rw [AnnValue.write]; exact weighs_tagged (by intro s h; cases h)
  | .short _ => by rw [AnnValue.write]; exact weighs_tagged (by intro s h; cases h)
  | .boolean _ => by rw [AnnValue.write]; exact weighs_tagged (by intro s h; cases h)
  | .string s => by rw [AnnValue.write]; exact (cons u8n (cons wutf8 nil)).mono (by rw [bulkValue]; omega)
  | .enum t n => by rw [AnnValue.write]; exact (cons u8n (cons wtype (cons wutf8 nil))).mono (by rw [bulkValue]; omega)
  | .cls none => by
    rw [AnnValue.write]
    exact (cons u8n (cons (idx utf8) nil)).mono (by decide)
  | .cls (some t) => by
    rw [AnnValue.write]
    exact (cons u8n (cons (idx utf8) nil)).mono (by
      have := display_len t
      rw [bulkValue, bulkO]
      omega)
  | .annotation t vs => by
    rw [AnnValue.write]
    exact (cons u8n (cons wtype (cons u16n (cons (weighs_elems vs) nil)))).mono (by rw [bulkValue]; omega)
  | .array vs => by
    rw [AnnValue.write]
    exact (cons u8n (cons u16n (cons (weighs_values vs) nil))).mono (by rw [bulkValue]; omega)
theorem weighs_values : (vs : List AnnValue) → WeighsB (8192 * bulkValues vs) (AnnValue.writeList vs)
  | [] => by rw [AnnValue.writeList]; exact (pure _).mono (Nat.zero_le _)
  | v :: vs => by
    rw [AnnValue.writeList]
    exact (cons (weighs_value v) (cons (weighs_values vs) nil)).mono (by rw [bulkValues]; omega)
theorem weighs_elems : (vs : List (Bytes × AnnValue)) → WeighsB (8192 * bulkElems vs) (AnnValue.writeElems vs)
  | [] => by rw [AnnValue.writeElems]; exact (pure _).mono (Nat.zero_le _)
  | (k, v) :: vs => by
    rw [AnnValue.writeElems]
    exact (cons wutf8 (cons (weighs_value v) (cons (weighs_elems vs) nil))).mono (by rw [bulkElems]; omega)
end

theorem weighs_ann {a : Annotation} : WeighsB (8192 * bulkAnn a) a.write :=
  (cons wtype (cons (cons u16n (cons (weighs_elems _) nil)) nil)).mono (by rw [bulkAnn]; omega)

theorem weighs_anns {as : List Annotation} : WeighsB (8192 * bulkL bulkAnn as) (wVec u16 Annotation.write as) :=
  vec16 fun _ _ => weighs_ann

theorem weighs_tanns {T : Type} {w : T → Ins Bytes} {f : T → Nat} (hw : ∀ t, WeighsB (8192 * f t) (w t))
    {as : List (TypeAnnotation T)} : WeighsB (8192 * bulkL (bulkTyAnn f) as) (wVec u16 (TypeAnnotation.write w) as) := by
  refine vec16 fun a _ => ?_
  have hp : WeighsB (8192 * bulkL (fun _ => 1) a.path) (wVec u8 PathStep.write a.path) := by
    refine vec (by decide) fun p _ => ?_
    cases p <;> exact (cons u8n (cons u8n nil)).mono (by decide)
  rw [bulkL_ones] at hp
  exact (cons (hw _) (cons hp (cons wtype (cons (cons u16n (cons (weighs_elems _) nil)) nil)))).mono (by
    rw [bulkTyAnn]
    omega)

theorem weighs_classTarget (t : ClassTarget) : WeighsB (8192 * 1) t.write := by
  cases t
  · exact (cons num (cons num nil)).mono (by decide)
  · exact (cons num (cons num nil)).mono (by decide)
  · exact (cons num (cons num (cons num nil))).mono (by decide)

theorem weighs_methodTarget (t : MethodTarget) : WeighsB (8192 * 1) t.write := by
  cases t
  · exact (cons num (cons num nil)).mono (by decide)
  · exact (cons num (cons num (cons num nil))).mono (by decide)
  · exact (cons num nil).mono (by decide)
  · exact (cons num nil).mono (by decide)
  · exact (cons num (cons num nil)).mono (by decide)
  · exact (cons num (cons num nil)).mono (by decide)

theorem weighs_fieldTarget (t : FieldTarget) : WeighsB (8192 * 1) t.write := by
  cases t
  exact (cons num nil).mono (by decide)

theorem weighs_fieldAttr {a : FieldAttr} : WeighsB (8192 * bulkFieldAttr a) a.write := by
  cases a with
  | visible as => exact (attr (by decide) weighs_anns).mono (by rw [bulkFieldAttr]; omega)
  | invisible as => exact (attr (by decide) weighs_anns).mono (by rw [bulkFieldAttr]; omega)
  | visibleType as => exact (attr (by decide) (weighs_tanns weighs_fieldTarget)).mono (by rw [bulkFieldAttr]; omega)
  | invisibleType as => exact (attr (by decide) (weighs_tanns weighs_fieldTarget)).mono (by rw [bulkFieldAttr]; omega)
  | constantValue k => exact (attr (by decide) (idx const)).mono (by rw [bulkFieldAttr]; omega)
  | signature s =>
    exact (attr (by decide) (wsig (Nat.le_of_succ_le (showR_len s)))).mono (by rw [bulkFieldAttr]; omega)
  | raw a => exact rawAttr.mono (by rw [bulkFieldAttr]; omega)
  | _ => exact (attr (by decide) nil).mono (by decide)

theorem weighs_field {f : Field} : WeighsB (8192 * bulkField f) f.write :=
  (cons flags (cons wutf8 (cons wtype (cons (vec16 (f := bulkFieldAttr) fun _ _ => weighs_fieldAttr) nil)))).mono (by rw [bulkField]; omega)

theorem weighs_strs {t : UInt8} {ss : List Bytes} : WeighsB (8192 * bulkL bulkS ss) (wVec u16 (wStr t) ss) :=
  vec16 fun _ _ => wstr

theorem weighs_exports {es : List Export} : WeighsB (8192 * bulkL bulkExport es) (wVec u16 Export.write es) :=
  vec16 fun _ _ => (cons wstr (cons flags (cons weighs_strs nil))).mono (by rw [bulkExport]; omega)

theorem weighs_module {m : Module} : WeighsB (8192 * bulkModule m) m.write :=
  (cons wstr (cons flags (cons utf8Opt (cons (vec16 (f := bulkRequire) fun _ _ =>
    (cons wstr (cons flags (cons utf8Opt nil))).mono (by rw [bulkRequire]; omega))
    (cons weighs_exports (cons weighs_exports (cons weighs_strs (cons (vec16 (f := bulkProvide) fun _ _ =>
      (cons wstr (cons weighs_strs nil)).mono (by rw [bulkProvide]; omega)) nil)))))))).mono (by rw [bulkModule]; omega)

/-- What a class attribute counts, without the bootstrap methods. -/
def bulkOther : ClassAttr → Nat
  | .bootstrapMethods _ => 1
  | a => bulkClassAttr a

theorem weighs_classAttr {a : ClassAttr} : WeighsB (8192 * bulkOther a) a.writeOther := by
  cases a with
  | signature s => exact (attr (by decide) (wsig (showClass_len s))).mono (by rw [bulkOther, bulkClassAttr] <;> first | omega | nofun)
  | deprecated => exact (attr (by decide) nil).mono (by decide)
  | synthetic => exact (attr (by decide) nil).mono (by decide)
  | sourceFile s => exact (attr (by decide) wutf8).mono (by rw [bulkOther, bulkClassAttr] <;> first | omega | nofun)
  | innerClasses xs =>
    exact (attr (by decide) (vec16 (f := bulkInner) fun _ _ =>
      (cons wstr (cons clsOpt (cons utf8Opt (cons flags nil)))).mono (by rw [bulkInner]; omega))).mono
        (by rw [bulkOther, bulkClassAttr] <;> first | omega | nofun)
  | enclosingMethod o m =>
    refine (attr (by decide) (cons wstr (cons (opt (g := fun p => bulkS p.1 + bulkType p.2) fun p => ?_) nil))).mono
      (by rw [bulkOther, bulkClassAttr] <;> first | omega | nofun)
    refine nat.mono ?_
    have := display_len p.2
    simp only [bulkS]
    omega
  | debugExtension s =>
    have h : WeighsB (6 * s.length) (Ins.lift (Mutf8.encode s)) := by
      intro cp a cp' e
      rcases he : Mutf8.encode s with e' | b
      · rw [he] at e
        cases e
      · rw [he] at e
        cases e
        have := encode_len he
        omega
    exact (attr (by decide) h).mono (by rw [bulkOther, bulkClassAttr, bulkS] <;> first | omega | nofun)
  | bootstrapMethods ms => exact nil.mono (Nat.zero_le _)
  | module_ m => exact (attr (by decide) weighs_module).mono (by rw [bulkOther, bulkClassAttr] <;> first | omega | nofun)
  | modulePackages ps => exact (attr (by decide) weighs_strs).mono (by rw [bulkOther, bulkClassAttr] <;> first | omega | nofun)
  | mainClass o => exact (attr (by decide) wstr).mono (by rw [bulkOther, bulkClassAttr] <;> first | omega | nofun)
  | nestHost o => exact (attr (by decide) wstr).mono (by rw [bulkOther, bulkClassAttr] <;> first | omega | nofun)
  | nestMembers ps => exact (attr (by decide) weighs_strs).mono (by rw [bulkOther, bulkClassAttr] <;> first | omega | nofun)
  | visible as => exact (attr (by decide) weighs_anns).mono (by rw [bulkOther, bulkClassAttr] <;> first | omega | nofun)
  | invisible as => exact (attr (by decide) weighs_anns).mono (by rw [bulkOther, bulkClassAttr] <;> first | omega | nofun)
  | visibleType as =>
    exact (attr (by decide) (weighs_tanns weighs_classTarget)).mono (by rw [bulkOther, bulkClassAttr] <;> first | omega | nofun)
  | invisibleType as =>
    exact (attr (by decide) (weighs_tanns weighs_classTarget)).mono (by rw [bulkOther, bulkClassAttr] <;> first | omega | nofun)
  | raw a => exact rawAttr.mono (by rw [bulkOther, bulkClassAttr] <;> first | omega | nofun)

theorem bulk_other : ∀ as : List ClassAttr,
    bulkL bulkOther as + ((ownBsms as).map bulkBsm).sum ≤ bulkL bulkClassAttr as
  | [] => Nat.le_refl _
  | a :: as => by
    have ih := bulk_other as
    have hs : ∀ ms : List Bsm, (ms.map bulkBsm).sum + 1 = bulkL bulkBsm ms := by
      intro ms
      induction ms with
      | nil => rfl
      | cons m ms ih => rw [List.map_cons, List.sum_cons, bulkL]; omega
    cases a with
    | bootstrapMethods ms =>
      have := hs ms
      rw [bulkL, bulkL, ownBsms, List.map_append, List.sum_append, bulkClassAttr, bulkOther]
      omega
    | _ =>
      simp only [bulkL, ownBsms, bulkOther]
      omega

/-! ## Code -/

theorem weighs_ldc {c : OrDynamic Constant} : WeighsB (8192 * bulkOrDyn bulkConst c) (writeLdc c) := by
  have hb : 1 ≤ bulkOrDyn bulkConst c := by cases c <;> rw [bulkOrDyn] <;> omega
  refine (bind (k := 3) (orDynamic (g := bulkConst) fun _ => const) fun i => ?_).mono (by omega)
  split
  all_goals
    simp only
    split
    · exact (cons num (cons num nil)).mono (by decide)
    · split
      · exact (cons num (cons num nil)).mono (by decide)
      · exact (cons num (cons num nil)).mono (by decide)

theorem weighs_push {c : OrDynamic Constant} : WeighsB (8192 * (1 + bulkOrDyn bulkConst c)) (writePush c) := by
  unfold writePush
  repeat' split
  all_goals first
    | exact (num (c := u8)).mono (by show 1 ≤ _; omega)
    | exact (cons num (cons num nil)).mono (by show 1 + (1 + 0) ≤ _; omega)
    | exact (cons num (cons num nil)).mono (by show 1 + (2 + 0) ≤ _; omega)
    | exact weighs_ldc.mono (by omega)

theorem weighs_orDyn {α : Type} {f : α → Ins UInt16} {g : α → Nat} (hf : ∀ a, WeighsI (8192 * g a) (f a)) {x : OrDynamic α}
    {o : UInt8} {l : List (Ins Bytes)} {n : Nat} (hl : WeighsB n (wSeq l)) (hn : n ≤ 100) :
    WeighsB (8192 * (1 + bulkOrDyn g x)) (wSeq (op o :: wOrDyn f x :: l)) :=
  (cons u8n (cons (idx (orDynamic hf)) hl)).mono (by omega)

theorem weighs_toStr (t : ClassType) : WeighsI (8192 * bulkClassType t) (insertClass t.toStr) := by
  refine cls.mono ?_
  cases t with
  | object s => rw [ClassType.toStr, bulkClassType, bulkS]; omega
  | array d t =>
    have := display_len t
    have := d.toNat_lt
    rw [ClassType.toStr, bulkClassType, List.length_append, List.length_replicate]
    omega

theorem weighs_wide {o : UInt8} {l : UInt16} : WeighsB (8192 * 1) (wideOrNormal o l) := by
  unfold wideOrNormal
  split
  · exact (cons num (cons num nil)).mono (by decide)
  · exact (cons num (cons num (cons num nil))).mono (by decide)

theorem weighs_insn {i : Insn} : WeighsB (8192 * bulkInsn i) i.encode := by
  cases i with
  | push c => exact weighs_push
  | checkCast t => exact weighs_orDyn weighs_toStr nil (by decide)
  | instanceOf t => exact weighs_orDyn weighs_toStr nil (by decide)
  | new t => exact weighs_orDyn (fun _ => clsS) nil (by decide)
  | field a b m => exact weighs_orDyn (fun _ => member) nil (by decide)
  | invokeExact a m => cases a <;> exact weighs_orDyn (fun _ => member) nil (by decide)
  | invokeSpecial m => exact weighs_orDyn (fun _ => member) nil (by decide)
  | invokeInterface m n => exact weighs_orDyn (fun _ => member) (cons u8n (cons (pure _) nil)) (by decide)
  | invokeDynamic d =>
    refine (cons u8n (cons (idx dynamic) (cons (pure [0, 0]) nil))).mono ?_
    rw [bulkInsn]
    simp only [List.length_cons, List.length_nil]
    omega
  | localVariable m t l => exact weighs_wide
  | ret l => exact weighs_wide
  | intIncrement l n =>
    show WeighsB (8192 * 1) (if _ then _ else _)
    split
    · exact (cons num (cons num (cons num nil))).mono (by decide)
    · exact (cons num (cons num (cons num (cons num nil)))).mono (by decide)
  | monitor m => cases m <;> exact u8n.mono (by decide)
  | conversion a b =>
    show WeighsB (8192 * 1) (match conversionOp a b with | some o => op o | none => Pure.pure [])
    split
    · exact u8n.mono (by decide)
    · exact (pure _).mono (by decide)
  | convertInt a =>
    show WeighsB (8192 * 1) (match convertIntOp a with | some o => op o | none => Pure.pure [])
    split
    · exact u8n.mono (by decide)
    · exact (pure _).mono (by decide)
  | _ => first
    | exact (pure ([] : Bytes)).mono (Nat.zero_le _)
    | exact u8n.mono (by show 1 ≤ 8192 * 1; decide)

/-- The bytes of the pieces of a method body, and the room for its branches. -/
def mass (b : CodeBuf) : Nat :=
  (b.buf.map List.length).sum + b.cur.length + (b.jumps.map fun j => room j.insn).sum

theorem mass_branch (b : CodeBuf) (j : Branch) : mass (b.branch j) = mass b + room j.insn := by
  unfold mass CodeBuf.branch
  simp only [List.map_append, List.sum_append, List.map_cons, List.map_nil, List.sum_cons, List.sum_nil, List.length_nil]
  omega

theorem weighs_append {i : Insn} (b : CodeBuf) : Weighs mass (mass b + 8192 * bulkInsn i) (do
    let bs ← i.encode
    Pure.pure { b with cur := b.cur ++ bs }) := by
  refine Weighs.mono (Weighs.bind (k := mass b) weighs_insn fun bs => Weighs.mono (Weighs.pure _) ?_)
    (Nat.le_of_eq (Nat.add_comm _ _))
  unfold mass
  simp only [List.length_append]
  omega

theorem weighs_writeInsn {i : Insn} (b : CodeBuf) : Weighs mass (mass b + 8192 * bulkInsn i) (writeInsn b i) := by
  cases i with
  | lookupSwitch d t =>
    exact (pure _).mono (by rw [mass_branch, bulkInsn, Branch.insn, room]; omega)
  | tableSwitch d l t => exact (pure _).mono (by rw [mass_branch, bulkInsn, Branch.insn, room]; omega)
  | jump c l => exact (pure _).mono (by rw [mass_branch, Branch.insn, room]; show _ ≤ _ + 8192 * 1; omega)
  | jsr l => exact (pure _).mono (by rw [mass_branch, Branch.insn, room]; show _ ≤ _ + 8192 * 1; omega)
  | label l => exact (pure _).mono (Nat.le_add_right (mass b) _)
  | lineNumber n => exact (pure _).mono (Nat.le_add_right (mass b) _)
  | _ => exact weighs_append b

theorem weighs_writeInsns {is : List Insn} (b : CodeBuf) :
    Weighs mass (mass b + 8192 * bulkL bulkInsn is) (writeInsns b is) := by
  induction is generalizing b with
  | nil => exact (pure _).mono (Nat.le_add_right _ _)
  | cons i is ih =>
    exact (bind (k := 8192 * bulkL bulkInsn is) (weighs_writeInsn b) fun b' => ih b').mono (by rw [bulkL]; omega)

theorem assemble_mass {b : CodeBuf} {a : Assembled} (h : assemble b = .ok a) : a.code.length ≤ mass b := by
  unfold assemble at h
  simp only at h
  split at h
  · cases h
  · split at h
    · cases h
    · split at h
      · cases h
      · split at h
        · cases h
        · rename_i first rest hb
          split at h
          · cases h
          · rename_i code he
            cases h
            have h1 := emit_room he
            have h2 : ∀ (js : List Branch) (bs : List Bytes), ((js.zip bs).map fun e => room e.1.insn + e.2.length).sum ≤
                (js.map fun j => room j.insn).sum + (bs.map List.length).sum := by
              intro js
              induction js with
              | nil => intro bs; exact Nat.zero_le _
              | cons j js ih =>
                intro bs
                cases bs with
                | nil => exact Nat.zero_le _
                | cons x bs =>
                  have := ih bs
                  simp only [List.zip_cons_cons, List.map_cons, List.sum_cons]
                  omega
            have h3 := h2 b.jumps rest
            have h4 : ((b.buf ++ [b.cur]).map List.length).sum = first.length + (rest.map List.length).sum := by
              rw [hb, List.map_cons, List.sum_cons]
            simp only [List.map_append, List.sum_append, List.map_cons, List.map_nil, List.sum_cons, List.sum_nil] at h4
            unfold mass
            rw [List.length_append]
            omega

theorem weighs_label {env : WEnv} {l : Label} : WeighsB 2 (wLabel env l) :=
  lift_bind fun o _ => (pure _).mono (by rw [u16_len]; omega)

theorem weighs_codeTarget {env : WEnv} (t : CodeTarget) : WeighsB (8192 * bulkTarget t) (t.write env) := by
  have hl : ∀ ts : List LocalVarTarget, WeighsB (8192 * (ts.length + 1)) (wVec u16 (LocalVarTarget.write env) ts) := by
    intro ts
    rw [← bulkL_ones]
    refine vec16 fun t _ => lift_bind fun s _ => lift_bind fun e _ => ?_
    split
    · exact fail
    · refine (pure _).mono ?_
      simp only [List.length_append, u16_len]
      omega
  cases t with
  | localVar ts => exact (cons u8n (cons (hl _) nil)).mono (by rw [bulkTarget]; omega)
  | resourceVar ts => exact (cons u8n (cons (hl _) nil)).mono (by rw [bulkTarget]; omega)
  | catchParam k =>
    refine (cons (k := 2) u8n (cons (n := 2) (k := 0) (lift_bind fun o _ => ?_) nil)).mono (by rw [bulkTarget]; omega)
    split
    · exact (pure _).mono (by rw [u16_len]; omega)
    · exact (pure _).mono (by decide)
  | instanceOf l => exact (cons u8n (cons weighs_label nil)).mono (by show 1 + (2 + 0) ≤ 8192 * 1; decide)
  | new l => exact (cons u8n (cons weighs_label nil)).mono (by show 1 + (2 + 0) ≤ 8192 * 1; decide)
  | newRef l => exact (cons u8n (cons weighs_label nil)).mono (by show 1 + (2 + 0) ≤ 8192 * 1; decide)
  | methodRef l => exact (cons u8n (cons weighs_label nil)).mono (by show 1 + (2 + 0) ≤ 8192 * 1; decide)
  | _ => exact (cons u8n (cons weighs_label (cons u8n nil))).mono (by show 1 + (2 + (1 + 0)) ≤ 8192 * 1; decide)

theorem weighs_sum {α : Type} {w : α → Ins Bytes} {g : α → Nat} {xs : List α} (h : ∀ x ∈ xs, WeighsB (g x) (w x)) :
    WeighsB (xs.map g).sum (wAll w xs) := by
  induction xs with
  | nil => exact nil
  | cons x xs ih => exact cons (h x (by simp)) (ih fun y hy => h y (by simp [hy]))

theorem weighs_table {α : Type} {w : α → Ins Bytes} {g : α → Nat} {xs : List α} (h : ∀ x ∈ xs, WeighsB (g x) (w x)) :
    WeighsB ((xs.map g).sum + 2) (wVec u16 w xs) := by
  unfold wVec
  split
  · refine Weighs.bind (weighs_sum h) fun bs => Weighs.mono (Weighs.pure _) ?_
    rw [List.length_append, u16_len]
    omega
  · exact fail

/-- What an entry of the table of variables takes. -/
def varHeft (e : VarEntry) : Nat := 20 + 6 * e.name.length + 6144 * bulkType e.descriptor
def varTypeHeft (e : VarTypeEntry) : Nat := 20 + 6 * e.name.length + 6144 * bulkRef e.signature

theorem split_heft {env : WEnv} : ∀ {vs : List LocalVariable} {r : List VarTypeEntry × List VarEntry},
    splitVars env vs = .ok r → (r.1.map varTypeHeft).sum + (r.2.map varHeft).sum ≤ 8192 * bulkL bulkVar vs
  | [], r, h => by
    cases h
    exact Nat.zero_le _
  | v :: vs, r, h => by
    obtain ⟨var, h1, h⟩ := Res.bind_ok h
    obtain ⟨ty, h2, h⟩ := Res.bind_ok h
    obtain ⟨r', h3, h⟩ := Res.bind_ok h
    cases h
    have ih := split_heft h3
    have e1 : (var.map varHeft).sum ≤ 20 + 6 * v.name.length + 6144 * bulkO bulkType v.descriptor := by
      unfold LocalVariable.varEntries at h1
      split at h1
      · cases h1
        exact Nat.zero_le _
      · rename_i d hd
        split at h1
        · cases h1
        · cases h1
          rw [hd, bulkO]
          simp [varHeft]
    have e2 : (ty.map varTypeHeft).sum ≤ 20 + 6 * v.name.length + 6144 * bulkO bulkRef v.signature := by
      unfold LocalVariable.varTypeEntries at h2
      split at h2
      · cases h2
        exact Nat.zero_le _
      · rename_i d hd
        split at h2
        · cases h2
        · cases h2
          rw [hd, bulkO]
          simp [varTypeHeft]
    simp only [List.map_append, List.sum_append, bulkL, bulkVar, bulkS]
    omega

theorem weighs_vars {env : WEnv} {es : List VarEntry} :
    WeighsB ((es.map varHeft).sum + 1002) (CodeAttr.write env (.vars es)) :=
  (attr (by decide) (weighs_table (g := varHeft) fun e _ => (cons u16n (cons u16n (cons (idx utf8) (cons (idx utf8)
    (cons u16n nil))))).mono (by
      have := toWtf8_len e.descriptor
      unfold varHeft
      omega))).mono (by omega)

theorem weighs_varTypes {env : WEnv} {es : List VarTypeEntry} :
    WeighsB ((es.map varTypeHeft).sum + 1002) (CodeAttr.write env (.varTypes es)) :=
  (attr (by decide) (weighs_table (g := varTypeHeft) fun e _ => (cons u16n (cons u16n (cons (idx utf8)
    (cons (wsig (Nat.le_of_succ_le (showR_len e.signature))) (cons u16n nil))))).mono (by
      unfold varTypeHeft
      omega))).mono (by omega)

theorem weighs_single {w : Ins Bytes} {n : Nat} (h : WeighsB n w) : WeighsB n (wSeq [w]) := (cons h nil).mono (Nat.le_refl _)

theorem weighs_lowered {env : WEnv} {a : CodeAttribute} {ls : List CodeAttr} (e : a.lower env = .ok ls) :
    WeighsB (8192 * bulkCodeAttr a) (wAll (CodeAttr.write env) ls) := by
  cases a with
  | visibleType as =>
    cases e
    exact weighs_single ((attr (by decide) (weighs_tanns weighs_codeTarget)).mono (by rw [bulkCodeAttr]; omega))
  | invisibleType as =>
    cases e
    exact weighs_single ((attr (by decide) (weighs_tanns weighs_codeTarget)).mono (by rw [bulkCodeAttr]; omega))
  | raw a =>
    cases e
    exact weighs_single (rawAttr.mono (by rw [bulkCodeAttr]; omega))
  | locals vs =>
    obtain ⟨⟨ts, es⟩, e1, e⟩ := Res.bind_ok e
    have hs := split_heft e1
    simp only at e hs
    rw [bulkCodeAttr]
    split at e
    · cases e
    · cases e
      exact weighs_single (weighs_varTypes.mono (by omega))
    · cases e
      exact weighs_single (weighs_vars.mono (by omega))
    · cases e
      exact (cons weighs_vars (cons weighs_varTypes nil)).mono (by omega)

theorem weighs_codeAttrs {env : WEnv} (n : Nat) (as : List CodeAttribute) :
    Weighs (fun r => r.2.length) (8192 * bulkL bulkCodeAttr as) (writeCodeAttrs env n as) := by
  induction as generalizing n with
  | nil => exact Weighs.mono (Weighs.pure _) (Nat.zero_le _)
  | cons a as ih =>
    refine lift_bind fun ls e => ?_
    simp only
    split
    · refine Weighs.mono (Weighs.bind (k := 8192 * bulkL bulkCodeAttr as) (weighs_lowered e) fun b => Weighs.mono
        (Weighs.bind (k := b.length) (ih _) fun r => Weighs.mono (Weighs.pure _) ?_) ?_) ?_
      · simp only [List.length_append]
        omega
      · omega
      · rw [bulkL]
        omega
    · exact fail

theorem weighs_catch {env : WEnv} {c : Catch} : WeighsB (8192 * bulkCatch c) (c.write env) :=
  (cons weighs_label (cons weighs_label (cons weighs_label (cons (opt (g := bulkS) fun _ => clsS) nil)))).mono (by
    rw [bulkCatch]
    omega)

theorem weighs_code {x : Code} : WeighsB (8192 * bulkCode x) x.write := by
  intro cp out cp' h
  obtain ⟨a, cp1, h1, h⟩ := Ins.bind_ok h
  obtain ⟨b, cp0, h0, h1⟩ := Ins.bind_ok h1
  have w0 := weighs_writeInsns _ _ _ _ h0
  have hm : mass CodeBuf.empty = 0 := rfl
  rcases ha : assemble b with e | a'
  · rw [ha] at h1
    cases h1
  · rw [ha] at h1
    cases h1
    have w1 := assemble_mass ha
    obtain ⟨hs, cp2, h2, h⟩ := Ins.bind_ok h
    have hb := bulkL_least bulkCatch x.catches
    have w2 := Weighs.all (n := 8192 * bulkL bulkCatch x.catches) (f := bulkCatch) (fun c _ => weighs_catch) (by omega) _ _ _ h2
    obtain ⟨⟨extra, as⟩, cp3, h3, h⟩ := Ins.bind_ok h
    have w3 := weighs_codeAttrs _ _ _ _ _ h3
    simp only at h w3
    split at h
    · cases h
      have u4 : (u32.write a.len).length = 4 := toBe_length 4 _
      rw [bulkCode]
      simp only [List.length_append, u16_len, u4]
      omega
    · cases h

theorem weighs_methodAttr {a : MethodAttr} : WeighsB (8192 * bulkMethodAttr a) a.write := by
  cases a with
  | code x => exact (attr (by decide) weighs_code).mono (by rw [bulkMethodAttr]; omega)
  | deprecated => exact (attr (by decide) nil).mono (by decide)
  | synthetic => exact (attr (by decide) nil).mono (by decide)
  | signature s => exact (attr (by decide) (wsig (showMethod_len s))).mono (by rw [bulkMethodAttr]; omega)
  | visible as => exact (attr (by decide) weighs_anns).mono (by rw [bulkMethodAttr]; omega)
  | invisible as => exact (attr (by decide) weighs_anns).mono (by rw [bulkMethodAttr]; omega)
  | visibleType as => exact (attr (by decide) (weighs_tanns weighs_methodTarget)).mono (by rw [bulkMethodAttr]; omega)
  | invisibleType as => exact (attr (by decide) (weighs_tanns weighs_methodTarget)).mono (by rw [bulkMethodAttr]; omega)
  | visibleParams ps =>
    exact (attr (by decide) (vec (f := bulkL bulkAnn) (by decide) fun _ _ => weighs_anns)).mono (by rw [bulkMethodAttr]; omega)
  | invisibleParams ps =>
    exact (attr (by decide) (vec (f := bulkL bulkAnn) (by decide) fun _ _ => weighs_anns)).mono (by rw [bulkMethodAttr]; omega)
  | exceptions ss => exact (attr (by decide) weighs_strs).mono (by rw [bulkMethodAttr]; omega)
  | annotationDefault v => exact (attr (by decide) (weighs_value v)).mono (by rw [bulkMethodAttr]; omega)
  | methodParameters ps =>
    exact (attr (by decide) (vec (f := bulkMethodParam) (by decide) fun _ _ => (cons utf8Opt (cons flags nil)).mono (by
      rw [bulkMethodParam]; omega))).mono (by rw [bulkMethodAttr]; omega)
  | raw a => exact rawAttr.mono (by rw [bulkMethodAttr]; omega)

theorem weighs_method {m : Method} : WeighsB (8192 * bulkMethod m) m.write :=
  (cons flags (cons wutf8 (cons wtype (cons (vec16 (f := bulkMethodAttr) fun _ _ => weighs_methodAttr) nil)))).mono (by
    rw [bulkMethod]; omega)

/-! ## Bootstrap methods -/

theorem weighs_bsm {b : Bsm} : WeighsB (8192 * bulkBsm b) b.write := by
  have hb := bulkL_least bulkArg b.arguments
  refine (cons (idx handle) (cons u16n (cons (all (f := bulkArg) (n := 8192 * bulkL bulkArg b.arguments)
    (fun a _ => ?_) (by omega)) nil))).mono (by rw [bulkBsm]; omega)
  cases a with
  | dynamic c n t => exact (idx dynamic).mono (by rw [bulkArg]; simp only [bulkDynamic, bulkS]; omega)
  | static c => exact (idx const).mono (by rw [bulkArg]; omega)

theorem batches_heft {i n : Nat} {cp cp' : VecCp} {bs : Bytes} (h : writeBatches i cp = .ok (n, bs, cp')) :
    bs.length + heft cp' ≤ heft cp := by
  fun_induction writeBatches i cp generalizing n bs cp' with
  | case1 i cp h0 =>
    cases h
    exact Nat.le_of_eq (Nat.zero_add _)
  | case2 => cases h
  | case3 => cases h
  | case4 i cp h0 h1 b cp1 e1 hn n' b' cp2 e2 ih =>
    cases h
    have h2 := ih e2
    have h3 := weighs_sum (g := fun b => 8192 * bulkBsm b) (fun b _ => weighs_bsm) _ _ _ e1
    have h4 : (cp.bsm.map fun b => 8192 * bulkBsm b).sum = 8192 * (cp.bsm.map bulkBsm).sum := by
      generalize cp.bsm = l
      induction l with
      | nil => rfl
      | cons b l ih => simp only [List.map_cons, List.sum_cons, ih]; omega
    have h5 : heft { cp with bsm := [] } + 8192 * (cp.bsm.map bulkBsm).sum = heft cp := by
      simp [heft]
    rw [List.length_append]
    omega
  | case5 => cases h
  | case6 => cases h

theorem weighs_bootstrap : WeighsB 200 wBootstrap := by
  intro cp out cp' h
  unfold wBootstrap at h
  split at h
  · cases h
    show 0 + _ ≤ _
    omega
  · rcases h1 : writeBatches 0 cp with e | ⟨n, bs, cp1⟩
    · rw [h1] at h
      cases h
    · rw [h1] at h
      simp only at h
      have w1 := batches_heft h1
      rcases h2 : wUtf8 N.bootstrapMethods cp1 with e | ⟨name, cp2⟩
      · rw [h2] at h
        cases h
      · rw [h2] at h
        simp only at h
        have w2 := idx (utf8 (s := N.bootstrapMethods)) _ _ _ h2
        have hn : N.bootstrapMethods.length = 16 := by decide
        split at h
        · cases h
          have u4 : (u32.write (UInt32.ofNat (bs.length % 4294967296 + 2))).length = 4 := toBe_length 4 _
          simp only [List.length_append, u16_len, u4]
          omega
        · cases h

theorem weighs_body {x : Class} : WeighsB (8192 * (bulkS x.name + bulkO bulkS x.superName + bulkL bulkS x.interfaces +
    bulkL bulkField x.fields + bulkL bulkMethod x.methods + bulkL bulkOther x.attrs) + 4) x.writeBody :=
  (cons flags (cons wcls (cons (opt (g := bulkS) fun _ => clsS) (cons (cut (f := bulkS) fun _ _ => wcls)
    (cons (cut (f := bulkField) fun _ _ => weighs_field) (cons (cut (f := bulkMethod) fun _ _ => weighs_method)
      (cons (cut (f := bulkOther) fun _ _ => weighs_classAttr) nil))))))).mono (by omega)

theorem entry_heft {e : Entry} {bs : Bytes} (h : e.write = .ok bs) : bs.length ≤ heftEntry e := by
  cases e with
  | utf8 s =>
    rw [Entry.write] at h
    rcases h1 : writeString s with e | b
    · rw [h1] at h
      cases h
    · rw [h1] at h
      cases h
      obtain ⟨t, h2, h1⟩ := Res.bind_ok h1
      cases h1
      have := encode_len h2
      have u1 : (u8.write 1).length = 1 := toBe_length 1 _
      rw [heftEntry]
      simp only [List.length_append, u16_len, u1]
      omega
  | _ =>
    cases h
    simp only [List.length_append, NumCodec.write, toBe_length, heftEntry]
    decide

theorem pool_heft : ∀ {es : List Entry} {bs : Bytes}, writeAll Entry.write es = .ok bs →
    bs.length ≤ (es.map heftEntry).sum
  | [], bs, h => by
    cases h
    exact Nat.zero_le _
  | e :: es, bs, h => by
    obtain ⟨a, h1, h⟩ := Res.bind_ok h
    obtain ⟨b, h2, h⟩ := Res.bind_ok h
    cases h
    have := entry_heft h1
    have := pool_heft h2
    rw [List.length_append, List.map_cons, List.sum_cons]
    omega

theorem class_heft {x : Class} {out : Bytes} (h : x.write = .ok out) : out.length ≤ 8192 * bulkClass x := by
  unfold Class.write at h
  rcases h1 : wSeq [x.writeBody, wBootstrap] { VecCp.new with bsm := ownBsms x.attrs } with e | ⟨buf, cp⟩
  · rw [h1] at h
    cases h
  · rw [h1] at h
    simp only at h
    have w1 := cons weighs_body (cons weighs_bootstrap nil) _ _ _ h1
    have w2 := bulk_other x.attrs
    have w3 : heft { VecCp.new with bsm := ownBsms x.attrs } = 8192 * ((ownBsms x.attrs).map bulkBsm).sum := by
      simp [heft, VecCp.new]
    rcases h2 : cp.write with e | pool
    · rw [h2] at h
      cases h
    · rw [h2] at h
      cases h
      unfold VecCp.write at h2
      rcases h3 : writeAll Entry.write cp.entries with e | bs
      · rw [h3] at h2
        cases h2
      · rw [h3] at h2
        cases h2
        have w4 := pool_heft h3
        have w5 : (cp.entries.map heftEntry).sum ≤ heft cp := Nat.le_add_right _ _
        have u4 : (u32.write jvmMagic).length = 4 := toBe_length 4 _
        rw [bulkClass, Version.write]
        simp only [List.length_append, u16_len, u4]
        omega

end
end Verif
