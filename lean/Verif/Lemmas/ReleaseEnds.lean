import Verif.Lemmas.ReleaseEffect
import Verif.Lemmas.Ends

/-! # How writing can fail in a build without overflow checks

As in `Lemmas/Ends`: with a panic or an error for the caller, and with undefined behaviour only for a string that has no
code points. -/

namespace Verif
open Spec Sig

namespace EndsW
open Ends (pure bind lift fail bsm idx opt)
variable {U : Err → Prop} {α β : Type} [Usual U]

theorem raw (e : Entry) : Ends U (insertEntryW e) := fun _ => REnds.ok _

theorem utf8 {s : Bytes} : Ends U (insertWtf8W s) := raw _
theorem cls {s : Bytes} : Ends U (insertClassW s) := bind utf8 fun _ => raw _

theorem indirect {tag : UInt8} {s : Bytes} : Ends U (insertIndirectW tag s) := by
  refine bind utf8 fun i => ?_
  split
  · exact raw _
  · exact raw _
  · exact raw _
  · exact raw _
  · exact fail Usual.panic

theorem nat {n d : Bytes} : Ends U (insertNameAndTypeW n d) := bind utf8 fun _ => bind utf8 fun _ => raw _
theorem member {m : MemberRef} : Ends U (insertMemberW m) := bind cls fun _ => bind nat fun _ => raw _
theorem handle {h : MethodHandle} : Ends U (insertMethodHandleW h) := bind member fun _ => raw _

theorem const {k : Constant} : Ends U (insertConstantW k) := by
  cases k with
  | string s => exact indirect (tag := 8) (s := s)
  | cls s => exact indirect (tag := 7) (s := s)
  | member m => exact member
  | methodType t => exact bind utf8 fun _ => raw _
  | methodHandle h' => exact handle
  | _ => exact raw _

theorem dynamic {d : Dynamic} : Ends U (insertDynamicW d) := by
  refine bind (lift ?_) fun b => bind (bsm b) fun i => bind nat fun j => raw _
  unfold Dynamic.getBsm
  split
  · exact REnds.error Usual.panic
  · exact REnds.ok _

theorem orDynamic {f : α → Ins UInt16} (hf : ∀ a, Ends U (f a)) {x : OrDynamic α} : Ends U (insertOrDynamicW f x) := by
  cases x with
  | dynamic d => exact dynamic
  | static a => exact hf a

theorem wutf8 {s : Bytes} : Ends U (wUtf8W s) := idx utf8
theorem wstr {tag : UInt8} {s : Bytes} : Ends U (wStrW tag s) := idx indirect
theorem wtype {t : JType} : Ends U (wTypeW t) := idx utf8
theorem wsig {t : Str} : Ends U (wSigW t) := idx utf8
theorem utf8Opt {x : Option Bytes} : Ends U (wUtf8OptW x) := opt fun _ => utf8
theorem clsOpt {x : Option Bytes} : Ends U (wClsOptW x) := opt fun _ => indirect
theorem attr {n : Bytes} {w : Ins Bytes} (h : Ends U w) : Ends U (wAttrW n w) :=
  bind utf8 fun _ => bind h fun _ => pure _
theorem rawAttr {a : RawAttribute} : Ends U (wRawW a) := bind utf8 fun _ => pure _

end EndsW

section
open EndsW
open Ends (pure bind lift fail bsm idx opt nil cons all cut num flags vec lift_bind)
variable {U : Err → Prop} [Usual U]

mutual
theorem ends_valueW : (v : AnnValue) → Ends U v.writeW
  | .byte _ => by rw [AnnValue.writeW]; exact cons num (cons (idx (raw _)) nil)
  | .char _ => by rw [AnnValue.writeW]; exact cons num (cons (idx (raw _)) nil)
  | .double _ => by rw [AnnValue.writeW]; exact cons num (cons (idx (raw _)) nil)
  | .float _ => by rw [AnnValue.writeW]; exact cons num (cons (idx (raw _)) nil)
  | .int _ => by rw [AnnValue.writeW]; exact cons num (cons (idx (raw _)) nil)
  | .long _ => by rw [AnnValue.writeW]; exact cons num (cons (idx (raw _)) nil)
  | .short _ => by rw [AnnValue.writeW]; exact cons num (cons (idx (raw _)) nil)
  | .boolean _ => by rw [AnnValue.writeW]; exact cons num (cons (idx (raw _)) nil)
  | .string s => by rw [AnnValue.writeW]; exact cons num (cons wutf8 nil)
  | .enum t n => by rw [AnnValue.writeW]; exact cons num (cons wtype (cons wutf8 nil))
  | .cls none => by rw [AnnValue.writeW]; exact cons num (cons wutf8 nil)
  | .cls (some t) => by rw [AnnValue.writeW]; exact cons num (cons wutf8 nil)
  | .annotation t vs => by rw [AnnValue.writeW]; exact cons num (cons wtype (cons num (cons (ends_elemsW vs) nil)))
  | .array vs => by rw [AnnValue.writeW]; exact cons num (cons num (cons (ends_valuesW vs) nil))
theorem ends_valuesW : (vs : List AnnValue) → Ends U (AnnValue.writeListW vs)
  | [] => by rw [AnnValue.writeListW]; exact pure _
  | v :: vs => by rw [AnnValue.writeListW]; exact cons (ends_valueW v) (cons (ends_valuesW vs) nil)
theorem ends_elemsW : (vs : List (Bytes × AnnValue)) → Ends U (AnnValue.writeElemsW vs)
  | [] => by rw [AnnValue.writeElemsW]; exact pure _
  | (k, v) :: vs => by
    rw [AnnValue.writeElemsW]; exact cons wutf8 (cons (ends_valueW v) (cons (ends_elemsW vs) nil))
end

theorem ends_annW {a : Annotation} : Ends U a.writeW := cons wtype (cons (cons num (cons (ends_elemsW _) nil)) nil)

theorem ends_annsW {as : List Annotation} : Ends U (wVec u16 Annotation.writeW as) := vec fun _ _ => ends_annW

theorem ends_tannsW {T : Type} {w : T → Ins Bytes} (hw : ∀ t, Ends U (w t)) {as : List (TypeAnnotation T)} :
    Ends U (wVec u16 (TypeAnnotation.writeW w) as) := by
  refine vec fun a _ => cons (hw _) (cons (vec fun p _ => ?_) (cons wtype (cons (cons num (cons (ends_elemsW _) nil)) nil)))
  cases p <;> exact cons num (cons num nil)

theorem ends_fieldAttrW {a : FieldAttr} : Ends U a.writeW := by
  cases a with
  | visible as => exact attr ends_annsW
  | invisible as => exact attr ends_annsW
  | visibleType as => exact attr (ends_tannsW ends_fieldTarget)
  | invisibleType as => exact attr (ends_tannsW ends_fieldTarget)
  | constantValue k => exact attr (idx const)
  | signature s => exact attr wsig
  | raw a => exact rawAttr
  | _ => exact attr nil

theorem ends_fieldW {f : Field} : Ends U f.writeW :=
  cons flags (cons wutf8 (cons wtype (cons (vec fun _ _ => ends_fieldAttrW) nil)))

theorem ends_moduleW {m : Module} : Ends U m.writeW := by
  have hs : ∀ (t : UInt8) (ss : List Bytes), Ends U (wVec u16 (wStrW t) ss) := fun t ss => vec fun _ _ => wstr
  have he : ∀ es : List Export, Ends U (wVec u16 Export.writeW es) := fun es =>
    vec fun _ _ => cons wstr (cons flags (cons (hs _ _) nil))
  exact cons wstr (cons flags (cons utf8Opt (cons (vec fun _ _ => cons wstr (cons flags (cons utf8Opt nil)))
    (cons (he _) (cons (he _) (cons (hs _ _) (cons (vec fun _ _ => cons wstr (cons (hs _ _) nil)) nil)))))))

theorem ends_classAttrW {a : ClassAttr}
    (h : ∀ s, a = .debugExtension s → Wtf8.codepoints s = none → U .ub) : Ends U a.writeOtherW := by
  have hs : ∀ (t : UInt8) (ss : List Bytes), Ends U (wVec u16 (wStrW t) ss) := fun t ss => vec fun _ _ => wstr
  cases a with
  | signature s => exact attr wsig
  | deprecated => exact attr nil
  | synthetic => exact attr nil
  | sourceFile s => exact attr wutf8
  | innerClasses xs => exact attr (vec fun _ _ => cons wstr (cons clsOpt (cons utf8Opt (cons flags nil))))
  | enclosingMethod o m => exact attr (cons wstr (cons (opt fun _ => nat) nil))
  | debugExtension s =>
    refine attr (lift ?_)
    unfold Mutf8.encode
    split
    · exact REnds.ok _
    · rename_i hc
      exact REnds.error (h s rfl hc)
  | bootstrapMethods ms => exact nil
  | module_ m => exact attr ends_moduleW
  | modulePackages ps => exact attr (hs _ _)
  | mainClass o => exact attr wstr
  | nestHost o => exact attr wstr
  | nestMembers ps => exact attr (hs _ _)
  | visible as => exact attr ends_annsW
  | invisible as => exact attr ends_annsW
  | visibleType as => exact attr (ends_tannsW ends_classTarget)
  | invisibleType as => exact attr (ends_tannsW ends_classTarget)
  | raw a => exact rawAttr

/-! ## Code -/

theorem ends_ldcW {c : OrDynamic Constant} : Ends U (writeLdcW c) := by
  refine bind (orDynamic fun _ => const) fun i => ?_
  split
  all_goals
    simp only
    split
    · exact cons num (cons num nil)
    · split
      · exact cons num (cons num nil)
      · exact cons num (cons num nil)

theorem ends_pushW {c : OrDynamic Constant} : Ends U (writePushW c) := by
  unfold writePushW
  repeat' split
  all_goals first
    | exact num
    | exact cons num (cons num nil)
    | exact ends_ldcW

theorem ends_orDynW {α : Type} {f : α → Ins UInt16} (hf : ∀ a, Ends U (f a)) {x : OrDynamic α} {o : Ins Bytes}
    (ho : Ends U o) {l : List (Ins Bytes)} (hl : Ends U (wSeq l)) : Ends U (wSeq (o :: wOrDynW f x :: l)) :=
  cons ho (cons (idx (orDynamic hf)) hl)

theorem ends_insnW {i : Insn} : Ends U i.encodeW := by
  cases i with
  | push c => exact ends_pushW
  | checkCast t => exact ends_orDynW (fun _ => cls) num nil
  | instanceOf t => exact ends_orDynW (fun _ => cls) num nil
  | new t => exact ends_orDynW (fun _ => cls) num nil
  | field a b m => exact ends_orDynW (fun _ => member) num nil
  | invokeExact a m => cases a <;> exact ends_orDynW (fun _ => member) num nil
  | invokeSpecial m => exact ends_orDynW (fun _ => member) num nil
  | invokeInterface m n => exact ends_orDynW (fun _ => member) num (cons num (cons (pure _) nil))
  | invokeDynamic d => exact cons num (cons (idx dynamic) (cons (pure _) nil))
  | localVariable m t l =>
    show Ends U (wideOrNormal _ _)
    unfold wideOrNormal
    split
    · exact cons num (cons num nil)
    · exact cons num (cons num (cons num nil))
  | ret l =>
    show Ends U (wideOrNormal _ _)
    unfold wideOrNormal
    split
    · exact cons num (cons num nil)
    · exact cons num (cons num (cons num nil))
  | intIncrement l n =>
    show Ends U (if _ then _ else _)
    split
    · exact cons num (cons num (cons num nil))
    · exact cons num (cons num (cons num (cons num nil)))
  | monitor m => cases m <;> exact num
  | conversion a b =>
    show Ends U (match conversionOp a b with | some o => op o | none => Pure.pure [])
    split
    · exact num
    · exact pure _
  | convertInt a =>
    show Ends U (match convertIntOp a with | some o => op o | none => Pure.pure [])
    split
    · exact num
    · exact pure _
  | _ => first | exact num | exact pure _

theorem ends_writeInsnW {i : Insn} (b : CodeBuf) : Ends U (writeInsnW b i) := by
  cases i with
  | lookupSwitch _ _ => exact pure _
  | tableSwitch _ _ _ => exact pure _
  | jump _ _ => exact pure _
  | jsr _ => exact pure _
  | label _ => exact pure _
  | lineNumber _ => exact pure _
  | _ => exact bind ends_insnW fun _ => pure _

theorem ends_writeInsnsW {is : List Insn} (b : CodeBuf) : Ends U (writeInsnsW b is) := by
  induction is generalizing b with
  | nil => exact pure _
  | cons i is ih => exact bind (ends_writeInsnW b) fun b' => ih b'

theorem ends_resolveW (labels : List (Label × (Nat × Nat))) (ix : List Nat) (size idx : Nat) (l : Label) :
    REnds U (resolveLabelW labels ix size idx l) := by
  unfold resolveLabelW
  split
  · rename_i e he
    exact REnds.error (ends_find _ _ _ he)
  · split
    · rename_i e he
      exact REnds.error (ends_start _ _ _ he)
    · exact REnds.ok _

theorem ends_resolveAllW (labels : List (Label × (Nat × Nat))) (ix : List Nat) (size idx : Nat) (ls : List Label) :
    REnds U (resolveAllW labels ix size idx ls) := by
  induction ls with
  | nil => exact REnds.ok _
  | cons l ls ih => exact REnds.bind (ends_resolveW _ _ _ _ _) fun _ _ => REnds.bind ih fun _ _ => REnds.ok _

theorem ends_resolvePairsW (labels : List (Label × (Nat × Nat))) (ix : List Nat) (size idx : Nat)
    (ls : List (Int32 × Label)) : REnds U (resolvePairsW labels ix size idx ls) := by
  induction ls with
  | nil => exact REnds.ok _
  | cons l ls ih => exact REnds.bind (ends_resolveW _ _ _ _ _) fun _ _ => REnds.bind ih fun _ _ => REnds.ok _

theorem ends_emitW (labels : List (Label × (Nat × Nat))) (ix : List Nat) (size idx : Nat) (j : Branch) :
    REnds U (j.emitW labels ix size idx) := by
  have hr := fun l => ends_resolveW (U := U) labels ix size idx l
  unfold Branch.emitW
  split
  · exact REnds.bind (hr _) fun _ _ => REnds.bind (ends_resolvePairsW _ _ _ _ _) fun _ _ => REnds.ok _
  · refine REnds.bind (hr _) fun _ _ => ?_
    exact REnds.bind (ends_resolveAllW _ _ _ _ _) fun _ _ => REnds.ok _
  · exact REnds.bind (hr _) fun _ _ => REnds.ok _
  · exact REnds.bind (hr _) fun _ _ => REnds.ok _
  · refine REnds.bind (hr _) fun _ _ => ?_
    split
    · exact REnds.ok _
    · split
      · exact REnds.error Usual.panic
      · exact REnds.ok _

theorem ends_emitFromW (labels : List (Label × (Nat × Nat))) (ix : List Nat) (js : List Branch) (bs : List Bytes)
    (r : List (Nat × Nat)) : REnds U (emitFromW labels ix js bs r) := by
  fun_induction emitFromW labels ix js bs r with
  | case1 j js b bs s idx r e he => exact REnds.error (ends_emitW _ _ _ _ _ _ he)
  | case2 j js b bs s idx r o ho e he ih => exact REnds.error (ih _ he)
  | case3 => exact REnds.ok _
  | case4 => exact REnds.error Usual.panic
  | case5 => exact REnds.ok _

theorem ends_labelPosW (labels : List (Label × (Nat × Nat))) (ix : List Nat) (l : Label) :
    REnds U (labelPosW labels ix l) := by
  unfold labelPosW
  split
  · exact REnds.error Usual.panic
  · split
    · rename_i e he
      exact REnds.error (ends_start _ _ _ he)
    · exact REnds.ok _

theorem ends_assembleW (b : CodeBuf) : REnds U (assembleW b) := by
  unfold assembleW
  simp only
  split
  · rename_i e he
    exact REnds.error (ends_hints _ _ _ _ he)
  · split
    · rename_i e he
      exact REnds.error (ends_layout _ _ _ _ _ _ he)
    · split
      · exact REnds.error Usual.panic
      · split
        · exact REnds.error Usual.panic
        · split
          · rename_i e he
            exact REnds.error (ends_emitFromW _ _ _ _ _ _ he)
          · exact REnds.ok _

theorem assemble_labelW {b : CodeBuf} {a : Assembled} (h : assembleW b = .ok a) (l : Label) : REnds U (a.label l) := by
  unfold assembleW at h
  simp only at h
  split at h
  · cases h
  · split at h
    · cases h
    · split at h
      · cases h
      · split at h
        · cases h
        · split at h
          · cases h
          · cases h
            exact ends_labelPosW _ _ _

theorem ends_rangeW {env : WEnv} (he : EnvEnds U env) (s e : Label) : REnds U (rangeOfW env s e) := by
  unfold rangeOfW
  split
  · rename_i e' h
    exact REnds.error (he.label _ _ h)
  · split
    · rename_i e' h
      exact REnds.error (he.label _ _ h)
    · exact REnds.ok _

theorem ends_splitVarsW {env : WEnv} (he : EnvEnds U env) (vs : List LocalVariable) : REnds U (splitVarsW env vs) := by
  induction vs with
  | nil => exact REnds.ok _
  | cons v vs ih =>
    refine REnds.bind ?_ fun _ _ => REnds.bind ?_ fun _ _ => REnds.bind ih fun _ _ => REnds.ok _
    · unfold LocalVariable.varEntriesW
      split
      · exact REnds.ok _
      · split
        · rename_i e h
          exact REnds.error (ends_rangeW he _ _ _ h)
        · exact REnds.ok _
    · unfold LocalVariable.varTypeEntriesW
      split
      · exact REnds.ok _
      · split
        · rename_i e h
          exact REnds.error (ends_rangeW he _ _ _ h)
        · exact REnds.ok _

theorem ends_lowerW {env : WEnv} (he : EnvEnds U env) (a : CodeAttribute) : REnds U (a.lowerW env) := by
  cases a with
  | locals vs =>
    refine REnds.bind (ends_splitVarsW he vs) fun r _ => ?_
    obtain ⟨ty, var⟩ := r
    simp only
    split
    · exact REnds.error Usual.invalid
    · exact REnds.ok _
    · exact REnds.ok _
    · exact REnds.ok _
  | _ => exact REnds.ok _

theorem ends_codeTargetW {env : WEnv} (he : EnvEnds U env) (t : CodeTarget) : Ends U (t.writeW env) := by
  have hl : ∀ ts : List LocalVarTarget, Ends U (wVec u16 (LocalVarTarget.writeW env) ts) := fun ts =>
    vec fun t _ => bind (lift (he.label _)) fun s => bind (lift (he.label _)) fun e => pure _
  cases t with
  | localVar ts => exact cons num (cons (hl _) nil)
  | resourceVar ts => exact cons num (cons (hl _) nil)
  | catchParam k => exact cons num (cons (ends_catch he) nil)
  | instanceOf l => exact cons num (cons (ends_label he) nil)
  | new l => exact cons num (cons (ends_label he) nil)
  | newRef l => exact cons num (cons (ends_label he) nil)
  | methodRef l => exact cons num (cons (ends_label he) nil)
  | _ => exact cons num (cons (ends_label he) (cons num nil))

/-- The attributes that can be written back (there are no others: `CodeAttribute.lowerW`). -/
theorem ends_loweredW {env : WEnv} (he : EnvEnds U env) {a : CodeAttribute} {ls : List CodeAttr}
    (e : a.lowerW env = .ok ls) : Ends U (wAll (CodeAttr.writeW env) ls) := by
  have hv : ∀ es, Ends U (CodeAttr.writeW env (.vars es)) := fun es =>
    attr (vec fun _ _ => cons num (cons num (cons wutf8 (cons wtype (cons num nil)))))
  have ht : ∀ es, Ends U (CodeAttr.writeW env (.varTypes es)) := fun es =>
    attr (vec fun _ _ => cons num (cons num (cons wutf8 (cons wsig (cons num nil)))))
  refine all fun l hl => ?_
  cases a with
  | visibleType as =>
    cases e
    rw [List.mem_singleton.mp hl]
    exact attr (ends_tannsW (ends_codeTargetW he))
  | invisibleType as =>
    cases e
    rw [List.mem_singleton.mp hl]
    exact attr (ends_tannsW (ends_codeTargetW he))
  | raw a =>
    cases e
    rw [List.mem_singleton.mp hl]
    exact rawAttr
  | locals vs =>
    obtain ⟨⟨ts, es⟩, e1, e⟩ := Res.bind_ok e
    simp only at e
    split at e
    · cases e
    · cases e
      rw [List.mem_singleton.mp hl]
      exact ht _
    · cases e
      rw [List.mem_singleton.mp hl]
      exact hv _
    · cases e
      simp only [List.mem_cons, List.not_mem_nil, or_false] at hl
      rcases hl with rfl | rfl
      · exact hv _
      · exact ht _

theorem ends_codeAttrsW {env : WEnv} (he : EnvEnds U env) (n : UInt16) (as : List CodeAttribute) :
    Ends U (writeCodeAttrsW env n as) := by
  induction as generalizing n with
  | nil => exact pure _
  | cons a as ih =>
    refine lift_bind (ends_lowerW he a) fun ls e => ?_
    exact bind (ends_loweredW he e) fun _ => bind (ih _) fun _ => pure _

theorem ends_codeW {x : Code} : Ends U x.writeW := by
  intro cp
  have key : ∀ b : CodeBuf, Ends U (do
      let a ← Ins.lift (assembleW b)
      let env := Code.env a x.catches
      let hs ← wAll (Catch.writeW env) x.catches
      let (extra, as) ← writeCodeAttrsW env 0 x.attrs
      Pure.pure (u16.write x.maxStack ++ u16.write x.maxLocals ++ u32.write a.len ++ a.code ++
          u16.write (UInt16.ofNat x.catches.length) ++ hs ++
          u16.write (UInt16.ofNat x.attrs.length + extra) ++ as)) := by
    intro b
    refine lift_bind (ends_assembleW b) fun a ha => ?_
    have he : EnvEnds U (Code.env a x.catches) := ⟨assemble_labelW ha, fun k => REnds.ok _⟩
    refine bind (all fun k hk => ?_) fun hs => bind (ends_codeAttrsW he _ _) fun r => pure _
    exact cons (ends_label he) (cons (ends_label he) (cons (ends_label he) (cons (opt fun _ => cls) nil)))
  have e : x.writeW = (writeInsnsW .empty x.code >>= fun b => (do
      let a ← Ins.lift (assembleW b)
      let env := Code.env a x.catches
      let hs ← wAll (Catch.writeW env) x.catches
      let (extra, as) ← writeCodeAttrsW env 0 x.attrs
      Pure.pure (u16.write x.maxStack ++ u16.write x.maxLocals ++ u32.write a.len ++ a.code ++
          u16.write (UInt16.ofNat x.catches.length) ++ hs ++
          u16.write (UInt16.ofNat x.attrs.length + extra) ++ as))) := by
    funext cp
    show Ins.bind (Ins.bind _ _) _ cp = Ins.bind _ _ cp
    unfold Ins.bind
    cases writeInsnsW .empty x.code cp <;> rfl
  rw [e]
  exact bind (ends_writeInsnsW _) key cp

theorem ends_methodAttrW {a : MethodAttr} : Ends U a.writeW := by
  cases a with
  | code x => exact attr ends_codeW
  | deprecated => exact attr nil
  | synthetic => exact attr nil
  | signature s => exact attr wsig
  | visible as => exact attr ends_annsW
  | invisible as => exact attr ends_annsW
  | visibleType as => exact attr (ends_tannsW ends_methodTarget)
  | invisibleType as => exact attr (ends_tannsW ends_methodTarget)
  | visibleParams ps => exact attr (vec fun _ _ => ends_annsW)
  | invisibleParams ps => exact attr (vec fun _ _ => ends_annsW)
  | exceptions ss => exact attr (vec fun _ _ => wstr)
  | annotationDefault v => exact attr (ends_valueW v)
  | methodParameters ps => exact attr (vec fun _ _ => cons utf8Opt (cons flags nil))
  | raw a => exact rawAttr

theorem ends_methodW {m : Method} : Ends U m.writeW :=
  cons flags (cons wutf8 (cons wtype (cons (vec fun _ _ => ends_methodAttrW) nil)))

theorem ends_bsmW {b : Bsm} : Ends U b.writeW :=
  cons (idx handle) (cons num (cons (all fun _ _ => idx (orDynamic fun _ => const)) nil))

theorem ends_batchesW (i : UInt16) (cp : VecCp) : REnds U (writeBatchesW i cp) := by
  fun_induction writeBatchesW i cp with
  | case1 => exact REnds.ok _
  | case2 i cp h0 e he => exact REnds.error (Ends.all (fun _ _ => ends_bsmW) _ _ he)
  | case3 i cp h0 b cp1 e1 hn e he ih => exact REnds.error (ih _ he)
  | case4 => exact REnds.ok _
  | case5 i cp h0 b cp1 e1 hn => exact absurd ((round_bsmW e1).2 (by intro h; simp [h] at h0)) hn

theorem ends_bootstrapW : Ends U wBootstrapW := by
  intro cp
  unfold wBootstrapW
  split
  · exact REnds.ok _
  · split
    · rename_i e he
      exact REnds.error (ends_batchesW _ _ _ he)
    · split
      · rename_i e he
        exact REnds.error (wutf8 _ _ he)
      · exact REnds.ok _

theorem ends_bodyW {x : Class}
    (h : ∀ s, .debugExtension s ∈ x.attrs → Wtf8.codepoints s = none → U .ub) : Ends U (Class.writeBodyW x) :=
  cons flags (cons (idx cls) (cons (opt fun _ => cls) (cons (cut fun _ _ => idx cls) (cons (cut fun _ _ => ends_fieldW)
    (cons (cut fun _ _ => ends_methodW) (cons (cut fun a ha => ends_classAttrW fun s e => h s (e ▸ ha)) nil))))))

theorem ends_classW {x : Class} (h : U .ub ∨ LegibleClass x) : REnds U (Class.writeW x) := by
  unfold Class.writeW
  split
  · rename_i e he
    refine REnds.error (cons (ends_bodyW fun s hs hc => ?_) (cons ends_bootstrapW nil) _ _ he)
    rcases h with h | h
    · exact h
    · exact absurd hc (legible_codepoints (h.debug s hs))
  · rename_i buf cp he
    split
    · rename_i e hp
      refine REnds.error (ends_pool (h.imp_right fun h => ?_) _ hp)
      exact class_stringsW (fun n hn => legible_fitting (names_fitting n hn)) h.all he
    · exact REnds.ok _

end
end Verif
