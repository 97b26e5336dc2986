import Verif.Lemmas.Class

/-! # How writing can fail

A writer fails with a panic or with an error for the caller, never by running forever, and with undefined
behaviour only for a string that has no code points. -/

namespace Verif
open Spec Sig

/-- Panics and errors are allowed for. -/
class Usual (U : Err → Prop) : Prop where
  panic : U .panic
  invalid : U .invalid

/-- A result that, if it is an error, is one of those in `U`. -/
def REnds {α : Type} (U : Err → Prop) (r : Res α) : Prop := ∀ e, r = .error e → U e

/-- A writer that fails only with the errors in `U`, whatever the pool. -/
def Ends {α : Type} (U : Err → Prop) (w : Ins α) : Prop := ∀ cp, REnds U (w cp)

namespace REnds
variable {U : Err → Prop} {α β : Type}

theorem ok (a : α) : REnds U (.ok a : Res α) := by rintro e ⟨⟩

theorem error {e : Err} (h : U e) : REnds U (.error e : Res α) := by rintro _ ⟨⟩; exact h

theorem bind {r : Res α} {f : α → Res β} (h1 : REnds U r) (h2 : ∀ a, r = .ok a → REnds U (f a)) :
    REnds U (r >>= f) := by
  intro e h
  rcases r with e1 | a
  · cases h
    exact h1 _ rfl
  · exact h2 a rfl e h

/-- A `match` on a result, as the model writes it. -/
theorem and_then {r : Res α} {f : α → Res β} (h1 : REnds U r) (h2 : ∀ a, REnds U (f a)) :
    REnds U (match r with | .error e => .error e | .ok a => f a) := by
  rcases r with e1 | a
  · exact error (h1 _ rfl)
  · exact h2 a

end REnds

namespace Ends
variable {U : Err → Prop} {α β : Type}

theorem pure (a : α) : Ends U (Pure.pure a : Ins α) := fun _ => REnds.ok _

theorem fail {e : Err} (h : U e) : Ends U (Ins.fail e : Ins α) := fun _ => REnds.error h

theorem lift {r : Res α} (h : REnds U r) : Ends U (Ins.lift r) := by
  intro cp e he
  rcases r with e1 | a
  · cases he
    exact h _ rfl
  · cases he

theorem bind {m : Ins α} {f : α → Ins β} (h1 : Ends U m) (h2 : ∀ a, Ends U (f a)) : Ends U (m >>= f) := by
  intro cp e h
  have h : (match m cp with
    | .ok (a, cp) => f a cp
    | .error e => .error e) = .error e := h
  rcases hm : m cp with e1 | ⟨a, cp1⟩
  · rw [hm] at h
    cases h
    exact h1 _ _ hm
  · rw [hm] at h
    exact h2 _ _ _ h

theorem lift_bind {r : Res α} {f : α → Ins β} (h1 : REnds U r) (h2 : ∀ a, r = .ok a → Ends U (f a)) :
    Ends U (Ins.lift r >>= f) := by
  rcases r with e | a
  · intro cp e' h
    cases h
    exact h1 _ rfl
  · exact h2 a rfl

theorem bsm (b : Bsm) : Ends U (insertBsm b) := fun _ => REnds.ok _

theorem idx {i : Ins UInt16} (h : Ends U i) : Ends U (wIdx i) := bind h fun _ => pure _
theorem nil : Ends U (wSeq []) := pure _

theorem cons {w : Ins Bytes} {ws : List (Ins Bytes)} (h : Ends U w) (hs : Ends U (wSeq ws)) : Ends U (wSeq (w :: ws)) :=
  bind h fun _ => bind hs fun _ => pure _

theorem all {w : α → Ins Bytes} {xs : List α} (h : ∀ x ∈ xs, Ends U (w x)) : Ends U (wAll w xs) := by
  induction xs with
  | nil => exact pure _
  | cons x xs ih => exact cons (h x (by simp)) (ih fun y hy => h y (by simp [hy]))

theorem cut {w : α → Ins Bytes} {xs : List α} (h : ∀ x ∈ xs, Ends U (w x)) : Ends U (wCut w xs) :=
  cons (pure _) (cons (all h) nil)

theorem num {c : NumCodec α} {x : α} : Ends U (wNum c x) := pure _
theorem flags {t : FlagType} {f : Flags t} : Ends U (wFlags f) := pure _

theorem opt {f : α → Ins UInt16} {x : Option α} (hf : ∀ a, Ends U (f a)) : Ends U (wOpt f x) := by
  cases x with
  | none => exact pure _
  | some a => exact idx (hf a)

variable [Usual U]

theorem raw (e : Entry) : Ends U (insertRaw e) := by
  intro cp e' h
  unfold insertRaw at h
  split at h
  · cases h
  · split at h
    · cases h
    · cases h
      exact Usual.panic

theorem utf8 {s : Bytes} : Ends U (insertWtf8 s) := raw _
theorem cls {s : Bytes} : Ends U (insertClass s) := bind utf8 fun _ => raw _

theorem indirect {tag : UInt8} {s : Bytes} : Ends U (insertIndirect tag s) := by
  refine bind utf8 fun i => ?_
  split
  · exact raw _
  · exact raw _
  · exact raw _
  · exact raw _
  · exact fail Usual.panic

theorem nat {n d : Bytes} : Ends U (insertNameAndType n d) := bind utf8 fun _ => bind utf8 fun _ => raw _
theorem member {m : MemberRef} : Ends U (insertMember m) := bind cls fun _ => bind nat fun _ => raw _
theorem handle {h : MethodHandle} : Ends U (insertMethodHandle h) := bind member fun _ => raw _

theorem const {k : Constant} : Ends U (insertConstant k) := by
  cases k with
  | string s => exact indirect (tag := 8) (s := s)
  | cls s => exact indirect (tag := 7) (s := s)
  | member m => exact member
  | methodType t => exact bind utf8 fun _ => raw _
  | methodHandle h' => exact handle
  | _ => exact raw _

theorem dynamic {d : Dynamic} : Ends U (insertDynamic d) := by
  refine bind (lift ?_) fun b => bind (bsm b) fun i => bind nat fun j => raw _
  unfold Dynamic.getBsm
  split
  · exact REnds.error Usual.panic
  · exact REnds.ok _

theorem orDynamic {f : α → Ins UInt16} (hf : ∀ a, Ends U (f a)) {x : OrDynamic α} : Ends U (insertOrDynamic f x) := by
  cases x with
  | dynamic d => exact dynamic
  | static a => exact hf a

theorem vec {ℓ : Type} {c : NumCodec ℓ} {w : α → Ins Bytes} {xs : List α} (h : ∀ x ∈ xs, Ends U (w x)) :
    Ends U (wVec c w xs) := by
  unfold wVec
  split
  · exact bind (all h) fun _ => pure _
  · exact fail Usual.invalid

theorem wutf8 {s : Bytes} : Ends U (wUtf8 s) := idx utf8
theorem wstr {tag : UInt8} {s : Bytes} : Ends U (wStr tag s) := idx indirect
theorem wtype {t : JType} : Ends U (wType t) := idx utf8
theorem wsig {t : Str} : Ends U (wSig t) := idx utf8
theorem utf8Opt {x : Option Bytes} : Ends U (wUtf8Opt x) := opt fun _ => utf8
theorem clsOpt {x : Option Bytes} : Ends U (wClsOpt x) := opt fun _ => indirect
theorem attr {n : Bytes} {w : Ins Bytes} (h : Ends U w) : Ends U (wAttr n w) :=
  bind utf8 fun _ => bind h fun _ => pure _
theorem rawAttr {a : RawAttribute} : Ends U (wRaw a) := bind utf8 fun _ => pure _

end Ends

/-- The answers to `label` and `catch` fail only with errors in `U`. -/
structure EnvEnds (U : Err → Prop) (env : WEnv) : Prop where
  label : ∀ l, REnds U (env.label l)
  catch_ : ∀ k, REnds U (env.catch_ k)


section
open Ends
variable {U : Err → Prop} [Usual U]

mutual
theorem ends_value : (v : AnnValue) → Ends U v.write
  | .byte _ => by rw [AnnValue.write]; exact cons num (cons (idx (raw _)) nil)
  | .char _ => by rw [AnnValue.write]; exact cons num (cons (idx (raw _)) nil)
  | .double _ => by rw [AnnValue.write]; exact cons num (cons (idx (raw _)) nil)
  | .float _ => by rw [AnnValue.write]; exact cons num (cons (idx (raw _)) nil)
  | .int _ => by rw [AnnValue.write]; exact cons num (cons (idx (raw _)) nil)
  | .long _ => by rw [AnnValue.write]; exact cons num (cons (idx (raw _)) nil)
  | .short _ => by rw [AnnValue.write]; exact cons num (cons (idx (raw _)) nil)
  | .boolean _ => by rw [AnnValue.write]; exact cons num (cons (idx (raw _)) nil)
  | .string s => by rw [AnnValue.write]; exact cons num (cons wutf8 nil)
  | .enum t n => by rw [AnnValue.write]; exact cons num (cons wtype (cons wutf8 nil))
  | .cls none => by rw [AnnValue.write]; exact cons num (cons wutf8 nil)
  | .cls (some t) => by rw [AnnValue.write]; exact cons num (cons wutf8 nil)
  | .annotation t vs => by rw [AnnValue.write]; exact cons num (cons wtype (cons num (cons (ends_elems vs) nil)))
  | .array vs => by rw [AnnValue.write]; exact cons num (cons num (cons (ends_values vs) nil))
theorem ends_values : (vs : List AnnValue) → Ends U (AnnValue.writeList vs)
  | [] => by rw [AnnValue.writeList]; exact pure _
  | v :: vs => by rw [AnnValue.writeList]; exact cons (ends_value v) (cons (ends_values vs) nil)
theorem ends_elems : (vs : List (Bytes × AnnValue)) → Ends U (AnnValue.writeElems vs)
  | [] => by rw [AnnValue.writeElems]; exact pure _
  | (k, v) :: vs => by
    rw [AnnValue.writeElems]; exact cons wutf8 (cons (ends_value v) (cons (ends_elems vs) nil))
end

theorem ends_ann {a : Annotation} : Ends U a.write := cons wtype (cons (cons num (cons (ends_elems _) nil)) nil)

theorem ends_anns {as : List Annotation} : Ends U (wVec u16 Annotation.write as) := vec fun _ _ => ends_ann

theorem ends_tanns {T : Type} {w : T → Ins Bytes} (hw : ∀ t, Ends U (w t)) {as : List (TypeAnnotation T)} :
    Ends U (wVec u16 (TypeAnnotation.write w) as) := by
  refine vec fun a _ => cons (hw _) (cons (vec fun p _ => ?_) (cons wtype (cons (cons num (cons (ends_elems _) nil)) nil)))
  cases p <;> exact cons num (cons num nil)

theorem ends_classTarget (t : ClassTarget) : Ends U t.write := by
  cases t
  · exact cons num (cons num nil)
  · exact cons num (cons num nil)
  · exact cons num (cons num (cons num nil))

theorem ends_methodTarget (t : MethodTarget) : Ends U t.write := by
  cases t
  · exact cons num (cons num nil)
  · exact cons num (cons num (cons num nil))
  · exact cons num nil
  · exact cons num nil
  · exact cons num (cons num nil)
  · exact cons num (cons num nil)

theorem ends_fieldTarget (t : FieldTarget) : Ends U t.write := by
  cases t
  exact cons num nil

theorem ends_fieldAttr {a : FieldAttr} : Ends U a.write := by
  cases a with
  | visible as => exact attr ends_anns
  | invisible as => exact attr ends_anns
  | visibleType as => exact attr (ends_tanns ends_fieldTarget)
  | invisibleType as => exact attr (ends_tanns ends_fieldTarget)
  | constantValue k => exact attr (idx const)
  | signature s => exact attr wsig
  | raw a => exact rawAttr
  | _ => exact attr nil

theorem ends_field {f : Field} : Ends U f.write :=
  cons flags (cons wutf8 (cons wtype (cons (vec fun _ _ => ends_fieldAttr) nil)))

theorem ends_module {m : Module} : Ends U m.write := by
  have hs : ∀ (t : UInt8) (ss : List Bytes), Ends U (wVec u16 (wStr t) ss) := fun t ss => vec fun _ _ => wstr
  have he : ∀ es : List Export, Ends U (wVec u16 Export.write es) := fun es =>
    vec fun _ _ => cons wstr (cons flags (cons (hs _ _) nil))
  exact cons wstr (cons flags (cons utf8Opt (cons (vec fun _ _ => cons wstr (cons flags (cons utf8Opt nil)))
    (cons (he _) (cons (he _) (cons (hs _ _) (cons (vec fun _ _ => cons wstr (cons (hs _ _) nil)) nil)))))))

theorem ends_classAttr {a : ClassAttr}
    (h : ∀ s, a = .debugExtension s → Wtf8.codepoints s = none → U .ub) : Ends U a.writeOther := by
  have hs : ∀ (t : UInt8) (ss : List Bytes), Ends U (wVec u16 (wStr t) ss) := fun t ss => vec fun _ _ => wstr
  cases a with
  | signature s => exact attr wsig
  | deprecated => exact attr nil
  | synthetic => exact attr nil
  | sourceFile s => exact attr wutf8
  | innerClasses xs => exact attr (vec fun _ _ => cons wstr (cons clsOpt (cons utf8Opt (cons flags nil))))
  | enclosingMethod o m => exact attr (cons wstr (cons (opt fun _ => nat) nil))
  | debugExtension s =>
    refine attr (lift ?_)
    unfold Mutf8.encode
    split
    · exact REnds.ok _
    · rename_i hc
      exact REnds.error (h s rfl hc)
  | bootstrapMethods ms => exact nil
  | module_ m => exact attr ends_module
  | modulePackages ps => exact attr (hs _ _)
  | mainClass o => exact attr wstr
  | nestHost o => exact attr wstr
  | nestMembers ps => exact attr (hs _ _)
  | visible as => exact attr ends_anns
  | invisible as => exact attr ends_anns
  | visibleType as => exact attr (ends_tanns ends_classTarget)
  | invisibleType as => exact attr (ends_tanns ends_classTarget)
  | raw a => exact rawAttr

/-! ## Code -/

theorem ends_ldc {c : OrDynamic Constant} : Ends U (writeLdc c) := by
  refine bind (orDynamic fun _ => const) fun i => ?_
  split
  all_goals
    simp only
    split
    · exact cons num (cons num nil)
    · split
      · exact cons num (cons num nil)
      · exact cons num (cons num nil)

theorem ends_push {c : OrDynamic Constant} : Ends U (writePush c) := by
  unfold writePush
  repeat' split
  all_goals first
    | exact num
    | exact cons num (cons num nil)
    | exact ends_ldc

theorem ends_orDyn {α : Type} {f : α → Ins UInt16} (hf : ∀ a, Ends U (f a)) {x : OrDynamic α} {o : Ins Bytes}
    (ho : Ends U o) {l : List (Ins Bytes)} (hl : Ends U (wSeq l)) : Ends U (wSeq (o :: wOrDyn f x :: l)) :=
  cons ho (cons (idx (orDynamic hf)) hl)

theorem ends_insn {i : Insn} : Ends U i.encode := by
  cases i with
  | push c => exact ends_push
  | checkCast t => exact ends_orDyn (fun _ => cls) num nil
  | instanceOf t => exact ends_orDyn (fun _ => cls) num nil
  | new t => exact ends_orDyn (fun _ => cls) num nil
  | field a b m => exact ends_orDyn (fun _ => member) num nil
  | invokeExact a m => cases a <;> exact ends_orDyn (fun _ => member) num nil
  | invokeSpecial m => exact ends_orDyn (fun _ => member) num nil
  | invokeInterface m n => exact ends_orDyn (fun _ => member) num (cons num (cons (pure _) nil))
  | invokeDynamic d => exact cons num (cons (idx dynamic) (cons (pure _) nil))
  | localVariable m t l =>
    show Ends U (wideOrNormal _ _)
    unfold wideOrNormal
    split
    · exact cons num (cons num nil)
    · exact cons num (cons num (cons num nil))
  | ret l =>
    show Ends U (wideOrNormal _ _)
    unfold wideOrNormal
    split
    · exact cons num (cons num nil)
    · exact cons num (cons num (cons num nil))
  | intIncrement l n =>
    show Ends U (if _ then _ else _)
    split
    · exact cons num (cons num (cons num nil))
    · exact cons num (cons num (cons num (cons num nil)))
  | monitor m => cases m <;> exact num
  | conversion a b =>
    show Ends U (match conversionOp a b with | some o => op o | none => Pure.pure [])
    split
    · exact num
    · exact pure _
  | convertInt a =>
    show Ends U (match convertIntOp a with | some o => op o | none => Pure.pure [])
    split
    · exact num
    · exact pure _
  | _ => first | exact num | exact pure _

theorem ends_writeInsn {i : Insn} (b : CodeBuf) : Ends U (writeInsn b i) := by
  cases i with
  | lookupSwitch _ _ => exact pure _
  | tableSwitch _ _ _ => exact pure _
  | jump _ _ => exact pure _
  | jsr _ => exact pure _
  | label _ => exact pure _
  | lineNumber _ => exact pure _
  | _ => exact bind ends_insn fun _ => pure _

theorem ends_writeInsns {is : List Insn} (b : CodeBuf) : Ends U (writeInsns b is) := by
  induction is generalizing b with
  | nil => exact pure _
  | cons i is ih => exact bind (ends_writeInsn b) fun b' => ih b'

theorem ends_hints (last : Nat) (js : List Branch) (bs : List Bytes) : REnds U (hintsFrom last js bs) := by
  induction js generalizing last bs with
  | nil => exact REnds.ok _
  | cons j js ih =>
    cases bs with
    | nil => exact REnds.error Usual.panic
    | cons b bs =>
      have := ih (last + (j.maxSize + b.length)) bs
      rw [hintsFrom]
      split
      · exact REnds.ok _
      · rename_i e he
        exact REnds.error (this _ he)

theorem ends_find (labels : List (Label × (Nat × Nat))) (l : Label) : REnds U (findLabel labels l) := by
  unfold findLabel
  split
  · exact REnds.ok _
  · exact REnds.error Usual.invalid

theorem ends_start (v : List Nat) (i : Nat) : REnds U (startOf v i) := by
  unfold startOf
  split
  · exact REnds.ok _
  · unfold indexOrPanic
    split
    · exact REnds.ok _
    · exact REnds.error Usual.panic

theorem ends_target (labels : List (Label × (Nat × Nat))) (hints : List Nat) (l : Label) :
    REnds U (targetOff labels hints l) := by
  unfold targetOff
  split
  · split
    · exact REnds.ok _
    · rename_i e he
      exact REnds.error (ends_start _ _ _ he)
  · rename_i e he
    exact REnds.error (ends_find _ _ _ he)

theorem ends_size (labels : List (Label × (Nat × Nat))) (hints : List Nat) (pos : Nat) (j : Branch) :
    REnds U (j.size labels hints pos) := by
  unfold Branch.size
  split
  · exact REnds.ok _
  · exact REnds.ok _
  all_goals
    split
    · exact REnds.ok _
    · rename_i e he
      exact REnds.error (ends_target _ _ _ _ he)

theorem ends_layout (labels : List (Label × (Nat × Nat))) (hints : List Nat) (last : Nat) (js : List Branch)
    (bs : List Bytes) : REnds U (layoutFrom labels hints last js bs) := by
  induction js generalizing last bs with
  | nil => exact REnds.ok _
  | cons j js ih =>
    cases bs with
    | nil => exact REnds.error Usual.panic
    | cons b bs =>
      rw [layoutFrom]
      split
      · rename_i e he
        exact REnds.error (ends_size _ _ _ _ _ he)
      · split
        · rename_i e he
          exact REnds.error (ih _ _ _ he)
        · exact REnds.ok _

theorem ends_resolve (labels : List (Label × (Nat × Nat))) (ix : List Nat) (size idx : Nat) (l : Label) :
    REnds U (resolveLabel labels ix size idx l) := by
  unfold resolveLabel
  split
  · rename_i e he
    exact REnds.error (ends_find _ _ _ he)
  · split
    · rename_i e he
      exact REnds.error (ends_start _ _ _ he)
    · split
      · simp only
        split
        · exact REnds.ok _
        · exact REnds.error Usual.panic
      · exact REnds.error Usual.panic

theorem ends_resolveAll (labels : List (Label × (Nat × Nat))) (ix : List Nat) (size idx : Nat) (ls : List Label) :
    REnds U (resolveAll labels ix size idx ls) := by
  induction ls with
  | nil => exact REnds.ok _
  | cons l ls ih => exact REnds.bind (ends_resolve _ _ _ _ _) fun _ _ => REnds.bind ih fun _ _ => REnds.ok _

theorem ends_resolvePairs (labels : List (Label × (Nat × Nat))) (ix : List Nat) (size idx : Nat)
    (ls : List (Int32 × Label)) : REnds U (resolvePairs labels ix size idx ls) := by
  induction ls with
  | nil => exact REnds.ok _
  | cons l ls ih => exact REnds.bind (ends_resolve _ _ _ _ _) fun _ _ => REnds.bind ih fun _ _ => REnds.ok _

theorem ends_emit (labels : List (Label × (Nat × Nat))) (ix : List Nat) (size idx : Nat) (j : Branch) :
    REnds U (j.emit labels ix size idx) := by
  have hr := fun l => ends_resolve (U := U) labels ix size idx l
  unfold Branch.emit
  split
  · exact REnds.bind (hr _) fun _ _ => REnds.bind (ends_resolvePairs _ _ _ _ _) fun _ _ => REnds.ok _
  · refine REnds.bind (hr _) fun _ _ => ?_
    split
    · exact REnds.error Usual.panic
    · simp only
      split
      · exact REnds.bind (ends_resolveAll _ _ _ _ _) fun _ _ => REnds.ok _
      · exact REnds.error Usual.panic
  · exact REnds.bind (hr _) fun _ _ => REnds.ok _
  · exact REnds.bind (hr _) fun _ _ => REnds.ok _
  · refine REnds.bind (hr _) fun _ _ => ?_
    split
    · exact REnds.ok _
    · split
      · exact REnds.error Usual.panic
      · exact REnds.ok _

theorem ends_emitFrom (labels : List (Label × (Nat × Nat))) (ix : List Nat) (js : List Branch) (bs : List Bytes)
    (r : List (Nat × Nat)) : REnds U (emitFrom labels ix js bs r) := by
  fun_induction emitFrom labels ix js bs r with
  | case1 j js b bs s idx r e he => exact REnds.error (ends_emit _ _ _ _ _ _ he)
  | case2 j js b bs s idx r o ho e he ih => exact REnds.error (ih _ he)
  | case3 => exact REnds.ok _
  | case4 => exact REnds.error Usual.panic
  | case5 => exact REnds.ok _

theorem ends_labelPos (labels : List (Label × (Nat × Nat))) (ix : List Nat) (l : Label) :
    REnds U (labelPos labels ix l) := by
  unfold labelPos
  split
  · exact REnds.error Usual.panic
  · split
    · rename_i e he
      exact REnds.error (ends_start _ _ _ he)
    · split
      · exact REnds.ok _
      · exact REnds.error Usual.panic

theorem ends_assemble (b : CodeBuf) : REnds U (assemble b) := by
  unfold assemble
  simp only
  split
  · rename_i e he
    exact REnds.error (ends_hints _ _ _ _ he)
  · split
    · rename_i e he
      exact REnds.error (ends_layout _ _ _ _ _ _ he)
    · split
      · exact REnds.error Usual.panic
      · split
        · exact REnds.error Usual.panic
        · split
          · rename_i e he
            exact REnds.error (ends_emitFrom _ _ _ _ _ _ he)
          · exact REnds.ok _

theorem assemble_label {b : CodeBuf} {a : Assembled} (h : assemble b = .ok a) (l : Label) : REnds U (a.label l) := by
  unfold assemble at h
  simp only at h
  split at h
  · cases h
  · split at h
    · cases h
    · split at h
      · cases h
      · split at h
        · cases h
        · split at h
          · cases h
          · cases h
            exact ends_labelPos _ _ _

theorem ends_range {env : WEnv} (he : EnvEnds U env) (s e : Label) : REnds U (rangeOf env s e) := by
  unfold rangeOf
  split
  · rename_i e' h
    exact REnds.error (he.label _ _ h)
  · split
    · rename_i e' h
      exact REnds.error (he.label _ _ h)
    · split
      · exact REnds.error Usual.panic
      · exact REnds.ok _

theorem ends_splitVars {env : WEnv} (he : EnvEnds U env) (vs : List LocalVariable) : REnds U (splitVars env vs) := by
  induction vs with
  | nil => exact REnds.ok _
  | cons v vs ih =>
    refine REnds.bind ?_ fun _ _ => REnds.bind ?_ fun _ _ => REnds.bind ih fun _ _ => REnds.ok _
    · unfold LocalVariable.varEntries
      split
      · exact REnds.ok _
      · split
        · rename_i e h
          exact REnds.error (ends_range he _ _ _ h)
        · exact REnds.ok _
    · unfold LocalVariable.varTypeEntries
      split
      · exact REnds.ok _
      · split
        · rename_i e h
          exact REnds.error (ends_range he _ _ _ h)
        · exact REnds.ok _

theorem ends_lower {env : WEnv} (he : EnvEnds U env) (a : CodeAttribute) : REnds U (a.lower env) := by
  cases a with
  | locals vs =>
    refine REnds.bind (ends_splitVars he vs) fun r _ => ?_
    obtain ⟨ty, var⟩ := r
    simp only
    split
    · exact REnds.error Usual.invalid
    · exact REnds.ok _
    · exact REnds.ok _
    · exact REnds.ok _
  | _ => exact REnds.ok _

theorem ends_label {env : WEnv} (he : EnvEnds U env) {l : Label} : Ends U (wLabel env l) :=
  bind (lift (he.label l)) fun _ => pure _

theorem ends_catch {env : WEnv} (he : EnvEnds U env) {k : Catch} : Ends U (wCatch env k) := by
  refine bind (lift (he.catch_ k)) fun o => ?_
  split <;> exact pure _

theorem ends_codeTarget {env : WEnv} (he : EnvEnds U env) (t : CodeTarget) : Ends U (t.write env) := by
  have hl : ∀ ts : List LocalVarTarget, Ends U (wVec u16 (LocalVarTarget.write env) ts) := fun ts =>
    vec fun t _ => bind (lift (he.label _)) fun s => bind (lift (he.label _)) fun e => by
      split
      · exact fail Usual.panic
      · exact pure _
  cases t with
  | localVar ts => exact cons num (cons (hl _) nil)
  | resourceVar ts => exact cons num (cons (hl _) nil)
  | catchParam k => exact cons num (cons (ends_catch he) nil)
  | instanceOf l => exact cons num (cons (ends_label he) nil)
  | new l => exact cons num (cons (ends_label he) nil)
  | newRef l => exact cons num (cons (ends_label he) nil)
  | methodRef l => exact cons num (cons (ends_label he) nil)
  | _ => exact cons num (cons (ends_label he) (cons num nil))

/-- The attributes that can be written back (there are no others: `CodeAttribute.lower`). -/
theorem ends_lowered {env : WEnv} (he : EnvEnds U env) {a : CodeAttribute} {ls : List CodeAttr}
    (e : a.lower env = .ok ls) : Ends U (wAll (CodeAttr.write env) ls) := by
  have hv : ∀ es, Ends U (CodeAttr.write env (.vars es)) := fun es =>
    attr (vec fun _ _ => cons num (cons num (cons wutf8 (cons wtype (cons num nil)))))
  have ht : ∀ es, Ends U (CodeAttr.write env (.varTypes es)) := fun es =>
    attr (vec fun _ _ => cons num (cons num (cons wutf8 (cons wsig (cons num nil)))))
  refine all fun l hl => ?_
  cases a with
  | visibleType as =>
    cases e
    rw [List.mem_singleton.mp hl]
    exact attr (ends_tanns (ends_codeTarget he))
  | invisibleType as =>
    cases e
    rw [List.mem_singleton.mp hl]
    exact attr (ends_tanns (ends_codeTarget he))
  | raw a =>
    cases e
    rw [List.mem_singleton.mp hl]
    exact rawAttr
  | locals vs =>
    obtain ⟨⟨ts, es⟩, e1, e⟩ := Res.bind_ok e
    simp only at e
    split at e
    · cases e
    · cases e
      rw [List.mem_singleton.mp hl]
      exact ht _
    · cases e
      rw [List.mem_singleton.mp hl]
      exact hv _
    · cases e
      simp only [List.mem_cons, List.not_mem_nil, or_false] at hl
      rcases hl with rfl | rfl
      · exact hv _
      · exact ht _

theorem ends_codeAttrs {env : WEnv} (he : EnvEnds U env) (n : Nat) (as : List CodeAttribute) :
    Ends U (writeCodeAttrs env n as) := by
  induction as generalizing n with
  | nil => exact pure _
  | cons a as ih =>
    refine lift_bind (ends_lower he a) fun ls e => ?_
    simp only
    split
    · exact bind (ends_lowered he e) fun _ => bind (ih _) fun _ => pure _
    · exact fail Usual.panic

theorem ends_code {x : Code} : Ends U x.write := by
  intro cp
  have key : ∀ b : CodeBuf, Ends U (do
      let a ← Ins.lift (assemble b)
      let env := Code.env a x.catches
      let hs ← wAll (Catch.write env) x.catches
      let (extra, as) ← writeCodeAttrs env 0 x.attrs
      if (UInt16.ofNat x.attrs.length).toNat + extra < 65536 then
        Pure.pure (u16.write x.maxStack ++ u16.write x.maxLocals ++ u32.write a.len ++ a.code ++
          u16.write (UInt16.ofNat x.catches.length) ++ hs ++
          u16.write (UInt16.ofNat x.attrs.length + UInt16.ofNat extra) ++ as)
      else Ins.fail .panic) := by
    intro b
    refine lift_bind (ends_assemble b) fun a ha => ?_
    have he : EnvEnds U (Code.env a x.catches) := ⟨assemble_label ha, fun k => REnds.ok _⟩
    refine bind (all fun k hk => ?_) fun hs => bind (ends_codeAttrs he _ _) fun r => ?_
    · exact cons (ends_label he) (cons (ends_label he) (cons (ends_label he) (cons (opt fun _ => cls) nil)))
    · obtain ⟨extra, as⟩ := r
      simp only
      split
      · exact pure _
      · exact fail Usual.panic
  have e : x.write = (writeInsns .empty x.code >>= fun b => (do
      let a ← Ins.lift (assemble b)
      let env := Code.env a x.catches
      let hs ← wAll (Catch.write env) x.catches
      let (extra, as) ← writeCodeAttrs env 0 x.attrs
      if (UInt16.ofNat x.attrs.length).toNat + extra < 65536 then
        Pure.pure (u16.write x.maxStack ++ u16.write x.maxLocals ++ u32.write a.len ++ a.code ++
          u16.write (UInt16.ofNat x.catches.length) ++ hs ++
          u16.write (UInt16.ofNat x.attrs.length + UInt16.ofNat extra) ++ as)
      else Ins.fail .panic)) := by
    funext cp
    show Ins.bind (Ins.bind _ _) _ cp = Ins.bind _ _ cp
    unfold Ins.bind
    cases writeInsns .empty x.code cp <;> rfl
  rw [e]
  exact bind (ends_writeInsns _) key cp

theorem ends_methodAttr {a : MethodAttr} : Ends U a.write := by
  cases a with
  | code x => exact attr ends_code
  | deprecated => exact attr nil
  | synthetic => exact attr nil
  | signature s => exact attr wsig
  | visible as => exact attr ends_anns
  | invisible as => exact attr ends_anns
  | visibleType as => exact attr (ends_tanns ends_methodTarget)
  | invisibleType as => exact attr (ends_tanns ends_methodTarget)
  | visibleParams ps => exact attr (vec fun _ _ => ends_anns)
  | invisibleParams ps => exact attr (vec fun _ _ => ends_anns)
  | exceptions ss => exact attr (vec fun _ _ => wstr)
  | annotationDefault v => exact attr (ends_value v)
  | methodParameters ps => exact attr (vec fun _ _ => cons utf8Opt (cons flags nil))
  | raw a => exact rawAttr

theorem ends_method {m : Method} : Ends U m.write :=
  cons flags (cons wutf8 (cons wtype (cons (vec fun _ _ => ends_methodAttr) nil)))

theorem ends_bsm {b : Bsm} : Ends U b.write :=
  cons (idx handle) (cons num (cons (all fun _ _ => idx (orDynamic fun _ => const)) nil))

theorem ends_batches (i : Nat) (cp : VecCp) : REnds U (writeBatches i cp) := by
  fun_induction writeBatches i cp with
  | case1 => exact REnds.ok _
  | case2 i cp h0 h1 e he => exact REnds.error (Ends.all (fun _ _ => ends_bsm) _ _ he)
  | case3 i cp h0 h1 b cp1 e1 hn e he ih => exact REnds.error (ih _ he)
  | case4 => exact REnds.ok _
  | case5 i cp h0 h1 b cp1 e1 hn => exact absurd ((round_bsm e1).2 (by intro h; simp [h] at h0)) hn
  | case6 => exact REnds.error Usual.panic

theorem ends_bootstrap : Ends U wBootstrap := by
  intro cp
  unfold wBootstrap
  split
  · exact REnds.ok _
  · split
    · rename_i e he
      exact REnds.error (ends_batches _ _ _ he)
    · split
      · rename_i e he
        exact REnds.error (wutf8 _ _ he)
      · split
        · exact REnds.ok _
        · exact REnds.error Usual.panic

theorem ends_body {x : Class}
    (h : ∀ s, .debugExtension s ∈ x.attrs → Wtf8.codepoints s = none → U .ub) : Ends U x.writeBody :=
  cons flags (cons (idx cls) (cons (opt fun _ => cls) (cons (cut fun _ _ => idx cls) (cons (cut fun _ _ => ends_field)
    (cons (cut fun _ _ => ends_method) (cons (cut fun a ha => ends_classAttr fun s e => h s (e ▸ ha)) nil))))))

/-! ## The pool and the class -/

theorem legible_codepoints {s : Bytes} (h : Legible s) : Wtf8.codepoints s ≠ none := by
  obtain ⟨cs, h⟩ := h
  rw [Wtf8.codepoints_loose h]
  simp

theorem legible_fitting {s : Bytes} (h : Fitting s) : Legible s := by
  obtain ⟨v, ⟨cs, h1, h2, _⟩, _⟩ := h
  exact ⟨cs, h2 ▸ Wtf8.LooseEnc_of_encode cs h1.1⟩

omit [Usual U] in
theorem ends_entry {e : Entry} (h : U .ub ∨ ∀ s, e = .utf8 s → Legible s) : REnds U e.write := by
  cases e with
  | utf8 s =>
    rw [Entry.write, writeString, Mutf8.encode]
    rcases hc : Wtf8.codepoints s with _ | cs
    · rcases h with h | h
      · exact REnds.error h
      · exact absurd hc (legible_codepoints (h s rfl))
    · exact REnds.ok _
  | _ => exact REnds.ok _

omit [Usual U] in
theorem ends_pool {cp : VecCp} (h : U .ub ∨ ∀ s, .utf8 s ∈ cp.entries → Legible s) : REnds U cp.write := by
  have key : ∀ es : List Entry, (U .ub ∨ ∀ s, .utf8 s ∈ es → Legible s) → REnds U (writeAll Entry.write es) := by
    intro es h
    induction es with
    | nil => exact REnds.ok _
    | cons e es ih =>
      refine REnds.bind (ends_entry (h.imp_right fun h s e => h s (by simp [e]))) fun _ _ =>
        REnds.bind (ih (h.imp_right fun h s hs => h s (by simp [hs]))) fun _ _ => REnds.ok _
  unfold VecCp.write
  split
  · exact REnds.ok _
  · rename_i e he
    exact REnds.error (key _ h _ he)

/-- The strings in the pool of a class are its own and the names of attributes. -/
theorem class_strings {S : Bytes → Prop} (hN : ∀ n ∈ allNames, S n) {x : Class} (hs : AllClass S x) {buf : Bytes} {cp : VecCp}
    (e : wSeq [x.writeBody, wBootstrap] { VecCp.new with bsm := ownBsms x.attrs } = .ok (buf, cp)) :
    ∀ s, .utf8 s ∈ cp.entries → S s := by
  have hc0 : VecCp.Inv { VecCp.new with bsm := ownBsms x.attrs } := ⟨VecCp.inv_new.len, VecCp.inv_new.cache⟩
  obtain ⟨b1, cp1, e1, e⟩ := Ins.bind_ok e
  obtain ⟨b2', cp2, e2, e⟩ := Ins.bind_ok e
  cases e
  obtain ⟨b2, cp2', e2, e⟩ := Ins.bind_ok e2
  cases e
  have f1 := eff_classBody hN hs _ _ _ e1
  have hb1 : cp1.bsm = usedBsms x := by rw [f1.1, ownBsms_eq]; rfl
  have h1 : ∀ s, .utf8 s ∈ cp1.entries → S s := fun s hm => by
    rcases f1.2.1 s hm with h | h
    · cases h
    · exact h
  unfold wBootstrap at e2
  split at e2
  · cases e2
    exact h1
  · rcases e3 : writeBatches 0 cp1 with e | ⟨n, b, cp3⟩
    · rw [e3] at e2
      cases e2
    · rw [e3] at e2
      simp only at e2
      have f2 := (batches_ok e3 (by rw [hb1]; exact hs.table) (f1.2.2 hc0).1).2.2
      rcases e4 : wUtf8 N.bootstrapMethods cp3 with e | ⟨name, cp4⟩
      · rw [e4] at e2
        cases e2
      · rw [e4] at e2
        simp only at e2
        have f3 := (Eff.wutf8 (S := S) (hN N.bootstrapMethods (by decide)) _ _ _ e4).2.1
        split at e2
        · cases e2
          intro s hm
          rcases f3 s hm with h | h
          · rcases f2 s h with h | h
            · exact h1 s h
            · exact h
          · exact h
        · cases e2

theorem ends_class {x : Class} (h : U .ub ∨ LegibleClass x) : REnds U x.write := by
  unfold Class.write
  split
  · rename_i e he
    refine REnds.error (cons (ends_body fun s hs hc => ?_) (cons ends_bootstrap nil) _ _ he)
    rcases h with h | h
    · exact h
    · exact absurd hc (legible_codepoints (h.debug s hs))
  · rename_i buf cp he
    split
    · rename_i e hp
      refine REnds.error (ends_pool (h.imp_right fun h => ?_) _ hp)
      exact class_strings (fun n hn => legible_fitting (names_fitting n hn)) h.all he
    · exact REnds.ok _

end
end Verif
