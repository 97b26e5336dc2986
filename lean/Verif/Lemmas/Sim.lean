import Verif.Lemmas.Ends
import Verif.Model.Shared
import Verif.Spec.Rewrite

/-! # Two writers that register different bootstrap methods

A writer never looks at the bootstrap methods that have been registered, only at their number. So if one writer
registers `F b` where another registers `b`, and they do the same otherwise, then they give the same bytes. -/

namespace Verif
open Spec Sig

/-- The pool with other bootstrap methods. -/
def VecCp.bmap (F : Bsm → Bsm) (cp : VecCp) : VecCp := { cp with bsm := cp.bsm.map F }

/-- The same for a result. -/
def rmap {α : Type} (F : Bsm → Bsm) : Res (α × VecCp) → Res (α × VecCp)
  | .ok (a, cp) => .ok (a, cp.bmap F)
  | .error e => .error e

/-- `w'` registers `F b` where `w` registers `b`. -/
def Sim {α : Type} (F : Bsm → Bsm) (w w' : Ins α) : Prop := ∀ cp, w' (cp.bmap F) = rmap F (w cp)

namespace Sim
variable {F : Bsm → Bsm} {α β : Type}

theorem pure (a : α) : Sim F (Pure.pure a : Ins α) (Pure.pure a) := fun _ => rfl

theorem fail {e : Err} : Sim F (Ins.fail e : Ins α) (Ins.fail e) := fun _ => rfl

theorem lift {r : Res α} : Sim F (Ins.lift r) (Ins.lift r) := by
  intro cp
  cases r <;> rfl

theorem bind {m m' : Ins α} {f f' : α → Ins β} (h1 : Sim F m m') (h2 : ∀ a, Sim F (f a) (f' a)) :
    Sim F (m >>= f) (m' >>= f') := by
  intro cp
  show (match m' (cp.bmap F) with
    | .ok (a, cp) => f' a cp
    | .error e => .error e) = rmap F (match m cp with
    | .ok (a, cp) => f a cp
    | .error e => .error e)
  rw [h1 cp]
  rcases m cp with e | ⟨a, cp1⟩
  · rfl
  · exact h2 a cp1

theorem lift_bind {r : Res α} {f f' : α → Ins β} (h : ∀ a, r = .ok a → Sim F (f a) (f' a)) :
    Sim F (Ins.lift r >>= f) (Ins.lift r >>= f') := by
  rcases r with e | a
  · exact fun _ => rfl
  · exact h a rfl

theorem bsm (b : Bsm) : Sim F (insertBsm b) (insertBsm (F b)) := by
  intro cp
  unfold insertBsm VecCp.bmap rmap
  simp [VecCp.bmap]

theorem idx {i i' : Ins UInt16} (h : Sim F i i') : Sim F (wIdx i) (wIdx i') := bind h fun _ => pure _
theorem nil : Sim F (wSeq []) (wSeq []) := pure _

theorem cons {w w' : Ins Bytes} {ws ws' : List (Ins Bytes)} (h : Sim F w w') (hs : Sim F (wSeq ws) (wSeq ws')) :
    Sim F (wSeq (w :: ws)) (wSeq (w' :: ws')) :=
  bind h fun _ => bind hs fun _ => pure _

theorem all_map {w : α → Ins Bytes} {w' : β → Ins Bytes} {g : α → β} {xs : List α}
    (h : ∀ x ∈ xs, Sim F (w x) (w' (g x))) : Sim F (wAll w xs) (wAll w' (xs.map g)) := by
  induction xs with
  | nil => exact pure _
  | cons x xs ih => exact cons (h x (by simp)) (ih fun y hy => h y (by simp [hy]))

theorem all_maps {γ : Type} {w : β → Ins Bytes} {w' : γ → Ins Bytes} {f : α → β} {g : α → γ} {xs : List α}
    (h : ∀ x ∈ xs, Sim F (w (f x)) (w' (g x))) : Sim F (wAll w (xs.map f)) (wAll w' (xs.map g)) := by
  induction xs with
  | nil => exact pure _
  | cons x xs ih => exact cons (h x (by simp)) (ih fun y hy => h y (by simp [hy]))

theorem all {w : α → Ins Bytes} {xs : List α} (h : ∀ x ∈ xs, Sim F (w x) (w x)) : Sim F (wAll w xs) (wAll w xs) := by
  have := all_map (g := id) h
  rwa [List.map_id] at this

theorem num {c : NumCodec α} {x : α} : Sim F (wNum c x) (wNum c x) := pure _
theorem flags {t : FlagType} {f : Flags t} : Sim F (wFlags f) (wFlags f) := pure _

theorem cut_maps {γ : Type} {w : β → Ins Bytes} {w' : γ → Ins Bytes} {f : α → β} {g : α → γ} {xs : List α}
    (h : ∀ x ∈ xs, Sim F (w (f x)) (w' (g x))) : Sim F (wCut w (xs.map f)) (wCut w' (xs.map g)) := by
  unfold wCut
  rw [List.length_map, List.length_map]
  exact cons num (cons (all_maps h) nil)

theorem cut_map {w : α → Ins Bytes} {w' : β → Ins Bytes} {g : α → β} {xs : List α}
    (h : ∀ x ∈ xs, Sim F (w x) (w' (g x))) : Sim F (wCut w xs) (wCut w' (xs.map g)) := by
  have := cut_maps (f := id) h
  rwa [List.map_id] at this

theorem cut {w : α → Ins Bytes} {xs : List α} (h : ∀ x ∈ xs, Sim F (w x) (w x)) : Sim F (wCut w xs) (wCut w xs) := by
  have := cut_map (g := id) h
  rwa [List.map_id] at this

theorem opt {f : α → Ins UInt16} {x : Option α} (hf : ∀ a, Sim F (f a) (f a)) : Sim F (wOpt f x) (wOpt f x) := by
  cases x with
  | none => exact pure _
  | some a => exact idx (hf a)

theorem raw (e : Entry) : Sim F (insertRaw e) (insertRaw e) := by
  intro cp
  unfold insertRaw VecCp.bmap
  simp only
  rcases cp.cache.lookup e with _ | i
  · simp only
    split <;> rfl
  · rfl

theorem utf8 {s : Bytes} : Sim F (insertWtf8 s) (insertWtf8 s) := raw _
theorem cls {s : Bytes} : Sim F (insertClass s) (insertClass s) := bind utf8 fun _ => raw _

theorem indirect {tag : UInt8} {s : Bytes} : Sim F (insertIndirect tag s) (insertIndirect tag s) := by
  refine bind utf8 fun i => ?_
  split
  · exact raw _
  · exact raw _
  · exact raw _
  · exact raw _
  · exact fail

theorem nat {n d : Bytes} : Sim F (insertNameAndType n d) (insertNameAndType n d) :=
  bind utf8 fun _ => bind utf8 fun _ => raw _
theorem member {m : MemberRef} : Sim F (insertMember m) (insertMember m) := bind cls fun _ => bind nat fun _ => raw _
theorem handle {h : MethodHandle} : Sim F (insertMethodHandle h) (insertMethodHandle h) := bind member fun _ => raw _

theorem const {k : Constant} : Sim F (insertConstant k) (insertConstant k) := by
  cases k with
  | string s => exact indirect (tag := 8) (s := s)
  | cls s => exact indirect (tag := 7) (s := s)
  | member m => exact member
  | methodType t => exact bind utf8 fun _ => raw _
  | methodHandle h' => exact handle
  | _ => exact raw _

/-- Two dynamic constants of the same name, both without a bootstrap method or with related ones. -/
structure Pair (F : Bsm → Bsm) (d d' : Dynamic) : Prop where
  name : d'.name = d.name
  descriptor : d'.descriptor = d.descriptor
  bsm : d'.getBsm = (match d.getBsm with | .ok b => .ok (F b) | .error e => .error e)

theorem dynamic {d d' : Dynamic} (h : Pair F d d') : Sim F (insertDynamic d) (insertDynamic d') := by
  unfold insertDynamic
  rw [h.name, h.descriptor, h.bsm]
  rcases d.getBsm with e | b
  · intro cp
    rfl
  · have h : ∀ g : UInt16 → UInt16 → Entry, Sim F
        (insertBsm b >>= fun i => insertNameAndType d.name d.descriptor.display >>= fun j => insertRaw (g i j))
        (insertBsm (F b) >>= fun i => insertNameAndType d.name d.descriptor.display >>= fun j => insertRaw (g i j)) :=
      fun g => bind (bsm b) fun i => bind nat fun j => raw _
    exact h fun i j => if JType.isMethod d.descriptor then .indy i j else .dyn i j

inductive OPair (F : Bsm → Bsm) : OrDynamic α → OrDynamic α → Prop
  | dynamic {d d'} (h : Pair F d d') : OPair F (.dynamic d) (.dynamic d')
  | static (a) : OPair F (.static a) (.static a)

theorem orDynamic {f : α → Ins UInt16} (hf : ∀ a, Sim F (f a) (f a)) {x x' : OrDynamic α} (h : OPair F x x') :
    Sim F (insertOrDynamic f x) (insertOrDynamic f x') := by
  cases h with
  | dynamic h => exact dynamic h
  | static a => exact hf a

theorem vec_maps {γ ℓ : Type} {c : NumCodec ℓ} {w : β → Ins Bytes} {w' : γ → Ins Bytes} {f : α → β} {g : α → γ}
    {xs : List α} (h : ∀ x ∈ xs, Sim F (w (f x)) (w' (g x))) :
    Sim F (wVec c w (xs.map f)) (wVec c w' (xs.map g)) := by
  unfold wVec
  rw [List.length_map, List.length_map]
  split
  · exact bind (all_maps h) fun _ => pure _
  · exact fail

theorem vec {ℓ : Type} {c : NumCodec ℓ} {w : α → Ins Bytes} {xs : List α} (h : ∀ x ∈ xs, Sim F (w x) (w x)) :
    Sim F (wVec c w xs) (wVec c w xs) := by
  have := vec_maps (c := c) (f := id) (g := id) h
  rwa [List.map_id] at this

theorem wutf8 {s : Bytes} : Sim F (wUtf8 s) (wUtf8 s) := idx utf8
theorem wstr {tag : UInt8} {s : Bytes} : Sim F (wStr tag s) (wStr tag s) := idx indirect
theorem wtype {t : JType} : Sim F (wType t) (wType t) := idx utf8
theorem wsig {t : Str} : Sim F (wSig t) (wSig t) := idx utf8
theorem utf8Opt {x : Option Bytes} : Sim F (wUtf8Opt x) (wUtf8Opt x) := opt fun _ => utf8
theorem clsOpt {x : Option Bytes} : Sim F (wClsOpt x) (wClsOpt x) := opt fun _ => indirect
theorem attr {n : Bytes} {w w' : Ins Bytes} (h : Sim F w w') : Sim F (wAttr n w) (wAttr n w') :=
  bind utf8 fun _ => bind h fun _ => pure _
theorem rawAttr {a : RawAttribute} : Sim F (wRaw a) (wRaw a) := bind utf8 fun _ => pure _

end Sim

section
open Sim
variable {F : Bsm → Bsm}

mutual
theorem sim_value : (v : AnnValue) → Sim F v.write v.write
  | .byte _ => by rw [AnnValue.write]; exact cons num (cons (idx (raw _)) nil)
  | .char _ => by rw [AnnValue.write]; exact cons num (cons (idx (raw _)) nil)
  | .double _ => by rw [AnnValue.write]; exact cons num (cons (idx (raw _)) nil)
  | .float _ => by rw [AnnValue.write]; exact cons num (cons (idx (raw _)) nil)
  | .int _ => by rw [AnnValue.write]; exact cons num (cons (idx (raw _)) nil)
  | .long _ => by rw [AnnValue.write]; exact cons num (cons (idx (raw _)) nil)
  | .short _ => by rw [AnnValue.write]; exact cons num (cons (idx (raw _)) nil)
  | .boolean _ => by rw [AnnValue.write]; exact cons num (cons (idx (raw _)) nil)
  | .string s => by rw [AnnValue.write]; exact cons num (cons wutf8 nil)
  | .enum t n => by rw [AnnValue.write]; exact cons num (cons wtype (cons wutf8 nil))
  | .cls none => by rw [AnnValue.write]; exact cons num (cons wutf8 nil)
  | .cls (some t) => by rw [AnnValue.write]; exact cons num (cons wutf8 nil)
  | .annotation t vs => by rw [AnnValue.write]; exact cons num (cons wtype (cons num (cons (sim_elems vs) nil)))
  | .array vs => by rw [AnnValue.write]; exact cons num (cons num (cons (sim_values vs) nil))
theorem sim_values : (vs : List AnnValue) → Sim F (AnnValue.writeList vs) (AnnValue.writeList vs)
  | [] => by rw [AnnValue.writeList]; exact pure _
  | v :: vs => by rw [AnnValue.writeList]; exact cons (sim_value v) (cons (sim_values vs) nil)
theorem sim_elems : (vs : List (Bytes × AnnValue)) → Sim F (AnnValue.writeElems vs) (AnnValue.writeElems vs)
  | [] => by rw [AnnValue.writeElems]; exact pure _
  | (k, v) :: vs => by
    rw [AnnValue.writeElems]; exact cons wutf8 (cons (sim_value v) (cons (sim_elems vs) nil))
end

theorem sim_ann {a : Annotation} : Sim F a.write a.write := cons wtype (cons (cons num (cons (sim_elems _) nil)) nil)

theorem sim_anns {as : List Annotation} : Sim F (wVec u16 Annotation.write as) (wVec u16 Annotation.write as) := vec fun _ _ => sim_ann

theorem sim_tanns {T : Type} {w : T → Ins Bytes} (hw : ∀ t, Sim F (w t) (w t)) {as : List (TypeAnnotation T)} :
    Sim F (wVec u16 (TypeAnnotation.write w) as) (wVec u16 (TypeAnnotation.write w) as) := by
  refine vec fun a _ => cons (hw _) (cons (vec fun p _ => ?_) (cons wtype (cons (cons num (cons (sim_elems _) nil)) nil)))
  cases p <;> exact cons num (cons num nil)

theorem sim_classTarget (t : ClassTarget) : Sim F t.write t.write := by
  cases t
  · exact cons num (cons num nil)
  · exact cons num (cons num nil)
  · exact cons num (cons num (cons num nil))

theorem sim_methodTarget (t : MethodTarget) : Sim F t.write t.write := by
  cases t
  · exact cons num (cons num nil)
  · exact cons num (cons num (cons num nil))
  · exact cons num nil
  · exact cons num nil
  · exact cons num (cons num nil)
  · exact cons num (cons num nil)

theorem sim_fieldTarget (t : FieldTarget) : Sim F t.write t.write := by
  cases t
  exact cons num nil

theorem sim_fieldAttr {a : FieldAttr} : Sim F a.write a.write := by
  cases a with
  | visible as => exact attr sim_anns
  | invisible as => exact attr sim_anns
  | visibleType as => exact attr (sim_tanns sim_fieldTarget)
  | invisibleType as => exact attr (sim_tanns sim_fieldTarget)
  | constantValue k => exact attr (idx const)
  | signature s => exact attr wsig
  | raw a => exact rawAttr
  | _ => exact attr nil

theorem sim_field {f : Field} : Sim F f.write f.write :=
  cons flags (cons wutf8 (cons wtype (cons (vec fun _ _ => sim_fieldAttr) nil)))

theorem sim_module {m : Module} : Sim F m.write m.write := by
  have hs : ∀ (t : UInt8) (ss : List Bytes), Sim F (wVec u16 (wStr t) ss) (wVec u16 (wStr t) ss) := fun t ss => vec fun _ _ => wstr
  have he : ∀ es : List Export, Sim F (wVec u16 Export.write es) (wVec u16 Export.write es) := fun es =>
    vec fun _ _ => cons wstr (cons flags (cons (hs _ _) nil))
  exact cons wstr (cons flags (cons utf8Opt (cons (vec fun _ _ => cons wstr (cons flags (cons utf8Opt nil)))
    (cons (he _) (cons (he _) (cons (hs _ _) (cons (vec fun _ _ => cons wstr (cons (hs _ _) nil)) nil)))))))

theorem sim_classAttr {a : ClassAttr} : Sim F a.writeOther a.writeOther := by
  have hs : ∀ (t : UInt8) (ss : List Bytes), Sim F (wVec u16 (wStr t) ss) (wVec u16 (wStr t) ss) := fun t ss => vec fun _ _ => wstr
  cases a with
  | signature s => exact attr wsig
  | deprecated => exact attr nil
  | synthetic => exact attr nil
  | sourceFile s => exact attr wutf8
  | innerClasses xs => exact attr (vec fun _ _ => cons wstr (cons clsOpt (cons utf8Opt (cons flags nil))))
  | enclosingMethod o m => exact attr (cons wstr (cons (opt fun _ => nat) nil))
  | debugExtension s => exact attr lift
  | bootstrapMethods ms => exact nil
  | module_ m => exact attr sim_module
  | modulePackages ps => exact attr (hs _ _)
  | mainClass o => exact attr wstr
  | nestHost o => exact attr wstr
  | nestMembers ps => exact attr (hs _ _)
  | visible as => exact attr sim_anns
  | invisible as => exact attr sim_anns
  | visibleType as => exact attr (sim_tanns sim_classTarget)
  | invisibleType as => exact attr (sim_tanns sim_classTarget)
  | raw a => exact rawAttr

/-! ## Code -/

theorem sim_label {env : WEnv} {l : Label} : Sim F (wLabel env l) (wLabel env l) := bind lift fun _ => pure _

theorem sim_catch {env : WEnv} {k : Catch} : Sim F (wCatch env k) (wCatch env k) := by
  refine bind lift fun o => ?_
  split <;> exact pure _

theorem sim_codeTarget {env : WEnv} (t : CodeTarget) : Sim F (t.write env) (t.write env) := by
  have hl : ∀ ts : List LocalVarTarget,
      Sim F (wVec u16 (LocalVarTarget.write env) ts) (wVec u16 (LocalVarTarget.write env) ts) := fun ts =>
    vec fun t _ => bind lift fun s => bind lift fun e => by
      split
      · exact fail
      · exact pure _
  cases t with
  | localVar ts => exact cons num (cons (hl _) nil)
  | resourceVar ts => exact cons num (cons (hl _) nil)
  | catchParam k => exact cons num (cons sim_catch nil)
  | instanceOf l => exact cons num (cons sim_label nil)
  | new l => exact cons num (cons sim_label nil)
  | newRef l => exact cons num (cons sim_label nil)
  | methodRef l => exact cons num (cons sim_label nil)
  | _ => exact cons num (cons sim_label (cons num nil))

theorem sim_lowered {env : WEnv} {a : CodeAttribute} {ls : List CodeAttr} (e : a.lower env = .ok ls) :
    Sim F (wAll (CodeAttr.write env) ls) (wAll (CodeAttr.write env) ls) := by
  have hv : ∀ es, Sim F (CodeAttr.write env (.vars es)) (CodeAttr.write env (.vars es)) := fun es =>
    attr (vec fun _ _ => cons num (cons num (cons wutf8 (cons wtype (cons num nil)))))
  have ht : ∀ es, Sim F (CodeAttr.write env (.varTypes es)) (CodeAttr.write env (.varTypes es)) := fun es =>
    attr (vec fun _ _ => cons num (cons num (cons wutf8 (cons wsig (cons num nil)))))
  refine all fun l hl => ?_
  cases a with
  | visibleType as =>
    cases e
    rw [List.mem_singleton.mp hl]
    exact attr (sim_tanns sim_codeTarget)
  | invisibleType as =>
    cases e
    rw [List.mem_singleton.mp hl]
    exact attr (sim_tanns sim_codeTarget)
  | raw a =>
    cases e
    rw [List.mem_singleton.mp hl]
    exact rawAttr
  | locals vs =>
    obtain ⟨⟨ts, es⟩, e1, e⟩ := Res.bind_ok e
    simp only at e
    split at e
    · cases e
    · cases e
      rw [List.mem_singleton.mp hl]
      exact ht _
    · cases e
      rw [List.mem_singleton.mp hl]
      exact hv _
    · cases e
      simp only [List.mem_cons, List.not_mem_nil, or_false] at hl
      rcases hl with rfl | rfl
      · exact hv _
      · exact ht _

theorem sim_codeAttrs {env : WEnv} (n : Nat) (as : List CodeAttribute) :
    Sim F (writeCodeAttrs env n as) (writeCodeAttrs env n as) := by
  induction as generalizing n with
  | nil => exact pure _
  | cons a as ih =>
    refine lift_bind fun ls e => ?_
    simp only
    split
    · exact bind (sim_lowered e) fun _ => bind (ih _) fun _ => pure _
    · exact fail

/-- Instructions with related bootstrap methods. -/
inductive IPair (F : Bsm → Bsm) : Insn → Insn → Prop
  | push {x x'} (h : OPair F x x') : IPair F (.push x) (.push x')
  | checkCast {x x'} (h : OPair F x x') : IPair F (.checkCast x) (.checkCast x')
  | instanceOf {x x'} (h : OPair F x x') : IPair F (.instanceOf x) (.instanceOf x')
  | newArray {x x'} (n) : IPair F (.newArray x n) (.newArray x' n)
  | new {x x'} (h : OPair F x x') : IPair F (.new x) (.new x')
  | field {x x'} (o t) (h : OPair F x x') : IPair F (.field o t x) (.field o t x')
  | invokeExact {x x'} (t) (h : OPair F x x') : IPair F (.invokeExact t x) (.invokeExact t x')
  | invokeSpecial {x x'} (h : OPair F x x') : IPair F (.invokeSpecial x) (.invokeSpecial x')
  | invokeInterface {x x'} (n) (h : OPair F x x') : IPair F (.invokeInterface x n) (.invokeInterface x' n)
  | invokeDynamic {d d'} (h : Pair F d d') : IPair F (.invokeDynamic d) (.invokeDynamic d')
  | same (i) (h : insnDynamics i = []) : IPair F i i

theorem opair_refl {α : Type} {x : OrDynamic α} (h : orDynamics x = []) : OPair F x x := by
  cases x with
  | dynamic d => cases h
  | static a => exact .static a

theorem sim_ldc {c c' : OrDynamic Constant} (h : OPair F c c') : Sim F (writeLdc c) (writeLdc c') := by
  refine bind (orDynamic (fun _ => const) h) fun i => ?_
  cases h with
  | @dynamic d d' h =>
    obtain ⟨c, n, t⟩ := d
    obtain ⟨c', n', t'⟩ := d'
    obtain rfl : t' = t := h.descriptor
    simp only
    split
    · exact cons num (cons num nil)
    · split
      · exact cons num (cons num nil)
      · exact cons num (cons num nil)
  | static a =>
    simp only
    split
    · exact cons num (cons num nil)
    · split
      · exact cons num (cons num nil)
      · exact cons num (cons num nil)

theorem sim_push {c c' : OrDynamic Constant} (h : OPair F c c') : Sim F (writePush c) (writePush c') := by
  cases h with
  | dynamic h => exact sim_ldc (.dynamic h)
  | static a =>
    unfold writePush
    repeat' split
    all_goals first
      | exact num
      | exact cons num (cons num nil)
      | exact sim_ldc (.static _)

theorem sim_orDyn {α : Type} {f : α → Ins UInt16} (hf : ∀ a, Sim F (f a) (f a)) {x x' : OrDynamic α}
    (h : OPair F x x') {o : Ins Bytes} (ho : Sim F o o) {l : List (Ins Bytes)} (hl : Sim F (wSeq l) (wSeq l)) :
    Sim F (wSeq (o :: wOrDyn f x :: l)) (wSeq (o :: wOrDyn f x' :: l)) :=
  cons ho (cons (idx (orDynamic hf h)) hl)

theorem sim_same {i : Insn} (h : insnDynamics i = []) : Sim F i.encode i.encode := by
  cases i with
  | push c => exact sim_push (opair_refl h)
  | checkCast t => exact sim_orDyn (fun _ => cls) (opair_refl h) num nil
  | instanceOf t => exact sim_orDyn (fun _ => cls) (opair_refl h) num nil
  | new t => exact sim_orDyn (fun _ => cls) (opair_refl h) num nil
  | field a b m => exact sim_orDyn (fun _ => member) (opair_refl h) num nil
  | invokeExact a m => cases a <;> exact sim_orDyn (fun _ => member) (opair_refl h) num nil
  | invokeSpecial m => exact sim_orDyn (fun _ => member) (opair_refl h) num nil
  | invokeInterface m n => exact sim_orDyn (fun _ => member) (opair_refl h) num (cons num (cons (pure _) nil))
  | invokeDynamic d => cases h
  | localVariable m t l =>
    show Sim F (wideOrNormal _ _) (wideOrNormal _ _)
    unfold wideOrNormal
    split
    · exact cons num (cons num nil)
    · exact cons num (cons num (cons num nil))
  | ret l =>
    show Sim F (wideOrNormal _ _) (wideOrNormal _ _)
    unfold wideOrNormal
    split
    · exact cons num (cons num nil)
    · exact cons num (cons num (cons num nil))
  | intIncrement l n =>
    show Sim F (if _ then _ else _) (if _ then _ else _)
    split
    · exact cons num (cons num (cons num nil))
    · exact cons num (cons num (cons num (cons num nil)))
  | monitor m => cases m <;> exact num
  | conversion a b =>
    show Sim F (match conversionOp a b with | some o => op o | none => Pure.pure [])
      (match conversionOp a b with | some o => op o | none => Pure.pure [])
    split
    · exact num
    · exact pure _
  | convertInt a =>
    show Sim F (match convertIntOp a with | some o => op o | none => Pure.pure [])
      (match convertIntOp a with | some o => op o | none => Pure.pure [])
    split
    · exact num
    · exact pure _
  | _ => first | exact num | exact pure _

theorem sim_writeInsn {i i' : Insn} (h : IPair F i i') (b : CodeBuf) : Sim F (writeInsn b i) (writeInsn b i') := by
  cases h with
  | push h => exact bind (sim_push h) fun _ => pure _
  | checkCast h => exact bind (sim_orDyn (fun _ => cls) h num nil) fun _ => pure _
  | instanceOf h => exact bind (sim_orDyn (fun _ => cls) h num nil) fun _ => pure _
  | newArray n => exact bind (pure _) fun _ => pure _
  | new h => exact bind (sim_orDyn (fun _ => cls) h num nil) fun _ => pure _
  | field o t h => exact bind (sim_orDyn (fun _ => member) h num nil) fun _ => pure _
  | invokeExact t h => cases t <;> exact bind (sim_orDyn (fun _ => member) h num nil) fun _ => pure _
  | invokeSpecial h => exact bind (sim_orDyn (fun _ => member) h num nil) fun _ => pure _
  | invokeInterface n h =>
    exact bind (sim_orDyn (fun _ => member) h num (cons num (cons (pure _) nil))) fun _ => pure _
  | invokeDynamic h => exact bind (cons num (cons (idx (dynamic h)) (cons (pure _) nil))) fun _ => pure _
  | same i h =>
    cases i with
    | lookupSwitch _ _ => exact pure _
    | tableSwitch _ _ _ => exact pure _
    | jump _ _ => exact pure _
    | jsr _ => exact pure _
    | label _ => exact pure _
    | lineNumber _ => exact pure _
    | _ => exact bind (sim_same h) fun _ => pure _

theorem sim_writeInsns {is : List Insn} {f g : Insn → Insn} (h : ∀ i ∈ is, IPair F (f i) (g i)) (b : CodeBuf) :
    Sim F (writeInsns b (is.map f)) (writeInsns b (is.map g)) := by
  induction is generalizing b with
  | nil => exact pure _
  | cons i is ih =>
    exact bind (sim_writeInsn (h i (by simp)) b) fun b' => ih (fun j hj => h j (by simp [hj])) b'

theorem sim_code {x : Code} {f g : Insn → Insn} (h : ∀ i ∈ x.code, IPair F (f i) (g i)) :
    Sim F (Code.write { x with code := x.code.map f }) (Code.write { x with code := x.code.map g }) := by
  have key : ∀ b : CodeBuf, Sim F (do
      let a ← Ins.lift (assemble b)
      let env := Code.env a x.catches
      let hs ← wAll (Catch.write env) x.catches
      let (extra, as) ← writeCodeAttrs env 0 x.attrs
      if (UInt16.ofNat x.attrs.length).toNat + extra < 65536 then
        Pure.pure (u16.write x.maxStack ++ u16.write x.maxLocals ++ u32.write a.len ++ a.code ++
          u16.write (UInt16.ofNat x.catches.length) ++ hs ++
          u16.write (UInt16.ofNat x.attrs.length + UInt16.ofNat extra) ++ as)
      else Ins.fail .panic : Ins Bytes) (do
      let a ← Ins.lift (assemble b)
      let env := Code.env a x.catches
      let hs ← wAll (Catch.write env) x.catches
      let (extra, as) ← writeCodeAttrs env 0 x.attrs
      if (UInt16.ofNat x.attrs.length).toNat + extra < 65536 then
        Pure.pure (u16.write x.maxStack ++ u16.write x.maxLocals ++ u32.write a.len ++ a.code ++
          u16.write (UInt16.ofNat x.catches.length) ++ hs ++
          u16.write (UInt16.ofNat x.attrs.length + UInt16.ofNat extra) ++ as)
      else Ins.fail .panic) := by
    intro b
    refine bind lift fun a => ?_
    refine bind (all fun k hk => ?_) fun hs => bind (sim_codeAttrs _ _) fun r => ?_
    · exact cons sim_label (cons sim_label (cons sim_label (cons (opt fun _ => cls) nil)))
    · obtain ⟨extra, as⟩ := r
      simp only
      split
      · exact pure _
      · exact fail
  have e : ∀ x : Code, x.write = (writeInsns .empty x.code >>= fun b => (do
      let a ← Ins.lift (assemble b)
      let env := Code.env a x.catches
      let hs ← wAll (Catch.write env) x.catches
      let (extra, as) ← writeCodeAttrs env 0 x.attrs
      if (UInt16.ofNat x.attrs.length).toNat + extra < 65536 then
        Pure.pure (u16.write x.maxStack ++ u16.write x.maxLocals ++ u32.write a.len ++ a.code ++
          u16.write (UInt16.ofNat x.catches.length) ++ hs ++
          u16.write (UInt16.ofNat x.attrs.length + UInt16.ofNat extra) ++ as)
      else Ins.fail .panic)) := by
    intro x
    funext cp
    show Ins.bind (Ins.bind _ _) _ cp = Ins.bind _ _ cp
    unfold Ins.bind
    cases writeInsns .empty x.code cp <;> rfl
  rw [e, e]
  exact bind (sim_writeInsns h _) key

theorem sim_methodAttr {a : MethodAttr} (h : ∀ x, a ≠ .code x) : Sim F a.write a.write := by
  cases a with
  | code x => exact absurd rfl (h x)
  | deprecated => exact attr nil
  | synthetic => exact attr nil
  | signature s => exact attr wsig
  | visible as => exact attr sim_anns
  | invisible as => exact attr sim_anns
  | visibleType as => exact attr (sim_tanns sim_methodTarget)
  | invisibleType as => exact attr (sim_tanns sim_methodTarget)
  | visibleParams ps => exact attr (vec fun _ _ => sim_anns)
  | invisibleParams ps => exact attr (vec fun _ _ => sim_anns)
  | exceptions ss => exact attr (vec fun _ _ => wstr)
  | annotationDefault v => exact attr (sim_value v)
  | methodParameters ps => exact attr (vec fun _ _ => cons utf8Opt (cons flags nil))
  | raw a => exact rawAttr

end

end Verif
