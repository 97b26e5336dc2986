import Verif.Model.ReleaseWrite
import Verif.Lemmas.ReleaseRead

/-! # Writers with and without overflow checks agree unless the checks panic -/

namespace Verif
open Spec Sig opc

/-- The same for insertions and writers, on every pool. -/
def IAgrees {α : Type} (x y : Ins α) : Prop := ∀ cp, Agrees (x cp) (y cp)

namespace IAgrees

theorem refl {α : Type} (x : Ins α) : IAgrees x x := fun _ => .refl _

theorem bind {α β : Type} {x x' : Ins α} {f f' : α → Ins β} (h : IAgrees x x') (hf : ∀ a, IAgrees (f a) (f' a)) :
    IAgrees (x >>= f) (x' >>= f') := by
  intro cp
  show Agrees (Ins.bind x f cp) (Ins.bind x' f' cp)
  unfold Ins.bind
  agree h cp with ⟨a, cp⟩
  exact hf a cp

theorem lift {α : Type} {x y : Res α} (h : Agrees x y) : IAgrees (Ins.lift x) (Ins.lift y) := by
  intro cp
  unfold Ins.lift
  agree h with a
  exact .refl _

theorem ite {α : Type} {c : Prop} [Decidable c] {x y x' y' : Ins α} (h1 : IAgrees x x') (h2 : IAgrees y y') :
    IAgrees (if c then x else y) (if c then x' else y') := by
  split
  · exact h1
  · exact h2

theorem panic {α : Type} (y : Ins α) : IAgrees (Ins.fail .panic) y := fun _ h => absurd rfl h

/-- Writers that agree one by one. -/
inductive Each : List (Ins Bytes) → List (Ins Bytes) → Prop
  | nil : Each [] []
  | cons {x y : Ins Bytes} {xs ys : List (Ins Bytes)} (h : IAgrees x y) (t : Each xs ys) : Each (x :: xs) (y :: ys)

theorem seq : ∀ {xs ys : List (Ins Bytes)}, Each xs ys → IAgrees (wSeq xs) (wSeq ys)
  | _, _, .nil => .refl _
  | _, _, .cons h t => .bind h fun _ => .bind (seq t) fun _ => .refl _

theorem all {α : Type} {w w' : α → Ins Bytes} (h : ∀ a, IAgrees (w a) (w' a)) (xs : List α) :
    IAgrees (wAll w xs) (wAll w' xs) := by
  unfold wAll
  apply seq
  induction xs with
  | nil => exact .nil
  | cons x xs ih => exact .cons (h x) ih

theorem vec {ℓ α : Type} (l : NumCodec ℓ) {w w' : α → Ins Bytes} (h : ∀ a, IAgrees (w a) (w' a)) (xs : List α) :
    IAgrees (wVec l w xs) (wVec l w' xs) :=
  .ite (.bind (all h xs) fun _ => .refl _) (.refl _)

theorem idx {x y : Ins UInt16} (h : IAgrees x y) : IAgrees (wIdx x) (wIdx y) := .bind h fun _ => .refl _

theorem opt {α : Type} {f g : α → Ins UInt16} (h : ∀ a, IAgrees (f a) (g a)) : ∀ x, IAgrees (wOpt f x) (wOpt g x)
  | none => .refl _
  | some a => idx (h a)

theorem cut {α : Type} {w w' : α → Ins Bytes} (h : ∀ a, IAgrees (w a) (w' a)) (xs : List α) :
    IAgrees (wCut w xs) (wCut w' xs) := seq (.cons (.refl _) (.cons (all h xs) .nil))

theorem seq1 {a a' : Ins Bytes} (h : IAgrees a a') : IAgrees (wSeq [a]) (wSeq [a']) := seq (.cons h .nil)
theorem seq2 {a a' b b' : Ins Bytes} (h : IAgrees a a') (h2 : IAgrees b b') : IAgrees (wSeq [a, b]) (wSeq [a', b']) :=
  seq (.cons h (.cons h2 .nil))
theorem seq3 {a a' b b' c c' : Ins Bytes} (h : IAgrees a a') (h2 : IAgrees b b') (h3 : IAgrees c c') :
    IAgrees (wSeq [a, b, c]) (wSeq [a', b', c']) := seq (.cons h (.cons h2 (.cons h3 .nil)))
theorem seq4 {a a' b b' c c' d d' : Ins Bytes} (h : IAgrees a a') (h2 : IAgrees b b') (h3 : IAgrees c c')
    (h4 : IAgrees d d') : IAgrees (wSeq [a, b, c, d]) (wSeq [a', b', c', d']) :=
  seq (.cons h (.cons h2 (.cons h3 (.cons h4 .nil))))
theorem seq5 {a a' b b' c c' d d' e e' : Ins Bytes} (h : IAgrees a a') (h2 : IAgrees b b') (h3 : IAgrees c c')
    (h4 : IAgrees d d') (h5 : IAgrees e e') : IAgrees (wSeq [a, b, c, d, e]) (wSeq [a', b', c', d', e']) :=
  seq (.cons h (.cons h2 (.cons h3 (.cons h4 (.cons h5 .nil)))))

end IAgrees

open IAgrees

/-! ## Insertions -/

theorem insertEntryW_agrees (e : Entry) : IAgrees (insertRaw e) (insertEntryW e) := by
  intro cp
  unfold insertRaw insertEntryW insertRawW
  rcases cp.cache.lookup e with _ | i
  · simp only
    split
    · exact .refl _
    · exact fun h => absurd rfl h
  · exact .refl _

theorem insertWtf8W_agrees (s : Bytes) : IAgrees (insertWtf8 s) (insertWtf8W s) := insertEntryW_agrees _

theorem insertIndirectW_agrees (tag : UInt8) (s : Bytes) : IAgrees (insertIndirect tag s) (insertIndirectW tag s) := by
  refine .bind (insertWtf8W_agrees s) fun i => ?_
  split <;> first | exact insertEntryW_agrees _ | exact .panic _

theorem insertNameAndTypeW_agrees (n d : Bytes) : IAgrees (insertNameAndType n d) (insertNameAndTypeW n d) :=
  .bind (insertWtf8W_agrees _) fun _ => .bind (insertWtf8W_agrees _) fun _ => insertEntryW_agrees _

theorem insertClassW_agrees (s : Bytes) : IAgrees (insertClass s) (insertClassW s) :=
  .bind (insertWtf8W_agrees _) fun _ => insertEntryW_agrees _

theorem insertMemberW_agrees (m : MemberRef) : IAgrees (insertMember m) (insertMemberW m) :=
  .bind (insertClassW_agrees _) fun _ => .bind (insertNameAndTypeW_agrees _ _) fun _ => insertEntryW_agrees _

theorem insertMethodHandleW_agrees (h : MethodHandle) : IAgrees (insertMethodHandle h) (insertMethodHandleW h) :=
  .bind (insertMemberW_agrees _) fun _ => insertEntryW_agrees _

theorem insertConstantW_agrees : ∀ c, IAgrees (insertConstant c) (insertConstantW c)
  | .i32 _ => insertEntryW_agrees _
  | .f32 _ => insertEntryW_agrees _
  | .i64 _ => insertEntryW_agrees _
  | .f64 _ => insertEntryW_agrees _
  | .string s => insertIndirectW_agrees 8 s
  | .cls s => insertIndirectW_agrees 7 s
  | .member _ => insertMemberW_agrees _
  | .methodType _ => .bind (insertWtf8W_agrees _) fun _ => insertEntryW_agrees _
  | .methodHandle _ => insertMethodHandleW_agrees _

theorem insertDynamicW_agrees (d : Dynamic) : IAgrees (insertDynamic d) (insertDynamicW d) :=
  .bind (.refl _) fun _ => .bind (.refl _) fun _ => .bind (insertNameAndTypeW_agrees _ _) fun _ => insertEntryW_agrees _

theorem insertOrDynamicW_agrees {α : Type} {f g : α → Ins UInt16} (h : ∀ a, IAgrees (f a) (g a)) :
    ∀ x, IAgrees (insertOrDynamic f x) (insertOrDynamicW g x)
  | .dynamic d => insertDynamicW_agrees d
  | .static a => h a

/-! ## Parts of the class -/

theorem wUtf8W_agrees (s : Bytes) : IAgrees (wUtf8 s) (wUtf8W s) := idx (insertWtf8W_agrees _)
theorem wStrW_agrees (tag : UInt8) (s : Bytes) : IAgrees (wStr tag s) (wStrW tag s) := idx (insertIndirectW_agrees _ _)
theorem wTypeW_agrees (t : JType) : IAgrees (wType t) (wTypeW t) := idx (insertWtf8W_agrees _)
theorem wAttrW_agrees (n : Bytes) {x y : Ins Bytes} (h : IAgrees x y) : IAgrees (wAttr n x) (wAttrW n y) :=
  .bind (insertWtf8W_agrees _) fun _ => .bind h fun _ => .refl _
theorem wRawW_agrees (a : RawAttribute) : IAgrees (wRaw a) (wRawW a) := .bind (insertWtf8W_agrees _) fun _ => .refl _
theorem wIntW_agrees (x : Int32) : IAgrees (wInt x) (wIntW x) := idx (insertEntryW_agrees _)

mutual
theorem AnnValue.writeW_agrees : ∀ v : AnnValue, IAgrees v.write v.writeW
  | .byte x => by rw [AnnValue.write, AnnValue.writeW]; exact seq2 (.refl _) (wIntW_agrees _)
  | .char x => by rw [AnnValue.write, AnnValue.writeW]; exact seq2 (.refl _) (wIntW_agrees _)
  | .double x => by rw [AnnValue.write, AnnValue.writeW]; exact seq2 (.refl _) (idx (insertEntryW_agrees _))
  | .float x => by rw [AnnValue.write, AnnValue.writeW]; exact seq2 (.refl _) (idx (insertEntryW_agrees _))
  | .int x => by rw [AnnValue.write, AnnValue.writeW]; exact seq2 (.refl _) (wIntW_agrees _)
  | .long x => by rw [AnnValue.write, AnnValue.writeW]; exact seq2 (.refl _) (idx (insertEntryW_agrees _))
  | .short x => by rw [AnnValue.write, AnnValue.writeW]; exact seq2 (.refl _) (wIntW_agrees _)
  | .boolean x => by rw [AnnValue.write, AnnValue.writeW]; exact seq2 (.refl _) (wIntW_agrees _)
  | .string s => by rw [AnnValue.write, AnnValue.writeW]; exact seq2 (.refl _) (wUtf8W_agrees _)
  | .enum t name => by rw [AnnValue.write, AnnValue.writeW]; exact seq3 (.refl _) (wTypeW_agrees _) (wUtf8W_agrees _)
  | .cls t => by unfold AnnValue.write AnnValue.writeW; exact seq2 (.refl _) (wUtf8W_agrees _)
  | .annotation t vals => by
    rw [AnnValue.write, AnnValue.writeW]
    exact seq4 (.refl _) (wTypeW_agrees _) (.refl _) (AnnValue.writeElemsW_agrees vals)
  | .array vs => by
    rw [AnnValue.write, AnnValue.writeW]
    exact seq3 (.refl _) (.refl _) (AnnValue.writeListW_agrees vs)
theorem AnnValue.writeListW_agrees : ∀ vs : List AnnValue, IAgrees (AnnValue.writeList vs) (AnnValue.writeListW vs)
  | [] => by rw [AnnValue.writeList, AnnValue.writeListW]; exact .refl _
  | v :: vs => by
    rw [AnnValue.writeList, AnnValue.writeListW]
    exact seq2 (AnnValue.writeW_agrees v) (AnnValue.writeListW_agrees vs)
theorem AnnValue.writeElemsW_agrees : ∀ es : List (Bytes × AnnValue),
    IAgrees (AnnValue.writeElems es) (AnnValue.writeElemsW es)
  | [] => by rw [AnnValue.writeElems, AnnValue.writeElemsW]; exact .refl _
  | (k, v) :: es => by
    rw [AnnValue.writeElems, AnnValue.writeElemsW]
    exact seq3 (wUtf8W_agrees k) (AnnValue.writeW_agrees v) (AnnValue.writeElemsW_agrees es)
end

theorem Elems.writeW_agrees (m : Elems) : IAgrees (Elems.write m) (Elems.writeW m) :=
  seq2 (.refl _) (AnnValue.writeElemsW_agrees _)
theorem Annotation.writeW_agrees (a : Annotation) : IAgrees a.write a.writeW :=
  seq2 (wTypeW_agrees _) (Elems.writeW_agrees _)

theorem TypeAnnotation.writeW_agrees {T : Type} {w w' : T → Ins Bytes} (h : ∀ t, IAgrees (w t) (w' t)) (a : TypeAnnotation T) :
    IAgrees (TypeAnnotation.write w a) (TypeAnnotation.writeW w' a) :=
  seq4 (h _) (.refl _) (wTypeW_agrees _) (Elems.writeW_agrees _)

theorem wSigW_agrees (t : Str) : IAgrees (wSig t) (wSigW t) := wUtf8W_agrees _
theorem wConstW_agrees (c : Constant) : IAgrees (wConst c) (wConstW c) := idx (insertConstantW_agrees _)
theorem wNatOptW_agrees (x : Option (Bytes × JType)) : IAgrees (wNatOpt x) (wNatOptW x) :=
  opt (fun _ => insertNameAndTypeW_agrees _ _) x
theorem wClsOptW_agrees (x : Option Bytes) : IAgrees (wClsOpt x) (wClsOptW x) := opt (insertIndirectW_agrees 7) x
theorem wUtf8OptW_agrees (x : Option Bytes) : IAgrees (wUtf8Opt x) (wUtf8OptW x) := opt insertWtf8W_agrees x

theorem Bsm.writeW_agrees (b : Bsm) : IAgrees b.write b.writeW :=
  seq3 (idx (insertMethodHandleW_agrees _)) (.refl _)
    (all (fun _ => idx (insertOrDynamicW_agrees insertConstantW_agrees _)) _)

theorem Require.writeW_agrees (x : Require) : IAgrees x.write x.writeW :=
  seq3 (wStrW_agrees _ _) (.refl _) (wUtf8OptW_agrees _)
theorem Provide.writeW_agrees (x : Provide) : IAgrees x.write x.writeW :=
  seq2 (wStrW_agrees _ _) (vec _ (wStrW_agrees 7) _)
theorem Export.writeW_agrees (x : Export) : IAgrees x.write x.writeW :=
  seq3 (wStrW_agrees _ _) (.refl _) (vec _ (wStrW_agrees 19) _)
theorem Module.writeW_agrees (x : Module) : IAgrees x.write x.writeW :=
  seq (.cons (wStrW_agrees _ _) (.cons (.refl _) (.cons (wUtf8OptW_agrees _) (.cons (vec _ Require.writeW_agrees _)
    (.cons (vec _ Export.writeW_agrees _) (.cons (vec _ Export.writeW_agrees _) (.cons (vec _ (wStrW_agrees 7) _)
      (.cons (vec _ Provide.writeW_agrees _) .nil))))))))
theorem InnerClass.writeW_agrees (x : InnerClass) : IAgrees x.write x.writeW :=
  seq4 (wStrW_agrees _ _) (wClsOptW_agrees _) (wUtf8OptW_agrees _) (.refl _)

theorem ClassAttr.writeW_agrees : ∀ a : ClassAttr, IAgrees a.write a.writeW
  | .signature _ => wAttrW_agrees _ (wSigW_agrees _)
  | .synthetic => wAttrW_agrees _ (.refl _)
  | .deprecated => wAttrW_agrees _ (.refl _)
  | .sourceFile _ => wAttrW_agrees _ (wUtf8W_agrees _)
  | .innerClasses _ => wAttrW_agrees _ (vec _ InnerClass.writeW_agrees _)
  | .enclosingMethod _ _ => wAttrW_agrees _ (seq2 (wStrW_agrees _ _) (wNatOptW_agrees _))
  | .debugExtension _ => wAttrW_agrees _ (.refl _)
  | .bootstrapMethods _ => wAttrW_agrees _ (vec _ Bsm.writeW_agrees _)
  | .module_ m => wAttrW_agrees _ (Module.writeW_agrees m)
  | .modulePackages _ => wAttrW_agrees _ (vec _ (wStrW_agrees _) _)
  | .mainClass _ => wAttrW_agrees _ (wStrW_agrees _ _)
  | .nestHost _ => wAttrW_agrees _ (wStrW_agrees _ _)
  | .nestMembers _ => wAttrW_agrees _ (vec _ (wStrW_agrees _) _)
  | .visible _ => wAttrW_agrees _ (vec _ Annotation.writeW_agrees _)
  | .invisible _ => wAttrW_agrees _ (vec _ Annotation.writeW_agrees _)
  | .visibleType _ => wAttrW_agrees _ (vec _ (TypeAnnotation.writeW_agrees fun _ => .refl _) _)
  | .invisibleType _ => wAttrW_agrees _ (vec _ (TypeAnnotation.writeW_agrees fun _ => .refl _) _)
  | .raw _ => wRawW_agrees _

theorem FieldAttr.writeW_agrees : ∀ a : FieldAttr, IAgrees a.write a.writeW
  | .deprecated => wAttrW_agrees _ (.refl _)
  | .synthetic => wAttrW_agrees _ (.refl _)
  | .signature _ => wAttrW_agrees _ (wSigW_agrees _)
  | .constantValue _ => wAttrW_agrees _ (wConstW_agrees _)
  | .visible _ => wAttrW_agrees _ (vec _ Annotation.writeW_agrees _)
  | .invisible _ => wAttrW_agrees _ (vec _ Annotation.writeW_agrees _)
  | .visibleType _ => wAttrW_agrees _ (vec _ (TypeAnnotation.writeW_agrees fun _ => .refl _) _)
  | .invisibleType _ => wAttrW_agrees _ (vec _ (TypeAnnotation.writeW_agrees fun _ => .refl _) _)
  | .raw _ => wRawW_agrees _

theorem Field.writeW_agrees (f : Field) : IAgrees f.write f.writeW :=
  seq4 (.refl _) (wUtf8W_agrees _) (wTypeW_agrees _) (vec _ FieldAttr.writeW_agrees _)

theorem MethodParameter.writeW_agrees (x : MethodParameter) : IAgrees x.write x.writeW :=
  seq2 (wUtf8OptW_agrees _) (.refl _)

/-! ## Instructions -/

theorem writeLdcW_agrees (c : OrDynamic Constant) : IAgrees (writeLdc c) (writeLdcW c) :=
  .bind (insertOrDynamicW_agrees insertConstantW_agrees c) fun _ => .refl _

theorem writePushW_agrees (c : OrDynamic Constant) : IAgrees (writePush c) (writePushW c) := by
  have h := writeLdcW_agrees
  rcases c with d | c
  · exact h _
  · cases c <;> unfold writePush writePushW <;> simp only <;>
      repeat' (first | exact h _ | exact .refl _ | refine .ite (.refl _) ?_)

theorem wOrDynW_agrees {α : Type} {f g : α → Ins UInt16} (h : ∀ a, IAgrees (f a) (g a)) (x : OrDynamic α) :
    IAgrees (wOrDyn f x) (wOrDynW g x) := idx (insertOrDynamicW_agrees h x)

theorem Insn.encodeW_agrees (i : Insn) : IAgrees i.encode i.encodeW := by
  cases i with
  | push c => exact writePushW_agrees c
  | instanceOf t => exact seq2 (.refl _) (wOrDynW_agrees (fun _ => insertClassW_agrees _) _)
  | checkCast t => exact seq2 (.refl _) (wOrDynW_agrees (fun _ => insertClassW_agrees _) _)
  | new t => exact seq2 (.refl _) (wOrDynW_agrees insertClassW_agrees _)
  | field o t m => exact seq2 (.refl _) (wOrDynW_agrees insertMemberW_agrees _)
  | invokeExact t m =>
    cases t <;> exact seq2 (.refl _) (wOrDynW_agrees insertMemberW_agrees _)
  | invokeSpecial m => exact seq2 (.refl _) (wOrDynW_agrees insertMemberW_agrees _)
  | invokeDynamic d => exact seq3 (.refl _) (idx (insertDynamicW_agrees _)) (.refl _)
  | invokeInterface m c => exact seq4 (.refl _) (wOrDynW_agrees insertMemberW_agrees _) (.refl _) (.refl _)
  | monitor m => cases m <;> exact .refl _
  | _ => exact .refl _

theorem writeInsnW_agrees (b : CodeBuf) (i : Insn) : IAgrees (writeInsn b i) (writeInsnW b i) := by
  cases i <;> first | exact .refl _ | exact .bind (Insn.encodeW_agrees _) fun _ => .refl _

theorem writeInsnsW_agrees : ∀ (is : List Insn) (b : CodeBuf), IAgrees (writeInsns b is) (writeInsnsW b is)
  | [], _ => .refl _
  | i :: is, b => .bind (writeInsnW_agrees b i) fun b => writeInsnsW_agrees is b

/-! ## Method bodies -/

theorem Agrees.bind {α β : Type} {x x' : Res α} {f f' : α → Res β} (h : Agrees x x') (hf : ∀ a, Agrees (f a) (f' a)) :
    Agrees (x >>= f) (x' >>= f') := by
  rcases Agrees.cases h with hx | ⟨_, hx, hy⟩ | ⟨a, hx, hy⟩
  · rw [hx]
    exact fun hh => absurd rfl hh
  · rw [hx, hy]
    exact .refl _
  · rw [hx, hy]
    exact hf a

theorem resolveLabelW_agrees (labels : List (Label × (Nat × Nat))) (indices : List Nat) (size idx : Nat) (l : Label) :
    Agrees (resolveLabel labels indices size idx l) (resolveLabelW labels indices size idx l) := by
  unfold resolveLabel resolveLabelW
  rcases findLabel labels l with _ | ⟨b, o⟩
  · exact .refl _
  simp only
  rcases startOf indices b with _ | s
  · exact .refl _
  simp only
  split
  · split
    · rename_i h1 h2
      refine fun _ => ?_
      congr 1
      apply Int32.toInt_inj.mp
      rw [Int32.toInt_add, Int32.toInt_ofInt_of_le (by omega) (by omega)]
      rw [Int.bmod_def]
      split <;> omega
    · exact fun h => absurd rfl h
  · exact fun h => absurd rfl h

theorem resolveAllW_agrees (labels : List (Label × (Nat × Nat))) (indices : List Nat) (size idx : Nat) :
    ∀ ls, Agrees (resolveAll labels indices size idx ls) (resolveAllW labels indices size idx ls)
  | [] => .refl _
  | l :: ls => .bind (resolveLabelW_agrees _ _ _ _ l) fun _ => .bind (resolveAllW_agrees _ _ _ _ ls) fun _ => .refl _

theorem resolvePairsW_agrees (labels : List (Label × (Nat × Nat))) (indices : List Nat) (size idx : Nat) :
    ∀ ls, Agrees (resolvePairs labels indices size idx ls) (resolvePairsW labels indices size idx ls)
  | [] => .refl _
  | (_, l) :: ls => .bind (resolveLabelW_agrees _ _ _ _ l) fun _ => .bind (resolvePairsW_agrees _ _ _ _ ls) fun _ => .refl _

theorem Branch.emitW_agrees (labels : List (Label × (Nat × Nat))) (indices : List Nat) (size idx : Nat) :
    ∀ j : Branch, Agrees (j.emit labels indices size idx) (j.emitW labels indices size idx)
  | .lookup d t => .bind (resolveLabelW_agrees _ _ _ _ d) fun _ => .bind (resolvePairsW_agrees _ _ _ _ _) fun _ => .refl _
  | .table d low ls => by
    refine .bind (resolveLabelW_agrees _ _ _ _ d) fun o => ?_
    split
    · exact fun h => absurd rfl h
    rename_i hz
    simp only
    split
    · rename_i h
      refine .bind (resolveAllW_agrees _ _ _ _ ls) fun os => ?_
      have : Int32.ofInt (low.toInt + (UInt32.ofNat (ls.length - 1)).toInt32.toInt) =
          low + (UInt32.ofNat (ls.length - 1)).toInt32 := by
        apply Int32.toInt_inj.mp
        rw [Int32.toInt_add, Int32.toInt_ofInt_of_le (by omega) (by omega), Int.bmod_def]
        split <;> omega
      rw [this]
      exact .refl _
    · exact fun h => absurd rfl h
  | .jsr l => .bind (resolveLabelW_agrees _ _ _ _ l) fun _ => .refl _
  | .jump c l => by
    cases c <;> exact .bind (resolveLabelW_agrees _ _ _ _ l) fun _ => .refl _

theorem emitFromW_agrees (labels : List (Label × (Nat × Nat))) (indices : List Nat) :
    ∀ (js : List Branch) (bs : List Bytes) (r : List (Nat × Nat)),
      Agrees (emitFrom labels indices js bs r) (emitFromW labels indices js bs r)
  | j :: js, b :: bs, (s, idx) :: r => by
    rw [emitFrom, emitFromW]
    agree Branch.emitW_agrees labels indices s idx j with o
    agree emitFromW_agrees labels indices js bs r with rest
    exact .refl _
  | [], _ :: _, _ :: _ => by rw [emitFrom, emitFromW]; exact .refl _
  | [], [], _ => by rw [emitFrom.eq_3, emitFromW.eq_3] <;> first | exact .refl _ | (intros; simp_all)
  | [], _ :: _, [] => by rw [emitFrom.eq_3, emitFromW.eq_3] <;> first | exact .refl _ | (intros; simp_all)
  | _ :: _, [], _ => by rw [emitFrom.eq_3, emitFromW.eq_3] <;> first | exact .refl _ | (intros; simp_all)
  | _ :: _, _ :: _, [] => by rw [emitFrom.eq_3, emitFromW.eq_3] <;> first | exact .refl _ | (intros; simp_all)

theorem labelPosW_agrees (labels : List (Label × (Nat × Nat))) (indices : List Nat) (l : Label) :
    Agrees (labelPos labels indices l) (labelPosW labels indices l) := by
  unfold labelPos labelPosW
  rcases labels.lookup l with _ | ⟨b, o⟩
  · exact .refl _
  simp only
  rcases startOf indices b with _ | s
  · exact .refl _
  simp only
  split
  · exact .refl _
  · exact fun h => absurd rfl h

/-- The same code, and labels that agree. -/
structure Assembled.Like (a b : Assembled) : Prop where
  len : b.len = a.len
  code : b.code = a.code
  label : ∀ l, Agrees (a.label l) (b.label l)

/-- What is known of the second outcome, unless the first is a panic. -/
def AgreesR {α β : Type} (R : α → β → Prop) (x : Res α) (y : Res β) : Prop :=
  x = .error .panic ∨ (∃ e, x = .error e ∧ y = .error e) ∨ ∃ a b, x = .ok a ∧ y = .ok b ∧ R a b

theorem assembleW_agrees (b : CodeBuf) : AgreesR Assembled.Like (assemble b) (assembleW b) := by
  unfold assemble assembleW
  simp only
  rcases hintsFrom 0 b.jumps (b.buf ++ [b.cur]) with e | hints
  · exact .inr (.inl ⟨e, rfl, rfl⟩)
  simp only
  rcases layoutFrom b.labels hints 0 b.jumps (b.buf ++ [b.cur]) with e | r
  · exact .inr (.inl ⟨e, rfl, rfl⟩)
  simp only
  rcases (b.buf ++ [b.cur])[b.jumps.length]? with _ | last
  · exact .inl rfl
  simp only
  rcases b.buf ++ [b.cur] with _ | ⟨first, rest⟩
  · exact .inl rfl
  simp only
  rcases Agrees.cases (emitFromW_agrees b.labels (r.map Prod.snd) b.jumps rest r) with h | ⟨e, h, h'⟩ | ⟨a, h, h'⟩
  · rw [h]
    exact .inl rfl
  · rw [h, h']
    exact .inr (.inl ⟨e, rfl, rfl⟩)
  · rw [h, h']
    exact .inr (.inr ⟨_, _, rfl, rfl, rfl, rfl, labelPosW_agrees _ _⟩)

/-- The answers of two environments agree. -/
structure WEnv.Like (a b : WEnv) : Prop where
  label : ∀ l, Agrees (a.label l) (b.label l)
  catch_ : ∀ c, b.catch_ c = a.catch_ c

variable {env env' : WEnv}

theorem wLabel_agrees (h : env.Like env') (l : Label) : IAgrees (wLabel env l) (wLabel env' l) :=
  .bind (lift (h.label l)) fun _ => .refl _

theorem wCatch_agrees (h : env.Like env') (c : Catch) : IAgrees (wCatch env c) (wCatch env' c) := by
  unfold wCatch
  rw [h.catch_]
  exact .refl _

theorem LocalVarTarget.writeW_agrees (h : env.Like env') (t : LocalVarTarget) : IAgrees (t.write env) (t.writeW env') := by
  refine .bind (lift (h.label _)) fun s => .bind (lift (h.label _)) fun e => ?_
  split
  · exact .panic _
  · exact .refl _

theorem CodeTarget.writeW_agrees (h : env.Like env') : ∀ t : CodeTarget, IAgrees (t.write env) (t.writeW env')
  | .localVar _ => seq2 (.refl _) (vec _ (LocalVarTarget.writeW_agrees h) _)
  | .resourceVar _ => seq2 (.refl _) (vec _ (LocalVarTarget.writeW_agrees h) _)
  | .catchParam _ => seq2 (.refl _) (wCatch_agrees h _)
  | .instanceOf _ => seq2 (.refl _) (wLabel_agrees h _)
  | .new _ => seq2 (.refl _) (wLabel_agrees h _)
  | .newRef _ => seq2 (.refl _) (wLabel_agrees h _)
  | .methodRef _ => seq2 (.refl _) (wLabel_agrees h _)
  | .cast _ _ => seq3 (.refl _) (wLabel_agrees h _) (.refl _)
  | .newArg _ _ => seq3 (.refl _) (wLabel_agrees h _) (.refl _)
  | .methodArg _ _ => seq3 (.refl _) (wLabel_agrees h _) (.refl _)
  | .newRefArg _ _ => seq3 (.refl _) (wLabel_agrees h _) (.refl _)
  | .methodRefArg _ _ => seq3 (.refl _) (wLabel_agrees h _) (.refl _)

theorem VType.writeW_agrees (h : env.Like env') (v : VType) : IAgrees (v.write env) (v.writeW env') := by
  refine seq2 (.refl _) ?_
  cases v <;> first | exact .refl _ | exact wStrW_agrees _ _ | exact wLabel_agrees h _

theorem Frame.writeW_agrees (h : env.Like env') : ∀ f : Frame, IAgrees (f.write env) (f.writeW env')
  | .same _ => .refl _
  | .one _ v => .ite (seq2 (.refl _) (VType.writeW_agrees h v)) (seq3 (.refl _) (.refl _) (VType.writeW_agrees h v))
  | .chop _ _ => .refl _
  | .append _ _ => .ite (seq3 (.refl _) (.refl _) (all (VType.writeW_agrees h) _)) (.refl _)
  | .full _ _ _ => seq (.cons (.refl _) (.cons (.refl _) (.cons (.refl _) (.cons (all (VType.writeW_agrees h) _)
      (.cons (.refl _) (.cons (all (VType.writeW_agrees h) _) .nil))))))

theorem VarEntry.writeW_agrees (x : VarEntry) : IAgrees x.write x.writeW :=
  seq5 (.refl _) (.refl _) (wUtf8W_agrees _) (wTypeW_agrees _) (.refl _)
theorem VarTypeEntry.writeW_agrees (x : VarTypeEntry) : IAgrees x.write x.writeW :=
  seq5 (.refl _) (.refl _) (wUtf8W_agrees _) (wSigW_agrees _) (.refl _)

theorem CodeAttr.writeW_agrees (h : env.Like env') : ∀ a : CodeAttr, IAgrees (a.write env) (a.writeW env')
  | .lines _ => wAttrW_agrees _ (.refl _)
  | .vars _ => wAttrW_agrees _ (vec _ VarEntry.writeW_agrees _)
  | .varTypes _ => wAttrW_agrees _ (vec _ VarTypeEntry.writeW_agrees _)
  | .invisibleType _ => wAttrW_agrees _ (vec _ (TypeAnnotation.writeW_agrees (CodeTarget.writeW_agrees h)) _)
  | .visibleType _ => wAttrW_agrees _ (vec _ (TypeAnnotation.writeW_agrees (CodeTarget.writeW_agrees h)) _)
  | .frames _ => wAttrW_agrees _ (vec _ (Frame.writeW_agrees h) _)
  | .raw _ => wRawW_agrees _

theorem Catch.writeW_agrees (h : env.Like env') (c : Catch) : IAgrees (c.write env) (c.writeW env') :=
  seq4 (wLabel_agrees h _) (wLabel_agrees h _) (wLabel_agrees h _) (opt insertClassW_agrees _)

theorem rangeOfW_agrees (h : env.Like env') (a b : Label) : Agrees (rangeOf env a b) (rangeOfW env' a b) := by
  unfold rangeOf rangeOfW
  agree h.label a with s
  agree h.label b with e
  split
  · exact fun h => absurd rfl h
  · exact .refl _

theorem LocalVariable.varEntriesW_agrees (h : env.Like env') (v : LocalVariable) :
    Agrees (v.varEntries env) (v.varEntriesW env') := by
  unfold varEntries varEntriesW
  rcases v.descriptor with _ | d
  · exact .refl _
  simp only
  agree rangeOfW_agrees h v.start v.stop with ⟨s, n⟩
  exact .refl _

theorem LocalVariable.varTypeEntriesW_agrees (h : env.Like env') (v : LocalVariable) :
    Agrees (v.varTypeEntries env) (v.varTypeEntriesW env') := by
  unfold varTypeEntries varTypeEntriesW
  rcases v.signature with _ | d
  · exact .refl _
  simp only
  agree rangeOfW_agrees h v.start v.stop with ⟨s, n⟩
  exact .refl _

theorem splitVarsW_agrees (h : env.Like env') : ∀ vs, Agrees (splitVars env vs) (splitVarsW env' vs)
  | [] => .refl _
  | v :: vs => .bind (v.varEntriesW_agrees h) fun _ => .bind (v.varTypeEntriesW_agrees h) fun _ =>
    .bind (splitVarsW_agrees h vs) fun _ => .refl _

theorem CodeAttribute.lowerW_agrees (h : env.Like env') : ∀ a : CodeAttribute, Agrees (a.lower env) (a.lowerW env')
  | .visibleType _ => .refl _
  | .invisibleType _ => .refl _
  | .locals vs => by
    refine .bind (splitVarsW_agrees h vs) fun r => ?_
    rcases r with ⟨_ | ⟨a, as⟩, _ | ⟨b, bs⟩⟩ <;> exact .refl _
  | .raw _ => .refl _

/-- The counter of `writeCodeAttrs` as a 16-bit number. -/
theorem writeCodeAttrsW_agrees (h : env.Like env') : ∀ (as : List CodeAttribute) (n : Nat) (cp : VecCp),
    AgreesR (fun a b => b = ((UInt16.ofNat a.1.1, a.1.2), a.2)) (writeCodeAttrs env n as cp)
      (writeCodeAttrsW env' (UInt16.ofNat n) as cp)
  | [], n, cp => .inr (.inr ⟨_, _, rfl, rfl, rfl⟩)
  | a :: as, n, cp => by
    show AgreesR _ (Ins.bind (Ins.lift (a.lower env)) _ cp) (Ins.bind (Ins.lift (a.lowerW env')) _ cp)
    unfold Ins.bind Ins.lift
    rcases Agrees.cases (a.lowerW_agrees h) with hx | ⟨e, hx, hy⟩ | ⟨ls, hx, hy⟩
    · rw [hx]
      exact .inl rfl
    · rw [hx, hy]
      exact .inr (.inl ⟨e, rfl, rfl⟩)
    rw [hx, hy]
    simp only
    split
    rotate_left
    · exact .inl rfl
    show AgreesR _ (Ins.bind (wAll (CodeAttr.write env) ls) _ cp) (Ins.bind (wAll (CodeAttr.writeW env') ls) _ cp)
    unfold Ins.bind
    rcases Agrees.cases (all (CodeAttr.writeW_agrees h) ls cp) with hx | ⟨e, hx, hy⟩ | ⟨⟨b, cp1⟩, hx, hy⟩
    · rw [hx]
      exact .inl rfl
    · rw [hx, hy]
      exact .inr (.inl ⟨e, rfl, rfl⟩)
    rw [hx, hy]
    simp only
    have ih := writeCodeAttrsW_agrees h as (n + (ls.length - 1)) cp1
    rw [UInt16.ofNat_add] at ih
    show AgreesR _ (Ins.bind (writeCodeAttrs env (n + (ls.length - 1)) as) _ cp1)
      (Ins.bind (writeCodeAttrsW env' (UInt16.ofNat n + UInt16.ofNat (ls.length - 1)) as) _ cp1)
    unfold Ins.bind
    rcases ih with hx | ⟨e, hx, hy⟩ | ⟨⟨⟨m, bs⟩, cp2⟩, _, hx, hy, rfl⟩
    · rw [hx]
      exact .inl rfl
    · rw [hx, hy]
      exact .inr (.inl ⟨e, rfl, rfl⟩)
    rw [hx, hy]
    exact .inr (.inr ⟨_, _, rfl, rfl, rfl⟩)

theorem writeCodeW_agrees (is : List Insn) (cp : VecCp) :
    AgreesR (fun a b => a.1.Like b.1 ∧ b.2 = a.2) (writeCode is cp) (writeCodeW is cp) := by
  show AgreesR _ (Ins.bind (writeInsns .empty is) _ cp) (Ins.bind (writeInsnsW .empty is) _ cp)
  unfold Ins.bind
  rcases Agrees.cases (writeInsnsW_agrees is .empty cp) with hx | ⟨e, hx, hy⟩ | ⟨⟨b, cp1⟩, hx, hy⟩
  · rw [hx]
    exact .inl rfl
  · rw [hx, hy]
    exact .inr (.inl ⟨e, rfl, rfl⟩)
  rw [hx, hy]
  simp only
  unfold Ins.lift
  rcases assembleW_agrees b with hx | ⟨e, hx, hy⟩ | ⟨a, a', hx, hy, hr⟩
  · rw [hx]
    exact .inl rfl
  · rw [hx, hy]
    exact .inr (.inl ⟨e, rfl, rfl⟩)
  rw [hx, hy]
  exact .inr (.inr ⟨_, _, rfl, rfl, hr, rfl⟩)

theorem Code.writeW_agrees (c : Code) : IAgrees c.write c.writeW := by
  intro cp
  show Agrees (Ins.bind (writeCode c.code) _ cp) (Ins.bind (writeCodeW c.code) _ cp)
  unfold Ins.bind
  rcases writeCodeW_agrees c.code cp with hx | ⟨e, hx, hy⟩ | ⟨⟨a, cp1⟩, ⟨a', cp1'⟩, hx, hy, hr, hc⟩
  · rw [hx]
    exact fun hh => absurd rfl hh
  · rw [hx, hy]
    exact .refl _
  rw [hx, hy]
  simp only
  simp only at hc hr
  subst cp1'
  have henv : (Code.env a c.catches).Like (Code.env a' c.catches) := ⟨hr.label, fun _ => rfl⟩
  show Agrees (Ins.bind (wAll (Catch.write (Code.env a c.catches)) c.catches) _ cp1)
    (Ins.bind (wAll (Catch.writeW (Code.env a' c.catches)) c.catches) _ cp1)
  unfold Ins.bind
  agree all (Catch.writeW_agrees henv) c.catches cp1 with ⟨hs, cp2⟩
  show Agrees (Ins.bind (writeCodeAttrs (Code.env a c.catches) 0 c.attrs) _ cp2)
    (Ins.bind (writeCodeAttrsW (Code.env a' c.catches) 0 c.attrs) _ cp2)
  unfold Ins.bind
  rcases writeCodeAttrsW_agrees henv c.attrs 0 cp2 with hx | ⟨e, hx, hy⟩ | ⟨⟨⟨m, bs⟩, cp3⟩, _, hx, hy, rfl⟩
  · rw [hx]
    exact fun hh => absurd rfl hh
  · rw [hx, show writeCodeAttrsW (Code.env a' c.catches) 0 c.attrs cp2 = _ from hy]
    exact .refl _
  rw [hx, show writeCodeAttrsW (Code.env a' c.catches) 0 c.attrs cp2 = _ from hy]
  simp only
  rw [hr.len, hr.code]
  split
  · exact .refl _
  · exact fun hh => absurd rfl hh

/-! ## Classes -/

theorem MethodAttr.writeW_agrees : ∀ a : MethodAttr, IAgrees (MethodAttr.write a) (MethodAttr.writeW a)
  | .code x => wAttrW_agrees _ x.writeW_agrees
  | .deprecated => wAttrW_agrees _ (.refl _)
  | .synthetic => wAttrW_agrees _ (.refl _)
  | .signature _ => wAttrW_agrees _ (wSigW_agrees _)
  | .visible _ => wAttrW_agrees _ (vec _ Annotation.writeW_agrees _)
  | .invisible _ => wAttrW_agrees _ (vec _ Annotation.writeW_agrees _)
  | .visibleType _ => wAttrW_agrees _ (vec _ (TypeAnnotation.writeW_agrees fun _ => .refl _) _)
  | .invisibleType _ => wAttrW_agrees _ (vec _ (TypeAnnotation.writeW_agrees fun _ => .refl _) _)
  | .visibleParams _ => wAttrW_agrees _ (vec _ (vec _ Annotation.writeW_agrees) _)
  | .invisibleParams _ => wAttrW_agrees _ (vec _ (vec _ Annotation.writeW_agrees) _)
  | .exceptions _ => wAttrW_agrees _ (vec _ (wStrW_agrees _) _)
  | .annotationDefault v => wAttrW_agrees _ v.writeW_agrees
  | .methodParameters _ => wAttrW_agrees _ (vec _ MethodParameter.writeW_agrees _)
  | .raw _ => wRawW_agrees _

theorem Method.writeW_agrees (m : Method) : IAgrees (Method.write m) (Method.writeW m) :=
  seq4 (.refl _) (wUtf8W_agrees _) (wTypeW_agrees _) (vec _ MethodAttr.writeW_agrees _)

/-- The number of bootstrap methods as a 16-bit number. -/
theorem writeBatchesW_agrees (i : Nat) (cp : VecCp) :
    AgreesR (fun a b => b = (UInt16.ofNat a.1, a.2)) (writeBatches i cp) (writeBatchesW (UInt16.ofNat i) cp) := by
  rw [writeBatches, writeBatchesW]
  split
  · exact .inr (.inr ⟨_, _, rfl, rfl, rfl⟩)
  split
  rotate_left
  · exact .inl rfl
  rcases Agrees.cases (all Bsm.writeW_agrees cp.bsm { cp with bsm := [] }) with hx | ⟨e, hx, hy⟩ | ⟨⟨bs, cp'⟩, hx, hy⟩
  · rw [hx]
    exact .inl rfl
  · rw [hx, hy]
    exact .inr (.inl ⟨e, rfl, rfl⟩)
  rw [hx, hy]
  simp only
  split
  rotate_left
  · exact .inr (.inl ⟨_, rfl, rfl⟩)
  have ih := writeBatchesW_agrees (i + cp.bsm.length % 65536) cp'
  have hn : UInt16.ofNat (i + cp.bsm.length % 65536) = UInt16.ofNat i + UInt16.ofNat cp.bsm.length := by
    rw [UInt16.ofNat_add]
    congr 1
    apply UInt16.toNat_inj.mp
    rw [UInt16.toNat_ofNat', UInt16.toNat_ofNat']
    omega
  rw [hn] at ih
  rcases ih with hx | ⟨e, hx, hy⟩ | ⟨⟨m, bs', cp2⟩, _, hx, hy, rfl⟩
  · rw [hx]
    exact .inl rfl
  · rw [hx, hy]
    exact .inr (.inl ⟨e, rfl, rfl⟩)
  rw [hx, hy]
  exact .inr (.inr ⟨_, _, rfl, rfl, rfl⟩)
termination_by bsmNodes cp.bsm

theorem wBootstrapW_agrees : IAgrees wBootstrap wBootstrapW := by
  intro cp
  unfold wBootstrap wBootstrapW
  split
  · exact .refl _
  rcases writeBatchesW_agrees 0 cp with hx | ⟨e, hx, hy⟩ | ⟨⟨m, bs, cp1⟩, _, hx, hy, rfl⟩
  · rw [hx]
    exact fun hh => absurd rfl hh
  · rw [hx, show writeBatchesW 0 cp = _ from hy]
    exact .refl _
  rw [hx, show writeBatchesW 0 cp = _ from hy]
  simp only
  agree wUtf8W_agrees N.bootstrapMethods cp1 with ⟨name, cp2⟩
  split
  · refine fun _ => ?_
    have : UInt32.ofNat (bs.length % 4294967296 + 2) = UInt32.ofNat bs.length + 2 := by
      apply UInt32.toNat_inj.mp
      rw [UInt32.toNat_add, UInt32.toNat_ofNat', UInt32.toNat_ofNat']
      simp only [UInt32.toNat_ofNat]
    rw [this]
  · exact fun hh => absurd rfl hh

theorem ClassAttr.writeOtherW_agrees (a : ClassAttr) : IAgrees a.writeOther a.writeOtherW := by
  have h := ClassAttr.writeW_agrees a
  cases a <;> first | exact h | exact .refl _

theorem Class.writeBodyW_agrees (x : Class) : IAgrees (Class.writeBody x) (Class.writeBodyW x) :=
  seq (.cons (.refl _) (.cons (idx (insertClassW_agrees _)) (.cons (opt insertClassW_agrees _)
    (.cons (cut (fun _ => idx (insertClassW_agrees _)) _) (.cons (cut Field.writeW_agrees _)
      (.cons (cut Method.writeW_agrees _) (.cons (cut ClassAttr.writeOtherW_agrees _) .nil)))))))

theorem Class.writeW_agrees (x : Class) : Agrees (Class.write x) (Class.writeW x) := by
  unfold Class.write Class.writeW
  agree seq2 (Class.writeBodyW_agrees x) wBootstrapW_agrees { VecCp.new with bsm := ownBsms x.attrs } with ⟨buf, cp⟩
  exact .refl _

end Verif
