import Verif.Lemmas.Bulk

/-! What the readers of annotations and attributes build. -/

namespace Verif
open Spec Sig

variable {α β γ δ : Type} {B : Nat}

theorem costs_arg : Costs B 0 (W bulkArg) rArg :=
  costs_bind costs_num fun i n hn => by
    cases (show n = price B from hn)
    refine costs_map (Q1 := W fun x => bulkOrDyn bulkConst x) (costs_lookupD fun P a p q hp h => ?_) fun x n hn => ?_
    · have := orDynamic_bulk (g := bulkConst) hp (fun a h => constant_bulk hp h) h
      simp only [price]
      omega
    · cases x with
      | static c => simp only [W, OrDynamic.toArg, bulkArg, bulkOrDyn] at *; omega
      | dynamic d => simp only [W, OrDynamic.toArg, bulkArg, bulkOrDyn, bulkDynamic] at *; omega

theorem costs_bsm : Costs B 0 (W bulkBsm) Bsm.read :=
  costs_ap (Q1 := W fun as => bulkL bulkArg as + 8)
    (costs_map (Q1 := W fun h => bulkHandle h + 8) (costs_idxR fun P i a hp h => by
      have := methodHandle_bulk hp h
      simp only [price]
      omega) fun h n hn as m hm => by simp only [W, bulkBsm] at *; omega) (costs_vec costs_arg)

/-! ## Annotations -/

theorem put_bulk (k : Bytes) (v : AnnValue) : ∀ m : Elems, bulkElems (m.put k v) ≤ bulkElems m + bulkS k + bulkValue v
  | [] => by simp only [Elems.put, bulkElems]; omega
  | (k', v') :: m => by
    have := put_bulk k v m
    unfold Elems.put
    split <;> simp only [bulkElems] <;> omega

theorem puts_bulk : ∀ (ps : List (Bytes × AnnValue)) (m : Elems),
    bulkElems (ps.foldl (fun (m : Elems) p => m.put p.1 p.2) m) + 1 ≤
      bulkElems m + bulkL (fun p => bulkS p.1 + bulkValue p.2) ps
  | [], m => by simp only [List.foldl_nil, bulkL]; omega
  | p :: ps, m => by
    have h1 := puts_bulk ps (m.put p.1 p.2)
    have h2 := put_bulk p.1 p.2 m
    simp only [List.foldl_cons, bulkL]
    omega

theorem costs_elemsWith {r : Rd AnnValue} (h : Costs B 0 (W bulkValue) r) :
    Costs B 0 (W fun m => bulkElems m + 8) (Elems.readWith r) :=
  costs_map (Q1 := W fun ps => bulkL (fun p : Bytes × AnnValue => bulkS p.1 + bulkValue p.2) ps + 8)
    (costs_vec (costs_bind costs_utf8 fun k n (hn : _ ≤ _) =>
      costs_map (h.frame (k := n) (Q' := fun v m => bulkValue v + n ≤ m) (by omega) fun v m (hm : _ ≤ _) => by omega)
        fun v m hm => by tally))
    fun ps n hn => by
      have := puts_bulk ps []
      simp only [W, bulkElems] at *
      omega

theorem bulkValues_eq : ∀ vs, bulkL bulkValue vs = bulkValues vs
  | [] => rfl
  | v :: vs => by simp only [bulkL, bulkValues, bulkValues_eq vs]

theorem costs_intIn {lo hi : Int} {f : Int32 → AnnValue} (hf : ∀ x, bulkValue (f x) = 1) :
    Costs B 0 (W bulkValue) (rIntIn lo hi f) :=
  costs_bind (Q1 := W fun _ => 1) (costs_idx fun P i a _ _ => by unfold price; omega) fun x n (hn : _ ≤ _) =>
    costs_ite (costs_pure (show _ ≤ _ by rw [hf]; exact hn)) costs_fail

theorem costs_num1 {f : Pool → UInt16 → Option α} {g : α → AnnValue} (hg : ∀ x, bulkValue (g x) = 1) :
    Costs B 0 (W bulkValue) (Rd.map g (rIdx f)) :=
  costs_map (Q1 := W fun _ => 1) (costs_idx fun P i a _ _ => by unfold price; omega) fun x n (hn : _ ≤ _) =>
    show _ ≤ _ by rw [hg]; exact hn

theorem costs_classText : Costs B 0 (W fun t => bulkO bulkType t + 8) rClassText :=
  costs_bind costs_text fun s n (hn : 16 * s.length + 16 ≤ n) => by
    split
    · exact costs_pure (show 0 + 8 ≤ n by omega)
    · exact costs_map (Q1 := W fun t => bulkType t + 8) (costs_ofRes fun t ht => by
        have := parseType_bulk ht
        tally) fun t n hn => hn

theorem costs_valueF : ∀ n, Costs B 0 (W bulkValue) (AnnValue.readF n)
  | 0 => costs_fail
  | n + 1 => by
    have ih : Costs B 0 (W bulkValue) (AnnValue.readF n) := costs_valueF n
    refine costs_bind costs_num fun t p hp => Costs.mono (c := 0) ?_ (Nat.zero_le _) fun _ _ h => h
    repeat' refine costs_ite ?_ ?_
    all_goals first
      | exact costs_intIn fun _ => rfl
      | exact costs_num1 fun _ => rfl
      | exact costs_map costs_utf8 fun _ _ _ => by simp only [W, bulkValue] at *; omega
      | exact costs_ap (costs_map costs_type fun _ _ _ _ _ _ => by simp only [W, bulkValue] at *; omega) costs_utf8
      | exact costs_map costs_classText fun _ _ _ => by simp only [W, bulkValue] at *; omega
      | exact costs_ap (costs_map costs_type fun _ _ _ _ _ _ => by simp only [W, bulkValue] at *; omega) (costs_elemsWith ih)
      | exact costs_map (costs_vec ih) fun _ _ _ => by simp only [W, bulkValue, bulkValues_eq] at *; omega
      | exact costs_fail

theorem costs_value : Costs B 0 (W bulkValue) AnnValue.read := fun env st bs => costs_valueF (bs.length + 1) env st bs

theorem costs_elems : Costs B 0 (W fun m => bulkElems m + 8) Elems.read := costs_elemsWith costs_value

theorem costs_annotation : Costs B 0 (W bulkAnn) Annotation.read :=
  costs_ap (costs_map costs_type fun _ _ _ _ _ _ => by simp only [W, bulkAnn] at *; omega) costs_elems

/-! ## Type annotations -/

theorem costs_unit {c : NumCodec α} (hc : 1 ≤ c.size := by decide) : Costs B 0 (W fun _ => 8) (rNum c) :=
  (costs_num hc).mono (Nat.le_refl _) fun _ n hn => by
    have : n = price B := hn
    simp only [W, this, price]
    omega

/-- Some numbers. -/
theorem costs_small {f : UInt8 → Rd α} (h : ∀ t, Costs B 1 (W fun _ => 1) (f t)) :
    Costs B 0 (W fun _ => 1) (Rd.bind (rNum u8) f) :=
  costs_bind (costs_unit (c := u8)) fun t n (hn : 8 ≤ n) => (h t).mono (by omega) fun _ _ h => h

theorem costs_one {c : NumCodec α} (hc : 1 ≤ c.size := by decide) : Costs B 0 (W fun _ => 1) (rNum c) :=
  (costs_unit hc).mono (Nat.le_refl _) fun _ n (hn : 8 ≤ n) => show 1 ≤ n by omega

theorem Costs.more {c : Nat} {Q : α → Nat → Prop} {r : Rd α} (h : Costs B 0 Q r) : Costs B c Q r :=
  h.mono (Nat.zero_le _) fun _ _ h => h

theorem costs_num2 {f : UInt8 → UInt8 → α} :
    Costs B 1 (W fun _ => 1) (Rd.ap (Rd.map f (rNum u8)) (rNum u8)) :=
  costs_ap (Q1 := W fun _ => 1) (costs_map (Costs.more costs_one) fun _ n (hn : 1 ≤ n) _ m _ => show 1 ≤ n + m by omega) costs_one

theorem costs_classTarget : Costs B 0 (W fun _ => 1) ClassTarget.read := costs_small fun _ => by
  repeat' refine costs_ite ?_ ?_
  all_goals first
    | exact costs_map (Costs.more costs_one) fun _ _ h => h
    | exact costs_num2
    | exact costs_fail

theorem costs_methodTarget : Costs B 0 (W fun _ => 1) MethodTarget.read := costs_small fun _ => by
  repeat' refine costs_ite ?_ ?_
  all_goals first
    | exact costs_pure (Nat.le_refl _)
    | exact costs_map (Costs.more costs_one) fun _ _ h => h
    | exact costs_num2
    | exact costs_fail

theorem costs_fieldTarget : Costs B 0 (W fun _ => 1) FieldTarget.read := costs_small fun _ => by
  split <;> first | exact costs_pure (Nat.le_refl _) | exact costs_fail

theorem costs_pathStep : Costs B 0 (W fun _ => 1) PathStep.read := costs_small fun _ => by
  repeat' refine costs_ite ?_ ?_
  all_goals first
    | exact costs_map (Costs.more costs_one) fun _ _ h => h
    | exact costs_fail

theorem bulkL_one : ∀ xs : List α, bulkL (fun _ => 1) xs = 1 + xs.length
  | [] => rfl
  | x :: xs => by simp only [bulkL, bulkL_one xs, List.length_cons]; omega

theorem costs_localTarget : Costs B 0 (W fun _ => 1) LocalVarTarget.read :=
  costs_bind costs_unit fun s n (hn : 8 ≤ n) => costs_bind ((costs_getLabel (c := 7)).mono (by omega) fun _ _ h => h)
    fun _ n (hn : 7 ≤ n) => costs_bind (Costs.more costs_unit) fun _ n (hn : 8 ≤ n) =>
    costs_bind ((costs_getLabel (c := 7)).mono (by omega) fun _ _ h => h) fun _ n _ =>
      costs_map (Costs.more costs_one) fun _ _ h => h

theorem costs_codeTarget : Costs B 0 (W fun t => bulkTarget t + 4) CodeTarget.read :=
  costs_bind costs_num fun t p hp => Costs.more (by
    repeat' refine costs_ite ?_ ?_
    all_goals first
      | exact costs_map (costs_vec costs_localTarget) fun _ _ _ => by simp only [W, bulkL_one, bulkTarget] at *; omega
      | exact costs_map costs_catch fun _ _ _ => by simp only [W, bulkTarget] at *; omega
      | exact costs_map costs_label fun _ _ _ => by simp only [W, bulkTarget] at *; omega
      | exact costs_ap (Q1 := W fun _ => 1) (costs_map costs_label fun _ _ _ _ _ _ => by simp only [W, bulkTarget] at *; omega) costs_one
      | exact costs_fail)

theorem costs_typeAnnotation {T : Type} {f : T → Nat} {r : Rd T} (h : Costs B 0 (W f) r) :
    Costs B 0 (W (bulkTyAnn f)) (TypeAnnotation.read r) :=
  costs_ap (costs_ap (costs_ap (costs_map h fun _ _ _ _ _ _ _ _ _ _ _ _ => by
    simp only [W, bulkL_one, bulkTyAnn] at *; omega) (costs_vec costs_pathStep)) costs_type) costs_elems

/-! ## Attributes of classes and fields -/

theorem costs_require : Costs B 0 (W bulkRequire) Require.read :=
  costs_ap (costs_ap (costs_map costs_str fun _ _ _ _ _ _ _ _ _ => by
    simp only [W, bulkRequire] at *; omega) costs_flags) costs_utf8Opt

theorem costs_strs {ν : Type} {l : NumCodec ν} {tag : UInt8} (hl : 1 ≤ l.size := by decide) :
    Costs B 0 (W fun xs => bulkL bulkS xs + 8) (rVec l (rStr tag)) :=
  costs_vec (costs_str.mono (Nat.le_refl _) fun _ _ _ => by tally) hl

theorem costs_provide : Costs B 0 (W bulkProvide) Provide.read :=
  costs_ap (costs_map costs_str fun _ _ _ _ _ _ => by simp only [W, bulkProvide] at *; omega) costs_strs

theorem costs_export : Costs B 0 (W bulkExport) Export.read :=
  costs_ap (costs_ap (costs_map costs_str fun _ _ _ _ _ _ _ _ _ => by
    simp only [W, bulkExport] at *; omega) costs_flags) costs_strs

theorem costs_module : Costs B 0 (W fun m => bulkModule m + 8) Module.read :=
  costs_ap (costs_ap (costs_ap (costs_ap (costs_ap (costs_ap (costs_ap (costs_map costs_str
    fun _ _ _ _ _ _ _ _ _ _ _ _ _ _ _ _ _ _ _ _ _ _ _ _ => by
    simp only [W, bulkModule] at *; omega) costs_flags) costs_utf8Opt)
    (costs_vec costs_require)) (costs_vec costs_export)) (costs_vec costs_export)) costs_strs)
    (costs_vec costs_provide)

theorem costs_innerClass : Costs B 0 (W bulkInner) InnerClass.read :=
  costs_ap (costs_ap (costs_ap (costs_map costs_str fun _ _ _ _ _ _ _ _ _ _ _ _ => by
    simp only [W, bulkInner] at *; omega) costs_clsOpt) costs_utf8Opt) costs_flags

theorem costs_parameter : Costs B 0 (W bulkMethodParam) MethodParameter.read :=
  costs_ap (costs_map costs_utf8Opt fun _ _ _ _ _ _ => by simp only [W, bulkMethodParam] at *; omega) costs_flags

theorem costs_classAttr : Costs B 0 (W bulkClassAttr) ClassAttr.read := by
  have h16 : 16 ≤ price B := by unfold price; omega
  refine costs_attr ?_ fun a => by simp only [bulkClassAttr]; omega
  intro name r
  revert r
  unfold ClassAttr.table
  repeat' refine table_ite (fun _ => ?_) ?_
  all_goals (first
    | exact table_nil
    | exact costs_pure (by simp only [W, bulkClassAttr]; omega)
    | exact costs_map (costs_sig (fun _ _ h => parseClass_bulk h)).more fun _ _ _ => by simp only [W, bulkClassAttr] at *; omega
    | exact costs_map costs_utf8.more fun _ _ _ => by simp only [W, bulkClassAttr] at *; omega
    | exact costs_map (costs_vec costs_innerClass).more fun _ _ _ => by simp only [W, bulkClassAttr] at *; omega
    | exact costs_map ((costs_debugExt (c := 1)).mono (by omega) fun _ _ h => h) fun _ _ _ => by simp only [W, bulkClassAttr] at *; omega
    | exact costs_map (costs_vec costs_bsm).more fun _ _ _ => by simp only [W, bulkClassAttr] at *; omega
    | exact costs_map costs_module.more fun _ _ _ => by simp only [W, bulkClassAttr] at *; omega
    | exact costs_map (Costs.more costs_strs) fun _ _ _ => by simp only [W, bulkClassAttr] at *; omega
    | exact costs_map costs_str.more fun _ _ _ => by simp only [W, bulkClassAttr] at *; omega
    | exact costs_map (costs_vec costs_annotation).more fun _ _ _ => by simp only [W, bulkClassAttr] at *; omega
    | exact costs_map (costs_vec (costs_typeAnnotation costs_classTarget)).more fun _ _ _ => by simp only [W, bulkClassAttr] at *; omega
    | exact costs_ap (costs_map costs_str.more fun _ _ _ _ _ _ => by simp only [W, bulkClassAttr] at *; omega) costs_natOpt)

theorem costs_fieldAttr : Costs B 0 (W bulkFieldAttr) FieldAttr.read := by
  have h16 : 16 ≤ price B := by unfold price; omega
  refine costs_attr ?_ fun a => by simp only [bulkFieldAttr]; omega
  intro name r
  revert r
  unfold FieldAttr.table
  repeat' refine table_ite (fun _ => ?_) ?_
  all_goals (first
    | exact table_nil
    | exact costs_pure (by simp only [W, bulkFieldAttr]; omega)
    | exact costs_map (costs_sig (fun _ _ h => Nat.le_succ_of_le (parseRef_bulk h))).more fun _ _ _ => by simp only [W, bulkFieldAttr] at *; omega
    | exact costs_map costs_const.more fun _ _ _ => by simp only [W, bulkFieldAttr] at *; omega
    | exact costs_map (costs_vec costs_annotation).more fun _ _ _ => by simp only [W, bulkFieldAttr] at *; omega
    | exact costs_map (costs_vec (costs_typeAnnotation costs_fieldTarget)).more fun _ _ _ => by simp only [W, bulkFieldAttr] at *; omega)

theorem costs_field : Costs B 0 (W bulkField) Field.read :=
  costs_ap (costs_ap (costs_ap (costs_map costs_flags fun _ _ _ _ _ _ _ _ _ _ _ _ => by
    simp only [W, bulkField] at *; omega) costs_utf8) costs_type) (costs_vec costs_fieldAttr)

end Verif
