import Verif.Lemmas.TameInsn

/-! Annotations and attributes in input of unknown origin. -/

namespace Verif
open Spec Sig

variable {α β γ δ : Type} {I : Place} {H : Harm} {body : Bool}

theorem mute_ite {c : Prop} [Decidable c] {r s : Rd α} (h1 : Mute I H body r) (h2 : Mute I H body s) :
    Mute I H body (if c then r else s) := by split <;> assumption

theorem table_ite {P : Rd α → Prop} {c : Prop} [Decidable c] {a : Rd α} {t : Option (Rd α)} (h1 : c → P a)
    (h2 : ∀ r, t = some r → P r) (r : Rd α) (h : (if c then some a else t) = some r) : P r := by
  split at h
  · rename_i hc; cases h; exact h1 hc
  · exact h2 r h

theorem table_nil {P : Rd α → Prop} (r : Rd α) (h : none = some r) : P r := nomatch h

theorem mute_idxR [Site I] {f : Pool → UInt16 → Res (Option α)}
    (h : ∀ P i e, PoolFine H P → f P i = .error e → Calm H e) : Mute I H body (rIdxR f) :=
  mute_bind (mute_num _) fun _ => mute_lookupR fun P e hP he => h P _ e hP he

theorem mute_flags {t : FlagType} : Mute I H body (rFlags t) := mute_lift (plain_map (plain_num _))

theorem mute_sig [Harsh H] [Site I] {parse : Str → Res α} (h : ∀ s e, parse s = .error e → ErrOk e s) :
    Mute I H body (rSig parse) :=
  tame_bind tame_utf8 fun s p hs => by
    obtain ⟨rfl, hf⟩ := hs
    obtain ⟨cs, hl⟩ := hf.loose
    rw [Wtf8.lossy_codepoints hl]
    refine mute_ofRes fun e he => ?_
    rcases h _ _ he with rfl | ⟨rfl, hd⟩
    · exact calm_invalid
    · exact calm_panic (Harsh.run (hf.run (Wtf8.run_of_deep hl (Wtf8.deep_of_repl hd))))

theorem dropRest_err {r : Res (α × Str)} {s : Str} {e : Err} (h : dropRest r = .error e)
    (hr : ∀ e, r = .error e → ErrOk e s) : ErrOk e s := by
  cases r with
  | error e' => cases h; exact hr _ rfl
  | ok x => cases h

theorem mute_classSig [Harsh H] [Site I] : Mute I H body (rSig parseClass) :=
  mute_sig fun _ _ h => dropRest_err h fun _ => classSig_err
theorem mute_methodSig [Harsh H] [Site I] : Mute I H body (rSig parseMethod) :=
  mute_sig fun _ _ h => dropRest_err h fun _ => methodSig_err
theorem mute_refSig [Harsh H] [Site I] : Mute I H body (rSig parseRef) :=
  mute_sig fun _ _ h => dropRest_err h fun _ => errR'

theorem mute_const [Harsh H] [Site I] : Mute I H body rConst := mute_idxR fun _ _ _ hP h => constant_calm hP h
theorem mute_natOpt [Harsh H] [Site I] : Mute I H body rNatOpt :=
  mute_opt fun _ => mute_lookupR fun _ _ hP h => nat_calm hP h
theorem mute_clsOpt [Site I] : Mute I H body rClsOpt := mute_opt fun _ => mute_lookup
theorem mute_utf8Opt [Site I] : Mute I H body rUtf8Opt := mute_opt fun _ => mute_lookup

theorem mute_debugExt : Mute I H body rDebugExt := by
  intro env st bs _ _ _
  unfold rDebugExt
  rcases Mutf8.decode_total bs with ⟨r, h⟩ | h
  · rw [h]; exact ⟨List.nil_suffix, rfl, [], by simp, rfl⟩
  · rw [h]; exact calm_mutf

/-! ## Bootstrap methods -/

theorem tame_arg [Harsh H] [Site I] : Tame I H body (fun a p => p = openArg a) rArg := by
  refine tame_bind (mute_num _) fun i p hp => ?_
  subst hp
  refine tame_map ?_
  refine (tame_orDyn (f := Pool.constant) fun P e hP he => constant_calm hP he).mono ?_
  rintro x p rfl
  cases x with
  | static c => rfl
  | dynamic d =>
    obtain ⟨c, n, t⟩ := d
    cases c <;> rfl

theorem tame_flat [Site I] {ν : Type} {l : NumCodec ν} {r : Rd α} {f : α → List UInt16}
    (h : Tame I H body (fun a p => p = f a) r) : Tame I H body (fun as p => p = as.flatMap f) (rVec l r) :=
  tame_vec h rfl fun _ _ _ _ h1 h2 => by rw [h1, h2]; rfl

theorem tame_bsm [Harsh H] [Site I] : Tame I H body (fun b p => p = openBsm b) Bsm.read := by
  refine tame_ap (Q1 := fun as p => p = as.flatMap openArg) ?_ (tame_flat tame_arg)
  refine tame_map ?_
  refine Tame.mono (mute_idxR fun _ _ _ hP h => handle_calm hP h) ?_
  rintro h p rfl as q rfl
  rfl

/-! ## Annotations -/

/-- Input of which less than `n` bytes remain. -/
def Short (I : Place) (n : Nat) : Place := ⟨fun bs => I bs ∧ bs.length < n, I.pool⟩

instance [Site I] {n : Nat} : Site (Short I n) where
  part h hi := ⟨Site.part h hi.1, Nat.lt_of_le_of_lt h.length_le hi.2⟩

theorem mute_step [Site I] {n : Nat} {f : UInt8 → Rd α} (h : ∀ t, Mute (Short I n) H body (f t)) :
    Mute (Short I (n + 1)) H body (Rd.bind (rNum u8) f) := by
  intro env st bs hp hb hi
  unfold Rd.bind rNum Rd.lift
  cases bs with
  | nil => exact calm_io
  | cons o xs =>
    have hu : u8.read (o :: xs) = .ok (o, xs) := by
      have := readsU1 o xs
      rwa [show U1 o.toNat = [o] by simp [U1], List.singleton_append] at this
    rw [hu]
    simp only
    have hs : xs <:+ o :: xs := List.suffix_cons o xs
    have h1 := h o env st xs hp hb ⟨Site.part hs.isInfix hi.1, by have := hi.2; simp only [List.length_cons] at this; omega⟩
    rcases hr : f o env st xs with e | ⟨v, st', rest⟩
    · rw [hr] at h1; exact h1
    · rw [hr] at h1
      exact ⟨List.IsSuffix.trans h1.1 hs, h1.2⟩

theorem mute_elemsWith [Site I] {r : Rd AnnValue} (h : Mute I H body r) : Mute I H body (Elems.readWith r) :=
  mute_map (mute_vec (mute_bind mute_utf8 fun _ => mute_map h))

theorem mute_intIn [Site I] {lo hi : Int} {f : Int32 → AnnValue} : Mute I H body (rIntIn lo hi f) :=
  mute_bind mute_idx fun x => by split <;> first | exact mute_pure | exact mute_fail calm_invalid

theorem mute_classText [Harsh H] [Site I] : Mute I H body rClassText :=
  tame_bind tame_utf8 fun s p hs => by
    obtain ⟨rfl, hf⟩ := hs
    split
    · exact mute_pure
    · exact mute_map (mute_ofRes fun e he => parse_calm hf he)

theorem mute_valueF [Harsh H] [Site I] : ∀ n, Mute (Short I n) H body (AnnValue.readF n)
  | 0 => fun _ _ _ _ _ hi => absurd hi.2 (Nat.not_lt_zero _)
  | n + 1 => mute_step fun t => by
    have ih : Mute (Short I n) H body (AnnValue.readF n) := mute_valueF n
    repeat' refine mute_ite ?_ ?_
    all_goals first
      | exact mute_intIn
      | exact mute_map mute_idx
      | exact mute_map mute_utf8
      | exact mute_ap (mute_map mute_type) mute_utf8
      | exact mute_map mute_classText
      | exact mute_ap (mute_map mute_type) (mute_elemsWith ih)
      | exact mute_map (mute_vec ih)
      | exact mute_fail calm_invalid

theorem mute_value [Harsh H] [Site I] : Mute I H body AnnValue.read := fun env st bs hp hb hi =>
  mute_valueF (I := I) (bs.length + 1) env st bs hp hb ⟨hi, Nat.lt_succ_self _⟩

theorem mute_elems [Harsh H] [Site I] : Mute I H body Elems.read := mute_elemsWith mute_value

theorem mute_annotation [Harsh H] [Site I] : Mute I H body Annotation.read := mute_ap (mute_map mute_type) mute_elems

/-! ## Type annotations -/

theorem mute_classTarget [Site I] : Mute I H body ClassTarget.read := mute_bind (mute_num _) fun _ => by
  repeat' refine mute_ite ?_ ?_
  all_goals first
    | exact mute_map (mute_num _)
    | exact mute_ap (mute_map (mute_num _)) (mute_num _)
    | exact mute_fail calm_invalid

theorem mute_methodTarget [Site I] : Mute I H body MethodTarget.read := mute_bind (mute_num _) fun _ => by
  repeat' refine mute_ite ?_ ?_
  all_goals first
    | exact mute_pure
    | exact mute_map (mute_num _)
    | exact mute_ap (mute_map (mute_num _)) (mute_num _)
    | exact mute_fail calm_invalid

theorem mute_fieldTarget [Site I] : Mute I H body FieldTarget.read := mute_bind (mute_num _) fun _ => by
  split <;> first | exact mute_pure | exact mute_fail calm_invalid

theorem mute_localTarget [Site I] : Mute I H true LocalVarTarget.read :=
  mute_bind (mute_num _) fun _ => mute_bind mute_getLabel fun _ => mute_bind (mute_num _) fun _ =>
    mute_bind mute_getLabel fun _ => mute_map (mute_num _)

theorem mute_codeTarget [Site I] : Mute I H true CodeTarget.read := mute_bind (mute_num _) fun _ => by
  repeat' refine mute_ite ?_ ?_
  all_goals first
    | exact mute_map (mute_vec mute_localTarget)
    | exact mute_map mute_catch
    | exact mute_map mute_label
    | exact mute_ap (mute_map mute_label) (mute_num _)
    | exact mute_fail calm_invalid

theorem mute_pathStep [Site I] : Mute I H body PathStep.read := mute_bind (mute_num _) fun _ => by
  repeat' refine mute_ite ?_ ?_
  all_goals first
    | exact mute_map (mute_num _)
    | exact mute_fail calm_invalid

theorem mute_typeAnnotation [Harsh H] [Site I] {T : Type} {r : Rd T} (h : Mute I H body r) :
    Mute I H body (TypeAnnotation.read r) :=
  mute_ap (mute_ap (mute_ap (mute_map h) (mute_vec mute_pathStep)) mute_type) mute_elems

/-! ## Frames -/

theorem mute_vtype [Site I] : Mute I H true VType.read := mute_bind (mute_num _) fun t => by
  unfold VType.readTag
  split
  all_goals first
    | exact mute_pure
    | exact mute_map mute_str
    | exact mute_map mute_label
    | exact mute_fail calm_invalid

theorem mute_frame [Site I] : Mute I H true Frame.read := mute_bind (mute_num _) fun t => by
  unfold Frame.readTag
  repeat' refine mute_ite ?_ ?_
  all_goals first
    | exact mute_pure
    | exact mute_map mute_vtype
    | exact mute_fail calm_invalid
    | exact mute_map (mute_num _)
    | exact mute_ap (mute_map (mute_num _)) mute_vtype
    | exact mute_ap (mute_map (mute_num _)) (mute_replicate mute_vtype _)
    | exact mute_ap (mute_ap (mute_map (mute_num _)) (mute_vec mute_vtype)) (mute_vec mute_vtype)

/-! ## Attributes of classes and fields -/

theorem mute_require [Site I] : Mute I H body Require.read :=
  mute_ap (mute_ap (mute_map mute_str) mute_flags) mute_utf8Opt
theorem mute_provide [Site I] : Mute I H body Provide.read := mute_ap (mute_map mute_str) (mute_vec mute_str)
theorem mute_export [Site I] : Mute I H body Export.read :=
  mute_ap (mute_ap (mute_map mute_str) mute_flags) (mute_vec mute_str)
theorem mute_module [Site I] : Mute I H body Module.read :=
  mute_ap (mute_ap (mute_ap (mute_ap (mute_ap (mute_ap (mute_ap (mute_map mute_str) mute_flags) mute_utf8Opt)
    (mute_vec mute_require)) (mute_vec mute_export)) (mute_vec mute_export)) (mute_vec mute_str))
    (mute_vec mute_provide)
theorem mute_innerClass [Site I] : Mute I H body InnerClass.read :=
  mute_ap (mute_ap (mute_ap (mute_map mute_str) mute_clsOpt) mute_utf8Opt) mute_flags

theorem tame_quiet [Site I] {x : Rd α} {f : α → β} {g : β → List UInt16} (h : Mute I H body x)
    (hg : ∀ a, g (f a) = []) : Tame I H body (fun b p => p = g b) (Rd.map f x) :=
  tame_map (h.mono fun a p hp => by rw [hp, hg])

theorem tame_classAttr [Harsh H] [Site I] (hF : Fair I H ClassAttr.table) : Tame I H body (fun a p => p = openClassAttr a) ClassAttr.read := by
  refine tame_attr ?_ (fun _ => rfl) hF
  intro name r _
  revert r
  unfold ClassAttr.table
  repeat' refine table_ite (fun _ => ?_) ?_
  all_goals (first
    | exact table_nil
    | exact tame_pure rfl
    | exact tame_quiet mute_classSig fun _ => rfl
    | exact tame_quiet mute_utf8 fun _ => rfl
    | exact tame_quiet (mute_vec mute_innerClass) fun _ => rfl
    | exact tame_quiet mute_debugExt fun _ => rfl
    | exact tame_map (tame_flat tame_bsm)
    | exact tame_quiet mute_module fun _ => rfl
    | exact tame_quiet (mute_vec mute_str) fun _ => rfl
    | exact tame_quiet mute_str fun _ => rfl
    | exact tame_quiet (mute_vec mute_annotation) fun _ => rfl
    | exact tame_quiet (mute_vec (mute_typeAnnotation mute_classTarget)) fun _ => rfl
    | exact tame_ap (Q1 := fun _ p => p = []) (tame_map (mute_str.mono fun a p hp a' q hq => by rw [hp, hq]; rfl))
        mute_natOpt)

theorem mute_fieldAttr [Harsh H] [Site I] (hF : Fair I H FieldAttr.table) : Mute I H body FieldAttr.read := by
  refine tame_attr ?_ (fun _ => rfl) hF
  intro name r _
  revert r
  unfold FieldAttr.table
  repeat' refine table_ite (fun _ => ?_) ?_
  all_goals (first
    | exact table_nil
    | exact mute_pure
    | exact mute_map mute_refSig
    | exact mute_map mute_const
    | exact mute_map (mute_vec mute_annotation)
    | exact mute_map (mute_vec (mute_typeAnnotation mute_fieldTarget)))

theorem mute_field [Harsh H] [Site I] (hF : Fair I H FieldAttr.table) : Mute I H body Field.read :=
  mute_ap (mute_ap (mute_ap (mute_map mute_flags) mute_utf8) mute_type) (mute_vec (mute_fieldAttr hF))

theorem mute_parameter [Site I] : Mute I H body MethodParameter.read :=
  mute_ap (mute_map mute_utf8Opt) mute_flags

end Verif
