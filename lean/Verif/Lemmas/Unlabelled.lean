import Verif.Lemmas.LocalCode

/-! # Outside a method body there are no labels -/

namespace Verif
open Spec Sig

/-- No labels come into being where there are none. -/
def Unlabelled {α : Type} (r : Rd α) : Prop :=
  ∀ env st bs a st' rest, r env st bs = .ok (a, st', rest) → st.labels = none → st'.labels = none

theorem Unlabelled.bind {α β : Type} {x : Rd α} {f : α → Rd β} (hx : Unlabelled x) (hf : ∀ a, Unlabelled (f a)) :
    Unlabelled (Rd.bind x f) := by
  intro env st bs a st' rest h h0
  obtain ⟨a1, st1, bs1, h1, h2⟩ := Rd.bind_ok h
  exact hf a1 _ _ _ _ _ _ h2 (hx _ _ _ _ _ _ h1 h0)

/-- Readers that do not touch the labels. -/
theorem Unlabelled.same {α : Type} {r : Rd α}
    (h : ∀ env st bs a st' rest, r env st bs = .ok (a, st', rest) → st'.labels = st.labels) : Unlabelled r :=
  fun env st bs a st' rest e h0 => (h env st bs a st' rest e).trans h0

theorem Unlabelled.pure {α : Type} (a : α) : Unlabelled (Rd.pure a) :=
  .same fun _ _ _ _ _ _ h => by cases h; rfl

theorem Unlabelled.fail {α : Type} (e : Err) : Unlabelled (Rd.fail e : Rd α) :=
  .same fun _ _ _ _ _ _ h => by cases h

theorem Unlabelled.map {α β : Type} {x : Rd α} {f : α → β} (hx : Unlabelled x) : Unlabelled (Rd.map f x) :=
  hx.bind (fun _ => .pure _)

theorem Unlabelled.ap {α β : Type} {g : Rd (α → β)} {x : Rd α} (hg : Unlabelled g) (hx : Unlabelled x) :
    Unlabelled (Rd.ap g x) := hg.bind (fun _ => hx.bind (fun _ => .pure _))

theorem Unlabelled.replicate {α : Type} {r : Rd α} (h : Unlabelled r) : ∀ n, Unlabelled (Rd.replicate n r)
  | 0 => .pure _
  | n + 1 => h.bind (fun _ => (Unlabelled.replicate h n).bind (fun _ => .pure _))

theorem Unlabelled.lookup {α : Type} (f : Pool → UInt16 → Option α) (i : UInt16) : Unlabelled (rLookup f i) := by
  refine .same fun env st bs a st' rest h => ?_
  unfold rLookup at h
  split at h <;> cases h
  rfl

theorem Unlabelled.lookupR {α : Type} (f : Pool → UInt16 → Res (Option α)) (i : UInt16) :
    Unlabelled (rLookupR f i) := by
  refine .same fun env st bs a st' rest h => ?_
  unfold rLookupR at h
  split at h <;> cases h
  rfl

theorem Unlabelled.lookupD {α : Type} (f : Pool → UInt16 → List UInt16 → Res (Option α × List UInt16))
    (i : UInt16) : Unlabelled (rLookupD f i) := by
  refine .same fun env st bs a st' rest h => ?_
  unfold rLookupD at h
  split at h <;> cases h
  rfl

theorem Unlabelled.ofRes {α : Type} (r : Res α) : Unlabelled (Rd.ofRes r) := by
  refine .same fun env st bs a st' rest h => ?_
  unfold Rd.ofRes at h
  split at h <;> cases h
  rfl

theorem Unlabelled.lift {α : Type} (r : Reader α) : Unlabelled (Rd.lift r) := by
  refine .same fun env st bs a st' rest h => ?_
  unfold Rd.lift at h
  split at h <;> cases h
  rfl

theorem Unlabelled.num {α : Type} (c : NumCodec α) : Unlabelled (rNum c) := .lift _

theorem Unlabelled.flags (t : FlagType) : Unlabelled (rFlags t) := .lift _

theorem Unlabelled.vec {ℓ α : Type} {l : NumCodec ℓ} {r : Rd α} (h : Unlabelled r) : Unlabelled (rVec l r) :=
  (Unlabelled.num l).bind (fun _ => h.replicate _)
theorem Unlabelled.idx {α : Type} (f : Pool → UInt16 → Option α) : Unlabelled (rIdx f) :=
  (Unlabelled.num _).bind (fun _ => .lookup _ _)
theorem Unlabelled.idxR {α : Type} (f : Pool → UInt16 → Res (Option α)) : Unlabelled (rIdxR f) :=
  (Unlabelled.num _).bind (fun _ => .lookupR _ _)
theorem Unlabelled.utf8 : Unlabelled rUtf8 := .idx _
theorem Unlabelled.str (t : UInt8) : Unlabelled (rStr t) := .idx _
theorem Unlabelled.type : Unlabelled rType := Unlabelled.utf8.bind (fun _ => .ofRes _)

theorem Unlabelled.ite {α : Type} {p : Prop} [Decidable p] {r r' : Rd α} (h : Unlabelled r)
    (h' : Unlabelled r') : Unlabelled (if p then r else r') := by
  split
  · exact h
  · exact h'

theorem Unlabelled.opt {α : Type} {f : UInt16 → Rd α} (h : ∀ i, Unlabelled (f i)) : Unlabelled (rOpt f) :=
  (Unlabelled.num _).bind (fun i => .ite (.pure _) (h i).map)

theorem Unlabelled.intIn (lo hi : Int) (f : Int32 → AnnValue) : Unlabelled (rIntIn lo hi f) :=
  (Unlabelled.idx _).bind (fun _ => .ite (.pure _) (.fail _))

theorem Unlabelled.classText : Unlabelled rClassText :=
  Unlabelled.utf8.bind (fun _ => .ite (.pure _) (.map (.ofRes _)))

theorem Unlabelled.elemsWith {r : Rd AnnValue} (h : Unlabelled r) : Unlabelled (Elems.readWith r) :=
  .map (.vec (Unlabelled.utf8.bind (fun _ => h.map)))

theorem Unlabelled.annValueF : ∀ n, Unlabelled (AnnValue.readF n)
  | 0 => .fail _
  | n + 1 => by
    refine (Unlabelled.num _).bind (fun tag => ?_)
    have ih := Unlabelled.annValueF n
    exact .ite (.intIn _ _ _) <| .ite (.intIn _ _ _) <| .ite (.map (.idx _)) <| .ite (.map (.idx _)) <|
      .ite (.map (.idx _)) <| .ite (.map (.idx _)) <| .ite (.intIn _ _ _) <| .ite (.intIn _ _ _) <|
      .ite (.map .utf8) <| .ite (.ap (.map .type) .utf8) <| .ite (.map .classText) <|
      .ite (.ap (.map .type) (.elemsWith ih)) <| .ite (.map (.vec ih)) (.fail _)

theorem Unlabelled.annValue : Unlabelled AnnValue.read := fun env st bs => Unlabelled.annValueF _ env st bs

theorem Unlabelled.annotation : Unlabelled Annotation.read := .ap (.map .type) (.elemsWith .annValue)

theorem Unlabelled.classTarget : Unlabelled ClassTarget.read :=
  (Unlabelled.num _).bind (fun _ => .ite (.map (.num _)) (.ite (.map (.num _))
    (.ite (.ap (.map (.num _)) (.num _)) (.fail _))))
theorem Unlabelled.fieldTarget : Unlabelled FieldTarget.read :=
  (Unlabelled.num _).bind (fun _ => .ite (.pure _) (.fail _))
theorem Unlabelled.pathStep : Unlabelled PathStep.read :=
  (Unlabelled.num _).bind (fun _ => .ite (.map (.num _)) (.ite (.map (.num _)) (.ite (.map (.num _))
    (.ite (.map (.num _)) (.fail _)))))
theorem Unlabelled.typeAnnotation {T : Type} {r : Rd T} (h : Unlabelled r) : Unlabelled (TypeAnnotation.read r) :=
  .ap (.ap (.ap (.map h) (.vec .pathStep)) .type) (.elemsWith .annValue)

theorem Unlabelled.sig {α : Type} (p : Str → Res α) : Unlabelled (rSig p) := by
  refine Unlabelled.utf8.bind (fun s => ?_)
  split
  · exact .fail _
  · exact .ofRes _

theorem Unlabelled.arg : Unlabelled rArg := (Unlabelled.num _).bind (fun _ => .map (.lookupD _ _))
theorem Unlabelled.bsm : Unlabelled Bsm.read := .ap (.map (.idxR _)) (.vec .arg)
theorem Unlabelled.utf8Opt : Unlabelled rUtf8Opt := .opt (fun _ => .lookup _ _)
theorem Unlabelled.clsOpt : Unlabelled rClsOpt := .opt (fun _ => .lookup _ _)
theorem Unlabelled.natOpt : Unlabelled rNatOpt := .opt (fun _ => .lookupR _ _)
theorem Unlabelled.innerClass : Unlabelled InnerClass.read := .ap (.ap (.ap (.map (.str _)) .clsOpt) .utf8Opt) (.flags _)
theorem Unlabelled.require : Unlabelled Require.read := .ap (.ap (.map (.str _)) (.flags _)) .utf8Opt
theorem Unlabelled.export : Unlabelled Export.read := .ap (.ap (.map (.str _)) (.flags _)) (.vec (.str _))
theorem Unlabelled.provide : Unlabelled Provide.read := .ap (.map (.str _)) (.vec (.str _))
theorem Unlabelled.module : Unlabelled Module.read :=
  .ap (.ap (.ap (.ap (.ap (.ap (.ap (.map (.str _)) (.flags _)) .utf8Opt) (.vec .require)) (.vec .export))
    (.vec .export)) (.vec (.str _))) (.vec .provide)
theorem Unlabelled.methodParameter : Unlabelled MethodParameter.read := .ap (.map .utf8Opt) (.flags _)

theorem Unlabelled.debugExt : Unlabelled rDebugExt := by
  refine .same fun env st bs a st' rest h => ?_
  unfold rDebugExt at h
  split at h <;> cases h
  rfl

theorem Unlabelled.fieldTable {n : Bytes} : ∀ r, FieldAttr.table n = some r → Unlabelled r := by
  unfold FieldAttr.table
  refine opt_ite (fun _ => .pure _) fun _ => opt_ite (fun _ => .pure _) fun _ =>
    opt_ite (fun _ => .map (.sig _)) fun _ => opt_ite (fun _ => .map (.idxR _)) fun _ =>
    opt_ite (fun _ => .map (.vec .annotation)) fun _ => opt_ite (fun _ => .map (.vec .annotation)) fun _ =>
    opt_ite (fun _ => .map (.vec (.typeAnnotation .fieldTarget))) fun _ =>
    opt_ite (fun _ => .map (.vec (.typeAnnotation .fieldTarget))) fun _ r h => by cases h

theorem Unlabelled.classTable {n : Bytes} :
    ∀ r, ClassAttr.table n = some r → Unlabelled r := by
  unfold ClassAttr.table
  refine opt_ite (fun _ => .map (.sig _)) fun _ => opt_ite (fun _ => .pure _) fun _ =>
    opt_ite (fun _ => .pure _) fun _ => opt_ite (fun _ => .map .utf8) fun _ =>
    opt_ite (fun _ => .map (.vec .innerClass)) fun _ =>
    opt_ite (fun _ => .ap (.map (.str _)) .natOpt) fun _ => opt_ite (fun _ => .map .debugExt) fun _ =>
    opt_ite (fun _ => .map (.vec .bsm)) fun _ => opt_ite (fun _ => .map .module) fun _ =>
    opt_ite (fun _ => .map (.vec (.str _))) fun _ => opt_ite (fun _ => .map (.str _)) fun _ =>
    opt_ite (fun _ => .map (.str _)) fun _ => opt_ite (fun _ => .map (.vec (.str _))) fun _ =>
    opt_ite (fun _ => .map (.vec .annotation)) fun _ => opt_ite (fun _ => .map (.vec .annotation)) fun _ =>
    opt_ite (fun _ => .map (.vec (.typeAnnotation .classTarget))) fun _ =>
    opt_ite (fun _ => .map (.vec (.typeAnnotation .classTarget))) fun _ r h => by cases h

theorem Unlabelled.framed {α : Type} {nm : Bytes} {r : Rd α} (hr : Unlabelled r) : Unlabelled (rFramed nm r) := by
  intro env st bs a st' rest h h0
  unfold rFramed at h
  split at h
  · cases h
  split at h
  · cases h
  split at h
  · cases h
  · rename_i h1
    cases h
    exact hr _ _ _ _ _ _ h1 h0
  · cases h

theorem Unlabelled.rawBody : Unlabelled rRawBody := by
  refine .same fun env st bs a st' rest h => ?_
  unfold rRawBody at h
  split at h
  · cases h
  split at h <;> cases h
  rfl

theorem Unlabelled.attr {α : Type} {table : Bytes → Option (Rd α)} (raw : RawAttribute → α)
    (h : ∀ n r, table n = some r → Unlabelled r) : Unlabelled (rAttr table raw) := by
  refine Unlabelled.utf8.bind fun n => ?_
  split
  · rename_i ht
    exact .framed (h _ _ ht)
  · exact .map .rawBody

theorem Unlabelled.code (ord : Nat → List LocalVariable → List LocalVariable) : Unlabelled (Code.read ord) := by
  refine .same fun env st bs a st' rest h => ?_
  unfold Code.read at h
  split at h <;> cases h
  rfl

theorem Unlabelled.methodTarget : Unlabelled MethodTarget.read :=
  (Unlabelled.num _).bind (fun _ => .ite (.map (.num _)) <| .ite (.ap (.map (.num _)) (.num _)) <|
    .ite (.pure _) <| .ite (.pure _) <| .ite (.map (.num _)) <| .ite (.map (.num _)) (.fail _))

theorem Unlabelled.methodTable {ord : Nat → List LocalVariable → List LocalVariable} {n : Bytes} :
    ∀ r, MethodAttr.table ord n = some r → Unlabelled r := by
  unfold MethodAttr.table
  exact opt_ite (fun _ => .map (.code _)) fun _ => opt_ite (fun _ => .pure _) fun _ =>
    opt_ite (fun _ => .pure _) fun _ => opt_ite (fun _ => .map (.sig _)) fun _ =>
    opt_ite (fun _ => .map (.vec .annotation)) fun _ => opt_ite (fun _ => .map (.vec .annotation)) fun _ =>
    opt_ite (fun _ => .map (.vec (.typeAnnotation .methodTarget))) fun _ =>
    opt_ite (fun _ => .map (.vec (.typeAnnotation .methodTarget))) fun _ =>
    opt_ite (fun _ => .map (.vec (.vec .annotation))) fun _ =>
    opt_ite (fun _ => .map (.vec (.vec .annotation))) fun _ =>
    opt_ite (fun _ => .map (.vec (.str _))) fun _ => opt_ite (fun _ => .map .annValue) fun _ =>
    opt_ite (fun _ => .map (.vec .methodParameter)) fun _ r h => by cases h

theorem Unlabelled.classAttr : Unlabelled ClassAttr.read := .attr _ (fun _ => Unlabelled.classTable)
theorem Unlabelled.fieldAttr : Unlabelled FieldAttr.read := .attr _ (fun _ => Unlabelled.fieldTable)
theorem Unlabelled.methodAttr (ord : Order) : Unlabelled (MethodAttr.read ord) := fun env st bs =>
  Unlabelled.attr _ (fun _ => Unlabelled.methodTable (ord := ord bs.length)) env st bs
theorem Unlabelled.field : Unlabelled Field.read := .ap (.ap (.ap (.map (.flags _)) .utf8) .type) (.vec .fieldAttr)
theorem Unlabelled.method (ord : Order) : Unlabelled (Method.read ord) :=
  .ap (.ap (.ap (.map (.flags _)) .utf8) .type) (.vec (.methodAttr ord))

end Verif
