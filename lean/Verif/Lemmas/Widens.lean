import Verif.Lemmas.Carries

/-! # What is read stays when constants are added to the pool -/

namespace Verif
open Spec Sig

/-- `P'` has the constants of `P` and perhaps others. -/
def PoolLe (P P' : Pool) : Prop := ∀ i e, P i = some e → P' i = some e

def Wider (env env' : REnv) : Prop := PoolLe env.pool env'.pool ∧ env'.catches = env.catches

/-- What is accepted is accepted as the same with more constants. -/
def Widens {α : Type} (r : Rd α) : Prop :=
  ∀ env env', Wider env env' → ∀ st bs x, r env st bs = .ok x → r env' st bs = .ok x

theorem Widens.bind {α β : Type} {x : Rd α} {f : α → Rd β} (hx : Widens x) (hf : ∀ a, Widens (f a)) :
    Widens (Rd.bind x f) := by
  intro env env' he st bs y h
  unfold Rd.bind at h ⊢
  split at h
  · rename_i h1
    rw [hx _ _ he _ _ _ h1]
    exact hf _ _ _ he _ _ _ h
  · cases h

/-- Readers that do not use the pool. -/
theorem Widens.same {α : Type} {r : Rd α} (h : ∀ env env' st bs, r env st bs = r env' st bs) : Widens r :=
  fun env env' _ st bs x e => (h env env' st bs) ▸ e

theorem Widens.pure {α : Type} (a : α) : Widens (Rd.pure a) := .same fun _ _ _ _ => rfl

theorem Widens.fail {α : Type} (e : Err) : Widens (Rd.fail e : Rd α) := .same fun _ _ _ _ => rfl

/-! ## Look-ups -/

class MonoO {α : Type} (f : Pool → UInt16 → Option α) : Prop where
  le : ∀ {P P'}, PoolLe P P' → ∀ {i a}, f P i = some a → f P' i = some a

class MonoR {α : Type} (f : Pool → UInt16 → Res (Option α)) : Prop where
  le : ∀ {P P'}, PoolLe P P' → ∀ {i a}, f P i = .ok (some a) → f P' i = .ok (some a)

/-- Nor does it find anything where a dynamic constant is. -/
class MonoS {α : Type} (f : Pool → UInt16 → Res (Option α)) : Prop extends MonoR f where
  at_ : ∀ {P i a}, f P i = .ok (some a) → ∃ e, P i = some e ∧ ∀ b nt, e ≠ .dyn b nt

class MonoD {α : Type} (f : Pool → UInt16 → List UInt16 → Res (Option α × List UInt16)) : Prop where
  le : ∀ {P P'}, PoolLe P P' → ∀ {i q a q'}, f P i q = .ok (some a, q') → f P' i q = .ok (some a, q')

instance mono_wtf8 : MonoO Pool.wtf8 where
  le {P P'} hP {_ _} h := by
    unfold Pool.wtf8 at h ⊢
    split at h
    · rename_i h1
      rw [hP _ _ h1]
      exact h
    · cases h

instance mono_indirect (tag : UInt8) : MonoO fun P i => Pool.indirect P tag i where
  le {P P'} hP {i a} h := by
    unfold Pool.indirect at h ⊢
    split at h
    all_goals first
      | (rename_i h1
         rw [hP _ _ h1]
         simp only
         split at h
         · rename_i ht
           rw [if_pos ht]
           exact mono_wtf8.le hP h
         · cases h)
      | cases h

instance mono_cls : MonoO Pool.cls := mono_indirect 7

instance mono_int : MonoO Pool.int where
  le {P P'} hP {_ _} h := by
    unfold Pool.int at h ⊢
    split at h
    · rename_i h1
      rw [hP _ _ h1]
      exact h
    · cases h

instance mono_long : MonoO Pool.long where
  le {P P'} hP {_ _} h := by
    unfold Pool.long at h ⊢
    split at h
    · rename_i h1
      rw [hP _ _ h1]
      exact h
    · cases h

instance mono_float : MonoO Pool.float where
  le {P P'} hP {_ _} h := by
    unfold Pool.float at h ⊢
    split at h
    · rename_i h1
      rw [hP _ _ h1]
      exact h
    · cases h

instance mono_double : MonoO Pool.double where
  le {P P'} hP {_ _} h := by
    unfold Pool.double at h ⊢
    split at h
    · rename_i h1
      rw [hP _ _ h1]
      exact h
    · cases h

instance mono_nameAndType : MonoR Pool.nameAndType where
  le {P P'} hP {_ _} h := by
    unfold Pool.nameAndType at h ⊢
    split at h
    · rename_i h1
      rw [hP _ _ h1]
      simp only
      split at h
      · rename_i h2
        rw [mono_wtf8.le hP h2]
        simp only
        split at h
        · rename_i h3
          rw [mono_wtf8.le hP h3]
          exact h
        · cases h
      · cases h
    · cases h

theorem mono_parts {P P' : Pool} (hP : PoolLe P P') {b : Bool} {o nt : UInt16} {a : MemberRef}
    (h : Pool.memberParts P b o nt = .ok (some a)) : Pool.memberParts P' b o nt = .ok (some a) := by
  unfold Pool.memberParts at h ⊢
  split at h
  · rename_i h1
    rw [(mono_indirect 7).le hP h1]
    simp only
    split at h
    · rename_i h2
      rw [mono_nameAndType.le hP h2]
      exact h
    · cases h
    · cases h
  · cases h

instance mono_member : MonoS Pool.member where
  le {P P'} hP {_ _} h := by
    unfold Pool.member at h ⊢
    split at h
    all_goals first
      | (rename_i h1
         rw [hP _ _ h1]
         exact mono_parts hP h)
      | cases h
  at_ h := by
    unfold Pool.member at h
    split at h
    all_goals first
      | (rename_i h1
         exact ⟨_, h1, fun _ _ => nofun⟩)
      | cases h

instance mono_handle : MonoR Pool.methodHandle where
  le {P P'} hP {_ _} h := by
    unfold Pool.methodHandle at h ⊢
    split at h
    · rename_i h1
      rw [hP _ _ h1]
      simp only
      split at h
      · rename_i h2
        rw [mono_member.le hP h2]
        exact h
      · cases h
      · cases h
    · cases h

theorem mono_map {α β : Type} {f : α → β} {x y : Option α} (h : ∀ a, x = some a → y = some a) {b : β}
    (hb : x.map f = some b) : y.map f = some b := by
  obtain ⟨a, h1, h2⟩ := Option.map_eq_some_iff.mp hb
  rw [h a h1]
  exact congrArg some h2

instance mono_constant : MonoS Pool.constant where
  le {P P'} hP {i a} h := by
    unfold Pool.constant at h ⊢
    split at h
    · rename_i h1; rw [hP _ _ h1]; exact h
    · rename_i h1; rw [hP _ _ h1]; exact h
    · rename_i h1; rw [hP _ _ h1]; exact h
    · rename_i h1; rw [hP _ _ h1]; exact h
    · rename_i h1; rw [hP _ _ h1]
      exact congrArg Except.ok (mono_map (fun _ => mono_wtf8.le hP) (Except.ok.inj h))
    · rename_i h1; rw [hP _ _ h1]
      exact congrArg Except.ok (mono_map (fun _ => mono_wtf8.le hP) (Except.ok.inj h))
    · rename_i h1; rw [hP _ _ h1]
      simp only
      split at h
      · rename_i h2
        rw [mono_wtf8.le hP h2]
        exact h
      · cases h
    · rename_i h1; rw [hP _ _ h1]
      simp only
      split at h
      · rename_i h2
        split at h
        · rename_i h3
          cases h
          rw [mono_member.le hP h2]
          simp only [h3]
        · cases h
      · cases h
    · rename_i h0 h1 h2 h3 h4 h5 h6 h7
      split at h
      · rename_i m hm
        cases m with
        | none => cases h
        | some m =>
          cases h
          obtain ⟨e, h8, _⟩ := mono_member.at_ hm
          rw [mono_member.le hP hm, hP _ _ h8]
          split
          all_goals first
            | (rename_i h9; cases h9; first
                | exact absurd h8 (h0 _) | exact absurd h8 (h1 _) | exact absurd h8 (h2 _)
                | exact absurd h8 (h3 _) | exact absurd h8 (h4 _) | exact absurd h8 (h5 _)
                | exact absurd h8 (h6 _) | exact absurd h8 (h7 _ _))
            | rfl
      · cases h
  at_ {P i a} h := by
    unfold Pool.constant at h
    split at h
    all_goals first
      | (rename_i h1
         exact ⟨_, h1, fun _ _ => nofun⟩)
      | skip
    split at h
    · rename_i m hm
      cases m with
      | none => cases h
      | some m => exact mono_member.at_ hm
    · cases h

instance mono_classOr : MonoS fun P i => .ok (Pool.cls P i) where
  le {P P'} hP {_ _} h := congrArg Except.ok (mono_cls.le hP (Except.ok.inj h))
  at_ h := by
    have h := Except.ok.inj h
    unfold Pool.cls Pool.indirect at h
    split at h
    all_goals first
      | (rename_i h1
         exact ⟨_, h1, fun _ _ => nofun⟩)
      | cases h

theorem mono_dynamicParts {P P' : Pool} (hP : PoolLe P P') {b nt : UInt16} {q q' : List UInt16} {a : Dynamic}
    (h : Pool.dynamicParts P b nt q = .ok (some a, q')) : Pool.dynamicParts P' b nt q = .ok (some a, q') := by
  unfold Pool.dynamicParts at h ⊢
  split at h
  · rename_i h1
    rw [mono_nameAndType.le hP h1]
    exact h
  · cases h
  · cases h

instance mono_indy : MonoD Pool.invokeDynamic where
  le {P P'} hP {_ _ _ _} h := by
    unfold Pool.invokeDynamic at h ⊢
    split at h
    · rename_i h1
      rw [hP _ _ h1]
      exact mono_dynamicParts hP h
    · cases h

instance mono_dynamic : MonoD Pool.dynamic where
  le {P P'} hP {_ _ _ _} h := by
    unfold Pool.dynamic at h ⊢
    split at h
    · rename_i h1
      rw [hP _ _ h1]
      exact mono_dynamicParts hP h
    · cases h

theorem dynamic_none {P : Pool} {i : UInt16} {e : Entry} (h : P i = some e) (he : ∀ b nt, e ≠ .dyn b nt) (q : List UInt16) :
    Pool.dynamic P i q = .ok (none, q) := by
  unfold Pool.dynamic
  rw [h]
  split
  · rename_i h1
    cases h1
    exact absurd rfl (he _ _)
  · rfl

instance mono_orDynamic {α : Type} (f : Pool → UInt16 → Res (Option α)) [hf : MonoS f] :
    MonoD fun P i p => Pool.orDynamic P (f P) i p where
  le {P P'} hP {i q a q'} h := by
    unfold Pool.orDynamic at h ⊢
    split at h
    · rename_i h1
      rw [mono_dynamic.le hP h1]
      exact h
    · rename_i h1
      split at h
      · rename_i x h2
        cases x with
        | none => cases h
        | some x =>
          cases h
          obtain ⟨e, h3, h4⟩ := hf.at_ h2
          have h5 := dynamic_none h3 h4 q
          rw [h1] at h5
          cases h5
          rw [dynamic_none (hP _ _ h3) h4, hf.le hP h2]
          rfl
      · cases h
    · cases h

theorem Widens.lookup {α : Type} (f : Pool → UInt16 → Option α) [hf : MonoO f] (i : UInt16) : Widens (rLookup f i) := by
  intro env env' he st bs x h
  unfold rLookup at h ⊢
  split at h
  · rename_i h1
    rw [hf.le he.1 h1]
    exact h
  · cases h

theorem Widens.lookupR {α : Type} (f : Pool → UInt16 → Res (Option α)) [hf : MonoR f] (i : UInt16) :
    Widens (rLookupR f i) := by
  intro env env' he st bs x h
  unfold rLookupR at h ⊢
  split at h
  · rename_i h1
    rw [hf.le he.1 h1]
    exact h
  · cases h
  · cases h

theorem Widens.lookupD {α : Type} (f : Pool → UInt16 → List UInt16 → Res (Option α × List UInt16)) [hf : MonoD f]
    (i : UInt16) : Widens (rLookupD f i) := by
  intro env env' he st bs x h
  unfold rLookupD at h ⊢
  split at h
  · rename_i h1
    rw [hf.le he.1 h1]
    exact h
  · cases h
  · cases h

theorem Widens.ofRes {α : Type} (r : Res α) : Widens (Rd.ofRes r) := .same fun _ _ _ _ => rfl

theorem Widens.lift {α : Type} (r : Reader α) : Widens (Rd.lift r) := .same fun _ _ _ _ => rfl

theorem Widens.num {α : Type} (c : NumCodec α) : Widens (rNum c) := .lift _

theorem Widens.flags (t : FlagType) : Widens (rFlags t) := .lift _

theorem Widens.map {α β : Type} {x : Rd α} {f : α → β} (hx : Widens x) : Widens (Rd.map f x) :=
  hx.bind (fun _ => .pure _)

theorem Widens.ap {α β : Type} {g : Rd (α → β)} {x : Rd α} (hg : Widens g) (hx : Widens x) :
    Widens (Rd.ap g x) := hg.bind (fun _ => hx.bind (fun _ => .pure _))

theorem Widens.replicate {α : Type} {r : Rd α} (h : Widens r) : ∀ n, Widens (Rd.replicate n r)
  | 0 => .pure _
  | n + 1 => h.bind (fun _ => (Widens.replicate h n).bind (fun _ => .pure _))

theorem Widens.vec {ℓ α : Type} {l : NumCodec ℓ} {r : Rd α} (h : Widens r) : Widens (rVec l r) :=
  (Widens.num l).bind (fun _ => h.replicate _)
theorem Widens.idx {α : Type} (f : Pool → UInt16 → Option α) [MonoO f] : Widens (rIdx f) :=
  (Widens.num _).bind (fun _ => .lookup _ _)
theorem Widens.idxR {α : Type} (f : Pool → UInt16 → Res (Option α)) [MonoR f] : Widens (rIdxR f) :=
  (Widens.num _).bind (fun _ => .lookupR _ _)
theorem Widens.utf8 : Widens rUtf8 := .idx _
theorem Widens.str (t : UInt8) : Widens (rStr t) := .idx _
theorem Widens.type : Widens rType := Widens.utf8.bind (fun _ => .ofRes _)

theorem Widens.ite {α : Type} {p : Prop} [Decidable p] {r r' : Rd α} (h : Widens r)
    (h' : Widens r') : Widens (if p then r else r') := by
  split
  · exact h
  · exact h'

theorem Widens.opt {α : Type} {f : UInt16 → Rd α} (h : ∀ i, Widens (f i)) : Widens (rOpt f) :=
  (Widens.num _).bind (fun i => .ite (.pure _) (h i).map)

theorem Widens.intIn (lo hi : Int) (f : Int32 → AnnValue) : Widens (rIntIn lo hi f) :=
  (Widens.idx _).bind (fun _ => .ite (.pure _) (.fail _))

theorem Widens.classText : Widens rClassText :=
  Widens.utf8.bind (fun _ => .ite (.pure _) (.map (.ofRes _)))

theorem Widens.elemsWith {r : Rd AnnValue} (h : Widens r) : Widens (Elems.readWith r) :=
  .map (.vec (Widens.utf8.bind (fun _ => h.map)))

theorem Widens.annValueF : ∀ n, Widens (AnnValue.readF n)
  | 0 => .fail _
  | n + 1 => by
    refine (Widens.num _).bind (fun tag => ?_)
    have ih := Widens.annValueF n
    exact .ite (.intIn _ _ _) <| .ite (.intIn _ _ _) <| .ite (.map (.idx _)) <| .ite (.map (.idx _)) <|
      .ite (.map (.idx _)) <| .ite (.map (.idx _)) <| .ite (.intIn _ _ _) <| .ite (.intIn _ _ _) <|
      .ite (.map .utf8) <| .ite (.ap (.map .type) .utf8) <| .ite (.map .classText) <|
      .ite (.ap (.map .type) (.elemsWith ih)) <| .ite (.map (.vec ih)) (.fail _)

theorem Widens.annValue : Widens AnnValue.read := fun env env' he st bs => Widens.annValueF _ env env' he st bs

theorem Widens.annotation : Widens Annotation.read := .ap (.map .type) (.elemsWith .annValue)

theorem Widens.classTarget : Widens ClassTarget.read :=
  (Widens.num _).bind (fun _ => .ite (.map (.num _)) (.ite (.map (.num _))
    (.ite (.ap (.map (.num _)) (.num _)) (.fail _))))
theorem Widens.fieldTarget : Widens FieldTarget.read :=
  (Widens.num _).bind (fun _ => .ite (.pure _) (.fail _))
theorem Widens.pathStep : Widens PathStep.read :=
  (Widens.num _).bind (fun _ => .ite (.map (.num _)) (.ite (.map (.num _)) (.ite (.map (.num _))
    (.ite (.map (.num _)) (.fail _)))))
theorem Widens.typeAnnotation {T : Type} {r : Rd T} (h : Widens r) : Widens (TypeAnnotation.read r) :=
  .ap (.ap (.ap (.map h) (.vec .pathStep)) .type) (.elemsWith .annValue)

theorem Widens.sig {α : Type} (p : Str → Res α) : Widens (rSig p) := by
  refine Widens.utf8.bind (fun s => ?_)
  split
  · exact .fail _
  · exact .ofRes _

theorem Widens.arg : Widens rArg := (Widens.num _).bind (fun _ => .map (.lookupD _ _))
theorem Widens.bsm : Widens Bsm.read := .ap (.map (.idxR _)) (.vec .arg)
theorem Widens.utf8Opt : Widens rUtf8Opt := .opt (fun _ => .lookup _ _)
theorem Widens.clsOpt : Widens rClsOpt := .opt (fun _ => .lookup _ _)
theorem Widens.natOpt : Widens rNatOpt := .opt (fun _ => .lookupR _ _)
theorem Widens.innerClass : Widens InnerClass.read := .ap (.ap (.ap (.map (.str _)) .clsOpt) .utf8Opt) (.flags _)
theorem Widens.require : Widens Require.read := .ap (.ap (.map (.str _)) (.flags _)) .utf8Opt
theorem Widens.export : Widens Export.read := .ap (.ap (.map (.str _)) (.flags _)) (.vec (.str _))
theorem Widens.provide : Widens Provide.read := .ap (.map (.str _)) (.vec (.str _))
theorem Widens.module : Widens Module.read :=
  .ap (.ap (.ap (.ap (.ap (.ap (.ap (.map (.str _)) (.flags _)) .utf8Opt) (.vec .require)) (.vec .export))
    (.vec .export)) (.vec (.str _))) (.vec .provide)
theorem Widens.methodParameter : Widens MethodParameter.read := .ap (.map .utf8Opt) (.flags _)

theorem Widens.debugExt : Widens rDebugExt := .same fun _ _ _ _ => rfl

theorem Widens.fieldTable {n : Bytes} : ∀ r, FieldAttr.table n = some r → Widens r := by
  unfold FieldAttr.table
  refine opt_ite (fun _ => .pure _) fun _ => opt_ite (fun _ => .pure _) fun _ =>
    opt_ite (fun _ => .map (.sig _)) fun _ => opt_ite (fun _ => .map (.idxR _)) fun _ =>
    opt_ite (fun _ => .map (.vec .annotation)) fun _ => opt_ite (fun _ => .map (.vec .annotation)) fun _ =>
    opt_ite (fun _ => .map (.vec (.typeAnnotation .fieldTarget))) fun _ =>
    opt_ite (fun _ => .map (.vec (.typeAnnotation .fieldTarget))) fun _ r h => by cases h

theorem Widens.classTable {n : Bytes} :
    ∀ r, ClassAttr.table n = some r → Widens r := by
  unfold ClassAttr.table
  refine opt_ite (fun _ => .map (.sig _)) fun _ => opt_ite (fun _ => .pure _) fun _ =>
    opt_ite (fun _ => .pure _) fun _ => opt_ite (fun _ => .map .utf8) fun _ =>
    opt_ite (fun _ => .map (.vec .innerClass)) fun _ =>
    opt_ite (fun _ => .ap (.map (.str _)) .natOpt) fun _ => opt_ite (fun _ => .map .debugExt) fun _ =>
    opt_ite (fun _ => .map (.vec .bsm)) fun _ => opt_ite (fun _ => .map .module) fun _ =>
    opt_ite (fun _ => .map (.vec (.str _))) fun _ => opt_ite (fun _ => .map (.str _)) fun _ =>
    opt_ite (fun _ => .map (.str _)) fun _ => opt_ite (fun _ => .map (.vec (.str _))) fun _ =>
    opt_ite (fun _ => .map (.vec .annotation)) fun _ => opt_ite (fun _ => .map (.vec .annotation)) fun _ =>
    opt_ite (fun _ => .map (.vec (.typeAnnotation .classTarget))) fun _ =>
    opt_ite (fun _ => .map (.vec (.typeAnnotation .classTarget))) fun _ r h => by cases h

theorem Widens.framed {α : Type} {nm : Bytes} {r : Rd α} (hr : Widens r) : Widens (rFramed nm r) := by
  intro env env' he st bs x h
  unfold rFramed at h ⊢
  split at h
  · cases h
  split at h
  · cases h
  split at h
  · cases h
  · rename_i h1
    rw [hr _ _ he _ _ _ h1]
    exact h
  · cases h

theorem Widens.rawBody : Widens rRawBody := .same fun _ _ _ _ => rfl

theorem Widens.attr {α : Type} {table : Bytes → Option (Rd α)} (raw : RawAttribute → α)
    (h : ∀ n r, table n = some r → Widens r) : Widens (rAttr table raw) := by
  refine Widens.utf8.bind fun n => ?_
  split
  · rename_i ht
    exact .framed (h _ _ ht)
  · exact .map .rawBody

theorem Widens.getLabel (o : UInt32) : Widens (getLabel o) := .same fun _ _ _ _ => rfl

theorem Widens.label : Widens rLabel := (Widens.num _).bind (fun _ => .getLabel _)

theorem Widens.catch_ : Widens rCatch := by
  refine (Widens.num _).bind (fun i env env' he st bs x h => ?_)
  simp only [he.2]
  exact h

theorem Widens.localVarTarget : Widens LocalVarTarget.read :=
  (Widens.num _).bind (fun _ => (Widens.getLabel _).bind (fun _ => (Widens.num _).bind (fun _ =>
    (Widens.getLabel _).bind (fun _ => .map (.num _)))))

theorem Widens.codeTarget : Widens CodeTarget.read :=
  (Widens.num _).bind (fun _ => .ite (.map (.vec .localVarTarget)) <| .ite (.map (.vec .localVarTarget)) <|
    .ite (.map .catch_) <| .ite (.map .label) <| .ite (.map .label) <| .ite (.map .label) <|
    .ite (.map .label) <| .ite (.ap (.map .label) (.num _)) <| .ite (.ap (.map .label) (.num _)) <|
    .ite (.ap (.map .label) (.num _)) <| .ite (.ap (.map .label) (.num _)) <|
    .ite (.ap (.map .label) (.num _)) (.fail _))

theorem Widens.methodTarget : Widens MethodTarget.read :=
  (Widens.num _).bind (fun _ => .ite (.map (.num _)) <| .ite (.ap (.map (.num _)) (.num _)) <|
    .ite (.pure _) <| .ite (.pure _) <| .ite (.map (.num _)) <| .ite (.map (.num _)) (.fail _))

theorem Widens.vtype : Widens VType.read := by
  refine (Widens.num _).bind (fun tag => ?_)
  unfold VType.readTag
  split
  all_goals first
    | exact .pure _
    | exact .map (.str _)
    | exact .map .label
    | exact .fail _

theorem Widens.frame : Widens Frame.read :=
  (Widens.num _).bind (fun _ => .ite (.pure _) <| .ite (.map .vtype) <| .ite (.fail _) <|
    .ite (.ap (.map (.num _)) .vtype) <| .ite (.map (.num _)) <| .ite (.map (.num _)) <|
    .ite (.ap (.map (.num _)) (.replicate .vtype _)) (.ap (.ap (.map (.num _)) (.vec .vtype)) (.vec .vtype)))

theorem Widens.lineEntry : Widens LineEntry.read := .ap (.map (.num _)) (.num _)
theorem Widens.varEntry : Widens VarEntry.read := .ap (.ap (.ap (.ap (.map (.num _)) (.num _)) .utf8) .type) (.num _)
theorem Widens.varTypeEntry : Widens VarTypeEntry.read :=
  .ap (.ap (.ap (.ap (.map (.num _)) (.num _)) .utf8) (.sig _)) (.num _)

theorem Widens.codeTable {n : Bytes} : ∀ r, CodeAttr.table n = some r → Widens r := by
  unfold CodeAttr.table
  exact opt_ite (fun _ => .map (.vec .lineEntry)) fun _ => opt_ite (fun _ => .map (.vec .varEntry)) fun _ =>
    opt_ite (fun _ => .map (.vec .varTypeEntry)) fun _ =>
    opt_ite (fun _ => .map (.vec (.typeAnnotation .codeTarget))) fun _ =>
    opt_ite (fun _ => .map (.vec (.typeAnnotation .codeTarget))) fun _ =>
    opt_ite (fun _ => .map (.vec .frame)) fun _ r h => by cases h

theorem Widens.codeAttr : Widens CodeAttr.read := .attr _ (fun _ => Widens.codeTable)

theorem Widens.rangeLabels (s n : UInt16) : Widens (rangeLabels s n) :=
  (Widens.getLabel _).bind (fun _ => .ite (.map (.getLabel _)) (.fail _))

theorem Widens.addVars : ∀ (ls : List VarEntry) (vs : List LocalVariable), Widens (addVars vs ls)
  | [], _ => .pure _
  | _ :: ls, _ => (Widens.rangeLabels _ _).bind (fun _ => Widens.addVars ls _)

theorem Widens.addVarTypes : ∀ (ls : List VarTypeEntry) (vs : List LocalVariable), Widens (addVarTypes vs ls)
  | [], _ => .pure _
  | _ :: ls, _ => (Widens.rangeLabels _ _).bind (fun _ => Widens.addVarTypes ls _)

theorem Widens.step (idx : Nat → Option Nat) (acc : AttrAcc) (a : CodeAttr) : Widens (acc.step idx a) := by
  cases a with
  | lines => exact .map (.ofRes _)
  | vars => exact .map (.addVars _ _)
  | varTypes => exact .map (.addVarTypes _ _)
  | _ => exact .pure _

theorem Widens.codeAttrs (idx : Nat → Option Nat) : ∀ n acc, Widens (readCodeAttrs idx n acc)
  | 0, _ => .pure _
  | n + 1, _ => Widens.codeAttr.bind (fun _ => (Widens.step _ _ _).bind (fun _ => Widens.codeAttrs idx n _))

theorem Widens.withCatches {α : Type} {r : Rd α} (cs : List Catch) (h : Widens r) : Widens (withCatches cs r) :=
  fun env env' he st bs x => h { env with catches := some cs } { env' with catches := some cs } ⟨he.1, rfl⟩ st bs x

theorem Widens.catchRead : Widens Catch.read :=
  .ap (.ap (.ap (.map .label) .label) .label) (.opt (fun _ => .lookup _ _))

theorem Widens.bytes (n : Nat) : Widens (rBytes n) := .lift _

theorem Widens.lbl (p : Nat) (o : Int) : Widens (lbl p o) := .getLabel _
theorem Widens.lbls (p : Nat) : ∀ os, Widens (lbls p os)
  | [] => .pure _
  | _ :: os => (Widens.lbl _ _).bind fun _ => .map (Widens.lbls p os)
theorem Widens.lblEntries (p : Nat) : ∀ os, Widens (lblEntries p os)
  | [] => .pure _
  | _ :: os => (Widens.lbl _ _).bind fun _ => .map (Widens.lblEntries p os)
theorem Widens.orDyn {α : Type} (f : Pool → UInt16 → Res (Option α)) [MonoS f] (i : UInt16) : Widens (rOrDyn f i) :=
  .lookupD _ i
theorem Widens.push (i : UInt16) : Widens (rPush i) := .map (.lookupR _ _)
theorem Widens.newArray (i : UInt16) (d : UInt8) : Widens (rNewArray i d) := by
  refine (Widens.orDyn _ _).bind fun c => ?_
  cases c
  · exact .pure _
  · exact .map (.ofRes _)
theorem Widens.classType (i : UInt16) : Widens (rClassType i) := by
  refine (Widens.orDyn _ _).bind fun c => ?_
  cases c
  · exact .pure _
  · exact .map (.ofRes _)

theorem Widens.convert (p : Nat) (r : RInsn) : Widens (convert p r) := by
  cases r with
  | TableSwitch d t => exact (Widens.lbl _ _).bind fun _ => .map (.lbls _ _)
  | LookupSwitch d es => exact (Widens.lbl _ _).bind fun _ => .map (.lblEntries _ _)
  | Wide w => cases w <;> exact .pure _
  | NewArray n =>
    show Widens (match newArrayType n with
      | some t => Rd.pure (Insn.newArray (.static t) 1)
      | none => Rd.fail .invalid)
    split
    · exact .pure _
    · exact .fail _
  | New n => exact .map (.orDyn _ _)
  | InvokeDynamic d u => exact .map (.lookupD _ _)
  | _ =>
    first
    | exact .pure _
    | exact .map (.lbl _ _)
    | exact .map (.orDyn _ _)
    | exact .map (.classType _)
    | exact .push _
    | exact .newArray _ _

theorem Widens.insn (pos : Nat) : Widens (rInsn pos) := by
  intro env env' he st bs x h
  have key := (Widens.lift RInsn.read).bind (Widens.convert pos)
  unfold rInsn at h ⊢
  cases bs with
  | nil => exact h
  | cons o tl =>
    simp only at h ⊢
    split at h
    · rename_i ho
      rw [if_pos ho]
      exact key _ _ he _ _ _ h
    · rename_i ho
      rw [if_neg ho]
      exact key _ _ he _ _ _ h

theorem widens_loop (len : Nat) (env env' : REnv) (he : Wider env env') : ∀ (n : Nat) (st : RSt) (bs : Bytes), bs.length = n →
    ∀ x, readLoop len env st bs = .ok x → readLoop len env' st bs = .ok x := by
  intro n
  induction n using Nat.strongRecOn with
  | _ n ih =>
    intro st bs hn x h
    rw [readLoop] at h ⊢
    by_cases h0 : bs.length = 0
    · rw [if_pos h0] at h ⊢
      exact h
    rw [if_neg h0] at h ⊢
    split at h
    · cases h
    rename_i h1
    rw [Widens.insn _ _ _ he _ _ _ h1]
    simp only
    split at h
    · rename_i hl
      rw [if_pos hl]
      split at h
      · cases h
      · rename_i h2
        rw [ih _ (hn ▸ hl) _ _ rfl _ h2]
        exact h
    · cases h

theorem Widens.insns (code : Bytes) : Widens (readInsns code) := by
  intro env env' he st bs x h
  unfold readInsns at h ⊢
  split at h
  · cases h
  · rename_i h1
    rw [widens_loop _ _ _ he _ _ _ rfl _ h1]
    exact h

theorem Widens.placeMarkers (idx : Nat → Option Nat) (ins : Nat → List Insn) (is : List Insn) :
    Widens (placeMarkers idx ins is) := .same fun _ _ _ _ => rfl

theorem Widens.code (ord : Nat → List LocalVariable → List LocalVariable) : Widens (Code.read ord) := by
  have key : Widens (Code.readIn ord) := by
    unfold Code.readIn
    exact (Widens.num _).bind fun _ => (Widens.num _).bind fun _ => (Widens.num _).bind fun _ =>
      (Widens.bytes _).bind fun _ => (Widens.insns _).bind fun _ => (Widens.vec .catchRead).bind fun _ =>
      (Widens.num _).bind fun _ => (Widens.withCatches _ (.codeAttrs _ _ _)).bind fun _ =>
      (Widens.placeMarkers _ _ _).bind fun _ => .same fun _ _ _ _ => rfl
  intro env env' he st bs x h
  unfold Code.read at h ⊢
  split at h
  · cases h
  · rename_i h1
    rw [key { env with catches := some [] } { env' with catches := some [] } ⟨he.1, rfl⟩ _ _ _ h1]
    exact h

theorem Widens.methodTable {ord : Nat → List LocalVariable → List LocalVariable} {n : Bytes} :
    ∀ r, MethodAttr.table ord n = some r → Widens r := by
  unfold MethodAttr.table
  exact opt_ite (fun _ => .map (.code _)) fun _ => opt_ite (fun _ => .pure _) fun _ =>
    opt_ite (fun _ => .pure _) fun _ => opt_ite (fun _ => .map (.sig _)) fun _ =>
    opt_ite (fun _ => .map (.vec .annotation)) fun _ => opt_ite (fun _ => .map (.vec .annotation)) fun _ =>
    opt_ite (fun _ => .map (.vec (.typeAnnotation .methodTarget))) fun _ =>
    opt_ite (fun _ => .map (.vec (.typeAnnotation .methodTarget))) fun _ =>
    opt_ite (fun _ => .map (.vec (.vec .annotation))) fun _ =>
    opt_ite (fun _ => .map (.vec (.vec .annotation))) fun _ =>
    opt_ite (fun _ => .map (.vec (.str _))) fun _ => opt_ite (fun _ => .map .annValue) fun _ =>
    opt_ite (fun _ => .map (.vec .methodParameter)) fun _ r h => by cases h

theorem Widens.classAttr : Widens ClassAttr.read := .attr _ (fun _ => Widens.classTable)
theorem Widens.fieldAttr : Widens FieldAttr.read := .attr _ (fun _ => Widens.fieldTable)
theorem Widens.methodAttr (ord : Order) : Widens (MethodAttr.read ord) := fun env env' he st bs =>
  Widens.attr _ (fun _ => Widens.methodTable (ord := ord bs.length)) env env' he st bs
theorem Widens.field : Widens Field.read := .ap (.ap (.ap (.map (.flags _)) .utf8) .type) (.vec .fieldAttr)
theorem Widens.method (ord : Order) : Widens (Method.read ord) :=
  .ap (.ap (.ap (.map (.flags _)) .utf8) .type) (.vec (.methodAttr ord))

end Verif
