import Verif.Lemmas.LocalCode

/-! # What is read does not depend on the cells that were registered before -/

namespace Verif
open Spec Sig

/-- With `p` registered before everything else. -/
def RSt.after (p : List UInt16) (st : RSt) : RSt := ⟨p ++ st.pending, st.labels⟩

def shifted {α : Type} (p : List UInt16) : Res (α × RSt × Bytes) → Res (α × RSt × Bytes)
  | .ok (a, st, rest) => .ok (a, st.after p, rest)
  | .error e => .error e

/-- Reading does not look at the cells that were registered. -/
def Carries {α : Type} (r : Rd α) : Prop :=
  ∀ env st bs p, r env (RSt.after p st) bs = shifted p (r env st bs)

theorem Carries.bind {α β : Type} {x : Rd α} {f : α → Rd β} (hx : Carries x) (hf : ∀ a, Carries (f a)) :
    Carries (Rd.bind x f) := by
  intro env st bs p
  unfold Rd.bind
  rw [hx]
  rcases x env st bs with e | ⟨a, st1, bs1⟩
  · rfl
  · exact hf a env st1 bs1 p

theorem Carries.pure {α : Type} (a : α) : Carries (Rd.pure a) := fun _ _ _ _ => rfl

theorem Carries.fail {α : Type} (e : Err) : Carries (Rd.fail e : Rd α) := fun _ _ _ _ => rfl

theorem Carries.map {α β : Type} {x : Rd α} {f : α → β} (hx : Carries x) : Carries (Rd.map f x) :=
  hx.bind (fun _ => .pure _)

theorem Carries.ap {α β : Type} {g : Rd (α → β)} {x : Rd α} (hg : Carries g) (hx : Carries x) :
    Carries (Rd.ap g x) := hg.bind (fun _ => hx.bind (fun _ => .pure _))

theorem Carries.replicate {α : Type} {r : Rd α} (h : Carries r) : ∀ n, Carries (Rd.replicate n r)
  | 0 => .pure _
  | n + 1 => h.bind (fun _ => (Carries.replicate h n).bind (fun _ => .pure _))

theorem Carries.lookup {α : Type} (f : Pool → UInt16 → Option α) (i : UInt16) : Carries (rLookup f i) := by
  intro env st bs p
  unfold rLookup
  cases f env.pool i <;> rfl

theorem Carries.lookupR {α : Type} (f : Pool → UInt16 → Res (Option α)) (i : UInt16) :
    Carries (rLookupR f i) := by
  intro env st bs p
  unfold rLookupR
  rcases f env.pool i with e | _ | a <;> rfl

def prepended {α : Type} (p : List UInt16) : Res (α × List UInt16) → Res (α × List UInt16)
  | .ok (a, q) => .ok (a, p ++ q)
  | .error e => .error e

/-- Look-ups that register a cell. -/
def CarriesD {α : Type} (f : Pool → UInt16 → List UInt16 → Res (Option α × List UInt16)) : Prop :=
  ∀ P i p q, f P i (p ++ q) = prepended p (f P i q)

theorem Carries.lookupD {α : Type} {f : Pool → UInt16 → List UInt16 → Res (Option α × List UInt16)}
    (hf : CarriesD f) (i : UInt16) : Carries (rLookupD f i) := by
  intro env st bs p
  unfold rLookupD
  show (match f env.pool i (p ++ st.pending) with
    | .ok (some a, q) => Except.ok (a, { RSt.after p st with pending := q }, bs)
    | .ok (none, _) => Except.error Err.invalid
    | .error e => Except.error e) = _
  rw [hf]
  rcases f env.pool i st.pending with e | ⟨_ | a, q⟩ <;> rfl

theorem carries_parts (P : Pool) (b nt : UInt16) (p q : List UInt16) :
    Pool.dynamicParts P b nt (p ++ q) = prepended p (Pool.dynamicParts P b nt q) := by
  unfold Pool.dynamicParts
  rcases Pool.nameAndType P nt with e | _ | ⟨n, t⟩
  · rfl
  · rfl
  · simp only [List.append_assoc, prepended]

theorem carries_indy : CarriesD Pool.invokeDynamic := by
  intro P i p q
  unfold Pool.invokeDynamic
  split
  · exact carries_parts _ _ _ _ _
  · rfl

theorem carries_dynamic : CarriesD Pool.dynamic := by
  intro P i p q
  unfold Pool.dynamic
  split
  · exact carries_parts _ _ _ _ _
  · rfl

theorem carries_orDynamic {α : Type} (f : Pool → UInt16 → Res (Option α)) :
    CarriesD (fun P i p => Pool.orDynamic P (f P) i p) := by
  intro P i p q
  simp only
  unfold Pool.orDynamic
  rw [carries_dynamic]
  rcases Pool.dynamic P i q with e | ⟨_ | d, q'⟩
  · rfl
  · simp only
    rcases f P i with e | a <;> rfl
  · rfl

theorem Carries.ofRes {α : Type} (r : Res α) : Carries (Rd.ofRes r) := by
  intro env st bs p
  unfold Rd.ofRes
  cases r <;> rfl

theorem Carries.lift {α : Type} (r : Reader α) : Carries (Rd.lift r) := by
  intro env st bs p
  unfold Rd.lift
  cases r bs <;> rfl

theorem Carries.num {α : Type} (c : NumCodec α) : Carries (rNum c) := .lift _

theorem Carries.flags (t : FlagType) : Carries (rFlags t) := .lift _

theorem Carries.vec {ℓ α : Type} {l : NumCodec ℓ} {r : Rd α} (h : Carries r) : Carries (rVec l r) :=
  (Carries.num l).bind (fun _ => h.replicate _)
theorem Carries.idx {α : Type} (f : Pool → UInt16 → Option α) : Carries (rIdx f) :=
  (Carries.num _).bind (fun _ => .lookup _ _)
theorem Carries.idxR {α : Type} (f : Pool → UInt16 → Res (Option α)) : Carries (rIdxR f) :=
  (Carries.num _).bind (fun _ => .lookupR _ _)
theorem Carries.utf8 : Carries rUtf8 := .idx _
theorem Carries.str (t : UInt8) : Carries (rStr t) := .idx _
theorem Carries.type : Carries rType := Carries.utf8.bind (fun _ => .ofRes _)

theorem Carries.ite {α : Type} {p : Prop} [Decidable p] {r r' : Rd α} (h : Carries r)
    (h' : Carries r') : Carries (if p then r else r') := by
  split
  · exact h
  · exact h'

theorem Carries.opt {α : Type} {f : UInt16 → Rd α} (h : ∀ i, Carries (f i)) : Carries (rOpt f) :=
  (Carries.num _).bind (fun i => .ite (.pure _) (h i).map)

theorem Carries.intIn (lo hi : Int) (f : Int32 → AnnValue) : Carries (rIntIn lo hi f) :=
  (Carries.idx _).bind (fun _ => .ite (.pure _) (.fail _))

theorem Carries.classText : Carries rClassText :=
  Carries.utf8.bind (fun _ => .ite (.pure _) (.map (.ofRes _)))

theorem Carries.elemsWith {r : Rd AnnValue} (h : Carries r) : Carries (Elems.readWith r) :=
  .map (.vec (Carries.utf8.bind (fun _ => h.map)))

theorem Carries.annValueF : ∀ n, Carries (AnnValue.readF n)
  | 0 => .fail _
  | n + 1 => by
    refine (Carries.num _).bind (fun tag => ?_)
    have ih := Carries.annValueF n
    exact .ite (.intIn _ _ _) <| .ite (.intIn _ _ _) <| .ite (.map (.idx _)) <| .ite (.map (.idx _)) <|
      .ite (.map (.idx _)) <| .ite (.map (.idx _)) <| .ite (.intIn _ _ _) <| .ite (.intIn _ _ _) <|
      .ite (.map .utf8) <| .ite (.ap (.map .type) .utf8) <| .ite (.map .classText) <|
      .ite (.ap (.map .type) (.elemsWith ih)) <| .ite (.map (.vec ih)) (.fail _)

theorem Carries.annValue : Carries AnnValue.read := fun env st bs p => Carries.annValueF _ env st bs p

theorem Carries.annotation : Carries Annotation.read := .ap (.map .type) (.elemsWith .annValue)

theorem Carries.classTarget : Carries ClassTarget.read :=
  (Carries.num _).bind (fun _ => .ite (.map (.num _)) (.ite (.map (.num _))
    (.ite (.ap (.map (.num _)) (.num _)) (.fail _))))
theorem Carries.fieldTarget : Carries FieldTarget.read :=
  (Carries.num _).bind (fun _ => .ite (.pure _) (.fail _))
theorem Carries.pathStep : Carries PathStep.read :=
  (Carries.num _).bind (fun _ => .ite (.map (.num _)) (.ite (.map (.num _)) (.ite (.map (.num _))
    (.ite (.map (.num _)) (.fail _)))))
theorem Carries.typeAnnotation {T : Type} {r : Rd T} (h : Carries r) : Carries (TypeAnnotation.read r) :=
  .ap (.ap (.ap (.map h) (.vec .pathStep)) .type) (.elemsWith .annValue)

theorem Carries.sig {α : Type} (p : Str → Res α) : Carries (rSig p) := by
  refine Carries.utf8.bind (fun s => ?_)
  split
  · exact .fail _
  · exact .ofRes _

theorem Carries.arg : Carries rArg := (Carries.num _).bind (fun _ => .map (.lookupD (carries_orDynamic _) _))
theorem Carries.bsm : Carries Bsm.read := .ap (.map (.idxR _)) (.vec .arg)
theorem Carries.utf8Opt : Carries rUtf8Opt := .opt (fun _ => .lookup _ _)
theorem Carries.clsOpt : Carries rClsOpt := .opt (fun _ => .lookup _ _)
theorem Carries.natOpt : Carries rNatOpt := .opt (fun _ => .lookupR _ _)
theorem Carries.innerClass : Carries InnerClass.read := .ap (.ap (.ap (.map (.str _)) .clsOpt) .utf8Opt) (.flags _)
theorem Carries.require : Carries Require.read := .ap (.ap (.map (.str _)) (.flags _)) .utf8Opt
theorem Carries.export : Carries Export.read := .ap (.ap (.map (.str _)) (.flags _)) (.vec (.str _))
theorem Carries.provide : Carries Provide.read := .ap (.map (.str _)) (.vec (.str _))
theorem Carries.module : Carries Module.read :=
  .ap (.ap (.ap (.ap (.ap (.ap (.ap (.map (.str _)) (.flags _)) .utf8Opt) (.vec .require)) (.vec .export))
    (.vec .export)) (.vec (.str _))) (.vec .provide)
theorem Carries.methodParameter : Carries MethodParameter.read := .ap (.map .utf8Opt) (.flags _)

theorem Carries.debugExt : Carries rDebugExt := by
  intro env st bs p
  unfold rDebugExt
  cases Mutf8.decode bs <;> rfl

theorem Carries.fieldTable {n : Bytes} : ∀ r, FieldAttr.table n = some r → Carries r := by
  unfold FieldAttr.table
  refine opt_ite (fun _ => .pure _) fun _ => opt_ite (fun _ => .pure _) fun _ =>
    opt_ite (fun _ => .map (.sig _)) fun _ => opt_ite (fun _ => .map (.idxR _)) fun _ =>
    opt_ite (fun _ => .map (.vec .annotation)) fun _ => opt_ite (fun _ => .map (.vec .annotation)) fun _ =>
    opt_ite (fun _ => .map (.vec (.typeAnnotation .fieldTarget))) fun _ =>
    opt_ite (fun _ => .map (.vec (.typeAnnotation .fieldTarget))) fun _ r h => by cases h

theorem Carries.classTable {n : Bytes} :
    ∀ r, ClassAttr.table n = some r → Carries r := by
  unfold ClassAttr.table
  refine opt_ite (fun _ => .map (.sig _)) fun _ => opt_ite (fun _ => .pure _) fun _ =>
    opt_ite (fun _ => .pure _) fun _ => opt_ite (fun _ => .map .utf8) fun _ =>
    opt_ite (fun _ => .map (.vec .innerClass)) fun _ =>
    opt_ite (fun _ => .ap (.map (.str _)) .natOpt) fun _ => opt_ite (fun _ => .map .debugExt) fun _ =>
    opt_ite (fun _ => .map (.vec .bsm)) fun _ => opt_ite (fun _ => .map .module) fun _ =>
    opt_ite (fun _ => .map (.vec (.str _))) fun _ => opt_ite (fun _ => .map (.str _)) fun _ =>
    opt_ite (fun _ => .map (.str _)) fun _ => opt_ite (fun _ => .map (.vec (.str _))) fun _ =>
    opt_ite (fun _ => .map (.vec .annotation)) fun _ => opt_ite (fun _ => .map (.vec .annotation)) fun _ =>
    opt_ite (fun _ => .map (.vec (.typeAnnotation .classTarget))) fun _ =>
    opt_ite (fun _ => .map (.vec (.typeAnnotation .classTarget))) fun _ r h => by cases h

theorem Carries.framed {α : Type} {nm : Bytes} {r : Rd α} (hr : Carries r) : Carries (rFramed nm r) := by
  intro env st bs p
  unfold rFramed
  rcases u32.read bs with e | ⟨len, bs1⟩
  · rfl
  simp only
  rcases readExact len.toNat bs1 with e | ⟨body, bs2⟩
  · rfl
  simp only
  rw [hr]
  rcases r env st body with e | ⟨a, st', _ | ⟨x, xs⟩⟩ <;> rfl

theorem Carries.rawBody : Carries rRawBody := by
  intro env st bs p
  unfold rRawBody
  rcases u32.read bs with e | ⟨len, bs1⟩
  · rfl
  simp only
  rcases readExact len.toNat bs1 with e | ⟨body, bs2⟩ <;> rfl

theorem Carries.attr {α : Type} {table : Bytes → Option (Rd α)} (raw : RawAttribute → α)
    (h : ∀ n r, table n = some r → Carries r) : Carries (rAttr table raw) := by
  refine Carries.utf8.bind fun n => ?_
  split
  · rename_i ht
    exact .framed (h _ _ ht)
  · exact .map .rawBody

theorem Carries.getLabel (o : UInt32) : Carries (getLabel o) := by
  intro env st bs p
  unfold Verif.getLabel RSt.after
  rcases hl : st.labels with _ | m
  · rfl
  · simp only
    cases m.lookup o <;> simp [shifted, RSt.after, hl]

theorem Carries.label : Carries rLabel := (Carries.num _).bind (fun _ => .getLabel _)

theorem Carries.catch_ : Carries rCatch := by
  refine (Carries.num _).bind (fun i env st bs p => ?_)
  rcases env.catches with _ | cs
  · rfl
  · simp only
    cases cs[i.toNat]? <;> rfl

theorem Carries.localVarTarget : Carries LocalVarTarget.read :=
  (Carries.num _).bind (fun _ => (Carries.getLabel _).bind (fun _ => (Carries.num _).bind (fun _ =>
    (Carries.getLabel _).bind (fun _ => .map (.num _)))))

theorem Carries.codeTarget : Carries CodeTarget.read :=
  (Carries.num _).bind (fun _ => .ite (.map (.vec .localVarTarget)) <| .ite (.map (.vec .localVarTarget)) <|
    .ite (.map .catch_) <| .ite (.map .label) <| .ite (.map .label) <| .ite (.map .label) <|
    .ite (.map .label) <| .ite (.ap (.map .label) (.num _)) <| .ite (.ap (.map .label) (.num _)) <|
    .ite (.ap (.map .label) (.num _)) <| .ite (.ap (.map .label) (.num _)) <|
    .ite (.ap (.map .label) (.num _)) (.fail _))

theorem Carries.methodTarget : Carries MethodTarget.read :=
  (Carries.num _).bind (fun _ => .ite (.map (.num _)) <| .ite (.ap (.map (.num _)) (.num _)) <|
    .ite (.pure _) <| .ite (.pure _) <| .ite (.map (.num _)) <| .ite (.map (.num _)) (.fail _))

theorem Carries.vtype : Carries VType.read := by
  refine (Carries.num _).bind (fun tag => ?_)
  unfold VType.readTag
  split
  all_goals first
    | exact .pure _
    | exact .map (.str _)
    | exact .map .label
    | exact .fail _

theorem Carries.frame : Carries Frame.read :=
  (Carries.num _).bind (fun _ => .ite (.pure _) <| .ite (.map .vtype) <| .ite (.fail _) <|
    .ite (.ap (.map (.num _)) .vtype) <| .ite (.map (.num _)) <| .ite (.map (.num _)) <|
    .ite (.ap (.map (.num _)) (.replicate .vtype _)) (.ap (.ap (.map (.num _)) (.vec .vtype)) (.vec .vtype)))

theorem Carries.lineEntry : Carries LineEntry.read := .ap (.map (.num _)) (.num _)
theorem Carries.varEntry : Carries VarEntry.read := .ap (.ap (.ap (.ap (.map (.num _)) (.num _)) .utf8) .type) (.num _)
theorem Carries.varTypeEntry : Carries VarTypeEntry.read :=
  .ap (.ap (.ap (.ap (.map (.num _)) (.num _)) .utf8) (.sig _)) (.num _)

theorem Carries.codeTable {n : Bytes} : ∀ r, CodeAttr.table n = some r → Carries r := by
  unfold CodeAttr.table
  exact opt_ite (fun _ => .map (.vec .lineEntry)) fun _ => opt_ite (fun _ => .map (.vec .varEntry)) fun _ =>
    opt_ite (fun _ => .map (.vec .varTypeEntry)) fun _ =>
    opt_ite (fun _ => .map (.vec (.typeAnnotation .codeTarget))) fun _ =>
    opt_ite (fun _ => .map (.vec (.typeAnnotation .codeTarget))) fun _ =>
    opt_ite (fun _ => .map (.vec .frame)) fun _ r h => by cases h

theorem Carries.codeAttr : Carries CodeAttr.read := .attr _ (fun _ => Carries.codeTable)

theorem Carries.rangeLabels (s n : UInt16) : Carries (rangeLabels s n) :=
  (Carries.getLabel _).bind (fun _ => .ite (.map (.getLabel _)) (.fail _))

theorem Carries.addVars : ∀ (ls : List VarEntry) (vs : List LocalVariable), Carries (addVars vs ls)
  | [], _ => .pure _
  | _ :: ls, _ => (Carries.rangeLabels _ _).bind (fun _ => Carries.addVars ls _)

theorem Carries.addVarTypes : ∀ (ls : List VarTypeEntry) (vs : List LocalVariable), Carries (addVarTypes vs ls)
  | [], _ => .pure _
  | _ :: ls, _ => (Carries.rangeLabels _ _).bind (fun _ => Carries.addVarTypes ls _)

theorem Carries.step (idx : Nat → Option Nat) (acc : AttrAcc) (a : CodeAttr) : Carries (acc.step idx a) := by
  cases a with
  | lines => exact .map (.ofRes _)
  | vars => exact .map (.addVars _ _)
  | varTypes => exact .map (.addVarTypes _ _)
  | _ => exact .pure _

theorem Carries.codeAttrs (idx : Nat → Option Nat) : ∀ n acc, Carries (readCodeAttrs idx n acc)
  | 0, _ => .pure _
  | n + 1, _ => Carries.codeAttr.bind (fun _ => (Carries.step _ _ _).bind (fun _ => Carries.codeAttrs idx n _))

theorem Carries.withCatches {α : Type} {r : Rd α} (cs : List Catch) (h : Carries r) : Carries (withCatches cs r) :=
  fun env st bs p => h { env with catches := some cs } st bs p

theorem Carries.catchRead : Carries Catch.read :=
  .ap (.ap (.ap (.map .label) .label) .label) (.opt (fun _ => .lookup _ _))

theorem Carries.bytes (n : Nat) : Carries (rBytes n) := .lift _

theorem Carries.lbl (p : Nat) (o : Int) : Carries (lbl p o) := .getLabel _
theorem Carries.lbls (p : Nat) : ∀ os, Carries (lbls p os)
  | [] => .pure _
  | _ :: os => (Carries.lbl _ _).bind fun _ => .map (Carries.lbls p os)
theorem Carries.lblEntries (p : Nat) : ∀ os, Carries (lblEntries p os)
  | [] => .pure _
  | _ :: os => (Carries.lbl _ _).bind fun _ => .map (Carries.lblEntries p os)
theorem Carries.orDyn {α : Type} (f : Pool → UInt16 → Res (Option α)) (i : UInt16) : Carries (rOrDyn f i) :=
  .lookupD (carries_orDynamic f) i
theorem Carries.push (i : UInt16) : Carries (rPush i) := .map (.lookupR _ _)
theorem Carries.newArray (i : UInt16) (d : UInt8) : Carries (rNewArray i d) := by
  refine (Carries.orDyn _ _).bind fun c => ?_
  cases c
  · exact .pure _
  · exact .map (.ofRes _)
theorem Carries.classType (i : UInt16) : Carries (rClassType i) := by
  refine (Carries.orDyn _ _).bind fun c => ?_
  cases c
  · exact .pure _
  · exact .map (.ofRes _)

theorem Carries.convert (p : Nat) (r : RInsn) : Carries (convert p r) := by
  cases r with
  | TableSwitch d t => exact (Carries.lbl _ _).bind fun _ => .map (.lbls _ _)
  | LookupSwitch d es => exact (Carries.lbl _ _).bind fun _ => .map (.lblEntries _ _)
  | Wide w => cases w <;> exact .pure _
  | NewArray n =>
    show Carries (match newArrayType n with
      | some t => Rd.pure (Insn.newArray (.static t) 1)
      | none => Rd.fail .invalid)
    split
    · exact .pure _
    · exact .fail _
  | New n => exact .map (.orDyn _ _)
  | InvokeDynamic d u => exact .map (.lookupD carries_indy _)
  | _ =>
    first
    | exact .pure _
    | exact .map (.lbl _ _)
    | exact .map (.orDyn _ _)
    | exact .map (.classType _)
    | exact .push _
    | exact .newArray _ _

theorem Carries.insn (pos : Nat) : Carries (rInsn pos) := by
  intro env st bs p
  have h := (Carries.lift RInsn.read).bind (Carries.convert pos)
  unfold rInsn
  cases bs with
  | nil => rfl
  | cons o tl =>
    simp only
    split
    · exact h _ _ _ _
    · exact h _ _ _ _

theorem carries_loop (len : Nat) (env : REnv) (p : List UInt16) : ∀ (n : Nat) (st : RSt) (bs : Bytes), bs.length = n →
    readLoop len env (RSt.after p st) bs = match readLoop len env st bs with
      | .ok (is, st') => .ok (is, RSt.after p st')
      | .error e => .error e := by
  intro n
  induction n using Nat.strongRecOn with
  | _ n ih =>
    intro st bs hn
    rw [readLoop, readLoop]
    by_cases h0 : bs.length = 0
    · rw [if_pos h0, if_pos h0]
    rw [if_neg h0, if_neg h0, Carries.insn]
    rcases rInsn (len - bs.length) env st bs with e | ⟨i, st', rest⟩
    · rfl
    simp only [shifted]
    by_cases hl : rest.length < bs.length
    · rw [if_pos hl, if_pos hl, ih rest.length (hn ▸ hl) st' rest rfl]
      rcases readLoop len env st' rest with e | ⟨is, st''⟩ <;> rfl
    · rw [if_neg hl, if_neg hl]

theorem Carries.insns (code : Bytes) : Carries (readInsns code) := by
  intro env st bs p
  unfold readInsns
  rw [carries_loop _ _ _ _ _ _ rfl]
  rcases readLoop code.length env st code with e | ⟨is, st'⟩ <;> rfl

theorem Carries.placeMarkers (idx : Nat → Option Nat) (ins : Nat → List Insn) (is : List Insn) :
    Carries (placeMarkers idx ins is) := by
  intro env st bs p
  unfold Verif.placeMarkers RSt.after
  rcases hl : st.labels with _ | m
  · rfl
  · simp only
    cases addLabels idx ins m <;> simp [shifted, RSt.after, hl]

theorem Carries.code (ord : Nat → List LocalVariable → List LocalVariable) : Carries (Code.read ord) := by
  have key : Carries (Code.readIn ord) := by
    unfold Code.readIn
    exact (Carries.num _).bind fun _ => (Carries.num _).bind fun _ => (Carries.num _).bind fun _ =>
      (Carries.bytes _).bind fun _ => (Carries.insns _).bind fun _ => (Carries.vec .catchRead).bind fun _ =>
      (Carries.num _).bind fun _ => (Carries.withCatches _ (.codeAttrs _ _ _)).bind fun _ =>
      (Carries.placeMarkers _ _ _).bind fun _ => fun _ _ _ _ => rfl
  intro env st bs p
  unfold Code.read
  have h := key { env with catches := some [] } ⟨st.pending, some []⟩ bs p
  simp only [RSt.after] at h ⊢
  rw [h]
  rcases Code.readIn ord { env with catches := some [] } ⟨st.pending, some []⟩ bs with e | ⟨c, st', rest⟩ <;> rfl

theorem Carries.methodTable {ord : Nat → List LocalVariable → List LocalVariable} {n : Bytes} :
    ∀ r, MethodAttr.table ord n = some r → Carries r := by
  unfold MethodAttr.table
  exact opt_ite (fun _ => .map (.code _)) fun _ => opt_ite (fun _ => .pure _) fun _ =>
    opt_ite (fun _ => .pure _) fun _ => opt_ite (fun _ => .map (.sig _)) fun _ =>
    opt_ite (fun _ => .map (.vec .annotation)) fun _ => opt_ite (fun _ => .map (.vec .annotation)) fun _ =>
    opt_ite (fun _ => .map (.vec (.typeAnnotation .methodTarget))) fun _ =>
    opt_ite (fun _ => .map (.vec (.typeAnnotation .methodTarget))) fun _ =>
    opt_ite (fun _ => .map (.vec (.vec .annotation))) fun _ =>
    opt_ite (fun _ => .map (.vec (.vec .annotation))) fun _ =>
    opt_ite (fun _ => .map (.vec (.str _))) fun _ => opt_ite (fun _ => .map .annValue) fun _ =>
    opt_ite (fun _ => .map (.vec .methodParameter)) fun _ r h => by cases h

theorem Carries.classAttr : Carries ClassAttr.read := .attr _ (fun _ => Carries.classTable)
theorem Carries.fieldAttr : Carries FieldAttr.read := .attr _ (fun _ => Carries.fieldTable)
theorem Carries.methodAttr (ord : Order) : Carries (MethodAttr.read ord) := fun env st bs p =>
  Carries.attr _ (fun _ => Carries.methodTable (ord := ord bs.length)) env st bs p
theorem Carries.field : Carries Field.read := .ap (.ap (.ap (.map (.flags _)) .utf8) .type) (.vec .fieldAttr)
theorem Carries.method (ord : Order) : Carries (Method.read ord) :=
  .ap (.ap (.ap (.map (.flags _)) .utf8) .type) (.vec (.methodAttr ord))

end Verif
