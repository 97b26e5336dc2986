import Verif.Lemmas.Stream
import Verif.Lemmas.Method

/-! # The attributes of methods and of code are read from exactly their payload -/

namespace Verif
open Spec Sig

theorem Local.framed {α : Type} {nm : Bytes} {r : Rd α} : Local (rFramed nm r) := by
  intro env st bs a st' rest h
  unfold rFramed at h ⊢
  split at h
  · cases h
  rename_i h1
  split at h
  · cases h
  rename_i h2
  obtain ⟨b1, rfl, e1⟩ := prefixed_num _ _ _ _ h1
  obtain ⟨b2, rfl, e2⟩ := prefixed_readExact _ _ _ _ h2
  split at h <;> cases h
  rename_i h3
  refine ⟨b1 ++ b2, (List.append_assoc _ _ _).symm, fun t => ?_⟩
  rw [List.append_assoc, e1]
  simp only
  rw [e2]
  simp only [h3]

theorem Local.rawBody : Local rRawBody := by
  intro env st bs a st' rest h
  unfold rRawBody at h ⊢
  split at h
  · cases h
  rename_i h1
  split at h
  · cases h
  rename_i h2
  obtain ⟨b1, rfl, e1⟩ := prefixed_num _ _ _ _ h1
  obtain ⟨b2, rfl, e2⟩ := prefixed_readExact _ _ _ _ h2
  cases h
  refine ⟨b1 ++ b2, (List.append_assoc _ _ _).symm, fun t => ?_⟩
  rw [List.append_assoc, e1]
  simp only
  rw [e2]

theorem Local.attr {α : Type} (table : Bytes → Option (Rd α)) (raw : RawAttribute → α) :
    Local (rAttr table raw) := by
  refine Local.utf8.bind fun n => ?_
  split
  · exact .framed
  · exact .map .rawBody

theorem Local.getLabel (o : UInt32) : Local (getLabel o) := by
  refine .still (fun env st => ?_)
  unfold Verif.getLabel
  split
  · exact .inl ⟨_, fun _ => rfl⟩
  · split
    · exact .inr ⟨_, _, fun _ => rfl⟩
    · exact .inr ⟨_, _, fun _ => rfl⟩

theorem Local.label : Local rLabel := (Local.num _).bind (fun _ => .getLabel _)

theorem Local.catch_ : Local rCatch := by
  refine (Local.num _).bind (fun i => .still (fun env st => ?_))
  split
  · exact .inl ⟨_, fun _ => rfl⟩
  · split
    · exact .inr ⟨_, _, fun _ => rfl⟩
    · exact .inl ⟨_, fun _ => rfl⟩

theorem Local.localVarTarget : Local LocalVarTarget.read :=
  (Local.num _).bind (fun _ => (Local.getLabel _).bind (fun _ => (Local.num _).bind (fun _ =>
    (Local.getLabel _).bind (fun _ => .map (.num _)))))

theorem Local.codeTarget : Local CodeTarget.read :=
  (Local.num _).bind (fun _ => .ite (.map (.vec .localVarTarget)) <| .ite (.map (.vec .localVarTarget)) <|
    .ite (.map .catch_) <| .ite (.map .label) <| .ite (.map .label) <| .ite (.map .label) <|
    .ite (.map .label) <| .ite (.ap (.map .label) (.num _)) <| .ite (.ap (.map .label) (.num _)) <|
    .ite (.ap (.map .label) (.num _)) <| .ite (.ap (.map .label) (.num _)) <|
    .ite (.ap (.map .label) (.num _)) (.fail _))

theorem Local.methodTarget : Local MethodTarget.read :=
  (Local.num _).bind (fun _ => .ite (.map (.num _)) <| .ite (.ap (.map (.num _)) (.num _)) <|
    .ite (.pure _) <| .ite (.pure _) <| .ite (.map (.num _)) <| .ite (.map (.num _)) (.fail _))

theorem Local.vtype : Local VType.read := by
  refine (Local.num _).bind (fun tag => ?_)
  unfold VType.readTag
  split
  all_goals first
    | exact .pure _
    | exact .map (.str _)
    | exact .map .label
    | exact .fail _

theorem Local.frame : Local Frame.read :=
  (Local.num _).bind (fun _ => .ite (.pure _) <| .ite (.map .vtype) <| .ite (.fail _) <|
    .ite (.ap (.map (.num _)) .vtype) <| .ite (.map (.num _)) <| .ite (.map (.num _)) <|
    .ite (.ap (.map (.num _)) (.replicate .vtype _)) (.ap (.ap (.map (.num _)) (.vec .vtype)) (.vec .vtype)))

theorem Local.lineEntry : Local LineEntry.read := .ap (.map (.num _)) (.num _)
theorem Local.varEntry : Local VarEntry.read := .ap (.ap (.ap (.ap (.map (.num _)) (.num _)) .utf8) .type) (.num _)
theorem Local.varTypeEntry : Local VarTypeEntry.read :=
  .ap (.ap (.ap (.ap (.map (.num _)) (.num _)) .utf8) (.sig _)) (.num _)

theorem Local.codeTable {n : Bytes} : ∀ r, CodeAttr.table n = some r → Local r := by
  unfold CodeAttr.table
  exact opt_ite (fun _ => .map (.vec .lineEntry)) fun _ => opt_ite (fun _ => .map (.vec .varEntry)) fun _ =>
    opt_ite (fun _ => .map (.vec .varTypeEntry)) fun _ =>
    opt_ite (fun _ => .map (.vec (.typeAnnotation .codeTarget))) fun _ =>
    opt_ite (fun _ => .map (.vec (.typeAnnotation .codeTarget))) fun _ =>
    opt_ite (fun _ => .map (.vec .frame)) fun _ r h => by cases h

theorem Local.codeAttr : Local CodeAttr.read := .attr _ _

theorem Local.rangeLabels (s n : UInt16) : Local (rangeLabels s n) :=
  (Local.getLabel _).bind (fun _ => .ite (.map (.getLabel _)) (.fail _))

theorem Local.addVars : ∀ (ls : List VarEntry) (vs : List LocalVariable), Local (addVars vs ls)
  | [], _ => .pure _
  | _ :: ls, _ => (Local.rangeLabels _ _).bind (fun _ => Local.addVars ls _)

theorem Local.addVarTypes : ∀ (ls : List VarTypeEntry) (vs : List LocalVariable), Local (addVarTypes vs ls)
  | [], _ => .pure _
  | _ :: ls, _ => (Local.rangeLabels _ _).bind (fun _ => Local.addVarTypes ls _)

theorem Local.step (idx : Nat → Option Nat) (acc : AttrAcc) (a : CodeAttr) : Local (acc.step idx a) := by
  cases a with
  | lines => exact .map (.ofRes _)
  | vars => exact .map (.addVars _ _)
  | varTypes => exact .map (.addVarTypes _ _)
  | _ => exact .pure _

theorem Local.codeAttrs (idx : Nat → Option Nat) : ∀ n acc, Local (readCodeAttrs idx n acc)
  | 0, _ => .pure _
  | n + 1, _ => Local.codeAttr.bind (fun _ => (Local.step _ _ _).bind (fun _ => Local.codeAttrs idx n _))

theorem Local.withCatches {α : Type} {r : Rd α} (cs : List Catch) (h : Local r) : Local (withCatches cs r) :=
  fun env st bs a st' rest h' => h { env with catches := some cs } st bs a st' rest h'

theorem Local.catchRead : Local Catch.read :=
  .ap (.ap (.ap (.map .label) .label) .label) (.opt (fun _ => .lookup _ _))

theorem Local.bytes (n : Nat) : Local (rBytes n) := .lift (prefixed_readExact n)

theorem Local.insns (code : Bytes) : Local (readInsns code) := by
  refine .still (fun env st => ?_)
  unfold readInsns
  split
  · exact .inl ⟨_, fun _ => rfl⟩
  · exact .inr ⟨_, _, fun _ => rfl⟩

theorem Local.placeMarkers (idx : Nat → Option Nat) (ins : Nat → List Insn) (is : List Insn) :
    Local (placeMarkers idx ins is) := by
  refine .still (fun env st => ?_)
  unfold Verif.placeMarkers
  split
  · exact .inl ⟨_, fun _ => rfl⟩
  · split
    · exact .inl ⟨_, fun _ => rfl⟩
    · exact .inr ⟨_, _, fun _ => rfl⟩

theorem Local.code (f : List LocalVariable → List LocalVariable) : Local (Code.read fun _ => f) := by
  have key : Local (Code.readIn fun _ => f) := by
    unfold Code.readIn
    exact (Local.num _).bind fun _ => (Local.num _).bind fun _ => (Local.num _).bind fun _ =>
      (Local.bytes _).bind fun _ => (Local.insns _).bind fun _ => (Local.vec .catchRead).bind fun _ =>
      (Local.num _).bind fun _ => (Local.withCatches _ (.codeAttrs _ _ _)).bind fun _ =>
      (Local.placeMarkers _ _ _).bind fun _ => .pure _
  intro env st bs a st' rest h
  unfold Code.read at h ⊢
  split at h
  · cases h
  · rename_i h1
    cases h
    obtain ⟨b, e1, e2⟩ := key _ _ _ _ _ _ h1
    exact ⟨b, e1, fun t => by rw [e2]⟩

theorem Local.methodTable {f : List LocalVariable → List LocalVariable} {n : Bytes} :
    ∀ r, MethodAttr.table (fun _ => f) n = some r → Local r := by
  unfold MethodAttr.table
  exact opt_ite (fun _ => .map (.code f)) fun _ => opt_ite (fun _ => .pure _) fun _ =>
    opt_ite (fun _ => .pure _) fun _ => opt_ite (fun _ => .map (.sig _)) fun _ =>
    opt_ite (fun _ => .map (.vec .annotation)) fun _ => opt_ite (fun _ => .map (.vec .annotation)) fun _ =>
    opt_ite (fun _ => .map (.vec (.typeAnnotation .methodTarget))) fun _ =>
    opt_ite (fun _ => .map (.vec (.typeAnnotation .methodTarget))) fun _ =>
    opt_ite (fun _ => .map (.vec (.vec .annotation))) fun _ =>
    opt_ite (fun _ => .map (.vec (.vec .annotation))) fun _ =>
    opt_ite (fun _ => .map (.vec (.str _))) fun _ => opt_ite (fun _ => .map .annValue) fun _ =>
    opt_ite (fun _ => .map (.vec .methodParameter)) fun _ r h => by cases h

end Verif
