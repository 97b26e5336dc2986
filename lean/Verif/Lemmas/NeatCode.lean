import Verif.Lemmas.Neat
import Verif.Lemmas.CodeRound
import Verif.Lemmas.WrCode
import Verif.Lemmas.SoundCode

/-! What readers return: method bodies. -/

namespace Verif
open Spec Sig

variable {α β : Type}

/-! ## Instructions -/

/-- Instructions that are read. -/
def GoodInsn : Insn → Prop
  | .lookupSwitch _ t => (t.map Prod.fst).Nodup
  | .push (.dynamic _) => False
  | .label _ | .lineNumber _ => True
  | i => (normal i).isSome

theorem goodInsn_ok {i : Insn} (h : GoodInsn i) (hr : RegularInsn i) : CodeOk i ∧ Readable i := by
  cases i with
  | lookupSwitch d t => exact ⟨h, trivial⟩
  | push c => cases c with
    | dynamic d => exact h.elim
    | static c => exact ⟨hr, trivial⟩
  | newArray t n => exact (show False from hr).elim
  | _ => exact ⟨hr, trivial⟩

theorem goodInsn_normal {i : Insn} (h : GoodInsn i) (hs : solid [i] = [i]) : (normal i).isSome := by
  cases i with
  | lookupSwitch d t => rfl
  | push c => cases c with
    | dynamic d => exact h.elim
    | static c => rfl
  | label l => cases hs
  | lineNumber l => cases hs
  | _ => exact h

theorem good_newArray {i : UInt16} {n : UInt8} : Gives GoodInsn (rNewArray i n) := by
  refine gives_bind (gives_any _) fun c _ => ?_
  cases c with
  | dynamic d => exact gives_pure rfl
  | static s => exact gives_map (gives_all (fun _ => rfl) _)

theorem good_push {i : UInt16} : Gives GoodInsn (rPush i) := gives_map (gives_all (fun _ => rfl) _)

theorem good_convert (pos : Nat) (r : RInsn) : Gives GoodInsn (convert pos r) := by
  cases r with
  | TableSwitch d t => exact gives_bind (gives_any _) fun _ _ => gives_map (gives_all (fun _ => rfl) _)
  | LookupSwitch d es =>
    exact gives_bind (gives_any _) fun _ _ => gives_map (gives_all (fun es => collect_keys es) _)
  | Wide w => cases w <;> exact gives_pure rfl
  | NewArray n =>
    show Gives _ (match newArrayType n with
      | some t => Rd.pure (Insn.newArray (.static t) 1)
      | none => Rd.fail .invalid)
    split
    · exact gives_pure rfl
    · exact gives_fail
  | _ =>
    first
    | exact gives_pure rfl
    | exact good_push
    | exact good_newArray
    | exact gives_map (gives_all (fun _ => rfl) _)
    | exact gives_map (gives_all (fun x => by cases x <;> rfl) _)

theorem good_insn (pos : Nat) : Gives GoodInsn (rInsn pos) := by
  intro env st bs x st' rest hp hr
  have key : Gives GoodInsn (Rd.bind (Rd.lift RInsn.read) (convert pos)) :=
    gives_bind (gives_any _) fun r _ => good_convert pos r
  unfold rInsn at hr
  split at hr
  · cases hr
  · split at hr
    · exact key _ _ _ _ _ _ hp hr
    · exact key _ _ _ _ _ _ hp hr

theorem loop_good {len : Nat} {env : REnv} (hp : LegiblePool env.pool) : ∀ (n : Nat) {st st' : RSt} {bs : Bytes}
    {is : List (Nat × Insn)}, bs.length = n → readLoop len env st bs = .ok (is, st') → ∀ i ∈ is, GoodInsn i.2 := by
  intro n
  induction n using Nat.strongRecOn with
  | _ n ih =>
    intro st st' bs is hn h
    rw [readLoop] at h
    split at h
    · cases h; simp
    · split at h
      · cases h
      · rename_i i st1 rest hr
        split at h
        · rename_i hlt
          split at h
          · cases h
          · rename_i is' st2 hr2
            cases h
            intro j hj
            rcases List.mem_cons.mp hj with rfl | hj
            · exact good_insn _ _ _ _ _ _ _ hp hr
            · exact ih rest.length (by omega) rfl hr2 j hj
        · cases h

theorem good_insns (code : Bytes) : Gives (fun is => ∀ i ∈ is, GoodInsn i.2) (readInsns code) := by
  intro env st bs x st' rest hp hr
  unfold readInsns at hr
  split at hr
  · cases hr
  · rename_i h; cases hr; exact loop_good hp _ rfl h

/-! ## Attributes -/

def NeatCodeAttr : CodeAttr → Prop
  | .invisibleType as => ∀ a ∈ as, NeatElems a.vals
  | .visibleType as => ∀ a ∈ as, NeatElems a.vals
  | .raw a => a.name ∉ codeAttrNames
  | _ => True

theorem neat_codeAttr : Gives NeatCodeAttr CodeAttr.read := by
  refine gives_attr' (fun name => ?_) fun s b hs => ?_
  · unfold CodeAttr.table
    refine table_cons (gives_map (gives_all (fun _ => trivial) _)) ?_
    refine table_cons (gives_map (gives_all (fun _ => trivial) _)) ?_
    refine table_cons (gives_map (gives_all (fun _ => trivial) _)) ?_
    refine table_cons (gives_map neat_typeAnns) ?_
    refine table_cons (gives_map neat_typeAnns) ?_
    refine table_cons (gives_map (gives_all (fun _ => trivial) _)) ?_
    exact nofun
  · unfold CodeAttr.table at hs
    obtain ⟨h1, hs⟩ := table_none hs
    obtain ⟨h2, hs⟩ := table_none hs
    obtain ⟨h3, hs⟩ := table_none hs
    obtain ⟨h4, hs⟩ := table_none hs
    obtain ⟨h5, hs⟩ := table_none hs
    obtain ⟨h6, hs⟩ := table_none hs
    show s ∉ codeAttrNames
    simp only [codeAttrNames, List.mem_cons, List.not_mem_nil, or_false, not_or]
    refine ⟨?_, ?_, ?_, ?_, ?_, ?_⟩ <;> assumption

/-- An attribute of a value that is not the variables. -/
def NeatAttr : CodeAttribute → Prop
  | .invisibleType as => ∀ a ∈ as, NeatElems a.vals
  | .visibleType as => ∀ a ∈ as, NeatElems a.vals
  | .raw a => a.name ∉ codeAttrNames
  | .locals _ => False

/-- Instructions as they are inserted between others. -/
def IsMark (i : Insn) : Prop := (∃ l, i = .label l) ∨ ∃ n, i = .lineNumber n

theorem addLines_marks {idx : Nat → Option Nat} : ∀ {ls : List LineEntry} {ins ins' : Nat → List Insn},
    (∀ k, ∀ i ∈ ins k, IsMark i) → addLines idx ins ls = .ok ins' → ∀ k, ∀ i ∈ ins' k, IsMark i
  | [], _, _, h, e => by cases e; exact h
  | l :: ls, ins, ins', h, e => by
    rw [addLines] at e
    split at e
    · cases e
    · refine addLines_marks (fun k i hi => ?_) e
      split at hi
      · rw [List.mem_singleton] at hi; exact .inr ⟨_, hi⟩
      · exact h k i hi

theorem addLabels_marks {idx : Nat → Option Nat} : ∀ {m : LabelMap} {ins ins' : Nat → List Insn},
    (∀ k, ∀ i ∈ ins k, IsMark i) → addLabels idx ins m = .ok ins' → ∀ k, ∀ i ∈ ins' k, IsMark i
  | [], _, _, h, e => by cases e; exact h
  | (o, l) :: ls, ins, ins', h, e => by
    rw [addLabels] at e
    split at e
    · cases e
    · refine addLabels_marks (fun k i hi => ?_) e
      split at hi
      · rcases List.mem_append.mp hi with hi | hi
        · exact h k i hi
        · rw [List.mem_singleton] at hi; exact .inl ⟨_, hi⟩
      · exact h k i hi

theorem goodInsn_mark {i : Insn} (h : IsMark i) : GoodInsn i := by
  rcases h with ⟨l, rfl⟩ | ⟨n, rfl⟩ <;> trivial

theorem good_markers {idx : Nat → Option Nat} {ins : Nat → List Insn} {is : List Insn}
    (h : ∀ k, ∀ i ∈ ins k, IsMark i) (hi : ∀ i ∈ is, GoodInsn i) :
    Gives (fun is => ∀ i ∈ is, GoodInsn i) (placeMarkers idx ins is) := by
  intro env st bs x st' rest hp hr
  unfold placeMarkers at hr
  split at hr
  · cases hr
  · split at hr
    · cases hr
    · rename_i hl
      cases hr
      exact insertDown_keeps (fun k i hi => goodInsn_mark (addLabels_marks h hl k i hi)) _ hi

def Given (v : LocalVariable) : Prop := v.descriptor.isSome ∨ v.signature.isSome

/-- After `n` attributes. -/
structure NeatAcc (n : Nat) (acc : AttrAcc) : Prop where
  attrs : ∀ a ∈ acc.attrs, NeatAttr a
  vars : ∀ v ∈ acc.vars, Given v
  keys : (acc.vars.map LocalVariable.key).Nodup
  ins : ∀ k, ∀ i ∈ acc.ins k, IsMark i
  len : acc.attrs.length ≤ n ∧ (acc.vars ≠ [] → acc.attrs.length < n)

theorem upsert_keys {f : LocalVariable → LocalVariable} (hf : ∀ w, (f w).key = w.key) (v : LocalVariable) :
    ∀ (ws : List LocalVariable), (upsert f v ws).map LocalVariable.key =
      if v.key ∈ ws.map LocalVariable.key then ws.map LocalVariable.key else ws.map LocalVariable.key ++ [v.key]
  | [] => by simp [upsert]
  | w :: ws => by
    rw [upsert]
    split
    · rename_i e
      simp [hf, e]
    · rename_i e
      rw [List.map_cons, upsert_keys hf v ws]
      have : v.key ≠ w.key := fun h => e h.symm
      by_cases hk : v.key ∈ ws.map LocalVariable.key
      · simp only [List.map_cons, List.mem_cons, hk, or_true, if_true]
      · rw [if_neg hk, if_neg (by simp only [List.map_cons, List.mem_cons, not_or]; exact ⟨this, hk⟩)]
        rfl

theorem upsert_nodup {f : LocalVariable → LocalVariable} (hf : ∀ w, (f w).key = w.key) (v : LocalVariable)
    {ws : List LocalVariable} (h : (ws.map LocalVariable.key).Nodup) : ((upsert f v ws).map LocalVariable.key).Nodup := by
  rw [upsert_keys hf]
  split
  · exact h
  · rename_i hk
    rw [List.nodup_append]
    exact ⟨h, by simp, fun a ha b hb => by rw [List.mem_singleton] at hb; rintro rfl; exact hk (hb ▸ ha)⟩

/-- Variables as they are collected. -/
def NeatVars (ws : List LocalVariable) : Prop := (∀ v ∈ ws, Given v) ∧ (ws.map LocalVariable.key).Nodup

theorem neat_addVars : ∀ (vs : List VarEntry) {ws : List LocalVariable}, NeatVars ws → Gives NeatVars (addVars ws vs)
  | [], _, h => gives_pure h
  | v :: vs, ws, h => gives_bind (gives_any _) fun r _ => neat_addVars vs
      ⟨upsert_all (fun w _ => .inl rfl) (.inl rfl) h.1, by
        refine upsert_nodup ?_ _ h.2
        intro w
        rfl⟩

theorem neat_addVarTypes : ∀ (vs : List VarTypeEntry) {ws : List LocalVariable}, NeatVars ws →
    Gives NeatVars (addVarTypes ws vs)
  | [], _, h => gives_pure h
  | v :: vs, ws, h => gives_bind (gives_any _) fun r _ => neat_addVarTypes vs
      ⟨upsert_all (fun w _ => .inr rfl) (.inr rfl) h.1, by
        refine upsert_nodup ?_ _ h.2
        intro w
        rfl⟩

theorem neat_step {idx : Nat → Option Nat} {n : Nat} {acc : AttrAcc} (h : NeatAcc n acc) {a : CodeAttr}
    (ha : NeatCodeAttr a) : Gives (NeatAcc (n + 1)) (acc.step idx a) := by
  have add : ∀ {x : CodeAttribute}, NeatAttr x → NeatAcc (n + 1) { acc with attrs := acc.attrs ++ [x] } := by
    intro x hx
    refine ⟨fun y hy => ?_, h.vars, h.keys, h.ins, ?_⟩
    · rcases List.mem_append.mp hy with hy | hy
      · exact h.attrs y hy
      · rw [List.mem_singleton] at hy; exact hy ▸ hx
    · have h1 := h.len.1
      have h2 := h.len.2
      simp only [List.length_append, List.length_singleton]
      exact ⟨by omega, fun e => by have := h2 e; omega⟩
  have vars : ∀ ws, NeatVars ws → NeatAcc (n + 1) { acc with vars := ws } := fun ws hw =>
    ⟨h.attrs, hw.1, hw.2, h.ins, Nat.le_succ_of_le h.len.1, fun _ => Nat.lt_succ_of_le h.len.1⟩
  cases a with
  | lines ls => exact gives_map (gives_ofRes fun m hm => ⟨h.attrs, h.vars, h.keys, addLines_marks h.ins hm,
      Nat.le_succ_of_le h.len.1, fun _ => Nat.lt_succ_of_le h.len.1⟩)
  | vars vs => exact gives_map ((neat_addVars vs ⟨h.vars, h.keys⟩).mono vars)
  | varTypes vs => exact gives_map ((neat_addVarTypes vs ⟨h.vars, h.keys⟩).mono vars)
  | frames fs => exact gives_pure (vars acc.vars ⟨h.vars, h.keys⟩)
  | invisibleType as => exact gives_pure (add ha)
  | visibleType as => exact gives_pure (add ha)
  | raw a => exact gives_pure (add ha)

theorem neat_codeAttrs {idx : Nat → Option Nat} : ∀ (n : Nat) {k : Nat} {acc : AttrAcc}, NeatAcc k acc →
    Gives (NeatAcc (k + n)) (readCodeAttrs idx n acc)
  | 0, _, _, h => gives_pure h
  | n + 1, k, _, h => gives_bind neat_codeAttr fun _ ha => gives_bind (neat_step h ha) fun _ h' =>
      (neat_codeAttrs n h').mono fun _ h => by rw [show k + (n + 1) = k + 1 + n by omega]; exact h

/-! ## Bodies -/

/-- What is known of a body that was read, except for what needs the whole of it. -/
structure GoodParts (x : Code) : Prop where
  insns : ∀ i ∈ x.code, GoodInsn i
  catches : x.catches.length < 65536
  attrs : x.attrs.length < 65536
  attr : ∀ a ∈ x.attrs, NeatAttr a ∨ ∃ vs, a = .locals vs ∧ ∀ v ∈ vs, Given v
  vars : ((x.attrs.flatMap attrVars).map LocalVariable.key).Nodup

theorem neat_noVars {as : List CodeAttribute} (h : ∀ a ∈ as, NeatAttr a) : as.flatMap attrVars = [] := by
  rw [List.flatMap_eq_nil_iff]
  intro a ha
  have := h a ha
  cases a with
  | locals vs => exact this.elim
  | _ => rfl

theorem good_code {ord : Nat → List LocalVariable → List LocalVariable} (ho : ∀ n l, (ord n l).Perm l) :
    Gives GoodParts (Code.read ord) := by
  have key : Gives GoodParts (Code.readIn ord) := by
    refine gives_bind (gives_any _) fun _ _ => gives_bind (gives_any _) fun _ _ => gives_bind (gives_any _) fun _ _ =>
      gives_bind (gives_any _) fun code _ => gives_bind (good_insns code) fun pis hpis =>
      gives_bind gives_len fun catches hc => gives_bind (gives_any _) fun n _ =>
      gives_bind (P := NeatAcc (0 + n.toNat)) ?_ fun acc hacc => gives_bind (good_markers hacc.ins ?_) fun is his => ?_
    · intro env st bs x st' rest hp hr
      exact neat_codeAttrs (idx := indexIn (pis.map Prod.fst ++ [code.length])) n.toNat (k := 0)
        (acc := ⟨[], fun _ => [], []⟩) ⟨by simp, by simp, by simp, by simp, by simp⟩
        { env with catches := some catches } _ _ _ _ _ hp hr
    · intro i hi
      obtain ⟨p, hp, rfl⟩ := List.mem_map.mp hi
      exact hpis p hp
    · intro env st bs x st' rest hp hr
      cases hr
      have hn := n.toNat_lt
      have h1 := hacc.len.1
      have h2 := hacc.len.2
      refine ⟨his, hc, ?_, ?_, ?_⟩
      · simp only
        split
        · omega
        · rename_i hv
          have := h2 (fun e => hv (by rw [e]; rfl))
          rw [List.length_append, List.length_singleton]
          omega
      · intro a ha
        simp only at ha
        split at ha
        · exact .inl (hacc.attrs a ha)
        · rcases List.mem_append.mp ha with ha | ha
          · exact .inl (hacc.attrs a ha)
          · rw [List.mem_singleton] at ha
            exact .inr ⟨_, ha, fun v hv => hacc.vars v ((ho _ _).mem_iff.mp hv)⟩
      · simp only
        split
        · rw [neat_noVars hacc.attrs]; simp
        · rw [List.flatMap_append, neat_noVars hacc.attrs]
          simp only [List.nil_append, List.flatMap_cons, List.flatMap_nil, List.append_nil, attrVars]
          exact ((ho _ _).map _).nodup_iff.mpr hacc.keys
  intro env st bs x st' rest hp hr
  unfold Code.read at hr
  split at hr
  · cases hr
  · rename_i h; cases hr; exact key { env with catches := some [] } _ _ _ _ _ hp h

end Verif
