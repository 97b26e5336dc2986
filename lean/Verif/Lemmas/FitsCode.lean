import Verif.Lemmas.NeatClass
import Verif.Spec.Storable

/-! What readers return fits in what is written: method bodies. -/

namespace Verif
open Spec Sig

variable {α β : Type}

theorem gives_len8 {r : Rd α} : Gives (fun xs => xs.length < 256) (rVec u8 r) :=
  gives_bind (gives_any _) fun n _ => (gives_replicate_len _).mono fun xs hx => by
    rw [hx]
    exact n.toNat_lt

/-! ## Annotations -/

theorem short_typeAnn {T : Type} {Q : T → Prop} {r : Rd T} (h : Gives Q r) :
    Gives (fun a => a.path.length < 256 ∧ Q a.target) (TypeAnnotation.read r) :=
  gives_ap (gives_ap (gives_ap (gives_map (h.mono fun _ h1 _ h2 _ _ _ _ => ⟨h2, h1⟩)) gives_len8) (gives_any _)) (gives_any _)

theorem fits_typeAnnsQ {T : Type} {Q : T → Prop} {r : Rd T} (h : Gives Q r) :
    Gives (fun as => FitsTypeAnns as ∧ ∀ a ∈ as, Q a.target) (rVec u16 (TypeAnnotation.read r)) :=
  (gives_list (short_typeAnn h)).mono fun _ h => ⟨⟨h.1, fun a ha => (h.2 a ha).1⟩, fun a ha => (h.2 a ha).2⟩

theorem fits_typeAnns {T : Type} {r : Rd T} : Gives FitsTypeAnns (rVec u16 (TypeAnnotation.read r)) :=
  (fits_typeAnnsQ (gives_any r)).mono fun _ h => h.1

/-- The number of ranges in a target. -/
def TargetTable : CodeTarget → Prop
  | .localVar ts => Table ts
  | .resourceVar ts => Table ts
  | _ => True

theorem fits_target : Gives TargetTable CodeTarget.read := by
  refine gives_bind (gives_any _) fun tag _ => ?_
  have two : ∀ {f : Label → UInt8 → CodeTarget}, (∀ x y, TargetTable (f x y)) →
      Gives TargetTable (Rd.ap (Rd.map f rLabel) (rNum u8)) :=
    fun h => gives_ap (gives_map ((gives_any _).mono fun x _ y _ => h x y)) (gives_any _)
  exact gives_ite (gives_map gives_len) <| gives_ite (gives_map gives_len) <|
    gives_ite (gives_map (gives_all (fun _ => trivial) _)) <|
    gives_ite (gives_map (gives_all (fun _ => trivial) _)) <| gives_ite (gives_map (gives_all (fun _ => trivial) _)) <|
    gives_ite (gives_map (gives_all (fun _ => trivial) _)) <| gives_ite (gives_map (gives_all (fun _ => trivial) _)) <|
    gives_ite (two fun _ _ => trivial) <| gives_ite (two fun _ _ => trivial) <| gives_ite (two fun _ _ => trivial) <|
    gives_ite (two fun _ _ => trivial) <| gives_ite (two fun _ _ => trivial) gives_fail

def ShortCodeAttr : CodeAttr → Prop
  | .invisibleType as | .visibleType as => FitsTypeAnns as ∧ ∀ a ∈ as, TargetTable a.target
  | _ => True

theorem short_codeAttr : Gives ShortCodeAttr CodeAttr.read := by
  refine gives_attr' (fun name => ?_) fun s b hs => trivial
  unfold CodeAttr.table
  refine table_cons (gives_map (gives_all (fun _ => trivial) _)) ?_
  refine table_cons (gives_map (gives_all (fun _ => trivial) _)) ?_
  refine table_cons (gives_map (gives_all (fun _ => trivial) _)) ?_
  refine table_cons (gives_map (fits_typeAnnsQ fits_target)) ?_
  refine table_cons (gives_map (fits_typeAnnsQ fits_target)) ?_
  refine table_cons (gives_map (gives_all (fun _ => trivial) _)) ?_
  exact nofun

/-! ## The number of attributes -/

def ShortAttr : CodeAttribute → Prop
  | .invisibleType as | .visibleType as => FitsTypeAnns as ∧ ∀ a ∈ as, TargetTable a.target
  | .raw _ => True
  | .locals _ => False

theorem short_one {a : CodeAttribute} (h : ShortAttr a) : attrCount a = 1 := by cases a <;> first | rfl | exact h.elim

theorem short_sum : ∀ {as : List CodeAttribute}, (∀ a ∈ as, ShortAttr a) → (as.map attrCount).sum = as.length
  | [], _ => rfl
  | a :: as, h => by
    rw [List.map_cons, List.sum_cons, short_one (h a (by simp)), short_sum fun b hb => h b (by simp [hb]), List.length_cons]
    omega

/-- One, if there is such a variable. -/
def flag (p : LocalVariable → Bool) (vs : List LocalVariable) : Nat := if vs.any p then 1 else 0

theorem flag_le (p : LocalVariable → Bool) (vs : List LocalVariable) : flag p vs ≤ 1 := by unfold flag; split <;> omega

theorem flag_mono {p : LocalVariable → Bool} {vs ws : List LocalVariable} (h : ∀ v ∈ ws, p v = true → ∃ w ∈ vs, p w = true) :
    flag p ws ≤ flag p vs := by
  unfold flag
  split
  · rename_i e
    obtain ⟨v, hv, hp⟩ := List.any_eq_true.mp e
    obtain ⟨w, hw, hp⟩ := h v hv hp
    rw [if_pos (List.any_eq_true.mpr ⟨w, hw, hp⟩)]
    omega
  · omega

def hasDesc (v : LocalVariable) : Bool := v.descriptor.isSome
def hasSig (v : LocalVariable) : Bool := v.signature.isSome

theorem sigs_addVars : ∀ (vs : List VarEntry) (ws : List LocalVariable),
    Gives (fun us => ∀ v ∈ us, hasSig v = true → ∃ w ∈ ws, hasSig w = true) (addVars ws vs)
  | [], ws => gives_pure fun v hv h => ⟨v, hv, h⟩
  | v :: vs, ws => gives_bind (gives_any _) fun r _ => (sigs_addVars vs _).mono fun us h u hu hp => by
      obtain ⟨w, hw, hp⟩ := h u hu hp
      rcases upsert_cases hw with rfl | hw' | ⟨w', hw', rfl⟩
      · cases hp
      · exact ⟨w, hw', hp⟩
      · exact ⟨w', hw', hp⟩

theorem descs_addVarTypes : ∀ (vs : List VarTypeEntry) (ws : List LocalVariable),
    Gives (fun us => ∀ v ∈ us, hasDesc v = true → ∃ w ∈ ws, hasDesc w = true) (addVarTypes ws vs)
  | [], ws => gives_pure fun v hv h => ⟨v, hv, h⟩
  | v :: vs, ws => gives_bind (gives_any _) fun r _ => (descs_addVarTypes vs _).mono fun us h u hu hp => by
      obtain ⟨w, hw, hp⟩ := h u hu hp
      rcases upsert_cases hw with rfl | hw' | ⟨w', hw', rfl⟩
      · cases hp
      · exact ⟨w, hw', hp⟩
      · exact ⟨w', hw', hp⟩

/-- After `n` attributes. -/
structure ShortAcc (n : Nat) (acc : AttrAcc) : Prop where
  attrs : ∀ a ∈ acc.attrs, ShortAttr a
  len : acc.attrs.length + flag hasDesc acc.vars + flag hasSig acc.vars ≤ n

theorem short_step {idx : Nat → Option Nat} {n : Nat} {acc : AttrAcc} (h : ShortAcc n acc) {a : CodeAttr}
    (ha : ShortCodeAttr a) : Gives (ShortAcc (n + 1)) (acc.step idx a) := by
  have hlen := h.len
  have add : ∀ {x : CodeAttribute}, ShortAttr x → ShortAcc (n + 1) { acc with attrs := acc.attrs ++ [x] } := by
    intro x hx
    refine ⟨fun y hy => ?_, ?_⟩
    · rcases List.mem_append.mp hy with hy | hy
      · exact h.attrs y hy
      · rw [List.mem_singleton] at hy; exact hy ▸ hx
    · simp only [List.length_append, List.length_singleton]
      omega
  cases a with
  | lines ls => exact gives_map (gives_ofRes fun m hm => ⟨h.attrs, Nat.le_succ_of_le h.len⟩)
  | vars vs =>
    refine gives_map ((sigs_addVars vs acc.vars).mono fun us hu => ⟨h.attrs, ?_⟩)
    have h1 := flag_mono hu
    have h2 := flag_le hasDesc us
    show acc.attrs.length + flag hasDesc us + flag hasSig us ≤ n + 1
    omega
  | varTypes vs =>
    refine gives_map ((descs_addVarTypes vs acc.vars).mono fun us hu => ⟨h.attrs, ?_⟩)
    have h1 := flag_mono hu
    have h2 := flag_le hasSig us
    show acc.attrs.length + flag hasDesc us + flag hasSig us ≤ n + 1
    omega
  | frames fs => exact gives_pure ⟨h.attrs, Nat.le_succ_of_le h.len⟩
  | invisibleType as => exact gives_pure (add ha)
  | visibleType as => exact gives_pure (add ha)
  | raw a => exact gives_pure (add (x := .raw a) trivial)

theorem short_codeAttrs {idx : Nat → Option Nat} : ∀ (n : Nat) {k : Nat} {acc : AttrAcc}, ShortAcc k acc →
    Gives (ShortAcc (k + n)) (readCodeAttrs idx n acc)
  | 0, _, _, h => gives_pure h
  | n + 1, k, _, h => gives_bind short_codeAttr fun _ ha => gives_bind (short_step h ha) fun _ h' =>
      (short_codeAttrs n h').mono fun _ h => by rw [show k + (n + 1) = k + 1 + n by omega]; exact h

/-- The attributes of a body that was read. -/
structure ShortParts (x : Code) : Prop where
  attr : ∀ a ∈ x.attrs, ShortAttr a ∨ ∃ vs, a = .locals vs ∧ vs ≠ []
  count : (x.attrs.map attrCount).sum < 65536

theorem short_code {ord : Nat → List LocalVariable → List LocalVariable} (ho : ∀ n l, (ord n l).Perm l) :
    Gives ShortParts (Code.read ord) := by
  have key : Gives ShortParts (Code.readIn ord) := by
    refine gives_bind (gives_any _) fun _ _ => gives_bind (gives_any _) fun _ _ => gives_bind (gives_any _) fun _ _ =>
      gives_bind (gives_any _) fun code _ => gives_bind (gives_any _) fun pis _ =>
      gives_bind (gives_any _) fun catches _ => gives_bind (gives_any _) fun n _ =>
      gives_bind (P := ShortAcc (0 + n.toNat)) ?_ fun acc hacc => gives_bind (gives_any _) fun is _ => ?_
    · intro env st bs x st' rest hp hr
      exact short_codeAttrs (idx := indexIn (pis.map Prod.fst ++ [code.length])) n.toNat (k := 0)
        (acc := ⟨[], fun _ => [], []⟩) ⟨by simp, by simp [flag]⟩ { env with catches := some catches } _ _ _ _ _ hp hr
    · intro env st bs x st' rest hp hr
      cases hr
      have hn := n.toNat_lt
      have h1 := hacc.len
      refine ⟨?_, ?_⟩
      · intro a ha
        simp only at ha
        split at ha
        · exact .inl (hacc.attrs a ha)
        · rename_i hv
          rcases List.mem_append.mp ha with ha | ha
          · exact .inl (hacc.attrs a ha)
          · rw [List.mem_singleton] at ha
            refine .inr ⟨_, ha, fun e => hv ?_⟩
            show acc.vars.length = 0
            rw [← (ho _ _).length_eq, e]
            rfl
      · simp only
        split
        · rw [short_sum hacc.attrs]
          omega
        · rw [List.map_append, List.sum_append, short_sum hacc.attrs]
          simp only [List.map_cons, List.map_nil, List.sum_cons, List.sum_nil]
          have fl : ∀ (p : LocalVariable → Bool) (vs ws : List LocalVariable), vs.Perm ws → flag p vs = flag p ws := by
            intro p vs ws h
            unfold flag
            rw [h.any_eq]
          have e : ∀ k, attrCount (.locals (ord k acc.vars)) = flag hasDesc acc.vars + flag hasSig acc.vars := fun k => by
            rw [← fl hasDesc _ _ (ho k acc.vars), ← fl hasSig _ _ (ho k acc.vars)]
            rfl
          rw [e]
          omega
  intro env st bs x st' rest hp hr
  unfold Code.read at hr
  split at hr
  · cases hr
  · rename_i h; cases hr; exact key { env with catches := some [] } _ _ _ _ _ hp h

/-! ## Ranges -/

theorem precedes_after {L R : List Insn} {s t : Label} (h : Precedes R s t) : Precedes (L ++ R) s t := by
  obtain ⟨k, m, h1, h2, h3⟩ := h
  exact ⟨L.length + k, L.length + m, by rw [List.getElem?_append_right (by omega)]; simpa using h1,
    by rw [List.getElem?_append_right (by omega)]; simpa using h2, by omega⟩

theorem precedes_across {L R : List Insn} {s t : Label} (h : .label s ∈ L) (h' : .label t ∈ R) : Precedes (L ++ R) s t := by
  obtain ⟨k, hk⟩ := List.getElem?_of_mem h
  obtain ⟨m, hm⟩ := List.getElem?_of_mem h'
  have := (List.getElem?_eq_some_iff.mp hk).1
  exact ⟨k, L.length + m, by rw [List.getElem?_append_left this]; exact hk,
    by rw [List.getElem?_append_right (by omega)]; simpa using hm, by omega⟩

theorem precedes_same {L : List Insn} {s : Label} (h : .label s ∈ L) : Precedes L s s := by
  obtain ⟨k, hk⟩ := List.getElem?_of_mem h
  exact ⟨k, k, hk, hk, Nat.le_refl _⟩

theorem precedes_start {L : List Insn} {s t : Label} (h : Precedes L s t) : .label s ∈ L := by
  obtain ⟨k, _, h, _, _⟩ := h
  exact List.mem_of_getElem? h

theorem decodes_order {p : Nat} {bs : Bytes} {rs : List (Nat × RInsn)} (h : Decodes p bs rs) :
    (rs.map Prod.fst ++ [p + bs.length]).Pairwise (· < ·) := by
  induction h with
  | nil => simp
  | @cons p r b bs rs h1 h2 ih =>
    have hp := rawAt_pos h1
    have e : p + b.length + bs.length = p + (b ++ bs).length := by rw [List.length_append]; omega
    rw [e] at ih
    rw [List.map_cons, List.cons_append, List.pairwise_cons]
    refine ⟨fun q hq => ?_, ih⟩
    rcases List.mem_append.mp hq with hq | hq
    · obtain ⟨x, hx, rfl⟩ := List.mem_map.mp hq
      have := (decodes_pos h2).1 x hx
      show p < _
      omega
    · rw [List.mem_singleton] at hq
      rw [hq, List.length_append]
      show p < _
      omega

theorem marker_mem {ν : Nat → Option Label} {line : Nat → Option UInt16} {p : Nat} {l : Label} (h : ν p = some l) :
    .label l ∈ markers ν line p := by
  unfold markers
  rw [h]
  simp

theorem rebuild_label {ν : Nat → Option Label} {line : Nat → Option UInt16} : ∀ {pis : List (Nat × Insn)} {len p : Nat} {l : Label},
    p ∈ pis.map Prod.fst ++ [len] → ν p = some l → .label l ∈ rebuild ν line pis len
  | [], len, p, l, hp, h => by
    rw [List.map_nil, List.nil_append, List.mem_singleton] at hp
    exact marker_mem (hp ▸ h)
  | (q, i) :: pis, len, p, l, hp, h => by
    rw [rebuild, List.mem_append, List.mem_cons]
    rw [List.map_cons, List.cons_append, List.mem_cons] at hp
    rcases hp with rfl | hp
    · exact .inl (marker_mem h)
    · exact .inr (.inr (rebuild_label hp h))

theorem rebuild_precedes {ν : Nat → Option Label} {line : Nat → Option UInt16} : ∀ {pis : List (Nat × Insn)} {len p q : Nat} {s t : Label},
    (pis.map Prod.fst ++ [len]).Pairwise (· < ·) → p ∈ pis.map Prod.fst ++ [len] → q ∈ pis.map Prod.fst ++ [len] → p ≤ q →
    ν p = some s → ν q = some t → Precedes (rebuild ν line pis len) s t
  | [], len, p, q, s, t, _, hp, hq, _, hs, ht => by
    rw [List.map_nil, List.nil_append, List.mem_singleton] at hp hq
    subst hp hq
    rw [hs] at ht
    cases ht
    exact precedes_same (marker_mem hs)
  | (o, i) :: pis, len, p, q, s, t, ho, hp, hq, hle, hs, ht => by
    rw [List.map_cons, List.cons_append, List.pairwise_cons] at ho
    rw [List.map_cons, List.cons_append, List.mem_cons] at hp hq
    rw [rebuild, List.append_cons]
    rcases hq with rfl | hq
    · rcases hp with rfl | hp
      · rw [hs] at ht
        cases ht
        exact precedes_same (List.mem_append_left _ (List.mem_append_left _ (marker_mem hs)))
      · have := ho.1 p hp
        omega
    · rcases hp with rfl | hp
      · exact precedes_across (List.mem_append_left _ (marker_mem hs)) (rebuild_label hq ht)
      · exact precedes_after (rebuild_precedes ho.2 hp hq hle hs ht)

/-! ## Tables of jumps -/

theorem decodes_ok {p : Nat} {bs : Bytes} {rs : List (Nat × RInsn)} (h : Decodes p bs rs) : ∀ e ∈ rs, RawOk e.2 := by
  induction h with
  | nil => nofun
  | cons h1 _ ih =>
    intro e he
    rcases List.mem_cons.mp he with rfl | he
    · exact h1.1
    · exact ih e he

theorem switch_table {look : Int → Option Label} {r : RInsn} {d : Label} {low : Int32} {ls : List Label} (ho : RawOk r)
    (h : Refers look r (.tableSwitch d low ls)) : low.toInt + ls.length ≤ 2 ^ 31 := by
  have none_ : targets (.tableSwitch d low ls) = [] ∧ solid [Insn.tableSwitch d low ls] = [.tableSwitch d low ls] → False :=
    fun h => nomatch h.1
  have some_ : ∀ {P : Label → Cond → Prop} {Q : Label → Prop} {R : Label → Prop}, (∃ l, R l ∧ ((∃ k, Insn.tableSwitch d low ls = .jump k l ∧ P l k) ∨
      Insn.tableSwitch d low ls = .jsr l ∧ Q l)) → False := by
    rintro P Q R ⟨l, _, ⟨k, e, _⟩ | ⟨e, _⟩⟩ <;> cases e
  cases r with
  | TableSwitch dd t =>
    obtain ⟨dl, ls', e, _, hl⟩ := h
    cases e
    have h1 := congrArg List.length hl
    rw [List.length_map, List.length_map] at h1
    have h2 := ho.1
    have h3 := t.high.toInt_lt
    omega
  | LookupSwitch dd t =>
    obtain ⟨dl, ls', e, _⟩ := h
    cases e
  | Wide w => exact (none_ h).elim
  | _ =>
    first
    | exact (none_ h).elim
    | exact (some_ h).elim

/-! ## Bodies -/

theorem filled_label (T : List Bsm) {is : List Insn} {l : Label} (h : .label l ∈ is) : .label l ∈ is.map (resolveI T) :=
  List.mem_map.mpr ⟨_, h, rfl⟩

theorem filled_precedes (T : List Bsm) {is : List Insn} {s t : Label} (h : Precedes is s t) :
    Precedes (is.map (resolveI T)) s t := by
  obtain ⟨k, m, h1, h2, h3⟩ := h
  exact ⟨k, m, by rw [List.getElem?_map, h1]; rfl, by rw [List.getElem?_map, h2]; rfl, h3⟩

theorem resolve_targets (T : List Bsm) (i : Insn) : targets (resolveI T i) = targets i := by cases i <;> rfl

theorem resolve_dynamics (T : List Bsm) (i : Insn) : insnDynamics (resolveI T i) = (insnDynamics i).map (resolveD T) := by
  have or : ∀ {α : Type} (x : OrDynamic α), orDynamics (resolveO T x) = (orDynamics x).map (resolveD T) := by
    intro α x
    cases x <;> rfl
  cases i <;> first | rfl | exact or _

/-- A body that was read can be written, if it is storable. -/
def BodyFits (x : Code) : Prop := StorableBody x → ∀ T : List Bsm,
  (∀ i ∈ x.code, ∀ d ∈ insnDynamics i, Filled (resolveD T d)) → FitsCode (fillCode T x)

theorem body_fits {P : Pool} {bs : Bytes} {x : Code} {code : Bytes} {prs : List (Nat × RInsn)} {ν : Nat → Option Label}
    (g : GoodParts x) (sh : ShortParts x) (r : Recovers P bs x code prs ν) : BodyFits x := by
  intro hx T hd
  obtain ⟨line, pis, hm, hcode⟩ := r.insns
  have hfst : pis.map Prod.fst = prs.map Prod.fst :=
    matched_fst (R := fun r i p => Refers (reach ν p) r i) hm
  have hord := decodes_order r.decodes
  rw [Nat.zero_add, ← hfst] at hord
  have hsol : ∀ e ∈ pis, solid [e.2] = [e.2] := fun e he => by
    obtain ⟨e', _, h⟩ := hm.right e he
    exact refers_solid h.2
  have hin : ∀ p l, ν p = some l → p ∈ pis.map Prod.fst ++ [code.length] := fun p l h => by
    rw [hfst]
    exact r.range p l h
  have hused : ∀ l ∈ usedLabels x, .label l ∈ x.code := fun l hl => by
    obtain ⟨p, hp⟩ := r.used l hl
    rw [hcode]
    exact rebuild_label (hin p l hp) hp
  have hrange : ∀ {a : CodeAttribute}, a ∈ x.attrs → ∀ q ∈ codeAttrRanges a, Precedes (fillCode T x).code q.1 q.2 := fun ha q hq => by
    obtain ⟨p, p', h1, h2, h3⟩ := r.ranges q (List.mem_flatMap.mpr ⟨_, ha, hq⟩)
    refine filled_precedes T ?_
    rw [hcode]
    exact rebuild_precedes hord (hin _ _ h1) (hin _ _ h2) h3 h1 h2
  have hlab : ∀ {a : CodeAttribute}, a ∈ x.attrs → ∀ l ∈ codeAttrLabels a, .label l ∈ (fillCode T x).code := fun ha l hl =>
    filled_label T (hused l (List.mem_append_right _ (List.mem_flatMap.mpr ⟨_, ha, hl⟩)))
  have hann : ∀ {as : List (TypeAnnotation CodeTarget)} {y : CodeAttribute}, y ∈ x.attrs →
      (codeAttrLabels y = as.flatMap fun a => targetLabels a.target) →
      (codeAttrRanges y = as.flatMap fun a => targetRanges a.target) → (∀ a ∈ as, TargetTable a.target) →
      ∀ a ∈ as, FitsTarget (fillCode T x).code a.target := by
    intro as y hy h1 h2 h3 a ha
    have hl : ∀ l ∈ targetLabels a.target, .label l ∈ (fillCode T x).code := fun l hl =>
      hlab hy l (by rw [h1]; exact List.mem_flatMap.mpr ⟨a, ha, hl⟩)
    have hr : ∀ q ∈ targetRanges a.target, Precedes (fillCode T x).code q.1 q.2 := fun q hq =>
      hrange hy q (by rw [h2]; exact List.mem_flatMap.mpr ⟨a, ha, hq⟩)
    have ht := h3 a ha
    cases e : a.target <;> rw [e] at hl hr ht <;>
      first
      | exact ⟨ht, fun t h => hr _ (List.mem_map.mpr ⟨t, h, rfl⟩)⟩
      | exact hl
  refine ⟨?_, ?_, ?_, ?_, ?_, ?_, ?_, sh.count⟩
  · intro i' hi' d' hd'
    obtain ⟨i, hi, rfl⟩ := List.mem_map.mp hi'
    rw [resolve_dynamics] at hd'
    obtain ⟨d, hd'', rfl⟩ := List.mem_map.mp hd'
    exact hd i hi d hd''
  · show (placed (x.code.map (resolveI T))).Nodup
    rw [placed_resolve, hcode, placed_rebuild fun e he => solid_mark (hsol e he)]
    exact filterMap_nodup r.inj (hord.imp fun h => Nat.ne_of_lt h)
  · intro i' hi' l hl
    obtain ⟨i, hi, rfl⟩ := List.mem_map.mp hi'
    rw [resolve_targets] at hl
    exact filled_label T (hused l (List.mem_append_left _ (List.mem_append_left _ (List.mem_flatMap.mpr ⟨i, hi, hl⟩))))
  · show ((x.code.map (resolveI T)).map room).sum < 65536
    rw [List.map_map, show room ∘ resolveI T = room from funext (room_resolve T)]
    exact hx.size
  · intro d low ls hi'
    obtain ⟨i, hi, e⟩ := List.mem_map.mp hi'
    have hi : Insn.tableSwitch d low ls ∈ x.code := by cases i <;> first | (cases e; exact hi) | cases e
    refine ⟨fun e => hx.switches d low (e ▸ hi), ?_⟩
    rw [hcode] at hi
    obtain ⟨p, hp⟩ : ∃ p, (p, Insn.tableSwitch d low ls) ∈ pis := by
      clear hord hsol hfst hm hcode hin hused hrange hlab hann
      have hmk : ∀ p, Insn.tableSwitch d low ls ∉ markers ν line p := by
        intro p h
        unfold markers at h
        rcases List.mem_append.mp h with h | h <;> obtain ⟨_, _, h⟩ := List.mem_map.mp h <;> cases h
      induction pis with
      | nil => exact absurd hi (hmk _)
      | cons e pis ih =>
        obtain ⟨p, i⟩ := e
        rw [rebuild, List.mem_append, List.mem_cons] at hi
        rcases hi with h | rfl | h
        · exact absurd h (hmk _)
        · exact ⟨p, by simp⟩
        · obtain ⟨p', h⟩ := ih h
          exact ⟨p', by simp [h]⟩
    obtain ⟨⟨q, raw⟩, hq, _, href⟩ := hm.right _ hp
    exact switch_table (decodes_ok r.decodes _ hq) href
  · intro k hk l hl
    exact filled_label T (hused l (List.mem_append_left _ (List.mem_append_right _ (List.mem_flatMap.mpr ⟨k, hk, hl⟩))))
  · intro a ha
    rcases sh.attr a ha with hn | ⟨vs, rfl, hne⟩
    · cases a with
      | locals vs => exact hn.elim
      | raw a => trivial
      | visibleType as => exact ⟨hn.1, hann ha rfl rfl hn.2⟩
      | invisibleType as => exact ⟨hn.1, hann ha rfl rfl hn.2⟩
    · refine ⟨hx.vars vs ha, fun v hv => hrange ha _ (List.mem_map.mpr ⟨v, hv, rfl⟩), ?_⟩
      rcases g.attr _ ha with h | ⟨vs', e, h⟩
      · exact h.elim
      · cases e
        obtain ⟨v, hv⟩ := List.exists_mem_of_ne_nil _ hne
        exact ⟨v, hv, h v hv⟩

theorem fits_code {ord : Nat → List LocalVariable → List LocalVariable} (ho : ∀ n l, (ord n l).Perm l) :
    GivesUnder 2147483648 BodyFits (Code.read ord) := by
  intro env st bs x st' rest hp hl hr
  obtain ⟨_, body, code, prs, ν, _, hrec⟩ := read_sound ho hr hl
  exact body_fits (good_code ho _ _ _ _ _ _ hp hr) (short_code ho _ _ _ _ _ _ hp hr) hrec

end Verif
