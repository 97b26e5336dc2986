import Verif.Lemmas.BulkAttr

/-! What the readers of instructions build. -/

namespace Verif
open Spec Sig

variable {α β γ δ : Type} {B : Nat}

/-! ## Raw instructions -/

/-- `r` consumes `f a` bytes or more. -/
def Fans (f : α → Nat) (r : Reader α) : Prop := ∀ bs a rest, r bs = .ok (a, rest) → rest.length + f a ≤ bs.length

theorem Fans.less {f g : α → Nat} {r : Reader α} (h : Fans f r) (hg : ∀ a, g a ≤ f a) : Fans g r := fun bs a rest hr => by
  have h1 := h bs a rest hr
  have h2 := hg a
  omega

theorem fans_bind {g : α → Nat} {f : β → Nat} {x : Reader α} {k : α → Reader β} (h : Fans g x)
    (hk : ∀ a, Fans (fun b => f b - g a) (k a)) : Fans f (Reader.bind x k) := by
  intro bs b rest hr
  obtain ⟨a, bs1, h1, h2⟩ := Reader.bind_ok hr
  have e1 := h _ _ _ h1
  have e2 := hk a _ _ _ h2
  simp only at e2
  omega

theorem fans_pure {f : α → Nat} {a : α} (h : f a = 0) : Fans f (Reader.pure a) := by
  intro bs b rest hr
  cases hr
  omega

theorem fans_num {c : NumCodec α} (hc : 1 ≤ c.size := by decide) : Fans (fun _ => 1) c.read := by
  intro bs a rest hr
  have := num_pays (B := 0) hc hr
  simp only [price] at *
  omega

theorem fans_of1 {f : α → β} {x : Reader α} {g : α → Nat} {k : β → Nat} (h : Fans g x) (hk : ∀ a, k (f a) ≤ g a) :
    Fans k (Reader.of1 f x) := fans_bind h fun a => fans_pure (by have := hk a; omega)

theorem fans_of2 {f : α → β → γ} {x : Reader α} {y : Reader β} {g : α → Nat} {g' : β → Nat} {k : γ → Nat} (h : Fans g x)
    (h' : Fans g' y) (hk : ∀ a b, k (f a b) ≤ g a + g' b) : Fans k (Reader.of2 f x y) :=
  fans_bind h fun a => fans_of1 h' fun b => by have := hk a b; omega

theorem fans_replicate {r : Reader α} (h : Fans (fun _ => 1) r) : ∀ n, Fans List.length (Reader.replicate n r)
  | 0 => fans_pure rfl
  | n + 1 => fans_bind h fun a => fans_bind (fans_replicate h n) fun as => fans_pure (by simp)

theorem fans_zero_of3 {f : α → β → γ → δ} {x : Reader α} {y : Reader β} {z : Reader γ} {g : α → Nat} {g' : β → Nat}
    {g'' : γ → Nat} {k : δ → Nat} (h : Fans g x) (h' : Fans g' y) (h'' : Fans g'' z) (hk : ∀ a b c, k (f a b c) = 0) :
    Fans k (Reader.of3 f x y z) :=
  fans_bind h fun a => fans_of2 h' h'' fun b c => by have := hk a b c; omega

theorem fans_tagged {table : List (Nat × Reader α)} {f : α → Nat} (h : ∀ p ∈ table, Fans f p.2) :
    Fans (fun a => f a + 1) (Reader.tagged table) := by
  refine fans_bind (g := fun _ => 1) fans_num fun t => ?_
  simp only [Nat.add_sub_cancel]
  split
  · rename_i r hr
    exact h _ (lookup_mem hr)
  · intro bs a rest hr
    cases hr

/-- The labels that an instruction has beyond one. -/
def RInsn.fan : RInsn → Nat
  | .TableSwitch _ t => t.offsets.length
  | .LookupSwitch _ es => es.length
  | _ => 0

theorem fans_wide : Fans (fun _ => 0) Wide.read := (fans_tagged (f := fun _ => 0) (by
  simp only [List.forall_mem_cons]
  refine ⟨?_, ?_, ?_, ?_, ?_, ?_, ?_, ?_, ?_, ?_, ?_, ?_, nofun⟩
  all_goals first
    | exact fans_of1 fans_num fun _ => Nat.zero_le _
    | exact fans_of2 fans_num fans_num fun _ _ => Nat.zero_le _)).less fun _ => Nat.zero_le _

theorem fans_tbl : Fans (fun t => t.offsets.length) TblSwitch.read := by
  refine fans_bind (g := fun _ => 0) (Fans.less fans_num fun _ => Nat.zero_le _) fun low =>
    fans_bind (g := fun _ => 0) (Fans.less fans_num fun _ => Nat.zero_le _) fun high => ?_
  simp only [Nat.sub_zero]
  split
  · exact fans_of1 (fans_replicate fans_num _) fun _ => Nat.le_refl _
  · intro bs a rest hr
    cases hr

theorem fans_entry : Fans (fun _ => 1) SwitchEntry.read := fans_of2 fans_num fans_num fun _ _ => by omega

theorem fans_entries : Fans List.length (readVec u32 SwitchEntry.read) :=
  fans_bind (g := fun _ => 0) (Fans.less fans_num fun _ => Nat.zero_le _) fun _ => fans_replicate fans_entry _

set_option maxRecDepth 2000 in
theorem table_fans : ∀ p ∈ RInsn.table, Fans RInsn.fan p.2 := by
  unfold RInsn.table
  repeat
    refine List.forall_mem_cons.mpr ⟨by first
      | exact fans_pure rfl
      | exact fans_of1 fans_num fun _ => Nat.zero_le _
      | exact fans_of2 fans_num fans_num fun _ _ => Nat.zero_le _
      | exact fans_zero_of3 fans_num fans_num fans_num fun _ _ _ => rfl
      | exact fans_of1 fans_wide fun _ => Nat.zero_le _
      | exact fans_of2 fans_num fans_tbl fun _ _ => by simp only [RInsn.fan]; omega
      | exact fans_of2 fans_num fans_entries fun _ _ => by simp only [RInsn.fan]; omega, ?_⟩
  exact nofun

theorem fans_insn : Fans (fun r => r.fan + 1) RInsn.read := fans_tagged table_fans

/-! ## Instructions -/

theorem costs_lbl {p : Nat} {o : Int} {c : Nat} : Costs B (c + 1) (W fun _ => c) (lbl p o) := costs_getLabel

theorem costs_lbls {p : Nat} : ∀ (os : List Int32) (c : Nat),
    Costs B (c + os.length) (fun ls n => ls.length = os.length ∧ c ≤ n) (lbls p os)
  | [], c => costs_pure ⟨rfl, by simp⟩
  | o :: os, c => costs_bind ((costs_lbl (c := c + os.length)).mono (by simp only [List.length_cons]; omega) fun _ _ h => h)
      fun l n (hn : _ ≤ n) => costs_map (((costs_lbls os (c := c)).mono hn fun _ _ h => h)) fun ls m hm =>
        ⟨by simp [hm.1], hm.2⟩

theorem costs_lblEntries {p : Nat} : ∀ (os : List SwitchEntry) (c : Nat),
    Costs B (c + os.length) (fun ls n => ls.length = os.length ∧ c ≤ n) (lblEntries p os)
  | [], c => costs_pure ⟨rfl, by simp⟩
  | o :: os, c => costs_bind ((costs_lbl (c := c + os.length)).mono (by simp only [List.length_cons]; omega) fun _ _ h => h)
      fun l n (hn : _ ≤ n) => costs_map (((costs_lblEntries os (c := c)).mono hn fun _ _ h => h)) fun ls m hm =>
        ⟨by simp [hm.1], hm.2⟩

theorem indexInsert_len (m : List (Int32 × Label)) (k : Int32) (v : Label) : (indexInsert m k v).length ≤ m.length + 1 := by
  unfold indexInsert
  split <;> simp

theorem indexCollects_len : ∀ (es m : List (Int32 × Label)),
    (es.foldl (fun m e => indexInsert m e.1 e.2) m).length ≤ m.length + es.length
  | [], m => Nat.le_refl _
  | e :: es, m => by
    have h1 := indexCollects_len es (indexInsert m e.1 e.2)
    have h2 := indexInsert_len m e.1 e.2
    simp only [List.foldl_cons, List.length_cons]
    omega

theorem indexCollect_len (es : List (Int32 × Label)) : (indexCollect es).length ≤ es.length := by
  have := indexCollects_len es []
  simpa [indexCollect] using this

theorem costs_orDyn {f : Pool → UInt16 → Res (Option α)} {i : UInt16} {g : α → Nat}
    (h : ∀ P a, PoolB B P → f P i = .ok (some a) → g a ≤ 10 * B + 5) :
    Costs B (price B) (W fun x => bulkOrDyn g x + 8) (rOrDyn f i) :=
  costs_lookupD fun P a p q hp he => by
    have := orDynamic_bulk hp (fun a ha => h P a hp ha) he
    simp only [price]
    omega

theorem costs_member {i : UInt16} : Costs B (price B) (W fun x => bulkOrDyn bulkMember x + 8) (rMember i) :=
  costs_orDyn fun P a hp h => by have := member_bulk hp h; omega

theorem costs_classOr {i : UInt16} :
    Costs B (price B) (W fun x => bulkOrDyn (fun s : Bytes => 8 * s.length + 5) x + 8) (rClassOr i) :=
  costs_orDyn fun P a hp h => by
    have := indirect_bulk hp (Except.ok.inj h)
    omega

theorem arrayElem_bulk {c : Bytes} {t : JType} (h : arrayElem c = .ok t) : bulkType t ≤ 8 * c.length + 2 := by
  unfold arrayElem at h
  split at h
  · rename_i ht
    cases h
    have := parseType_bulk (okOrNone_some ht)
    omega
  · cases h
    simp only [bulkType, bulkS]
    omega
  · cases h

theorem toClassType_bulk {c : Bytes} {t : ClassType} (h : toClassType c = .ok t) : bulkClassType t ≤ 8 * c.length + 2 := by
  unfold toClassType at h
  split at h
  · split at h
    · rename_i ht
      cases h
      have := parseType_bulk ht
      simp only [bulkType, bulkClassType] at *
      omega
    · cases h
    · cases h
  · cases h
    simp only [bulkClassType, bulkS]
    omega

theorem costs_newArray {i : UInt16} {d : UInt8} : Costs B (price B) (W bulkInsn) (rNewArray i d) := by
  refine costs_bind costs_classOr fun c n hn => ?_
  cases c with
  | dynamic d => exact costs_pure (by simp only [W, bulkInsn, bulkOrDyn] at *; omega)
  | static c =>
    refine costs_map (Q1 := W fun t => bulkType t + 4) (costs_ofRes fun t ht => ?_) fun t m hm => ?_
    · have := arrayElem_bulk ht
      simp only [W, bulkOrDyn] at *
      omega
    · simp only [W, bulkInsn, bulkOrDyn] at *
      omega

theorem costs_classType {i : UInt16} : Costs B (price B) (W fun x => bulkOrDyn bulkClassType x + 2) (rClassType i) := by
  refine costs_bind costs_classOr fun c n hn => ?_
  cases c with
  | dynamic d => exact costs_pure (by simp only [W, bulkOrDyn] at *; omega)
  | static c =>
    refine costs_map (Q1 := W fun t => bulkClassType t + 4) (costs_ofRes fun t ht => ?_) fun t m hm => ?_
    · have := toClassType_bulk ht
      simp only [W, bulkOrDyn] at *
      omega
    · simp only [W, bulkOrDyn] at *
      omega

theorem newArrayType_bulk {n : UInt8} {t : JType} (h : newArrayType n = some t) : bulkType t = 1 := by
  have := lookup_mem h
  simp only [List.mem_cons, Prod.mk.injEq, List.not_mem_nil, or_false] at this
  rcases this with h | h | h | h | h | h | h | h <;> (rw [h.2]; rfl)

theorem costs_convert (p : Nat) (r : RInsn) : Costs B (price B + price B * r.fan) (W bulkInsn) (convert p r) := by
  have h16 : 16 ≤ price B := by unfold price; omega
  have hc : ∀ {c : Nat} {Q : Insn → Nat → Prop} {x : Rd Insn}, Costs B (price B) Q x → Costs B (price B + c) Q x :=
    fun h => h.mono (by omega) fun _ _ h => h
  have pu : ∀ {c : Nat} {i : Insn}, bulkInsn i ≤ 4 → Costs B (price B + c) (W bulkInsn) (Rd.pure i) :=
    fun h => hc (costs_pure (show _ ≤ _ by omega))
  have br : ∀ {c : Nat} {f : Label → Insn} {o : Int}, (∀ l, bulkInsn (f l) = 1) →
      Costs B (price B + c) (W bulkInsn) (Rd.map f (lbl p o)) :=
    fun h => hc (costs_map ((costs_lbl (c := 1)).mono (by omega) fun _ _ h => h) fun l n hn => by
      simp only [W, h] at *
      exact hn)
  have mb : ∀ {c : Nat} {f : OrDynamic MemberRef → Insn} {o : UInt16}, (∀ l, bulkInsn (f l) = 1 + bulkOrDyn bulkMember l) →
      Costs B (price B + c) (W bulkInsn) (Rd.map f (rMember o)) :=
    fun h => hc (costs_map costs_member fun l n hn => by
      simp only [W, h] at *
      omega)
  have ct : ∀ {c : Nat} {f : OrDynamic ClassType → Insn} {o : UInt16}, (∀ l, bulkInsn (f l) = 1 + bulkOrDyn bulkClassType l) →
      Costs B (price B + c) (W bulkInsn) (Rd.map f (rClassType o)) :=
    fun h => hc (costs_map costs_classType fun l n hn => by
      simp only [W, h] at *
      omega)
  have ps : ∀ {c : Nat} {o : UInt16}, Costs B (price B + c) (W bulkInsn) (rPush o) :=
    hc (costs_map (Q1 := W fun c => bulkConst c + 8) (costs_lookupR fun P a hp h => by
      have := constant_bulk hp h
      simp only [price]
      omega) fun l n hn => by
      simp only [W, Insn.const, bulkInsn, bulkOrDyn] at *
      omega)
  cases r with
  | TableSwitch d t =>
    have hm : 16 * t.offsets.length ≤ price B * t.offsets.length := Nat.mul_le_mul_right _ h16
    refine costs_bind ((costs_lbl (c := 2 + t.offsets.length + t.offsets.length)).mono ?_ fun _ _ h => h) fun l n hn => ?_
    · simp only [RInsn.fan]; omega
    · refine costs_map ((costs_lbls t.offsets (2 + t.offsets.length)).mono hn fun _ _ h => h) fun ls m hm => ?_
      simp only [W, bulkInsn]
      omega
  | LookupSwitch d es =>
    have hm : 16 * es.length ≤ price B * es.length := Nat.mul_le_mul_right _ h16
    refine costs_bind ((costs_lbl (c := 2 + es.length + es.length)).mono ?_ fun _ _ h => h) fun l n hn => ?_
    · simp only [RInsn.fan]; omega
    · refine costs_map ((costs_lblEntries es (2 + es.length)).mono hn fun _ _ h => h) fun ls m hm => ?_
      have := indexCollect_len ls
      simp only [W, bulkInsn]
      omega
  | Wide w => cases w <;> exact pu (by simp [bulkInsn])
  | NewArray n =>
    show Costs B _ _ (match newArrayType n with
      | some t => Rd.pure (Insn.newArray (.static t) 1)
      | none => Rd.fail .invalid)
    split
    · rename_i t ht
      have := newArrayType_bulk ht
      exact pu (by simp only [bulkInsn, bulkOrDyn]; omega)
    · exact costs_fail
  | New n =>
    refine hc (costs_map costs_classOr fun l n hn => ?_)
    cases l with
    | dynamic d => simp only [W, bulkInsn, bulkOrDyn] at *; omega
    | static d => simp only [W, bulkInsn, bulkOrDyn, bulkS] at *; omega
  | InvokeDynamic d u =>
    refine hc (costs_map (Q1 := W fun d => bulkDynamic d + 8) (costs_lookupD fun P a p q hp h => ?_) fun l n hn => ?_)
    · have := indy_bulk hp h
      simp only [price]
      omega
    · simp only [W, bulkInsn] at *
      omega
  | _ =>
    first
    | exact pu (by simp only [bulkInsn, Insn.const, bulkOrDyn, bulkConst]; omega)
    | exact br fun _ => rfl
    | exact mb fun _ => rfl
    | exact ct fun _ => rfl
    | exact ps
    | exact hc costs_newArray

theorem costs_insn (pos : Nat) : Costs B 0 (W bulkInsn) (rInsn pos) := by
  intro env st bs i st' rest he hr
  have key : ∀ cs : Bytes, cs.length ≤ bs.length → Rd.bind (Rd.lift RInsn.read) (convert pos) env st cs = .ok (i, st', rest) →
      ∃ n, W bulkInsn i n ∧ n + st'.count + price B * rest.length ≤ st.count + price B * bs.length + 0 := by
    intro cs hcs h
    obtain ⟨r, st1, bs1, h1, h2⟩ := Rd.bind_ok h
    unfold Rd.lift at h1
    split at h1
    · rename_i a rest1 h3
      cases h1
      have e1 : bs1.length + (r.fan + 1) ≤ cs.length := fans_insn _ _ _ h3
      obtain ⟨n, e2, e3⟩ := costs_convert (B := B) pos r _ _ _ _ _ _ he h2
      refine ⟨n, e2, ?_⟩
      have e4 : price B * (bs1.length + (r.fan + 1)) ≤ price B * bs.length := Nat.mul_le_mul_left _ (by omega)
      rw [Nat.mul_add, Nat.mul_add, Nat.mul_one] at e4
      omega
    · cases h1
  unfold rInsn at hr
  split at hr
  · cases hr
  · rename_i o tl
    split at hr
    · refine key _ ?_ hr
      simp only [List.length_cons, List.length_drop]
      omega
    · exact key _ (Nat.le_refl _) hr

theorem loop_bulk {len : Nat} {env : REnv} (he : EnvB B env) : ∀ (n : Nat) {st st' : RSt} {bs : Bytes}
    {is : List (Nat × Insn)}, bs.length = n → readLoop len env st bs = .ok (is, st') →
    bulkL (fun i => bulkInsn i.2) is + st'.count ≤ st.count + price B * bs.length + 1 := by
  intro n
  induction n using Nat.strongRecOn with
  | _ n ih =>
    intro st st' bs is hn h
    rw [readLoop] at h
    split at h
    · cases h
      simp only [bulkL]
      omega
    · split at h
      · cases h
      · rename_i i st1 rest h1
        obtain ⟨m, e1, e2⟩ := costs_insn (B := B) _ _ _ _ _ _ _ he h1
        split at h
        · rename_i hlt
          split at h
          · cases h
          · rename_i is' st2 h2
            cases h
            have := ih rest.length (by omega) rfl h2
            simp only [W, bulkL] at *
            omega
        · cases h

end Verif
