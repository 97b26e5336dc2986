import Verif.Lemmas.BulkInsn

/-! What the readers of bodies and classes build. -/

namespace Verif
open Spec Sig

variable {α β γ δ : Type} {B : Nat}

/-! ## Attributes of bodies -/

theorem costs_vtype : Costs B 0 (W fun _ => 1) VType.read := costs_small fun t => by
  unfold VType.readTag
  split
  all_goals first
    | exact costs_pure (Nat.le_refl _)
    | exact costs_map costs_str.more fun _ _ _ => by tally
    | exact costs_map costs_label.more fun _ _ _ => by tally
    | exact costs_fail

theorem Costs.drop {c : Nat} {r : Rd α} (h : Costs B c (fun _ n => c ≤ n) r) : Costs B 0 (fun _ _ => True) r := by
  intro env st bs a st' rest he hr
  obtain ⟨n, h1, h2⟩ := h _ _ _ _ _ _ he hr
  exact ⟨n - c, trivial, by omega⟩

theorem costs_full : Costs B 1 (W fun _ => 1)
    (Rd.ap (Rd.ap (Rd.map Frame.full (rNum u16)) (rVec u16 VType.read)) (rVec u16 VType.read)) := by
  have hv : Costs B 0 (fun _ _ => True) (rVec u16 VType.read) :=
    (costs_vec costs_vtype (l := u16)).mono (Nat.le_refl _) fun _ _ _ => trivial
  refine costs_ap (costs_ap (costs_map (Q1 := W fun _ => 1) (Costs.more costs_one) fun _ n hn _ m _ _ k _ => ?_) hv) hv
  have hn : 1 ≤ n := hn
  show 1 ≤ n + m + k
  omega

theorem costs_frame : Costs B 0 (W fun _ => 1) Frame.read :=
  costs_bind costs_unit fun t n (hn : 8 ≤ n) => Costs.mono (c := 1) (by
  unfold Frame.readTag
  repeat' refine costs_ite ?_ ?_
  all_goals first
    | exact costs_pure (Nat.le_refl _)
    | exact costs_map costs_vtype.more fun _ _ h => h
    | exact costs_fail
    | exact costs_map (Costs.more costs_one) fun _ _ h => h
    | exact costs_ap (Q1 := W fun _ => 1) (costs_map (Costs.more costs_one) fun _ _ _ _ _ _ => by tally) costs_vtype
    | exact costs_ap (Q1 := fun _ _ => True) (costs_map (Costs.more costs_one) fun _ n (hn : 1 ≤ n) _ m _ => show 1 ≤ n + m by omega)
        (((costs_replicate costs_vtype _).mono (Nat.le_refl _) fun xs n hn => by simp only [W, bulkL_one] at *; omega).drop)
    | exact costs_full) (by omega) fun _ _ h => h

theorem costs_line : Costs B 0 (W fun _ => 1) LineEntry.read :=
  costs_ap (Q1 := W fun _ => 1) (costs_map costs_one fun _ _ _ _ _ _ => by tally) costs_one

/-- What an entry of a table of variables is worth: the names and two labels. -/
def VarEntry.worth (v : VarEntry) : Nat := 4 + bulkS v.name + bulkType v.descriptor
def VarTypeEntry.worth (v : VarTypeEntry) : Nat := 4 + bulkS v.name + bulkRef v.signature

theorem costs_var : Costs B 0 (W VarEntry.worth) VarEntry.read :=
  costs_ap (costs_ap (costs_ap (costs_ap (costs_map costs_one fun _ _ _ _ _ _ _ _ _ _ _ _ _ _ _ => by
    simp only [W, VarEntry.worth] at *; omega) costs_one) costs_utf8) costs_type) costs_one

theorem costs_varType : Costs B 0 (W VarTypeEntry.worth) VarTypeEntry.read :=
  costs_ap (costs_ap (costs_ap (costs_ap (costs_map costs_one fun _ _ _ _ _ _ _ _ _ _ _ _ _ _ _ => by
    simp only [W, VarTypeEntry.worth] at *; omega) costs_one) costs_utf8)
    (costs_sig fun _ _ h => Nat.le_succ_of_le (parseRef_bulk h))) costs_one

def CodeAttr.worth : CodeAttr → Nat
  | .lines ls => ls.length
  | .vars vs => bulkL VarEntry.worth vs
  | .varTypes vs => bulkL VarTypeEntry.worth vs
  | .invisibleType as => 1 + bulkL (bulkTyAnn bulkTarget) as
  | .visibleType as => 1 + bulkL (bulkTyAnn bulkTarget) as
  | .frames _ => 0
  | .raw a => 1 + bulkRaw a

theorem costs_codeAttr : Costs B 0 (W CodeAttr.worth) CodeAttr.read := by
  have h16 : 16 ≤ price B := by unfold price; omega
  have hta : Costs B 0 (W (bulkTyAnn bulkTarget)) (TypeAnnotation.read CodeTarget.read) :=
    costs_typeAnnotation (costs_codeTarget.mono (Nat.le_refl _) fun _ _ _ => by tally)
  refine costs_attr ?_ fun a => by simp only [CodeAttr.worth]; omega
  intro name r
  revert r
  unfold CodeAttr.table
  repeat' refine table_ite (fun _ => ?_) ?_
  all_goals (first
    | exact table_nil
    | exact costs_map (Costs.more (costs_vec costs_line)) fun _ _ _ => by simp only [W, CodeAttr.worth, bulkL_one] at *; omega
    | exact costs_map (Costs.more (costs_vec costs_var)) fun _ _ _ => by simp only [W, CodeAttr.worth] at *; omega
    | exact costs_map (Costs.more (costs_vec costs_varType)) fun _ _ _ => by simp only [W, CodeAttr.worth] at *; omega
    | exact costs_map (Costs.more (costs_vec hta)) fun _ _ _ => by simp only [W, CodeAttr.worth] at *; omega
    | exact costs_map (Costs.more (costs_vec costs_frame)) fun _ _ _ => by simp only [W, CodeAttr.worth] at *; omega)

/-! ## Markers -/

def bulkIs (is : List Insn) : Nat := bulkL bulkInsn is

theorem bulkL_pos {f : α → Nat} : ∀ xs : List α, 1 ≤ bulkL f xs
  | [] => Nat.le_refl _
  | x :: xs => by have := bulkL_pos (f := f) xs; simp only [bulkL]; omega

theorem bulkL_map {f : β → Nat} {g : α → β} : ∀ xs : List α, bulkL f (xs.map g) = bulkL (fun x => f (g x)) xs
  | [] => rfl
  | x :: xs => by simp only [List.map_cons, bulkL, bulkL_map xs]

theorem bulkL_perm {f : α → Nat} {xs ys : List α} (h : xs.Perm ys) : bulkL f xs = bulkL f ys := by
  induction h with
  | nil => rfl
  | cons x _ ih => simp only [bulkL, ih]
  | swap x y l => simp only [bulkL]; omega
  | trans _ _ h1 h2 => exact h1.trans h2

/-- What is inserted before the instructions up to the `n`th. -/
def markBulk (ins : Nat → List Insn) : Nat → Nat
  | 0 => bulkIs (ins 0) - 1
  | n + 1 => markBulk ins n + (bulkIs (ins (n + 1)) - 1)

theorem markBulk_one {f g : Nat → List Insn} {k : Nat} (h : ∀ j, j ≠ k → g j = f j) (hk : bulkIs (g k) ≤ bulkIs (f k) + 1) :
    ∀ n, markBulk g n ≤ markBulk f n + 1 ∧ (n < k → markBulk g n = markBulk f n)
  | 0 => by
    by_cases e : 0 = k
    · subst e; simp only [markBulk]; exact ⟨by omega, fun h => by omega⟩
    · simp only [markBulk, h 0 e]; exact ⟨by omega, fun _ => trivial⟩
  | n + 1 => by
    obtain ⟨h1, h2⟩ := markBulk_one h hk n
    simp only [markBulk]
    by_cases e : n + 1 = k
    · have := h2 (by omega)
      rw [e]
      omega
    · rw [h _ e]
      omega

theorem addLines_bulk {idx : Nat → Option Nat} {n : Nat} : ∀ (ls : List LineEntry) {ins ins' : Nat → List Insn},
    addLines idx ins ls = .ok ins' → markBulk ins' n ≤ markBulk ins n + ls.length
  | [], _, _, h => by cases h; simp
  | l :: ls, ins, ins', h => by
    unfold addLines at h
    split at h
    · cases h
    · rename_i k _
      have h1 := addLines_bulk ls (n := n) h
      have h2 := (markBulk_one (f := ins) (g := fun j => if j = k then [.lineNumber l.line] else ins j) (k := k)
        (fun j hj => if_neg hj) (by
          have := bulkL_pos (f := bulkInsn) (ins k)
          simp only [if_true, bulkIs, bulkL, bulkInsn] at *
          omega) n).1
      simp only [List.length_cons]
      omega

theorem addLabels_bulk {idx : Nat → Option Nat} {n : Nat} : ∀ (m : LabelMap) {ins ins' : Nat → List Insn},
    addLabels idx ins m = .ok ins' → markBulk ins' n ≤ markBulk ins n + m.length
  | [], _, _, h => by cases h; simp
  | (o, l) :: m, ins, ins', h => by
    unfold addLabels at h
    split at h
    · cases h
    · rename_i k _
      have h1 := addLabels_bulk m (n := n) h
      have h2 := (markBulk_one (f := ins) (g := fun j => if j = k then ins j ++ [.label l] else ins j) (k := k)
        (fun j hj => if_neg hj) (by
          simp only [if_true, bulkIs, bulkL_append, bulkInsn]
          omega) n).1
      simp only [List.length_cons]
      omega

theorem insertIdx_bulk (v : Insn) : ∀ (k : Nat) (is : List Insn), bulkIs (is.insertIdx k v) ≤ bulkIs is + bulkInsn v
  | 0, is => by simp only [List.insertIdx_zero, bulkIs, bulkL]; omega
  | k + 1, [] => by simp [List.insertIdx_succ_nil]
  | k + 1, i :: is => by
    have := insertIdx_bulk v k is
    simp only [List.insertIdx_succ_cons, bulkIs, bulkL] at *
    omega

theorem insertAt_bulk (k : Nat) : ∀ (vs is : List Insn), bulkIs (insertAt k is vs) + 1 ≤ bulkIs is + bulkIs vs
  | [], is => by simp [insertAt, bulkIs, bulkL]
  | v :: vs, is => by
    have h1 := insertAt_bulk k vs (is.insertIdx k v)
    have h2 := insertIdx_bulk v k is
    simp only [insertAt, bulkIs, bulkL] at *
    omega

theorem insertDown_bulk {ins : Nat → List Insn} : ∀ (n : Nat) (is : List Insn),
    bulkIs (insertDown ins is n) ≤ bulkIs is + markBulk ins n
  | 0, is => by
    have := insertAt_bulk 0 (ins 0) is
    simp only [insertDown, markBulk]
    omega
  | n + 1, is => by
    have h1 := insertAt_bulk (n + 1) (ins (n + 1)) is
    have h2 := insertDown_bulk (ins := ins) n (insertAt (n + 1) is (ins (n + 1)))
    simp only [insertDown, markBulk]
    omega

/-! ## Variables -/

theorem upsert_bulk {f : LocalVariable → LocalVariable} {v : LocalVariable} {d : Nat} (hf : ∀ w, bulkVar (f w) ≤ bulkVar w + d)
    (hv : bulkVar v ≤ d) : ∀ vs, bulkL bulkVar (upsert f v vs) ≤ bulkL bulkVar vs + d
  | [] => by simp only [upsert, bulkL]; omega
  | w :: ws => by
    have h1 := upsert_bulk hf hv ws
    have h2 := hf w
    unfold upsert
    split <;> simp only [bulkL] <;> omega

theorem costs_range {s l : UInt16} {c : Nat} : Costs B (c + 2) (W fun _ => c) (rangeLabels s l) :=
  costs_bind (costs_getLabel (c := c + 1)) fun _ n (hn : c + 1 ≤ n) =>
    costs_ite (costs_map ((costs_getLabel (c := c)).mono hn fun _ _ h => h) fun _ _ h => h) costs_fail

theorem costs_addVars : ∀ (ls : List VarEntry) (vars : List LocalVariable) (c : Nat),
    Costs B (c + bulkL bulkVar vars + bulkL VarEntry.worth ls) (fun vs n => c + bulkL bulkVar vs ≤ n) (addVars vars ls)
  | [], vars, c => costs_pure (by omega)
  | l :: ls, vars, c => by
    refine costs_bind ((costs_range (c := c + (bulkL bulkVar vars + 2 + bulkS l.name + bulkType l.descriptor) + bulkL VarEntry.worth ls)).mono ?_
      fun _ _ h => h) fun r n hn => (costs_addVars ls _ c).mono ?_ fun _ _ h => h
    · simp only [bulkL, VarEntry.worth]
      omega
    · have := upsert_bulk (f := fun w => { w with descriptor := some l.descriptor })
        (v := ⟨r.1, r.2, l.name, some l.descriptor, none, l.index⟩) (d := 2 + bulkS l.name + bulkType l.descriptor)
        (fun w => by simp only [bulkVar, bulkO]; omega) (by simp only [bulkVar, bulkO]; omega) vars
      tally

theorem costs_addVarTypes : ∀ (ls : List VarTypeEntry) (vars : List LocalVariable) (c : Nat),
    Costs B (c + bulkL bulkVar vars + bulkL VarTypeEntry.worth ls) (fun vs n => c + bulkL bulkVar vs ≤ n) (addVarTypes vars ls)
  | [], vars, c => costs_pure (by omega)
  | l :: ls, vars, c => by
    refine costs_bind ((costs_range (c := c + (bulkL bulkVar vars + 2 + bulkS l.name + bulkRef l.signature) + bulkL VarTypeEntry.worth ls)).mono ?_
      fun _ _ h => h) fun r n hn => (costs_addVarTypes ls _ c).mono ?_ fun _ _ h => h
    · simp only [bulkL, VarTypeEntry.worth]
      omega
    · have := upsert_bulk (f := fun w => { w with signature := some l.signature })
        (v := ⟨r.1, r.2, l.name, none, some l.signature, l.index⟩) (d := 2 + bulkS l.name + bulkRef l.signature)
        (fun w => by simp only [bulkVar, bulkO]; omega) (by simp only [bulkVar, bulkO]; omega) vars
      tally

/-- What has been read of the attributes of a body with `k` instructions. -/
def AttrAcc.worth (k : Nat) (acc : AttrAcc) : Nat := bulkL bulkCodeAttr acc.attrs + markBulk acc.ins k + bulkL bulkVar acc.vars

theorem costs_step {idx : Nat → Option Nat} {k : Nat} (acc : AttrAcc) (a : CodeAttr) (c : Nat) :
    Costs B (c + acc.worth k + a.worth) (W fun acc => c + acc.worth k) (acc.step idx a) := by
  cases a with
  | lines ls =>
    refine costs_map (Q1 := fun m n => c + bulkL bulkCodeAttr acc.attrs + markBulk m k + bulkL bulkVar acc.vars ≤ n)
      (costs_ofRes fun m hm => ?_) fun m n hn => ?_
    · have := addLines_bulk ls (n := k) hm
      simp only [AttrAcc.worth, CodeAttr.worth]
      omega
    · simp only [W, AttrAcc.worth]
      omega
  | vars vs =>
    refine costs_map ((costs_addVars vs acc.vars (c + bulkL bulkCodeAttr acc.attrs + markBulk acc.ins k)).mono ?_ fun _ _ h => h)
      fun m n hn => ?_
    · simp only [AttrAcc.worth, CodeAttr.worth]
      omega
    · simp only [W, AttrAcc.worth]
      omega
  | varTypes vs =>
    refine costs_map ((costs_addVarTypes vs acc.vars (c + bulkL bulkCodeAttr acc.attrs + markBulk acc.ins k)).mono ?_ fun _ _ h => h)
      fun m n hn => ?_
    · simp only [AttrAcc.worth, CodeAttr.worth]
      omega
    · simp only [W, AttrAcc.worth]
      omega
  | frames fs => exact costs_pure (by simp only [W]; omega)
  | invisibleType as =>
    exact costs_pure (by simp only [W, AttrAcc.worth, CodeAttr.worth, bulkL_append, bulkCodeAttr]; omega)
  | visibleType as =>
    exact costs_pure (by simp only [W, AttrAcc.worth, CodeAttr.worth, bulkL_append, bulkCodeAttr]; omega)
  | raw a =>
    exact costs_pure (by simp only [W, AttrAcc.worth, CodeAttr.worth, bulkL_append, bulkCodeAttr]; omega)

theorem costs_codeAttrs {idx : Nat → Option Nat} {k : Nat} : ∀ (n : Nat) (acc : AttrAcc) (c : Nat),
    Costs B (c + acc.worth k) (W fun acc => c + acc.worth k) (readCodeAttrs idx n acc)
  | 0, acc, c => costs_pure (Nat.le_refl _)
  | n + 1, acc, c => costs_bind (costs_codeAttr.frame (k := c + acc.worth k) (Q' := W fun a : CodeAttr => c + acc.worth k + a.worth)
      (by omega) fun _ _ _ => by tally) fun a m hm =>
      costs_bind ((costs_step acc a c).mono hm fun _ _ h => h) fun acc' m' hm' =>
        (costs_codeAttrs n acc' c).mono hm' fun _ _ h => h

/-! ## Handlers -/

theorem costs_handler : Costs B 0 (fun c n => bulkCatch c ≤ n ∧ bulkCatch c ≤ B + 2) Catch.read := by
  have ho : Costs B 0 (fun s n => bulkO bulkS s ≤ B + 1 ∧ B + 2 ≤ n) (rOpt fun i => rLookup Pool.cls i) :=
    costs_bind costs_num fun i n hn => by
      have hn : n = 16 * B + 16 := hn
      refine costs_ite (costs_pure ⟨Nat.zero_le _, by omega⟩) (costs_map (Q1 := fun s n => s.length ≤ B ∧ B + 2 ≤ n) (?_ : Costs B n _ (rLookup Pool.cls i)) ?_)
      · intro env st bs x st' rest hp hr
        unfold rLookup at hr
        split at hr
        · rename_i he
          cases hr
          exact ⟨n, ⟨indirect_bulk hp.1 he, by omega⟩, by omega⟩
        · cases hr
      · intro s n h
        simp only [bulkO, bulkS]
        omega
  refine costs_ap (costs_ap (costs_ap (costs_map costs_label fun _ _ _ _ _ _ _ _ _ _ _ h => ?_) costs_label) costs_label) ho
  simp only [W, bulkCatch] at *
  omega

theorem costs_replicateAll {f : α → Nat} {P : α → Prop} {r : Rd α} (h : Costs B 0 (fun a n => f a ≤ n ∧ P a) r) :
    ∀ n c, Costs B (c + 1) (fun as n => c + bulkL f as ≤ n ∧ ∀ a ∈ as, P a) (Rd.replicate n r)
  | 0, c => costs_pure ⟨by simp only [bulkL]; omega, nofun⟩
  | n + 1, c => costs_bind (h.frame (k := c + 1) (Q' := fun a m => f a + c + 1 ≤ m ∧ P a) (by omega) fun a m hm => ⟨by omega, hm.2⟩)
      fun a m hm => costs_bind ((costs_replicateAll h n (f a + c)).mono hm.1 fun _ _ h => h)
        fun as k hk => costs_pure ⟨by simp only [bulkL]; omega, List.forall_mem_cons.mpr ⟨hm.2, hk.2⟩⟩

theorem costs_handlers {c : Nat} :
    Costs B c (fun as n => c + bulkL bulkCatch as + 8 ≤ n ∧ ∀ a ∈ as, bulkCatch a ≤ B + 2) (rVec u16 Catch.read) :=
  costs_bind (Costs.frame costs_num (k := c) (Q' := fun _ n => c + 16 ≤ n) (by omega) fun _ n hn => by
      have : n = price B := hn
      simp only [this, price]
      omega) fun l n hn => (costs_replicateAll costs_handler _ (c + 8)).mono (by omega) fun _ _ h => ⟨by omega, h.2⟩

theorem costs_withCatches {c : Nat} {Q : α → Nat → Prop} {cs : List Catch} {r : Rd α} (h : Costs B c Q r)
    (hc : ∀ c ∈ cs, bulkCatch c ≤ B + 2) : Costs B c Q (withCatches cs r) := by
  intro env st bs x st' rest he hr
  exact h { env with catches := some cs } st bs x st' rest ⟨he.1, fun _ h => by cases h; exact hc⟩ hr

/-! ## Bodies -/

/-- As `Costs`; the labels are spent. -/
def Settles (B c : Nat) (Q : α → Nat → Prop) (r : Rd α) : Prop := ∀ env st bs a st' rest, EnvB B env →
  r env st bs = .ok (a, st', rest) →
  ∃ n, Q a n ∧ n + price B * rest.length ≤ st.count + price B * bs.length + c

theorem settles_bind {c : Nat} {Q1 : α → Nat → Prop} {Q : β → Nat → Prop} {x : Rd α} {f : α → Rd β} (h : Costs B c Q1 x)
    (hf : ∀ a n, Q1 a n → Settles B n Q (f a)) : Settles B c Q (Rd.bind x f) := by
  intro env st bs y st' rest he hr
  obtain ⟨a, st1, bs1, h1, h2⟩ := Rd.bind_ok hr
  obtain ⟨n, hq, hn⟩ := h _ _ _ _ _ _ he h1
  obtain ⟨m, hm, hk⟩ := hf a n hq _ _ _ _ _ _ he h2
  exact ⟨m, hm, by omega⟩

theorem costs_bytes {k c : Nat} : Costs B c (W fun b => price B * b.length + c) (rBytes k) := by
  intro env st bs x st' rest _ hr
  unfold rBytes Rd.lift at hr
  split at hr
  · rename_i h
    cases hr
    have := (readExact_pays (B := B) h).1
    exact ⟨_, Nat.le_refl _, by tally⟩
  · cases hr

theorem costs_insns {code : Bytes} {c : Nat} :
    Costs B (price B * code.length + 1 + c) (W fun is => bulkL (fun i : Nat × Insn => bulkInsn i.2) is + c) (readInsns code) := by
  intro env st bs x st' rest he hr
  unfold readInsns at hr
  split at hr
  · cases hr
  · rename_i h
    cases hr
    have := loop_bulk he _ rfl h
    exact ⟨_, Nat.le_refl _, by tally⟩

theorem settles_code {ord : Nat → List LocalVariable → List LocalVariable} (ho : ∀ n l, (ord n l).Perm l) :
    Settles B 0 (W fun c => bulkCode c + 1) (Code.readIn ord) := by
  refine settles_bind costs_unit fun _ n (hn : 8 ≤ n) => settles_bind (Costs.more costs_unit) fun _ _ _ =>
    settles_bind (Costs.more costs_unit) fun len n (hn : 8 ≤ n) =>
    settles_bind ((costs_bytes (c := 8)).mono hn fun _ _ h => h) fun code n hn =>
    settles_bind ((costs_insns (c := 7)).mono (by tally) fun _ _ h => h) fun pis n hn =>
    settles_bind costs_handlers fun cs n' hn' => settles_bind (Costs.frame costs_num (k := n') (Q' := fun _ m => n' ≤ m) (by omega)
      fun _ m _ => by omega) fun k m hm => ?_
  obtain ⟨hn1, hn2⟩ := hn'
  have hz : ∀ k, markBulk (fun _ => []) k = 0 := fun k => by
    induction k with
    | zero => rfl
    | succ k ih => simp only [markBulk, ih]; rfl
  refine settles_bind (costs_withCatches
    ((costs_codeAttrs (k := (pis.map Prod.snd).length) _ _ (m - 2)).mono ?_ fun _ _ h => h) hn2) fun acc p hp => ?_
  · simp only [AttrAcc.worth, bulkL, hz]
    omega
  · intro env st bs x st' rest he hr
    obtain ⟨is, st1, bs1, h1, h2⟩ := Rd.bind_ok hr
    cases h2
    unfold placeMarkers at h1
    split at h1
    · cases h1
    · rename_i lm hl
      split at h1
      · cases h1
      · rename_i ins' hi
        cases h1
        have e1 := addLabels_bulk lm (n := (pis.map Prod.snd).length) hi
        have e2 := insertDown_bulk (ins := ins') (pis.map Prod.snd).length (pis.map Prod.snd)
        have e3 : bulkIs (pis.map Prod.snd) = bulkL (fun i : Nat × Insn => bulkInsn i.2) pis := bulkL_map _
        have e4 : ∀ j, bulkL bulkCodeAttr (if acc.vars.length = 0 then acc.attrs else acc.attrs ++ [.locals (ord j acc.vars)]) ≤
            bulkL bulkCodeAttr acc.attrs + 1 + bulkL bulkVar acc.vars := fun j => by
          split
          · omega
          · simp only [bulkL_append, bulkCodeAttr, bulkL_perm (ho _ _)]
            omega
        have e4 := e4 bs.length
        have e5 : st.count = lm.length := by simp only [RSt.count, hl]
        refine ⟨_, Nat.le_refl _, ?_⟩
        simp only [W, bulkCode, AttrAcc.worth] at *
        simp only [bulkIs] at *
        omega

theorem costs_code {ord : Nat → List LocalVariable → List LocalVariable} (ho : ∀ n l, (ord n l).Perm l) :
    Costs B 0 (W fun c => bulkCode c + 1) (Code.read ord) := by
  intro env st bs x st' rest he hr
  unfold Code.read at hr
  split at hr
  · cases hr
  · rename_i h
    cases hr
    obtain ⟨n, h1, h2⟩ := settles_code (B := B) ho { env with catches := some [] } _ _ _ _ _ ⟨he.1, fun _ h => by cases h; exact nofun⟩ h
    refine ⟨n, h1, ?_⟩
    simp only [RSt.count, List.length_nil] at *
    omega

/-! ## Classes -/

theorem costs_methodAttr {ord : Nat → List LocalVariable → List LocalVariable} (ho : ∀ n l, (ord n l).Perm l) :
    Costs B 0 (W bulkMethodAttr) (rAttr (MethodAttr.table ord) .raw) := by
  have h16 : 16 ≤ price B := by unfold price; omega
  refine costs_attr ?_ fun a => by simp only [bulkMethodAttr]; omega
  intro name r
  revert r
  unfold MethodAttr.table
  repeat' refine table_ite (fun _ => ?_) ?_
  all_goals (first
    | exact table_nil
    | exact costs_pure (by simp only [W, bulkMethodAttr]; omega)
    | exact costs_map (Costs.more (costs_code ho)) fun _ _ _ => by simp only [W, bulkMethodAttr] at *; omega
    | exact costs_map (Costs.more (costs_sig fun _ _ h => Nat.le_succ_of_le (parseMethod_bulk h))) fun _ _ _ => by simp only [W, bulkMethodAttr] at *; omega
    | exact costs_map (Costs.more (costs_vec costs_annotation)) fun _ _ _ => by simp only [W, bulkMethodAttr] at *; omega
    | exact costs_map (Costs.more (costs_vec (costs_typeAnnotation costs_methodTarget))) fun _ _ _ => by simp only [W, bulkMethodAttr] at *; omega
    | exact costs_map (Costs.more (costs_vec (f := bulkL bulkAnn) ((costs_vec costs_annotation).mono (Nat.le_refl _) fun _ _ _ => by tally))) fun _ _ _ => by simp only [W, bulkMethodAttr] at *; omega
    | exact costs_map (Costs.more costs_strs) fun _ _ _ => by simp only [W, bulkMethodAttr] at *; omega
    | exact costs_map (costs_value.frame (k := price B) (Q' := W fun v => bulkValue v + 1) (by omega) fun _ _ _ => by tally) fun _ _ _ => by simp only [W, bulkMethodAttr] at *; omega
    | exact costs_map (Costs.more (costs_vec costs_parameter)) fun _ _ _ => by simp only [W, bulkMethodAttr] at *; omega)

theorem costs_method {ord : Order} (ho : ∀ k n l, (ord k n l).Perm l) : Costs B 0 (W bulkMethod) (Method.read ord) :=
  costs_ap (costs_ap (costs_ap (costs_map costs_flags fun _ _ _ _ _ _ _ _ _ _ _ _ => by
    simp only [W, bulkMethod] at *; omega) costs_utf8) costs_type)
    (costs_vec fun env st bs => costs_methodAttr (ho bs.length) env st bs)

theorem costs_class {ord : Order} (ho : ∀ k n l, (ord k n l).Perm l) (v : Version) :
    Costs B 0 (W bulkClass) (Class.readBody ord v) :=
  costs_ap (costs_ap (costs_ap (costs_ap (costs_ap (costs_ap (costs_map costs_flags
    fun _ _ _ _ _ _ _ _ _ _ _ _ _ _ _ _ _ _ _ _ _ => by
    simp only [W, bulkClass] at *; omega) costs_str) costs_clsOpt) costs_strs) (costs_vec costs_field))
    (costs_vec (costs_method ho))) (costs_vec costs_classAttr)

end Verif
