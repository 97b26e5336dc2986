import Verif.Lemmas.TameAttr

/-! Bodies and classes in input of unknown origin. -/

namespace Verif
open Spec Sig

variable {α β γ δ : Type} {I : Place} {H : Harm} {body : Bool}

/-! ## Attributes of bodies -/

/-- Where the entries of tables come from. -/
def CodeAttr.From (I : Place) : CodeAttr → Prop
  | .lines ls => ∀ l ∈ ls, Listed I.pool I N.lineNumberTable 4 (U2 l.pc.toNat ++ U2 l.line.toNat)
  | .vars vs => ∀ v ∈ vs, ∃ more, Listed I.pool I N.localVariableTable 10 (U2 v.start.toNat ++ U2 v.len.toNat ++ more)
  | .varTypes vs => ∀ v ∈ vs, ∃ more,
    Listed I.pool I N.localVariableTypeTable 10 (U2 v.start.toNat ++ U2 v.len.toNat ++ more)
  | _ => True

theorem matched_length {R : α → β → Prop} {xs : List α} {ys : List β} (h : Matched R xs ys) :
    xs.length = ys.length := by
  induction h with
  | nil => rfl
  | cons _ _ ih => simp [ih]

theorem Snd.vec {env : REnv} {r : Rd α} {Q : LabelMap → Bytes → α → Prop} (h : Snd env r Q) :
    Snd env (rVec u16 r) fun m b xs => ∃ bss : List Bytes, b = U2 bss.length ++ bss.flatten ∧
      Matched (fun x b => Q m b x) xs bss := by
  refine (Snd.bind (Snd.num u16_lawful) fun n => Snd.replicate h _).mono ?_
  rintro m b xs ⟨n, b1, b2, rfl, rfl, h1, bss, rfl, h2⟩
  refine ⟨bss, ?_, h2⟩
  rw [u16_write, ← matched_length h2, h1]
  rfl

theorem snd_line {env : REnv} : Snd env LineEntry.read fun _ b e => b.length = 4 ∧ b = U2 e.pc.toNat ++ U2 e.line.toNat := by
  refine (Snd.ap (Snd.map (Snd.num u16_lawful)) (Snd.num u16_lawful)).mono ?_
  rintro m b x ⟨f, a, b1, b2, rfl, ⟨a', rfl, rfl⟩, rfl, rfl⟩
  rw [u16_write, u16_write]
  exact ⟨rfl, rfl⟩

theorem snd_utf8 {env : REnv} : Snd env rUtf8 fun _ b _ => b.length = 2 := by
  refine (Snd.bind (Snd.num u16_lawful) fun i => Snd.lookup).mono ?_
  rintro m b x ⟨i, b1, b2, rfl, rfl, h⟩
  simp [h, u16_write, U2]

theorem snd_type {env : REnv} : Snd env rType fun _ b _ => b.length = 2 := by
  refine (Snd.bind snd_utf8 fun i => Snd.ofRes).mono ?_
  rintro m b x ⟨i, b1, b2, rfl, h, rfl⟩
  simp [h]

theorem snd_sig {env : REnv} {parse : Str → Res α} : Snd env (rSig parse) fun _ b _ => b.length = 2 := by
  unfold rSig
  refine (Snd.bind (Q := fun _ _ b _ => b = []) snd_utf8 fun i => ?_).mono ?_
  · split
    · exact Snd.fail
    · exact Snd.ofRes
  · rintro m b x ⟨i, b1, b2, rfl, h, rfl⟩
    simp [h]

theorem snd_var {env : REnv} : Snd env VarEntry.read fun _ b e => b.length = 10 ∧
    ∃ more, b = U2 e.start.toNat ++ U2 e.len.toNat ++ more := by
  refine (Snd.ap (Snd.ap (Snd.ap (Snd.ap (Snd.map (Snd.num u16_lawful)) (Snd.num u16_lawful)) snd_utf8) snd_type)
    (Snd.num u16_lawful)).mono ?_
  rintro m b x ⟨f1, a1, b1, b2, rfl, ⟨f2, a2, b3, b4, rfl, ⟨f3, a3, b5, b6, rfl, ⟨f4, a4, b7, b8, rfl, ⟨a5, rfl, rfl⟩, rfl, rfl⟩,
    h1, rfl⟩, h2, rfl⟩, rfl, rfl⟩
  rw [u16_write, u16_write, u16_write]
  refine ⟨?_, b6 ++ b4 ++ U2 a1.toNat, ?_⟩
  · simp [h1, h2, U2]
  · simp

theorem snd_varType {env : REnv} : Snd env VarTypeEntry.read fun _ b e => b.length = 10 ∧
    ∃ more, b = U2 e.start.toNat ++ U2 e.len.toNat ++ more := by
  refine (Snd.ap (Snd.ap (Snd.ap (Snd.ap (Snd.map (Snd.num u16_lawful)) (Snd.num u16_lawful)) snd_utf8) snd_sig)
    (Snd.num u16_lawful)).mono ?_
  rintro m b x ⟨f1, a1, b1, b2, rfl, ⟨f2, a2, b3, b4, rfl, ⟨f3, a3, b5, b6, rfl, ⟨f4, a4, b7, b8, rfl, ⟨a5, rfl, rfl⟩, rfl, rfl⟩,
    h1, rfl⟩, h2, rfl⟩, rfl, rfl⟩
  rw [u16_write, u16_write, u16_write]
  refine ⟨?_, b6 ++ b4 ++ U2 a1.toNat, ?_⟩
  · simp [h1, h2, U2]
  · simp

/-- The entries of a table that was read. -/
theorem table_from {I : Place} {name w : Bytes} {size : Nat} {env : REnv} {st : RSt} {r : Rd α} {E : α → Bytes → Prop}
    {f : α → Prop} (hr : Mute I H true (rVec u16 r)) (hs : Snd env r fun _ b x => b.length = size ∧ E x b)
    (hp : PoolFine H env.pool) (hb : InBody I true env st) (hi : I w) (hw : I.Holds name w)
    (hf : ∀ x b, E x b → Listed I.pool I name size b → f x) {g : List α → CodeAttr}
    (hg : ∀ xs, (∀ x ∈ xs, f x) → (g xs).From I) :
    Post0 H (fun a p => p = [] ∧ a.From I) st (Rd.map g (rVec u16 r) env st w) := by
  have h1 := hr env st w hp hb hi
  unfold Rd.map Rd.bind
  rcases hx : rVec u16 r env st w with e | ⟨xs, st', rest⟩
  · rw [hx] at h1; exact h1
  rw [hx] at h1
  rintro rfl
  obtain ⟨ls, hls⟩ := Option.isSome_iff_exists.mp (hb.2 rfl).1
  obtain ⟨b, offs, e1, e2, h3⟩ := Snd.vec hs _ _ _ _ _ hx ls hls
  obtain ⟨bss, rfl, h4⟩ := h3 _ (List.prefix_refl _)
  obtain ⟨_, h5, p, h6, h7⟩ := h1
  refine ⟨h5, p, h6, h7, hg xs fun x hxm => ?_⟩
  obtain ⟨b, hbm, _, hE⟩ := h4.left x hxm
  refine hf x b hE ?_
  obtain ⟨i, hw1, hw2⟩ := hw
  rw [List.append_nil] at e1
  refine ⟨i, bss, hw1, fun b' hb' => ?_, hbm, ?_⟩
  · obtain ⟨_, _, h, _⟩ := h4.right b' hb'
    exact h
  · rw [← e1]; exact hw2

theorem tame_codeAttr [Harsh H] [Site I] (hF : Fair I H CodeAttr.table) : Tame I H true (fun a p => p = [] ∧ a.From I) CodeAttr.read := by
  have q : ∀ {α : Type} {x : Rd α} {f : α → CodeAttr}, Mute I H true x → (∀ a, (f a).From I) →
      ∀ env st w, PoolFine H env.pool → InBody I true env st → I w →
      Post0 H (fun a p => p = [] ∧ a.From I) st (Rd.map f x env st w) :=
    fun {α x f} h hf env st w h1 h2 h3 => Post.all (tame_map (I := I) (body := true)
      (Q := fun (a : CodeAttr) p => p = [] ∧ a.From I) (h.mono fun a p hp => ⟨hp, hf a⟩) env st w h1 h2 h3)
  refine tame_attrAt ?_ (fun _ => ⟨rfl, trivial⟩) hF
  intro name r hn
  revert r
  suffices ∀ r, CodeAttr.table name = some r → ∀ env st w, PoolFine H env.pool → InBody I true env st → I w →
      I.Holds name w → Post0 H (fun a p => p = [] ∧ a.From I) st (r env st w) from this
  unfold CodeAttr.table
  refine table_ite (fun he => fun env st w hp hb hi hw => table_from (mute_vec (mute_ap (mute_map (mute_num _)) (mute_num _)))
    (f := fun (l : LineEntry) => Listed I.pool I N.lineNumberTable 4 (U2 l.pc.toNat ++ U2 l.line.toNat))
    snd_line hp hb hi (he ▸ hw) (fun x b h1 h2 => h1 ▸ h2) fun _ h => h) ?_
  refine table_ite (fun he => fun env st w hp hb hi hw => table_from (mute_vec (mute_ap (mute_ap (mute_ap (mute_ap (mute_map (mute_num _)) (mute_num _))
    mute_utf8) mute_type) (mute_num _)))
    (f := fun v => ∃ more, Listed I.pool I N.localVariableTable 10 (U2 v.start.toNat ++ U2 v.len.toNat ++ more))
    snd_var hp hb hi (he ▸ hw) (fun x b ⟨more, h1⟩ h2 => ⟨more, h1 ▸ h2⟩) fun _ h => h) ?_
  refine table_ite (fun he => fun env st w hp hb hi hw => table_from (mute_vec (mute_ap (mute_ap (mute_ap (mute_ap (mute_map (mute_num _)) (mute_num _))
    mute_utf8) mute_refSig) (mute_num _)))
    (f := fun v => ∃ more, Listed I.pool I N.localVariableTypeTable 10 (U2 v.start.toNat ++ U2 v.len.toNat ++ more))
    snd_varType hp hb hi (he ▸ hw) (fun x b ⟨more, h1⟩ h2 => ⟨more, h1 ▸ h2⟩) fun _ h => h) ?_
  refine table_ite (fun he => fun env st w hp hb hi hw => q (mute_vec (mute_typeAnnotation mute_codeTarget)) (by intro _; exact trivial) env st w hp hb hi) ?_
  refine table_ite (fun he => fun env st w hp hb hi hw => q (mute_vec (mute_typeAnnotation mute_codeTarget)) (by intro _; exact trivial) env st w hp hb hi) ?_
  refine table_ite (fun he => fun env st w hp hb hi hw => q (mute_vec mute_frame) (by intro _; exact trivial) env st w hp hb hi) ?_
  exact table_nil

/-- Lists of instructions without cells. -/
def Closed (ins : Nat → List Insn) : Prop := ∀ j, ∀ i ∈ ins j, openI i = []

theorem addLines_tame {idx : Nat → Option Nat} : ∀ {ls : List LineEntry} {ins : Nat → List Insn},
    (∀ l ∈ ls, idx l.pc.toNat = none → H) → Closed ins → match addLines idx ins ls with
    | .error e => Calm H e
    | .ok ins' => Closed ins'
  | [], ins, _, h => h
  | l :: ls, ins, hH, h => by
    rw [addLines]
    rcases hk : idx l.pc.toNat with _ | k
    · exact calm_panic (hH l List.mem_cons_self hk)
    · refine addLines_tame (ls := ls) (fun l' hl' => hH l' (List.mem_cons_of_mem _ hl')) ?_
      intro j i hi
      simp only at hi
      split at hi
      · rw [List.mem_singleton] at hi; subst hi; rfl
      · exact h j i hi

theorem mute_range [Site I] {a b : UInt16} (hH : 65536 ≤ a.toNat + b.toNat → H) : Mute I H true (rangeLabels a b) := by
  refine mute_bind mute_getLabel fun _ => ?_
  split
  · exact mute_map mute_getLabel
  · rename_i h
    exact mute_fail (calm_panic (hH (Nat.not_lt.mp h)))

theorem mute_vars [Site I] : ∀ (vs : List VarEntry) (vars : List LocalVariable),
    (∀ v ∈ vs, 65536 ≤ v.start.toNat + v.len.toNat → H) → Mute I H true (addVars vars vs)
  | [], _, _ => mute_pure
  | v :: vs, _, hH => mute_bind (mute_range (hH v List.mem_cons_self)) fun _ =>
    mute_vars vs _ fun v hv => hH v (List.mem_cons_of_mem _ hv)

theorem mute_varTypes [Site I] : ∀ (vs : List VarTypeEntry) (vars : List LocalVariable),
    (∀ v ∈ vs, 65536 ≤ v.start.toNat + v.len.toNat → H) → Mute I H true (addVarTypes vars vs)
  | [], _, _ => mute_pure
  | v :: vs, _, hH => mute_bind (mute_range (hH v List.mem_cons_self)) fun _ =>
    mute_varTypes vs _ fun v hv => hH v (List.mem_cons_of_mem _ hv)

/-- Bad entries of tables imply `H`. -/
structure Guarded (I : Place) (H : Harm) (idx : Nat → Option Nat) : Prop where
  line : ∀ pc line : UInt16, Listed I.pool I N.lineNumberTable 4 (U2 pc.toNat ++ U2 line.toNat) →
    idx pc.toNat = none → H
  range : ∀ name (start len : UInt16) more, (name = N.localVariableTable ∨ name = N.localVariableTypeTable) →
    Listed I.pool I name 10 (U2 start.toNat ++ U2 len.toNat ++ more) → 65536 ≤ start.toNat + len.toNat → H

theorem tame_stepAttr [Site I] {idx : Nat → Option Nat} (hG : Guarded I H idx) {acc : AttrAcc} (hc : Closed acc.ins)
    (a : CodeAttr) (ha : a.From I) : Tame I H true (fun acc p => p = [] ∧ Closed acc.ins) (acc.step idx a) := by
  cases a with
  | lines ls =>
    have h1 : ∀ l ∈ ls, idx l.pc.toNat = none → H := fun l hl => hG.line _ _ (ha l hl)
    refine tame_map (tame_ofRes (fun e he => ?_) fun m hm => ?_)
    · have := addLines_tame (idx := idx) (ls := ls) h1 hc
      rw [he] at this; exact this
    · have := addLines_tame (idx := idx) (ls := ls) h1 hc
      rw [hm] at this; exact ⟨rfl, this⟩
  | vars vs =>
    refine tame_map ((mute_vars vs _ fun v hv => ?_).mono fun _ _ hp => ⟨hp, hc⟩)
    obtain ⟨more, h⟩ := ha v hv
    exact hG.range _ _ _ more (.inl rfl) h
  | varTypes vs =>
    refine tame_map ((mute_varTypes vs _ fun v hv => ?_).mono fun _ _ hp => ⟨hp, hc⟩)
    obtain ⟨more, h⟩ := ha v hv
    exact hG.range _ _ _ more (.inr rfl) h
  | frames _ => exact tame_pure ⟨rfl, hc⟩
  | invisibleType _ => exact tame_pure ⟨rfl, hc⟩
  | visibleType _ => exact tame_pure ⟨rfl, hc⟩
  | raw _ => exact tame_pure ⟨rfl, hc⟩

theorem tame_codeAttrs [Harsh H] [Site I] {idx : Nat → Option Nat} (hG : Guarded I H idx)
    (hF : Fair I H CodeAttr.table) : ∀ (n : Nat) {acc : AttrAcc},
    Closed acc.ins → Tame I H true (fun acc p => p = [] ∧ Closed acc.ins) (readCodeAttrs idx n acc)
  | 0, _, hc => tame_pure ⟨rfl, hc⟩
  | n + 1, acc, hc => by
    refine tame_bind (tame_codeAttr hF) fun a p ha => ?_
    obtain ⟨rfl, ha⟩ := ha
    refine tame_bind (tame_stepAttr hG hc a ha) fun acc p hacc => ?_
    obtain ⟨rfl, hacc⟩ := hacc
    exact tame_codeAttrs hG hF n hacc

/-! ## Markers -/

theorem addLabels_tame {idx : Nat → Option Nat} : ∀ {m : LabelMap} {ins : Nat → List Insn},
    Closed ins → match addLabels idx ins m with
    | .error e => Calm H e
    | .ok ins' => Closed ins'
  | [], ins, h => h
  | (o, l) :: m, ins, h => by
    rw [addLabels]
    rcases idx o.toNat with _ | k
    · exact calm_invalid
    · refine addLabels_tame (m := m) ?_
      intro j i hi
      simp only at hi
      split at hi
      · rw [List.mem_append, List.mem_singleton] at hi
        rcases hi with hi | rfl
        · exact h j i hi
        · rfl
      · exact h j i hi

theorem insertIdx_open {v : Insn} (hv : openI v = []) : ∀ (k : Nat) (is : List Insn),
    (is.insertIdx k v).flatMap openI = is.flatMap openI
  | 0, is => by rw [List.insertIdx_zero, List.flatMap_cons, hv, List.nil_append]
  | k + 1, [] => rfl
  | k + 1, i :: is => by
    rw [List.insertIdx_succ_cons, List.flatMap_cons, List.flatMap_cons, insertIdx_open hv k is]

theorem insertAt_open {k : Nat} : ∀ (vs is : List Insn), (∀ v ∈ vs, openI v = []) →
    (insertAt k is vs).flatMap openI = is.flatMap openI
  | [], _, _ => rfl
  | v :: vs, is, h => by
    rw [insertAt, insertAt_open vs _ fun w hw => h w (List.mem_cons_of_mem _ hw),
      insertIdx_open (h v List.mem_cons_self)]

theorem insertDown_open {ins : Nat → List Insn} (h : Closed ins) : ∀ (k : Nat) (is : List Insn),
    (insertDown ins is k).flatMap openI = is.flatMap openI
  | 0, is => insertAt_open _ _ (h 0)
  | k + 1, is => by rw [insertDown, insertDown_open h k, insertAt_open _ _ (h _)]

theorem tame_markers {idx : Nat → Option Nat} {ins : Nat → List Insn} (h : Closed ins) (is : List Insn) :
    Tame I H true (fun is' p => p = [] ∧ is'.flatMap openI = is.flatMap openI) (placeMarkers idx ins is) := by
  intro env st bs _ hb _
  unfold placeMarkers
  obtain ⟨m, hm⟩ := Option.isSome_iff_exists.mp (hb.2 rfl).1
  rw [hm]
  simp only
  have h1 := addLabels_tame (H := H) (idx := idx) (m := m) h
  rcases hr : addLabels idx ins m with e | ins'
  · rw [hr] at h1; exact h1
  · rw [hr] at h1
    exact ⟨List.suffix_refl _, rfl, [], by simp, rfl, insertDown_open h1 _ _⟩

/-! ## Bodies -/

theorem tame_insns [Harsh H] [Site I] {code : Bytes} (hi : I code) (hsw : BadCode code → H) :
    Tame I H true (fun pis p => p = (pis.flatMap fun i => openI i.2) ∧
      ∃ rs, Decodes 0 code rs ∧ pis.map Prod.fst = rs.map Prod.fst) (readInsns code) := by
  intro env st bs hp hb _
  unfold readInsns
  have h := tame_loop hp (len := code.length) code.length rfl (Nat.le_refl _) hb hi (by
    intro pre suf rs he hd hs
    rw [Nat.sub_self] at hd hs
    rw [Nat.zero_add] at hs
    exact hsw ⟨pre, suf, rs, he, hd, hs⟩)
  rcases hr : readLoop code.length env st code with e | ⟨is, st'⟩
  · rw [hr] at h; exact h
  · rw [hr] at h
    refine ⟨List.suffix_refl _, h.1, _, h.2, rfl, ?_⟩
    obtain ⟨ls, hls⟩ := Option.isSome_iff_exists.mp (hb.2 rfl).1
    obtain ⟨rs, offs, h1, _, h2⟩ := readLoop_sound code.length rfl (Nat.le_refl _) hr hls
    rw [Nat.sub_self] at h1
    refine ⟨rs, h1, ?_⟩
    have h3 := h2 _ (List.prefix_refl _)
    clear h2 h1 hr h
    induction h3 with
    | nil => rfl
    | cons h1 _ ih => rw [List.map_cons, List.map_cons, ih, h1.1]

theorem mute_catchEntry [Site I] : Mute I H true Catch.read :=
  mute_ap (mute_ap (mute_ap (mute_map mute_label) mute_label) mute_label) (mute_opt fun _ => mute_lookup)

theorem tame_withCatches {Q : α → List UInt16 → Prop} {cs : List Catch} {r : Rd α} (h : Tame I H true Q r) :
    Tame I H true Q (withCatches cs r) :=
  fun env st bs hp hb hi => h { env with catches := some cs } st bs hp ⟨hb.1, fun _ => ⟨(hb.2 rfl).1, rfl⟩⟩ hi

/-- What follows the code array in `Code.readIn`. -/
def restOf (ord : Nat → List LocalVariable → List LocalVariable) (maxStack maxLocals : UInt16) (code : Bytes) : Rd Code :=
  Rd.bind (readInsns code) fun pis =>
  Rd.bind (rVec u16 Catch.read) fun catches =>
  Rd.bind (rNum u16) fun n =>
  Rd.bind (withCatches catches (readCodeAttrs (indexIn (pis.map Prod.fst ++ [code.length])) n.toNat
    ⟨[], fun _ => [], []⟩)) fun acc =>
  Rd.bind (placeMarkers (indexIn (pis.map Prod.fst ++ [code.length])) acc.ins (pis.map Prod.snd)) fun is =>
    fun _ st bs => .ok (⟨maxStack, maxLocals, is, catches,
      if acc.vars.length = 0 then acc.attrs else acc.attrs ++ [.locals (ord bs.length acc.vars)]⟩, st, bs)

theorem readIn_rest (ord : Nat → List LocalVariable → List LocalVariable) : Code.readIn ord =
    Rd.bind (rNum u16) fun maxStack => Rd.bind (rNum u16) fun maxLocals =>
    Rd.bind (rNum u32) fun len => Rd.bind (rBytes len.toNat) fun code => restOf ord maxStack maxLocals code := rfl

theorem indexIn_none {l : List Nat} {o : Nat} (h : indexIn l o = none) : o ∉ l := by
  induction l with
  | nil => simp
  | cons p l ih =>
    rw [indexIn] at h
    split at h
    · cases h
    · rename_i hne
      rw [Option.map_eq_none_iff] at h
      rw [List.mem_cons, not_or]
      exact ⟨fun e => hne e.symm, ih h⟩

theorem tame_rest [Harsh H] [Site I] (ord : Nat → List LocalVariable → List LocalVariable) (ms ml : UInt16) {code tail : Bytes}
    (hF : Fair I H CodeAttr.table) (hI : ∀ b, I b → b <:+: tail) (hH : BadCode code ∨
      (∃ rs, Decodes 0 code rs ∧ BadTable I.pool (rs.map Prod.fst ++ [code.length]) tail) → H)
    (hs : ∀ env st bs, PoolFine H env.pool → InBody I true env st → I bs → Post H (fun pis p =>
      p = (pis.flatMap fun i => openI i.2) ∧ ∃ rs, Decodes 0 code rs ∧ pis.map Prod.fst = rs.map Prod.fst) st bs
      (readInsns code env st bs)) :
    Tame I H true (fun c p => p = c.code.flatMap openI) (restOf ord ms ml code) := by
  refine tame_bind hs fun pis p hp => ?_
  obtain ⟨rfl, rs, hd, he⟩ := hp
  refine tame_bind (mute_vec mute_catchEntry) fun catches p hp => ?_
  subst hp
  refine tame_bind (mute_num _) fun n p hp => ?_
  subst hp
  have up : ∀ {name size e}, Listed I.pool I name size e → Listed I.pool (· <:+: tail) name size e :=
    fun ⟨i, es, h1, h2, h3, h4⟩ => ⟨i, es, h1, h2, h3, hI _ h4⟩
  have hG : Guarded I H (indexIn (pis.map Prod.fst ++ [code.length])) := by
    rw [he]
    exact ⟨fun pc line h1 h2 => hH (.inr ⟨rs, hd, .inl ⟨pc, line, up h1, indexIn_none h2⟩⟩),
      fun name start len more h1 h2 h3 => hH (.inr ⟨rs, hd, .inr ⟨name, start, len, more, h1, up h2, h3⟩⟩)⟩
  refine tame_bind (tame_withCatches (tame_codeAttrs hG hF n.toNat (acc := ⟨[], fun _ => [], []⟩) fun _ _ h => nomatch h))
    fun acc p hp => ?_
  obtain ⟨rfl, hc⟩ := hp
  refine tame_bind (tame_markers hc (pis.map Prod.snd)) fun is p hp => ?_
  obtain ⟨rfl, he⟩ := hp
  intro env st bs _ _ _
  refine ⟨List.suffix_refl _, rfl, [], by simp, ?_⟩
  show _ = is.flatMap openI
  rw [he, List.flatMap_map]
  simp only [List.nil_append, List.append_nil]

theorem post_head {Q : β → List UInt16 → Prop} {c : NumCodec α} (hc : c.Lawful) {f : α → Rd β} {env : REnv} {st : RSt}
    {bs : Bytes} (h : ∀ x rest, bs = c.write x ++ rest → Post H Q st rest (f x env st rest)) :
    Post H Q st bs (Rd.bind (rNum c) f env st bs) := by
  unfold Rd.bind rNum Rd.lift
  have h1 := plain_num c bs
  rcases hr : c.read bs with e | ⟨x, rest⟩
  · rw [hr] at h1; exact Calm.of_false h1
  · obtain ⟨b, e, rfl⟩ := takes_num hc _ _ _ hr
    have h2 := h x rest e
    simp only
    rcases hf : f x env st rest with e | ⟨v, st', rest'⟩
    · rw [hf] at h2; exact h2
    · rw [hf] at h2
      exact ⟨List.IsSuffix.trans h2.1 ⟨_, e.symm⟩, h2.2⟩

/-- A body whose bytes are known. -/
theorem post_code [Harsh H] (ord : Nat → List LocalVariable → List LocalVariable) {env : REnv} {st : RSt} {w : Bytes}
    (hp : PoolFine H env.pool) (hH : BadBody env.pool w → H)
    (hF : Fair ⟨(· <:+: w), env.pool⟩ H CodeAttr.table) :
    Post H (fun c p => p = c.code.flatMap openI) st w (Code.read ord env st w) := by
  unfold Code.read
  have key : Post H (fun c p => p = c.code.flatMap openI) ⟨st.pending, some []⟩ w
      (Code.readIn ord { env with catches := some [] } ⟨st.pending, some []⟩ w) := by
    rw [readIn_rest]
    refine post_head u16_lawful fun ms w1 e1 => post_head u16_lawful fun ml w2 e2 =>
      post_head u32_lawful fun len w3 e3 => ?_
    unfold Rd.bind rBytes Rd.lift
    rcases hr : readExact len.toNat w3 with e | ⟨code, tail⟩
    · have := plain_readExact len.toNat w3
      rw [hr] at this
      exact Calm.of_false this
    obtain ⟨e4, hl⟩ := readExact_parts hr
    simp only
    have hH' : BadCode code ∨ (∃ rs, Decodes 0 code rs ∧
        BadTable env.pool (rs.map Prod.fst ++ [code.length]) tail) → H := fun h =>
      hH ⟨ms, ml, code, tail, by rw [e1, e2, e3, e4, u16_write, u16_write, u32_write, hl], h⟩
    let J : Place := ⟨fun b => b <:+: tail, env.pool⟩
    let K : Place := ⟨fun _ => True, env.pool⟩
    have : Site J := ⟨fun h hi => List.IsInfix.trans h hi⟩
    have : Site K := ⟨fun _ _ => trivial⟩
    have h := tame_rest (I := J) (H := H) ord ms ml (code := code) (tail := tail)
      (hF.mono rfl fun b h => List.IsInfix.trans h ⟨U2 ms.toNat ++ U2 ml.toNat ++ U4 code.length ++ code, [], by
        rw [e1, e2, e3, e4, u16_write, u16_write, u32_write, hl]; simp⟩) (fun _ h => h) hH'
      (fun env' st bs h1 h2 _ => tame_insns (I := K) trivial (fun h => hH' (.inl h)) env' st bs h1 h2 trivial)
      { env with catches := some [] } ⟨st.pending, some []⟩ tail hp ⟨rfl, fun _ => ⟨rfl, rfl⟩⟩ (List.infix_refl _)
    rcases hr2 : restOf ord ms ml code { env with catches := some [] } ⟨st.pending, some []⟩ tail with e | ⟨c, st', rest⟩
    · rw [hr2] at h; exact h
    · rw [hr2] at h
      exact ⟨List.IsSuffix.trans h.1 ⟨code, e4.symm⟩, h.2⟩
  rcases hr : Code.readIn ord { env with catches := some [] } ⟨st.pending, some []⟩ w with e | ⟨c, st', rest⟩
  · rw [hr] at key; exact key
  · rw [hr] at key
    exact ⟨key.1, rfl, key.2.2⟩

/-! ## Methods and classes -/

/-- Bad bodies imply `H`. -/
def Watched (I : Place) (H : Harm) : Prop := ∀ w, I.Holds N.code w → BadBody I.pool w → H

theorem tame_methodAttr [Harsh H] [Site I] (ord : Order) (hW : Watched I H) (hC : Fair I H CodeAttr.table)
    (hM : ∀ n, Fair I H (MethodAttr.table (ord n))) :
    Tame I H body (fun a p => p = openMethodAttr a) (MethodAttr.read ord) := by
  intro env st bs hp hb hi
  unfold MethodAttr.read
  refine tame_attrAt (I := I) (H := H) (body := body) (Q := fun a p => p = openMethodAttr a) ?_ (fun _ => rfl)
    (hM _) env st bs hp hb hi
  intro name r _
  revert r
  suffices ∀ r, MethodAttr.table (ord bs.length) name = some r → ∀ env st w, PoolFine H env.pool → InBody I body env st →
      I w → I.Holds name w → Post0 H (fun a p => p = openMethodAttr a) st (r env st w) from this
  have up : ∀ {r : Rd MethodAttr}, Tame I H body (fun a p => p = openMethodAttr a) r → ∀ env st w,
      PoolFine H env.pool → InBody I body env st → I w → I.Holds name w →
      Post0 H (fun a p => p = openMethodAttr a) st (r env st w) :=
    fun h env st w h1 h2 h3 _ => (h env st w h1 h2 h3).all
  unfold MethodAttr.table
  refine table_ite (fun he => ?_) ?_
  · subst he
    intro env st w hp hb hi hw
    have h := post_code (ord bs.length) (env := env) (st := st) (w := w) hp (fun h => hW w hw (hb.1 ▸ h))
      (hC.mono hb.1 fun _ h => Site.part h hi)
    unfold Rd.map Rd.bind
    rcases hr : Code.read (ord bs.length) env st w with e | ⟨c, st', rest⟩
    · rw [hr] at h; exact h
    · rw [hr] at h; exact fun _ => h.2
  repeat' refine table_ite (fun _ => ?_) ?_
  all_goals (first
    | exact table_nil
    | exact up (tame_pure rfl)
    | exact up (tame_quiet mute_methodSig fun _ => rfl)
    | exact up (tame_quiet (mute_vec mute_annotation) fun _ => rfl)
    | exact up (tame_quiet (mute_vec (mute_typeAnnotation mute_methodTarget)) fun _ => rfl)
    | exact up (tame_quiet (mute_vec (mute_vec mute_annotation)) fun _ => rfl)
    | exact up (tame_quiet (mute_vec mute_str) fun _ => rfl)
    | exact up (tame_quiet mute_value fun _ => rfl)
    | exact up (tame_quiet (mute_vec mute_parameter) fun _ => rfl))

theorem tame_map1 [Site I] {P : β → Prop} {f : α → β} {x : Rd α} (h : Mute I H body x) (hf : ∀ a, P (f a)) :
    Tame I H body (fun b p => p = [] ∧ P b) (Rd.map f x) := tame_map (h.mono fun a _ hp => ⟨hp, hf a⟩)

theorem tame_ap1 [Site I] {P : β → Prop} {f : Rd (α → β)} {x : Rd α}
    (hf : Tame I H body (fun g p => p = [] ∧ ∀ a, P (g a)) f) (hx : Mute I H body x) :
    Tame I H body (fun b p => p = [] ∧ P b) (Rd.ap f x) :=
  tame_ap (Q1 := fun _ p => p = []) (hf.mono fun g p hg a q hq => ⟨by rw [hg.1, hq]; rfl, hg.2 a⟩) hx

theorem tame_method [Harsh H] [Site I] (ord : Order) (hW : Watched I H) (hC : Fair I H CodeAttr.table)
    (hM : ∀ n, Fair I H (MethodAttr.table (ord n))) :
    Tame I H body (fun m p => p = m.attrs.flatMap openMethodAttr) (Method.read ord) := by
  refine tame_ap (Q1 := fun as p => p = as.flatMap openMethodAttr) ?_ (tame_flat (tame_methodAttr ord hW hC hM))
  refine Tame.mono (tame_ap1 (P := fun g => ∀ as, (g as).attrs = as)
    (tame_ap1 (tame_map1 mute_flags fun _ _ _ _ => rfl) mute_utf8) mute_type) ?_
  rintro g p ⟨rfl, hg⟩ as q rfl
  rw [hg]
  rfl

theorem tame_class [Harsh H] [Site I] (ord : Order) (v : Version) (hW : Watched I H) (hC : Fair I H CodeAttr.table)
    (hM : ∀ n, Fair I H (MethodAttr.table (ord n))) (hA : Fair I H ClassAttr.table) (hD : Fair I H FieldAttr.table) :
    Tame I H body (fun x p => p = openClass x) (Class.readBody ord v) := by
  refine tame_ap (Q1 := fun as p => p = as.flatMap openClassAttr) ?_ (tame_flat (tame_classAttr hA))
  refine tame_ap (Q1 := fun ms p => p = ms.flatMap fun m => m.attrs.flatMap openMethodAttr) ?_
    (tame_flat (tame_method ord hW hC hM))
  refine Tame.mono (tame_ap1 (P := fun g => ∀ ms as, (g ms as).methods = ms ∧ (g ms as).attrs = as)
    (tame_ap1 (tame_ap1 (tame_ap1 (tame_map1 mute_flags fun _ _ _ _ _ _ _ => ⟨rfl, rfl⟩) mute_str) mute_clsOpt)
      (mute_vec mute_str)) (mute_vec (mute_field hD))) ?_
  rintro g p ⟨rfl, hg⟩ ms q rfl as r rfl
  obtain ⟨h1, h2⟩ := hg ms as
  unfold openClass
  rw [h1, h2]
  rfl

end Verif
