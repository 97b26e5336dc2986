import Verif.Lemmas.ReleaseSafe
import Verif.Lemmas.TameClass

/-! Classes of unknown origin in a build without overflow checks. -/

namespace Verif
open Spec Sig

variable {α β γ δ : Type} {I : Place} {H : Harm} {body : Bool}

theorem snd_typeW {env : REnv} : Snd env rTypeW fun _ b _ => b.length = 2 := by
  refine (Snd.bind snd_utf8 fun i => Snd.ofRes).mono ?_
  rintro m b x ⟨i, b1, b2, rfl, h, rfl⟩
  simp [h]

theorem snd_varW {env : REnv} : Snd env VarEntry.readW fun _ b e => b.length = 10 ∧
    ∃ more, b = U2 e.start.toNat ++ U2 e.len.toNat ++ more := by
  refine (Snd.ap (Snd.ap (Snd.ap (Snd.ap (Snd.map (Snd.num u16_lawful)) (Snd.num u16_lawful)) snd_utf8) snd_typeW)
    (Snd.num u16_lawful)).mono ?_
  rintro m b x ⟨f1, a1, b1, b2, rfl, ⟨f2, a2, b3, b4, rfl, ⟨f3, a3, b5, b6, rfl, ⟨f4, a4, b7, b8, rfl, ⟨a5, rfl, rfl⟩, rfl, rfl⟩,
    h1, rfl⟩, h2, rfl⟩, rfl, rfl⟩
  rw [u16_write, u16_write, u16_write]
  refine ⟨?_, b6 ++ b4 ++ U2 a1.toNat, ?_⟩
  · simp [h1, h2, U2]
  · simp

theorem snd_varTypeW {env : REnv} : Snd env VarTypeEntry.readW fun _ b e => b.length = 10 ∧
    ∃ more, b = U2 e.start.toNat ++ U2 e.len.toNat ++ more := by
  refine (Snd.ap (Snd.ap (Snd.ap (Snd.ap (Snd.map (Snd.num u16_lawful)) (Snd.num u16_lawful)) snd_utf8) snd_sig)
    (Snd.num u16_lawful)).mono ?_
  rintro m b x ⟨f1, a1, b1, b2, rfl, ⟨f2, a2, b3, b4, rfl, ⟨f3, a3, b5, b6, rfl, ⟨f4, a4, b7, b8, rfl, ⟨a5, rfl, rfl⟩, rfl, rfl⟩,
    h1, rfl⟩, h2, rfl⟩, rfl, rfl⟩
  rw [u16_write, u16_write, u16_write]
  refine ⟨?_, b6 ++ b4 ++ U2 a1.toNat, ?_⟩
  · simp [h1, h2, U2]
  · simp

theorem tame_codeAttrW [Site I] (hF : Fair I H CodeAttr.tableW) : Tame I H true (fun a p => p = [] ∧ a.From I) CodeAttr.readW := by
  have q : ∀ {α : Type} {x : Rd α} {f : α → CodeAttr}, Mute I H true x → (∀ a, (f a).From I) →
      ∀ env st w, PoolFine H env.pool → InBody I true env st → I w →
      Post0 H (fun a p => p = [] ∧ a.From I) st (Rd.map f x env st w) :=
    fun {α x f} h hf env st w h1 h2 h3 => Post.all (tame_map (I := I) (body := true)
      (Q := fun (a : CodeAttr) p => p = [] ∧ a.From I) (h.mono fun a p hp => ⟨hp, hf a⟩) env st w h1 h2 h3)
  refine tame_attrAt ?_ (fun _ => ⟨rfl, trivial⟩) hF
  intro name r hn
  revert r
  suffices ∀ r, CodeAttr.tableW name = some r → ∀ env st w, PoolFine H env.pool → InBody I true env st → I w →
      I.Holds name w → Post0 H (fun a p => p = [] ∧ a.From I) st (r env st w) from this
  unfold CodeAttr.tableW
  refine table_ite (fun he => fun env st w hp hb hi hw => table_from (mute_vec (mute_ap (mute_map (mute_num _)) (mute_num _)))
    (f := fun (l : LineEntry) => Listed I.pool I N.lineNumberTable 4 (U2 l.pc.toNat ++ U2 l.line.toNat))
    snd_line hp hb hi (he ▸ hw) (fun x b h1 h2 => h1 ▸ h2) fun _ h => h) ?_
  refine table_ite (fun he => fun env st w hp hb hi hw => table_from (mute_vec (mute_ap (mute_ap (mute_ap (mute_ap (mute_map (mute_num _)) (mute_num _))
    mute_utf8) mute_typeW) (mute_num _)))
    (f := fun v => ∃ more, Listed I.pool I N.localVariableTable 10 (U2 v.start.toNat ++ U2 v.len.toNat ++ more))
    snd_varW hp hb hi (he ▸ hw) (fun x b ⟨more, h1⟩ h2 => ⟨more, h1 ▸ h2⟩) fun _ h => h) ?_
  refine table_ite (fun he => fun env st w hp hb hi hw => table_from (mute_vec (mute_ap (mute_ap (mute_ap (mute_ap (mute_map (mute_num _)) (mute_num _))
    mute_utf8) mute_refSigW) (mute_num _)))
    (f := fun v => ∃ more, Listed I.pool I N.localVariableTypeTable 10 (U2 v.start.toNat ++ U2 v.len.toNat ++ more))
    snd_varTypeW hp hb hi (he ▸ hw) (fun x b ⟨more, h1⟩ h2 => ⟨more, h1 ▸ h2⟩) fun _ h => h) ?_
  refine table_ite (fun he => fun env st w hp hb hi hw => q (mute_vec (mute_typeAnnotationW mute_codeTarget)) (by intro _; exact trivial) env st w hp hb hi) ?_
  refine table_ite (fun he => fun env st w hp hb hi hw => q (mute_vec (mute_typeAnnotationW mute_codeTarget)) (by intro _; exact trivial) env st w hp hb hi) ?_
  refine table_ite (fun he => fun env st w hp hb hi hw => q (mute_vec mute_frame) (by intro _; exact trivial) env st w hp hb hi) ?_
  exact table_nil

theorem mute_rangeW [Site I] {a b : UInt16} : Mute I H true (rangeLabelsW a b) :=
  mute_bind mute_getLabel fun _ => mute_map mute_getLabel

theorem mute_varsW [Site I] : ∀ (vs : List VarEntry) (vars : List LocalVariable), Mute I H true (addVarsW vars vs)
  | [], _ => mute_pure
  | _ :: vs, _ => mute_bind mute_rangeW fun _ => mute_varsW vs _

theorem mute_varTypesW [Site I] : ∀ (vs : List VarTypeEntry) (vars : List LocalVariable),
    Mute I H true (addVarTypesW vars vs)
  | [], _ => mute_pure
  | _ :: vs, _ => mute_bind mute_rangeW fun _ => mute_varTypesW vs _

/-- Bad line numbers imply `H`. -/
def GuardedW (I : Place) (H : Harm) (idx : Nat → Option Nat) : Prop :=
  ∀ pc line : UInt16, Listed I.pool I N.lineNumberTable 4 (U2 pc.toNat ++ U2 line.toNat) → idx pc.toNat = none → H

theorem tame_stepAttrW [Site I] {idx : Nat → Option Nat} (hG : GuardedW I H idx) {acc : AttrAcc} (hc : Closed acc.ins)
    (a : CodeAttr) (ha : a.From I) : Tame I H true (fun acc p => p = [] ∧ Closed acc.ins) (acc.stepW idx a) := by
  cases a with
  | lines ls =>
    have h1 : ∀ l ∈ ls, idx l.pc.toNat = none → H := fun l hl => hG _ _ (ha l hl)
    refine tame_map (tame_ofRes (fun e he => ?_) fun m hm => ?_)
    · have := addLines_tame (idx := idx) (ls := ls) h1 hc
      rw [he] at this; exact this
    · have := addLines_tame (idx := idx) (ls := ls) h1 hc
      rw [hm] at this; exact ⟨rfl, this⟩
  | vars vs => exact tame_map ((mute_varsW vs _).mono fun _ _ hp => ⟨hp, hc⟩)
  | varTypes vs => exact tame_map ((mute_varTypesW vs _).mono fun _ _ hp => ⟨hp, hc⟩)
  | frames _ => exact tame_pure ⟨rfl, hc⟩
  | invisibleType _ => exact tame_pure ⟨rfl, hc⟩
  | visibleType _ => exact tame_pure ⟨rfl, hc⟩
  | raw _ => exact tame_pure ⟨rfl, hc⟩

theorem tame_codeAttrsW [Site I] {idx : Nat → Option Nat} (hG : GuardedW I H idx)
    (hF : Fair I H CodeAttr.tableW) : ∀ (n : Nat) {acc : AttrAcc},
    Closed acc.ins → Tame I H true (fun acc p => p = [] ∧ Closed acc.ins) (readCodeAttrsW idx n acc)
  | 0, _, hc => tame_pure ⟨rfl, hc⟩
  | n + 1, acc, hc => by
    refine tame_bind (tame_codeAttrW hF) fun a p ha => ?_
    obtain ⟨rfl, ha⟩ := ha
    refine tame_bind (tame_stepAttrW hG hc a ha) fun acc p hacc => ?_
    obtain ⟨rfl, hacc⟩ := hacc
    exact tame_codeAttrsW hG hF n hacc

theorem tame_insnsW [Site I] {code : Bytes} (hi : I code) (hsw : BadCodeW code → H) :
    Tame I H true (fun pis p => p = (pis.flatMap fun i => openI i.2) ∧
      ∃ rs, DecodesW 0 code rs ∧ pis.map Prod.fst = rs.map Prod.fst) (readInsnsW code) := by
  intro env st bs hp hb _
  unfold readInsnsW
  have h := tame_loopW hp (len := code.length) code.length rfl (Nat.le_refl _) hb hi (by
    intro pre suf rs he hd hs
    rw [Nat.sub_self] at hd hs
    rw [Nat.zero_add] at hs
    exact hsw ⟨pre, suf, rs, he, hd, hs⟩)
  rcases hr : readLoopW code.length env st code with e | ⟨is, st'⟩
  · rw [hr] at h; exact h
  · rw [hr] at h
    rw [Nat.sub_self] at h
    exact ⟨List.suffix_refl _, h.1, _, h.2.1, rfl, h.2.2⟩

/-- What follows the code array in `Code.readInW`. -/
def restOfW (ord : Nat → List LocalVariable → List LocalVariable) (maxStack maxLocals : UInt16) (code : Bytes) : Rd Code :=
  Rd.bind (readInsnsW code) fun pis =>
  Rd.bind (rVec u16 Catch.read) fun catches =>
  Rd.bind (rNum u16) fun n =>
  Rd.bind (withCatches catches (readCodeAttrsW (indexIn (pis.map Prod.fst ++ [code.length])) n.toNat
    ⟨[], fun _ => [], []⟩)) fun acc =>
  Rd.bind (placeMarkers (indexIn (pis.map Prod.fst ++ [code.length])) acc.ins (pis.map Prod.snd)) fun is =>
    fun _ st bs => .ok (⟨maxStack, maxLocals, is, catches,
      if acc.vars.length = 0 then acc.attrs else acc.attrs ++ [.locals (ord bs.length acc.vars)]⟩, st, bs)

theorem readIn_restW (ord : Nat → List LocalVariable → List LocalVariable) : Code.readInW ord =
    Rd.bind (rNum u16) fun maxStack => Rd.bind (rNum u16) fun maxLocals =>
    Rd.bind (rNum u32) fun len => Rd.bind (rBytes len.toNat) fun code => restOfW ord maxStack maxLocals code := rfl

theorem tame_restW [Site I] (ord : Nat → List LocalVariable → List LocalVariable) (ms ml : UInt16) {code tail : Bytes}
    (hF : Fair I H CodeAttr.tableW) (hI : ∀ b, I b → b <:+: tail) (hH : BadCodeW code ∨
      (∃ rs, DecodesW 0 code rs ∧ BadLine I.pool (rs.map Prod.fst ++ [code.length]) tail) → H)
    (hs : ∀ env st bs, PoolFine H env.pool → InBody I true env st → I bs → Post H (fun pis p =>
      p = (pis.flatMap fun i => openI i.2) ∧ ∃ rs, DecodesW 0 code rs ∧ pis.map Prod.fst = rs.map Prod.fst) st bs
      (readInsnsW code env st bs)) :
    Tame I H true (fun c p => p = c.code.flatMap openI) (restOfW ord ms ml code) := by
  refine tame_bind hs fun pis p hp => ?_
  obtain ⟨rfl, rs, hd, he⟩ := hp
  refine tame_bind (mute_vec mute_catchEntry) fun catches p hp => ?_
  subst hp
  refine tame_bind (mute_num _) fun n p hp => ?_
  subst hp
  have up : ∀ {name size e}, Listed I.pool I name size e → Listed I.pool (· <:+: tail) name size e :=
    fun ⟨i, es, h1, h2, h3, h4⟩ => ⟨i, es, h1, h2, h3, hI _ h4⟩
  have hG : GuardedW I H (indexIn (pis.map Prod.fst ++ [code.length])) := by
    rw [he]
    exact fun pc line h1 h2 => hH (.inr ⟨rs, hd, pc, line, up h1, indexIn_none h2⟩)
  refine tame_bind (tame_withCatches (tame_codeAttrsW hG hF n.toNat (acc := ⟨[], fun _ => [], []⟩) fun _ _ h => nomatch h))
    fun acc p hp => ?_
  obtain ⟨rfl, hc⟩ := hp
  refine tame_bind (tame_markers hc (pis.map Prod.snd)) fun is p hp => ?_
  obtain ⟨rfl, he⟩ := hp
  intro env st bs _ _ _
  refine ⟨List.suffix_refl _, rfl, [], by simp, ?_⟩
  show _ = is.flatMap openI
  rw [he, List.flatMap_map]
  simp only [List.nil_append, List.append_nil]

/-- A body whose bytes are known. -/
theorem post_codeW (ord : Nat → List LocalVariable → List LocalVariable) {env : REnv} {st : RSt} {w : Bytes}
    (hp : PoolFine H env.pool) (hH : BadBodyW env.pool w → H)
    (hF : Fair ⟨(· <:+: w), env.pool⟩ H CodeAttr.tableW) :
    Post H (fun c p => p = c.code.flatMap openI) st w (Code.readW ord env st w) := by
  unfold Code.readW
  have key : Post H (fun c p => p = c.code.flatMap openI) ⟨st.pending, some []⟩ w
      (Code.readInW ord { env with catches := some [] } ⟨st.pending, some []⟩ w) := by
    rw [readIn_restW]
    refine post_head u16_lawful fun ms w1 e1 => post_head u16_lawful fun ml w2 e2 =>
      post_head u32_lawful fun len w3 e3 => ?_
    unfold Rd.bind rBytes Rd.lift
    rcases hr : readExact len.toNat w3 with e | ⟨code, tail⟩
    · have := plain_readExact len.toNat w3
      rw [hr] at this
      exact Calm.of_false this
    obtain ⟨e4, hl⟩ := readExact_parts hr
    simp only
    have hH' : BadCodeW code ∨ (∃ rs, DecodesW 0 code rs ∧
        BadLine env.pool (rs.map Prod.fst ++ [code.length]) tail) → H := fun h =>
      hH ⟨ms, ml, code, tail, by rw [e1, e2, e3, e4, u16_write, u16_write, u32_write, hl], h⟩
    let J : Place := ⟨fun b => b <:+: tail, env.pool⟩
    let K : Place := ⟨fun _ => True, env.pool⟩
    have : Site J := ⟨fun h hi => List.IsInfix.trans h hi⟩
    have : Site K := ⟨fun _ _ => trivial⟩
    have h := tame_restW (I := J) (H := H) ord ms ml (code := code) (tail := tail)
      (hF.mono rfl fun b h => List.IsInfix.trans h ⟨U2 ms.toNat ++ U2 ml.toNat ++ U4 code.length ++ code, [], by
        rw [e1, e2, e3, e4, u16_write, u16_write, u32_write, hl]; simp⟩) (fun _ h => h) hH'
      (fun env' st bs h1 h2 _ => tame_insnsW (I := K) trivial (fun h => hH' (.inl h)) env' st bs h1 h2 trivial)
      { env with catches := some [] } ⟨st.pending, some []⟩ tail hp ⟨rfl, fun _ => ⟨rfl, rfl⟩⟩ (List.infix_refl _)
    rcases hr2 : restOfW ord ms ml code { env with catches := some [] } ⟨st.pending, some []⟩ tail with e | ⟨c, st', rest⟩
    · rw [hr2] at h; exact h
    · rw [hr2] at h
      exact ⟨List.IsSuffix.trans h.1 ⟨code, e4.symm⟩, h.2⟩
  rcases hr : Code.readInW ord { env with catches := some [] } ⟨st.pending, some []⟩ w with e | ⟨c, st', rest⟩
  · rw [hr] at key; exact key
  · rw [hr] at key
    exact ⟨key.1, rfl, key.2.2⟩

/-- Bad bodies imply `H`. -/
def WatchedW (I : Place) (H : Harm) : Prop := ∀ w, I.Holds N.code w → BadBodyW I.pool w → H

theorem tame_methodAttrW [Site I] (ord : Order) (hW : WatchedW I H) (hC : Fair I H CodeAttr.tableW)
    (hM : ∀ n, Fair I H (MethodAttr.tableW (ord n))) :
    Tame I H body (fun a p => p = openMethodAttr a) (MethodAttr.readW ord) := by
  intro env st bs hp hb hi
  unfold MethodAttr.readW
  refine tame_attrAt (I := I) (H := H) (body := body) (Q := fun a p => p = openMethodAttr a) ?_ (fun _ => rfl)
    (hM _) env st bs hp hb hi
  intro name r _
  revert r
  suffices ∀ r, MethodAttr.tableW (ord bs.length) name = some r → ∀ env st w, PoolFine H env.pool → InBody I body env st →
      I w → I.Holds name w → Post0 H (fun a p => p = openMethodAttr a) st (r env st w) from this
  have up : ∀ {r : Rd MethodAttr}, Tame I H body (fun a p => p = openMethodAttr a) r → ∀ env st w,
      PoolFine H env.pool → InBody I body env st → I w → I.Holds name w →
      Post0 H (fun a p => p = openMethodAttr a) st (r env st w) :=
    fun h env st w h1 h2 h3 _ => (h env st w h1 h2 h3).all
  unfold MethodAttr.tableW
  refine table_ite (fun he => ?_) ?_
  · subst he
    intro env st w hp hb hi hw
    have h := post_codeW (ord bs.length) (env := env) (st := st) (w := w) hp (fun h => hW w hw (hb.1 ▸ h))
      (hC.mono hb.1 fun _ h => Site.part h hi)
    unfold Rd.map Rd.bind
    rcases hr : Code.readW (ord bs.length) env st w with e | ⟨c, st', rest⟩
    · rw [hr] at h; exact h
    · rw [hr] at h; exact fun _ => h.2
  repeat' refine table_ite (fun _ => ?_) ?_
  all_goals (first
    | exact table_nil
    | exact up (tame_pure rfl)
    | exact up (tame_quiet mute_methodSigW fun _ => rfl)
    | exact up (tame_quiet (mute_vec mute_annotationW) fun _ => rfl)
    | exact up (tame_quiet (mute_vec (mute_typeAnnotationW mute_methodTarget)) fun _ => rfl)
    | exact up (tame_quiet (mute_vec (mute_vec mute_annotationW)) fun _ => rfl)
    | exact up (tame_quiet (mute_vec mute_str) fun _ => rfl)
    | exact up (tame_quiet mute_valueW fun _ => rfl)
    | exact up (tame_quiet (mute_vec mute_parameter) fun _ => rfl))

theorem tame_methodW [Site I] (ord : Order) (hW : WatchedW I H) (hC : Fair I H CodeAttr.tableW)
    (hM : ∀ n, Fair I H (MethodAttr.tableW (ord n))) :
    Tame I H body (fun m p => p = m.attrs.flatMap openMethodAttr) (Method.readW ord) := by
  refine tame_ap (Q1 := fun as p => p = as.flatMap openMethodAttr) ?_ (tame_flat (tame_methodAttrW ord hW hC hM))
  refine Tame.mono (tame_ap1 (P := fun g => ∀ as, (g as).attrs = as)
    (tame_ap1 (tame_map1 mute_flags fun _ _ _ _ => rfl) mute_utf8) mute_typeW) ?_
  rintro g p ⟨rfl, hg⟩ as q rfl
  rw [hg]
  rfl

theorem tame_classW [Site I] (ord : Order) (v : Version) (hW : WatchedW I H) (hC : Fair I H CodeAttr.tableW)
    (hM : ∀ n, Fair I H (MethodAttr.tableW (ord n))) (hA : Fair I H ClassAttr.tableW) (hD : Fair I H FieldAttr.tableW) :
    Tame I H body (fun x p => p = openClass x) (Class.readBodyW ord v) := by
  refine tame_ap (Q1 := fun as p => p = as.flatMap openClassAttr) ?_ (tame_flat (tame_classAttrW hA))
  refine tame_ap (Q1 := fun ms p => p = ms.flatMap fun m => m.attrs.flatMap openMethodAttr) ?_
    (tame_flat (tame_methodW ord hW hC hM))
  refine Tame.mono (tame_ap1 (P := fun g => ∀ ms as, (g ms as).methods = ms ∧ (g ms as).attrs = as)
    (tame_ap1 (tame_ap1 (tame_ap1 (tame_map1 mute_flags fun _ _ _ _ _ _ _ => ⟨rfl, rfl⟩) mute_str) mute_clsOpt)
      (mute_vec mute_str)) (mute_vec (mute_fieldW hD))) ?_
  rintro g p ⟨rfl, hg⟩ ms q rfl as r rfl
  obtain ⟨h1, h2⟩ := hg ms as
  unfold openClass
  rw [h1, h2]
  rfl

theorem loop_okW {input : Bytes} {count : UInt16} : ∀ (fuel : Nat) {i : UInt16} {acc : List (UInt16 × Entry)} {bs : Bytes},
    bs.length < fuel → bs <:+: input → Origin input acc →
    match MapCp.readLoopW count fuel i acc bs with
    | .error e => Calm False e
    | .ok (m, rest) => rest <:+ bs ∧ Origin input m.entries
  | 0, _, _, _, h, _, _ => by omega
  | fuel + 1, i, acc, bs, hf, hb, ho => by
    rw [MapCp.readLoopW]
    by_cases hc : i < count
    · rw [if_pos hc]
      have h1 := entry_ok bs
      rcases hr : Entry.read bs with e | ⟨e, rest⟩
      · rw [hr] at h1; exact Calm.of_false h1
      · rw [hr] at h1
        obtain ⟨h2, h3⟩ := h1
        simp only
        have h4 := loop_okW (count := count) fuel (i := i + e.size) (acc := (i, e) :: acc) (bs := rest)
          (by have := entry_shorter hr; omega) (List.IsInfix.trans h2.isInfix hb) (by
              intro j s hm
              rcases List.mem_cons.mp hm with hm | hm
              · cases hm
                obtain ⟨buf, h5, h6⟩ := h3 s rfl
                exact ⟨buf, h5.trans hb, h6⟩
              · exact ho j s hm)
        rcases hr2 : MapCp.readLoopW count fuel (i + e.size) ((i, e) :: acc) rest with e' | ⟨m, rest'⟩
        · rw [hr2] at h4; exact h4
        · rw [hr2] at h4; exact ⟨List.IsSuffix.trans h4.1 h2, h4.2⟩
    · rw [if_neg hc]
      exact ⟨List.suffix_refl _, ho⟩

theorem read_poolW {input bs : Bytes} (hb : bs <:+: input) :
    match MapCp.readW bs with
    | .error e => Calm False e
    | .ok (m, rest) => rest <:+ bs ∧ Origin input m.entries := by
  unfold MapCp.readW Reader.bind
  have h1 := plain_num u16 bs
  rcases hr : u16.read bs with e | ⟨n, bs1⟩
  · rw [hr] at h1; exact Calm.of_false h1
  rw [hr] at h1
  have h1 : bs1 <:+ bs := h1
  simp only
  have h2 := loop_okW (input := input) (count := n) (bs1.length + 1) (i := 1) (acc := []) (bs := bs1) (Nat.lt_succ_self _)
    (List.IsInfix.trans h1.isInfix hb) (fun _ _ h => nomatch h)
  rcases hr2 : MapCp.readLoopW n (bs1.length + 1) 1 [] bs1 with e | ⟨m, rest⟩
  · rw [hr2] at h2; exact h2
  · rw [hr2] at h2
    exact ⟨List.IsSuffix.trans h2.1 h1, h2.2⟩

theorem pool_fineW {input : Bytes} {p : Prop} {l : UInt32 → UInt32 → Bytes → Prop} {m : MapCp}
    (h : Origin input m.entries) : PoolFine ⟨p, l, True⟩ m.get := by
  intro i s hi
  obtain ⟨buf, _, hd⟩ := h i s (lookup_mem hi)
  exact ⟨(Mutf8.decode_loose hd).1, fun _ => trivial⟩

/-- Behind its pool the class file holds an attribute whose payload is longer than its content. -/
def LeftoverW (ord : Order) (input : Bytes) (claimed used : UInt32) (name : Bytes) : Prop :=
  ∃ cp rest i w left, MapCp.readW (input.drop 8) = .ok (cp, rest) ∧ IsUtf8 cp.get i name ∧
    U2 i.toNat ++ (U4 w.length ++ w) <:+: rest ∧ w.length < 4294967296 ∧ left ≠ [] ∧
    claimed = UInt32.ofNat w.length ∧ used = UInt32.ofNat w.length - UInt32.ofNat left.length ∧
    (Leaves ClassAttr.tableW cp.get name w left ∨ Leaves FieldAttr.tableW cp.get name w left ∨
      (∃ n, Leaves (MethodAttr.tableW (ord n)) cp.get name w left) ∨ Leaves CodeAttr.tableW cp.get name w left)

theorem fair_ofW {α : Type} {ord : Order} {input : Bytes} {H : Prop} {cp : MapCp} {rest : Bytes}
    (hcp : MapCp.readW (input.drop 8) = .ok (cp, rest)) {table : Bytes → Option (Rd α)}
    (h : ∀ {name w left}, Leaves table cp.get name w left →
      Leaves ClassAttr.tableW cp.get name w left ∨ Leaves FieldAttr.tableW cp.get name w left ∨
      (∃ n, Leaves (MethodAttr.tableW (ord n)) cp.get name w left) ∨ Leaves CodeAttr.tableW cp.get name w left) :
    Fair (behind cp rest) ⟨H, LeftoverW ord input, True⟩ table := by
  rintro name r ht ⟨P, cs⟩ st w a st' left rfl hr hn hl ⟨i, h1, h2⟩
  exact ⟨cp, rest, i, w, left, hcp, h1, h2, hl, hn, rfl, rfl, h ⟨r, cs, st, a, st', ht, hr⟩⟩

/-- Reading a class file. -/
theorem read_classW (ord : Order) (input : Bytes) :
    match Class.readW ord input with
    | .error e => Calm ⟨HazardW input, LeftoverW ord input, True⟩ e
    | .ok (x, rest) => rest <:+ input ∧ resolveCells (openClass x) x.attrs = .ok () := by
  unfold Class.readW
  have h1 := plain_num u32 input
  rcases hr : u32.read input with e | ⟨magic, bs1⟩
  · rw [hr] at h1; exact Calm.of_false h1
  rw [hr] at h1
  have h1 : bs1 <:+ input := h1
  simp only
  by_cases hm : magic = jvmMagic
  · rw [if_pos hm]
    have h2 := plain_version bs1
    rcases hr2 : Version.read bs1 with e | ⟨v, bs2⟩
    · rw [hr2] at h2; exact Calm.of_false h2
    rw [hr2] at h2
    have h2 : bs2 <:+ bs1 := h2
    have h12 := h2.trans h1
    simp only
    have h3 := read_poolW (input := input) (bs := bs2) h12.isInfix
    rcases hr3 : MapCp.readW bs2 with e | ⟨cp, bs3⟩
    · rw [hr3] at h3
      exact Calm.of_false h3
    rw [hr3] at h3
    have h13 := List.IsSuffix.trans h3.1 h12
    simp only
    have hd : input.drop 8 = bs2 := by
      obtain ⟨b1, e1, rfl⟩ := takes_num u32_lawful _ _ _ hr
      obtain ⟨b2, e2, hl⟩ := version_size hr2
      rw [e1, e2, ← List.append_assoc, List.drop_left' (by rw [List.length_append, hl]; rfl)]
    have hcp : MapCp.readW (input.drop 8) = .ok (cp, bs3) := by rw [hd, hr3]
    have h4 := tame_classW (I := behind cp bs3) (H := ⟨HazardW input, LeftoverW ord input, True⟩) (body := false) ord v
      (fun w ⟨i, hw1, hw2⟩ hbad => ⟨cp, bs3, i, w, by rw [hd, hr3], hw1, hw2, hbad⟩)
      (fair_ofW hcp fun h => .inr (.inr (.inr h))) (fun n => fair_ofW hcp fun h => .inr (.inr (.inl ⟨n, h⟩)))
      (fair_ofW hcp .inl) (fair_ofW hcp fun h => .inr (.inl h)) ⟨cp.get, none⟩
      ⟨[], none⟩ bs3 (pool_fineW h3.2) ⟨rfl, fun h => nomatch h⟩ (List.infix_refl _)
    rcases hr4 : Class.readBodyW ord v ⟨cp.get, none⟩ ⟨[], none⟩ bs3 with e | ⟨x, st, bs4⟩
    · rw [hr4] at h4; exact h4
    rw [hr4] at h4
    obtain ⟨h5, _, p, h6, h7⟩ := h4
    have h8 : st.pending = openClass x := by rw [h6, h7]; rfl
    simp only
    rw [h8]
    rcases hr5 : resolveCells (openClass x) x.attrs with e | ⟨⟩
    · exact Calm.of_false (resolve_calm hr5)
    · exact ⟨h5.trans h13, hr5⟩
  · rw [if_neg hm]; exact calm_invalid

end Verif
