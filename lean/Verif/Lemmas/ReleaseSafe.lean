import Verif.Lemmas.ReleaseSafeSig
import Verif.Lemmas.Release
import Verif.Spec.ReleaseInput

/-! Instructions and attributes of unknown origin in a build without overflow checks. -/

namespace Verif
open Spec Sig

variable {α β γ δ : Type} {I : Place} {H : Harm} {body : Bool}

theorem parseTypeW_err {s : Bytes} {cs : List Nat} (h : LooseEnc cs s) {e : Err} (hp : JType.parseTypeW s = .error e) :
    e = .invalid := by
  rw [JType.parseTypeW, Wtf8.codepoints_loose h] at hp
  simp only at hp
  rcases JType.getTypeW_total (2 * cs.length + 2) cs (by omega) with h1 | ⟨t, rest, h1, _⟩
  · rw [h1] at hp; cases hp; rfl
  · rw [h1] at hp; cases hp

theorem parseType_arrayW {s : Bytes} {cs : List Nat} (h : LooseEnc cs s) (hh : s.head? = some 0x5B) {t : JType}
    (hp : JType.parseTypeW s = .ok t) : ∃ d u, t = .array d u := by
  obtain ⟨cs', rfl⟩ : ∃ cs', cs = 0x5B :: cs' := by
    cases h with
    | nil => cases hh
    | @cons c u cs bs hu _ =>
      have h1 := Wtf8.LooseUnit_next hu bs
      cases hub : u ++ bs with
      | nil => rw [hub] at hh; cases hh
      | cons b r =>
        rw [hub] at hh h1
        cases hh
        have h2 := Wtf8.nextCodePoint_gutf8 0x5B (by decide) r
        rw [show gutf8 0x5B ++ r = 0x5B :: r from rfl, h1] at h2
        cases h2
        exact ⟨cs, rfl⟩
  rw [JType.parseTypeW, Wtf8.codepoints_loose h] at hp
  simp only at hp
  rw [JType.getTypeW] at hp
  simp only [show ¬(0x5B : Nat) = 0x42 by decide, show ¬(0x5B : Nat) = 0x43 by decide, show ¬(0x5B : Nat) = 0x44 by decide,
    show ¬(0x5B : Nat) = 0x46 by decide, show ¬(0x5B : Nat) = 0x49 by decide, show ¬(0x5B : Nat) = 0x4A by decide,
    show ¬(0x5B : Nat) = 0x5A by decide, show ¬(0x5B : Nat) = 0x53 by decide, show ¬(0x5B : Nat) = 0x4C by decide,
    if_false, if_true] at hp
  rcases hg : JType.getTypeW (2 * (0x5B :: cs').length + 1) (JType.countBrackets cs').2 with e | ⟨u, rest⟩
  · rw [hg] at hp; cases hp
  · rw [hg] at hp; cases hp; exact ⟨_, _, rfl⟩

theorem parse_calmW {s : Bytes} (hs : FineStr H s) {e : Err} (h : JType.parseTypeW s = .error e) : Calm H e := by
  obtain ⟨cs, hl⟩ := hs.loose
  rw [parseTypeW_err hl h]
  exact calm_invalid

theorem mute_typeW [Site I] : Mute I H body rTypeW :=
  tame_bind tame_utf8 fun s p hs => by
    rw [hs.1]
    exact mute_ofRes fun e he => parse_calmW hs.2 he

theorem nat_calmW {P : Pool} (hP : PoolFine H P) {i : UInt16} {e : Err} (h : Pool.nameAndTypeW P i = .error e) :
    Calm H e := by
  unfold Pool.nameAndTypeW at h
  split at h
  · split at h
    · split at h
      · rename_i s hs
        split at h
        · cases h
        · cases h
        · rename_i e' he
          cases h
          exact okOrNone_calm he fun e he => parse_calmW (wtf8_fine hP hs) he
      · cases h
    · cases h
  · cases h

theorem memberParts_calmW {P : Pool} (hP : PoolFine H P) {b : Bool} {o nt : UInt16} {e : Err}
    (h : Pool.memberPartsW P b o nt = .error e) : Calm H e := by
  unfold Pool.memberPartsW at h
  split at h
  · split at h
    · cases h
    · cases h
    · rename_i he; cases h; exact nat_calmW hP he
  · cases h

theorem member_calmW {P : Pool} (hP : PoolFine H P) {i : UInt16} {e : Err} (h : Pool.memberW P i = .error e) :
    Calm H e := by
  unfold Pool.memberW at h
  split at h
  · exact memberParts_calmW hP h
  · exact memberParts_calmW hP h
  · exact memberParts_calmW hP h
  · cases h

theorem handle_calmW {P : Pool} (hP : PoolFine H P) {i : UInt16} {e : Err} (h : Pool.methodHandleW P i = .error e) :
    Calm H e := by
  unfold Pool.methodHandleW at h
  split at h
  · split at h
    · split at h <;> cases h
    · cases h
    · rename_i he; cases h; exact member_calmW hP he
  · cases h

theorem constant_calmW {P : Pool} (hP : PoolFine H P) {i : UInt16} {e : Err} (h : Pool.constantW P i = .error e) :
    Calm H e := by
  unfold Pool.constantW at h
  split at h
  · cases h
  · cases h
  · cases h
  · cases h
  · cases h
  · cases h
  · split at h
    · rename_i s hs
      split at h
      · cases h
      · rename_i he
        cases h
        exact okOrNone_calm he fun e he => parse_calmW (wtf8_fine hP hs) he
    · cases h
  · split at h
    · split at h <;> cases h
    · rename_i he; cases h; exact member_calmW hP he
  · split at h
    · cases h
    · rename_i he; cases h; exact member_calmW hP he

theorem parts_calmW {P : Pool} (hP : PoolFine H P) {b nt : UInt16} {p : List UInt16} {e : Err}
    (h : Pool.dynamicPartsW P b nt p = .error e) : Calm H e := by
  unfold Pool.dynamicPartsW at h
  split at h
  · cases h
  · cases h
  · rename_i he; cases h; exact nat_calmW hP he

theorem parts_openW {P : Pool} {b nt : UInt16} {p q : List UInt16} {d : Option Dynamic}
    (h : Pool.dynamicPartsW P b nt p = .ok (d, q)) : (d = none ∧ q = p) ∨ ∃ x, d = some x ∧ q = p ++ openD x := by
  unfold Pool.dynamicPartsW at h
  split at h
  · cases h; exact .inr ⟨_, rfl, rfl⟩
  · cases h; exact .inl ⟨rfl, rfl⟩
  · cases h

theorem indy_calmW {P : Pool} (hP : PoolFine H P) {i : UInt16} {p : List UInt16} {e : Err}
    (h : Pool.invokeDynamicW P i p = .error e) : Calm H e := by
  unfold Pool.invokeDynamicW at h
  split at h
  · exact parts_calmW hP h
  · cases h

theorem indy_openW {P : Pool} {i : UInt16} {p q : List UInt16} {x : Dynamic}
    (h : Pool.invokeDynamicW P i p = .ok (some x, q)) : q = p ++ openD x := by
  unfold Pool.invokeDynamicW at h
  split at h
  · rcases parts_openW h with ⟨h1, _⟩ | ⟨y, h1, h2⟩
    · cases h1
    · cases h1; exact h2
  · cases h

theorem dynamic_calmW {P : Pool} (hP : PoolFine H P) {i : UInt16} {p : List UInt16} {e : Err}
    (h : Pool.dynamicW P i p = .error e) : Calm H e := by
  unfold Pool.dynamicW at h
  split at h
  · exact parts_calmW hP h
  · cases h

theorem dynamic_openW {P : Pool} {i : UInt16} {p q : List UInt16} {d : Option Dynamic}
    (h : Pool.dynamicW P i p = .ok (d, q)) : (d = none ∧ q = p) ∨ ∃ x, d = some x ∧ q = p ++ openD x := by
  unfold Pool.dynamicW at h
  split at h
  · exact parts_openW h
  · cases h; exact .inl ⟨rfl, rfl⟩

theorem orDynamic_calmW {P : Pool} (hP : PoolFine H P) {f : UInt16 → Res (Option α)} {i : UInt16} {p : List UInt16}
    {e : Err} (hf : ∀ e, f i = .error e → Calm H e) (h : Pool.orDynamicW P f i p = .error e) : Calm H e := by
  unfold Pool.orDynamicW at h
  split at h
  · cases h
  · split at h
    · cases h
    · rename_i he; cases h; exact hf _ he
  · rename_i he; cases h; exact dynamic_calmW hP he

theorem orDynamic_openW {P : Pool} {f : UInt16 → Res (Option α)} {i : UInt16} {p q : List UInt16} {x : OrDynamic α}
    (h : Pool.orDynamicW P f i p = .ok (some x, q)) : q = p ++ openO x := by
  unfold Pool.orDynamicW at h
  split at h
  · rename_i hd
    cases h
    rcases dynamic_openW hd with ⟨h1, _⟩ | ⟨y, h1, h2⟩
    · cases h1
    · cases h1; exact h2
  · rename_i hd
    rcases dynamic_openW hd with ⟨_, h1⟩ | ⟨y, h1, _⟩
    · split at h
      · rename_i a ha
        cases a with
        | none => cases h
        | some a => cases h; rw [h1]; exact (List.append_nil _).symm
      · cases h
    · cases h1
  · cases h

theorem toNat_len {a b : Int32} (h : 0 ≤ (b - a + 1).toInt) : Targets a b (b - a + 1).toInt.toNat := by
  have h1 : (b - a + 1).toInt = (b.toInt - a.toInt + 1).bmod (2 ^ 32) := by
    rw [Int32.toInt_add, Int32.toInt_sub, Int32.toInt_one, Int.bmod_add_bmod]
  have h2 := (b - a + 1).toInt_lt
  refine ⟨by omega, ?_⟩
  rw [Int.toNat_of_nonneg h, h1, Int.bmod_def]
  have h3 := Int.emod_add_mul_ediv (b.toInt - a.toInt + 1) (2 ^ 32)
  split
  · exact ⟨-((b.toInt - a.toInt + 1) / 2 ^ 32), by omega⟩
  · exact ⟨-((b.toInt - a.toInt + 1) / 2 ^ 32) - 1, by omega⟩

theorem toNat_neg {a b : Int32} (h : ¬ 0 ≤ (b - a + 1).toInt) (n : Nat) : ¬ Targets a b n := by
  rintro ⟨hn, k, hk⟩
  have h1 : (b - a + 1).toInt = (b.toInt - a.toInt + 1).bmod (2 ^ 32) := by
    rw [Int32.toInt_add, Int32.toInt_sub, Int32.toInt_one, Int.bmod_add_bmod]
  rw [h1, Int.bmod_def] at h
  have h3 := Int.emod_add_mul_ediv (b.toInt - a.toInt + 1) (2 ^ 32)
  split at h <;> omega

/-- Outcomes of the bounds of a switch. -/
theorem read_tblW (bs : Bytes) :
    match TblSwitch.readW bs with
    | .error e => Calm (∃ (low high : Int32) (rest : Bytes), bs = i32.write low ++ (i32.write high ++ rest) ∧
          ∀ n, ¬ Targets low high n) e
    | .ok (t, rest) => Targets t.low t.high t.offsets.length ∧
        bs = S4 t.low.toInt ++ S4 t.high.toInt ++ (t.offsets.flatMap fun x => S4 x.toInt) ++ rest := by
  have h32 : Takes i32.read fun x b => b = S4 x.toInt :=
    (takes_num i32_lawful).mono (by rintro x b rfl; rw [i32_write'])
  unfold TblSwitch.readW Reader.bind
  have h1 := plain_num i32 bs
  rcases hr : i32.read bs with e | ⟨low, bs1⟩
  · rw [hr] at h1; exact Calm.of_false h1
  obtain ⟨b1, e1, rfl⟩ := takes_num i32_lawful _ _ _ hr
  simp only
  have h2 := plain_num i32 bs1
  rcases hr2 : i32.read bs1 with e | ⟨high, bs2⟩
  · rw [hr2] at h2; exact Calm.of_false h2
  obtain ⟨b2, e2, rfl⟩ := takes_num i32_lawful _ _ _ hr2
  simp only
  split
  · rename_i e he
    split at he
    · have h3 := plain_of1 (f := TblSwitch.mk low high)
        (plain_replicate (plain_num i32) (high - low + 1).toInt.toNat) bs2
      rw [he] at h3
      exact Calm.of_false h3
    · rename_i hb
      cases he
      exact calm_panic ⟨low, high, bs2, by rw [e1, e2], toNat_neg hb⟩
  · rename_i x he
    split at he
    · rename_i hb
      obtain ⟨b, e, os, rfl, hl, rfl⟩ := ((Takes.replicate h32 _).of1 (f := TblSwitch.mk low high)) _ _ _ he
      refine ⟨?_, ?_⟩
      · rw [hl]; exact toNat_len hb
      · rw [e1, e2, e, i32_write', i32_write']
        simp only [List.append_assoc]
    · cases he

/-- Outcomes of a raw instruction whose first byte is given. -/
theorem read_rawW (o : UInt8) (xs : Bytes) :
    match RInsn.readW (o :: xs) with
    | .error e => Calm (o = 0xAA ∧ ∃ (dflt : Bytes) (low high : Int32) (rest : Bytes),
        xs = dflt ++ (i32.write low ++ (i32.write high ++ rest)) ∧ dflt.length = 4 ∧ ∀ n, ¬ Targets low high n) e
    | .ok (r, rest) => RawOkW r ∧ o :: xs = U1 (rawOp r).code ++ rawArgs r ++ rest := by
  have h32 : Takes i32.read fun x b => b = S4 x.toInt :=
    (takes_num i32_lawful).mono (by rintro x b rfl; rw [i32_write'])
  rw [RInsn.readW]
  by_cases ho : o = opc.TABLESWITCH
  · rw [if_pos ho]
    subst ho
    unfold Reader.of2 Reader.bind
    have h1 := plain_num i32 xs
    rcases hr : i32.read xs with e | ⟨d, bs1⟩
    · rw [hr] at h1; exact Calm.of_false h1
    obtain ⟨b1, e1, rfl⟩ := h32 _ _ _ hr
    simp only
    unfold Reader.of1 Reader.bind
    have h2 := read_tblW bs1
    rcases hr2 : TblSwitch.readW bs1 with e | ⟨t, bs2⟩
    · rw [hr2] at h2
      refine ⟨h2.1, h2.2.1, fun he => ⟨by trivial, ?_⟩⟩
      obtain ⟨low, high, rest, e2, hb⟩ := h2.2.2 he
      exact ⟨_, low, high, rest, by rw [e1, e2], rfl, hb⟩
    · rw [hr2] at h2
      refine ⟨h2.1, ?_⟩
      rw [e1, h2.2]
      show _ = U1 0xAA ++ rawArgs (.TableSwitch d t) ++ bs2
      simp only [rawArgs, List.append_assoc]
      rfl
  · rw [if_neg ho]
    have h := read_raw o xs
    rcases hr : RInsn.read (o :: xs) with e | ⟨r, rest⟩
    · rw [hr] at h
      exact h.mono fun _ hp => absurd hp.1 ho
    · obtain ⟨b, e, hok, rfl⟩ := takes_raw _ _ _ hr
      refine ⟨?_, e⟩
      cases r with
      | TableSwitch d t =>
        refine absurd ?_ ho
        exact (List.cons.inj e).1
      | _ => exact hok

theorem tame_orDynW {f : Pool → UInt16 → Res (Option α)} {i : UInt16} {body : Bool}
    (h : ∀ P e, PoolFine H P → f P i = .error e → Calm H e) :
    Tame I H body (fun x p => p = openO x) (rOrDynW f i) :=
  tame_lookupD (fun P p e hP he => orDynamic_calmW hP (fun e he => h P e hP he) he)
    fun P p a q _ he => ⟨_, orDynamic_openW he, rfl⟩

theorem tame_memberW {i : UInt16} {body : Bool} : Tame I H body (fun x p => p = openO x) (rMemberW i) :=
  tame_orDynW fun _ _ hP he => member_calmW hP he

theorem orDynamic_staticW {P : Pool} {f : UInt16 → Res (Option α)} {i : UInt16} {p q : List UInt16} {x : α}
    (h : Pool.orDynamicW P f i p = .ok (some (.static x), q)) : f i = .ok (some x) := by
  unfold Pool.orDynamicW at h
  split at h
  · cases h
  · split at h
    · rename_i a ha
      cases a with
      | none => cases h
      | some a => cases h; exact ha
    · cases h
  · cases h

theorem tame_classOrW {i : UInt16} {body : Bool} :
    Tame I H body (fun x p => p = openO x ∧ ∀ s, x = .static s → FineStr H s) (rClassOrW i) :=
  tame_lookupD (f := fun P i p => Pool.orDynamicW P (fun i => .ok (Pool.cls P i)) i p)
    (fun P p e hP he => orDynamic_calmW hP (fun _ h => by cases h) he)
    fun P p a q hP he => ⟨openO a, orDynamic_openW he, rfl, fun s hs => by
      subst hs
      exact indirect_fine hP (Except.ok.inj (orDynamic_staticW he))⟩

theorem arrayElem_calmW {c : Bytes} (hc : FineStr H c) {e : Err} (h : arrayElemW c = .error e) : Calm H e := by
  unfold arrayElemW at h
  split at h
  · cases h
  · cases h
  · rename_i he
    cases h
    exact okOrNone_calm he fun e he => parse_calmW hc he

theorem toClassType_calmW {c : Bytes} (hc : FineStr H c) {e : Err} (h : toClassTypeW c = .error e) : Calm H e := by
  unfold toClassTypeW at h
  split at h
  · rename_i h0
    split at h
    · cases h
    · rename_i t hn ht
      obtain ⟨cs, hl⟩ := hc.loose
      obtain ⟨d, t', rfl⟩ := parseType_arrayW hl h0 ht
      exact (hn d t' rfl).elim
    · rename_i he
      cases h
      exact parse_calmW hc he
  · cases h

theorem tame_newArrayW [Site I] {i : UInt16} {d : UInt8} {body : Bool} :
    Tame I H body (fun x p => p = openI x) (rNewArrayW i d) := by
  refine tame_bind tame_classOrW fun c p hc => ?_
  obtain ⟨rfl, hs⟩ := hc
  cases c with
  | dynamic d => exact tame_pure (List.append_nil _)
  | static c => exact tame_map (mute_ofRes fun e he => arrayElem_calmW (hs c rfl) he)

theorem tame_classTypeW [Site I] {i : UInt16} {body : Bool} :
    Tame I H body (fun x p => p = openO x) (rClassTypeW i) := by
  refine tame_bind tame_classOrW fun c p hc => ?_
  obtain ⟨rfl, hs⟩ := hc
  cases c with
  | dynamic d => exact tame_pure (List.append_nil _)
  | static c => exact tame_map (mute_ofRes fun e he => toClassType_calmW (hs c rfl) he)

theorem tame_convertW [Site I] (p : Nat) (r : RInsn) : Tame I H true (fun i q => q = openI i) (convertW p r) := by
  have pu : ∀ {i : Insn}, openI i = [] → Tame I H true (fun i q => q = openI i) (Rd.pure i) :=
    fun h => tame_pure h.symm
  have br : ∀ {f : Label → Insn} {o : Int}, (∀ l, openI (f l) = []) →
      Tame I H true (fun i q => q = openI i) (Rd.map f (lbl p o)) :=
    fun h => tame_map (mute_lbl.mono fun a q hq => by rw [hq, h])
  have mb : ∀ {f : OrDynamic MemberRef → Insn} {o : UInt16}, (∀ l, openI (f l) = openO l) →
      Tame I H true (fun i q => q = openI i) (Rd.map f (rMemberW o)) :=
    fun h => tame_map (tame_memberW.mono fun a q hq => by rw [hq, h])
  have ct : ∀ {f : OrDynamic ClassType → Insn} {o : UInt16}, (∀ l, openI (f l) = openO l) →
      Tame I H true (fun i q => q = openI i) (Rd.map f (rClassTypeW o)) :=
    fun h => tame_map (tame_classTypeW.mono fun a q hq => by rw [hq, h])
  have ps : ∀ {o : UInt16}, Tame I H true (fun i q => q = openI i) (rPushW o) :=
    tame_map ((mute_lookupR fun P e hP he => constant_calmW hP he).mono fun a q hq => hq)
  cases r with
  | TableSwitch d t =>
    refine tame_bind mute_lbl fun _ q hq => ?_
    subst hq
    exact tame_map (mute_lbls _)
  | LookupSwitch d es =>
    refine tame_bind mute_lbl fun _ q hq => ?_
    subst hq
    exact tame_map (mute_lblEntries _)
  | Wide w => cases w <;> exact pu rfl
  | NewArray n =>
    show Tame I H true _ (match newArrayType n with
      | some t => Rd.pure (Insn.newArray (.static t) 1)
      | none => Rd.fail .invalid)
    split
    · exact pu rfl
    · exact tame_fail calm_invalid
  | New n => exact tame_map (tame_classOrW.mono fun a q hq => hq.1)
  | InvokeDynamic d u =>
    exact tame_map (tame_lookupD (fun P p e hP he => indy_calmW hP he) fun P p a q _ he => ⟨_, indy_openW he, rfl⟩)
  | _ =>
    first
    | exact pu rfl
    | exact br fun _ => rfl
    | exact mb fun _ => rfl
    | exact ct fun _ => rfl
    | exact ps
    | exact tame_newArrayW

theorem Snd.orDynW {α : Type} {env : REnv} (f : Pool → UInt16 → Res (Option α)) (i : UInt16) :
    Snd env (rOrDynW f i) fun _ b _ => b = [] := Snd.lookupD

theorem Snd.convertW {env : REnv} (p : Nat) (r : RInsn) : Snd env (convertW p r) fun _ b _ => b = [] := by
  have quiet : ∀ {α : Type} {x : Rd α} {f : α → Insn}, Snd env x (fun _ b _ => b = []) →
      Snd env (Rd.map f x) fun _ b _ => b = [] := by
    intro α x f h
    refine (Snd.map h).mono ?_
    rintro m b y ⟨a, rfl, rfl⟩
    rfl
  have ct : ∀ i, Snd env (rClassTypeW i) fun _ b _ => b = [] := by
    intro i
    refine Snd.mono (Snd.bind (x := rClassOrW i) (Q := fun _ _ b _ => b = []) (Snd.orDynW _ i) fun c => ?_) ?_
    · split
      · exact (Snd.pure _).mono fun _ _ _ h => h.1
      · exact (Snd.map Snd.ofRes).mono fun _ _ _ ⟨_, h, _⟩ => h
    · rintro m b x ⟨a, b1, b2, rfl, rfl, rfl⟩
      rfl
  have na : ∀ i d, Snd env (rNewArrayW i d) fun _ b _ => b = [] := by
    intro i d
    refine Snd.mono (Snd.bind (x := rClassOrW i) (Q := fun _ _ b _ => b = []) (Snd.orDynW _ i) fun c => ?_) ?_
    · split
      · exact (Snd.pure _).mono fun _ _ _ h => h.1
      · exact quiet Snd.ofRes
    · rintro m b x ⟨a, b1, b2, rfl, rfl, rfl⟩
      rfl
  have hc := (Snd.convert (env := env) p r).mono (Q' := fun _ b _ => b = []) fun _ _ _ h => h.1
  cases r
  all_goals first
    | exact hc
    | exact quiet Snd.lookupR
    | exact quiet (Snd.orDynW _ _)
    | exact quiet Snd.lookupD
    | exact na _ _
    | exact quiet (ct _)

theorem rInsn_soundW {env : REnv} {p : Nat} {st st' : RSt} {bs rest : Bytes} {i : Insn}
    (h : rInsnW p env st bs = .ok (i, st', rest)) (hl : st.labels.isSome) :
    ∃ r b, bs = b ++ rest ∧ RawAtW p r b := by
  obtain ⟨ls, hl⟩ := Option.isSome_iff_exists.mp hl
  have key : ∀ {o tl}, Rd.bind (Rd.lift RInsn.readW) (convertW p) env st (o :: tl) = .ok (i, st', rest) →
      ∃ r, RawOkW r ∧ o :: tl = U1 (rawOp r).code ++ rawArgs r ++ rest := by
    intro o tl h
    obtain ⟨r, st1, bs1, h1, h2⟩ := Rd.bind_ok h
    unfold Rd.lift at h1
    split at h1
    · rename_i r' bs' hr
      cases h1
      have h3 := read_rawW o tl
      rw [hr] at h3
      obtain ⟨b2, offs, rfl, _, h4⟩ := Snd.convertW p r _ _ _ _ _ h2 ls hl
      rw [h4 _ (List.prefix_refl _)] at h3
      exact ⟨r, h3⟩
    · cases h1
  unfold rInsnW at h
  split at h
  · cases h
  rename_i o tl
  split at h
  · rename_i ho
    obtain ⟨r, h1, h2⟩ := key h
    rw [show U1 (rawOp r).code = [UInt8.ofNat (rawOp r).code] from rfl, List.append_assoc, List.singleton_append,
      List.cons.injEq] at h2
    obtain ⟨rfl, h2⟩ := h2
    have hs := switch_op ho
    have hne := switch_args hs
    have hd : 4 - p % 4 = 3 - p % 4 + 1 := by omega
    rw [hd, List.drop_succ_cons] at h2
    have hlen : 3 - p % 4 < tl.length := by
      refine Classical.byContradiction fun hc => ?_
      rw [List.drop_eq_nil_of_le (by omega)] at h2
      exact hne (List.append_eq_nil_iff.mp h2.symm).1
    refine ⟨r, U1 (rawOp r).code ++ tl.take (3 - p % 4) ++ rawArgs r, ?_, h1, tl.take (3 - p % 4), rfl, ?_⟩
    · rw [List.append_assoc, List.append_assoc, ← h2, List.take_append_drop]
      rfl
    · rw [if_pos hs, List.length_take]
      omega
  · rename_i ho
    obtain ⟨r, h1, h2⟩ := key h
    refine ⟨r, U1 (rawOp r).code ++ [] ++ rawArgs r, ?_, h1, [], rfl, ?_⟩
    · rw [h2, List.append_nil]
    · rw [if_neg]
      intro hs
      have : o = UInt8.ofNat (rawOp r).code := (List.cons.inj h2).1
      refine ho ?_
      rw [this]
      rcases hs with hs | hs <;> rw [hs]
      · exact .inl (by decide)
      · exact .inr (by decide)

theorem rawAt_posW {p : Nat} {r : RInsn} {b : Bytes} (h : RawAtW p r b) : 0 < b.length := by
  obtain ⟨_, pad, rfl, _⟩ := h
  simp [U1]

theorem tame_insnW [Site I] (pos : Nat) {env : REnv} {st : RSt} {o : UInt8} {tl : Bytes} (hp : PoolFine H env.pool)
    (hb : InBody I true env st) (hi : I (o :: tl)) (hsw : BadSwitchW pos (o :: tl) → H) :
    Post H (fun i p => p = openI i) st (o :: tl) (rInsnW pos env st (o :: tl)) := by
  have key : ∀ pad xs, tl = pad ++ xs → (o = 0xAA → 12 ≤ xs.length → pad.length = 3 - pos % 4) →
      Post H (fun i p => p = openI i) st (o :: tl) (Rd.bind (Rd.lift RInsn.readW) (convertW pos) env st (o :: xs)) := by
    intro pad xs he hpad
    have hs : xs <:+ o :: tl := ⟨o :: pad, by rw [he]; rfl⟩
    have h1 := read_rawW o xs
    unfold Rd.bind Rd.lift
    rcases hr : RInsn.readW (o :: xs) with e | ⟨r, rest⟩
    · rw [hr] at h1
      refine h1.mono fun _ ⟨ho, d, low, high, rest, e1, h2, h3⟩ => ?_
      subst ho
      refine hsw ⟨pad, d, low, high, rest, by rw [he, e1], hpad rfl ?_, h2, h3⟩
      rw [e1, List.length_append, List.length_append, List.length_append, h2]
      simp [NumCodec.write, toBe_length, i32]
      omega
    · rw [hr] at h1
      have h1 : rest <:+ xs := by
        have e1 := h1.2
        rw [show U1 (rawOp r).code = [UInt8.ofNat (rawOp r).code] from rfl, List.append_assoc, List.singleton_append,
          List.cons.injEq] at e1
        exact ⟨_, e1.2.symm⟩
      have h2 := tame_convertW pos r env st rest hp hb (Site.part (h1.trans hs).isInfix hi)
      simp only
      rcases hr2 : convertW pos r env st rest with e | ⟨i, st', rest'⟩
      · rw [hr2] at h2; exact h2
      · rw [hr2] at h2
        obtain ⟨a, b, c⟩ := h2
        exact ⟨(a.trans h1).trans hs, b, c⟩
  unfold rInsnW
  simp only
  split
  · rw [show 4 - pos % 4 = 3 - pos % 4 + 1 by omega, List.drop_succ_cons]
    refine key (tl.take (3 - pos % 4)) _ (List.take_append_drop _ _).symm fun _ h => ?_
    rw [List.length_drop] at h
    rw [List.length_take]
    omega
  · rename_i hno
    exact key [] tl rfl fun h => absurd (.inl h) hno

theorem tame_loopW [Site I] {len : Nat} {env : REnv} (hp : PoolFine H env.pool) : ∀ (n : Nat) {st : RSt} {bs : Bytes},
    bs.length = n → n ≤ len → InBody I true env st → I bs →
    (∀ pre suf rs, bs = pre ++ suf → DecodesW (len - n) pre rs → BadSwitchW (len - n + pre.length) suf → H) →
    match readLoopW len env st bs with
    | .error e => Calm H e
    | .ok (is, st') => st'.labels.isSome = st.labels.isSome ∧
        st'.pending = st.pending ++ (is.flatMap fun i => openI i.2) ∧
        ∃ rs, DecodesW (len - n) bs rs ∧ is.map Prod.fst = rs.map Prod.fst := by
  intro n
  induction n using Nat.strongRecOn with
  | _ n ih =>
    intro st bs hn hle hb hi hsw
    rw [readLoopW]
    cases bs with
    | nil => exact ⟨rfl, (List.append_nil _).symm, [], .nil, rfl⟩
    | cons o tl =>
      rw [if_neg (by simp), hn]
      have h1 := tame_insnW (len - n) hp hb hi (fun h => hsw [] _ [] rfl .nil h)
      rcases hr : rInsnW (len - n) env st (o :: tl) with e | ⟨i, st', rest⟩
      · rw [hr] at h1; exact h1
      rw [hr] at h1
      obtain ⟨a, b, p, c, d⟩ := h1
      obtain ⟨r, b', e, hraw⟩ := rInsn_soundW hr (hb.2 rfl).1
      have hlt : rest.length < n := by
        have := rawAt_posW hraw
        rw [← hn, e, List.length_append]
        omega
      have hl : b'.length + rest.length = n := by rw [← hn, e, List.length_append]
      simp only
      rw [if_pos hlt]
      have hpos : len - rest.length = len - n + b'.length := by omega
      have h2 := ih rest.length hlt (st := st') rfl (by omega) ⟨hb.1, fun h => by rw [b]; exact hb.2 h⟩
        (Site.part a.isInfix hi) (by
          intro pre suf rs he hd hs
          refine hsw (b' ++ pre) suf ((len - n, r) :: rs) (by rw [e, he, List.append_assoc]) (.cons hraw ?_) ?_
          · rw [← hpos]; exact hd
          · rw [List.length_append, ← Nat.add_assoc, ← hpos]; exact hs)
      rcases hr2 : readLoopW len env st' rest with e | ⟨is, st''⟩
      · rw [hr2] at h2; exact h2
      · rw [hr2] at h2
        obtain ⟨k1, k2, rs, k3, k4⟩ := h2
        refine ⟨k1.trans b, ?_, (len - n, r) :: rs, ?_, ?_⟩
        · rw [k2, c, d, List.append_assoc]
          rfl
        · rw [e]
          exact .cons hraw (hpos ▸ k3)
        · rw [List.map_cons, List.map_cons, k4]

theorem mute_sigW [Site I] {parse : Str → Res α} (h : ∀ s e, parse s = .error e → e = .invalid) :
    Mute I H body (rSig parse) :=
  tame_bind tame_utf8 fun s p hs => by
    obtain ⟨rfl, hf⟩ := hs
    obtain ⟨cs, hl⟩ := hf.loose
    rw [Wtf8.lossy_codepoints hl]
    refine mute_ofRes fun e he => ?_
    rw [h _ _ he]
    exact calm_invalid

theorem mute_classSigW [Site I] : Mute I H body (rSig parseClassW) := mute_sigW fun _ _ h => parseClassW_err h

theorem mute_methodSigW [Site I] : Mute I H body (rSig parseMethodW) := mute_sigW fun _ _ h => parseMethodW_err h

theorem mute_refSigW [Site I] : Mute I H body (rSig parseRefW) := mute_sigW fun _ _ h => parseRefW_err h

theorem mute_constW [Site I] : Mute I H body rConstW := mute_idxR fun _ _ _ hP h => constant_calmW hP h

theorem mute_natOptW [Site I] : Mute I H body rNatOptW :=
  mute_opt fun _ => mute_lookupR fun _ _ hP h => nat_calmW hP h

theorem tame_argW [Site I] : Tame I H body (fun a p => p = openArg a) rArgW := by
  refine tame_bind (mute_num _) fun i p hp => ?_
  subst hp
  refine tame_map ?_
  refine (tame_orDynW (f := Pool.constantW) fun P e hP he => constant_calmW hP he).mono ?_
  rintro x p rfl
  cases x with
  | static c => rfl
  | dynamic d =>
    obtain ⟨c, n, t⟩ := d
    cases c <;> rfl

theorem tame_bsmW [Site I] : Tame I H body (fun b p => p = openBsm b) Bsm.readW := by
  refine tame_ap (Q1 := fun as p => p = as.flatMap openArg) ?_ (tame_flat tame_argW)
  refine tame_map ?_
  refine Tame.mono (mute_idxR fun _ _ _ hP h => handle_calmW hP h) ?_
  rintro h p rfl as q rfl
  rfl

theorem mute_classTextW [Site I] : Mute I H body rClassTextW :=
  tame_bind tame_utf8 fun s p hs => by
    obtain ⟨rfl, hf⟩ := hs
    split
    · exact mute_pure
    · exact mute_map (mute_ofRes fun e he => parse_calmW hf he)

theorem mute_valueFW [Site I] : ∀ n, Mute (Short I n) H body (AnnValue.readFW n)
  | 0 => fun _ _ _ _ _ hi => absurd hi.2 (Nat.not_lt_zero _)
  | n + 1 => mute_step fun t => by
    have ih : Mute (Short I n) H body (AnnValue.readFW n) := mute_valueFW n
    repeat' refine mute_ite ?_ ?_
    all_goals first
      | exact mute_intIn
      | exact mute_map mute_idx
      | exact mute_map mute_utf8
      | exact mute_ap (mute_map mute_typeW) mute_utf8
      | exact mute_map mute_classTextW
      | exact mute_ap (mute_map mute_typeW) (mute_elemsWith ih)
      | exact mute_map (mute_vec ih)
      | exact mute_fail calm_invalid

theorem mute_valueW [Site I] : Mute I H body AnnValue.readW := fun env st bs hp hb hi =>
  mute_valueFW (I := I) (bs.length + 1) env st bs hp hb ⟨hi, Nat.lt_succ_self _⟩

theorem mute_elemsW [Site I] : Mute I H body Elems.readW := mute_elemsWith mute_valueW

theorem mute_annotationW [Site I] : Mute I H body Annotation.readW := mute_ap (mute_map mute_typeW) mute_elemsW

theorem mute_typeAnnotationW [Site I] {T : Type} {r : Rd T} (h : Mute I H body r) :
    Mute I H body (TypeAnnotation.readW r) :=
  mute_ap (mute_ap (mute_ap (mute_map h) (mute_vec mute_pathStep)) mute_typeW) mute_elemsW

theorem tame_classAttrW [Site I] (hF : Fair I H ClassAttr.tableW) : Tame I H body (fun a p => p = openClassAttr a) ClassAttr.readW := by
  refine tame_attr ?_ (fun _ => rfl) hF
  intro name r _
  revert r
  unfold ClassAttr.tableW
  repeat' refine table_ite (fun _ => ?_) ?_
  all_goals (first
    | exact table_nil
    | exact tame_pure rfl
    | exact tame_quiet mute_classSigW fun _ => rfl
    | exact tame_quiet mute_utf8 fun _ => rfl
    | exact tame_quiet (mute_vec mute_innerClass) fun _ => rfl
    | exact tame_quiet mute_debugExt fun _ => rfl
    | exact tame_map (tame_flat tame_bsmW)
    | exact tame_quiet mute_module fun _ => rfl
    | exact tame_quiet (mute_vec mute_str) fun _ => rfl
    | exact tame_quiet mute_str fun _ => rfl
    | exact tame_quiet (mute_vec mute_annotationW) fun _ => rfl
    | exact tame_quiet (mute_vec (mute_typeAnnotationW mute_classTarget)) fun _ => rfl
    | exact tame_ap (Q1 := fun _ p => p = []) (tame_map (mute_str.mono fun a p hp a' q hq => by rw [hp, hq]; rfl))
        mute_natOptW)

theorem mute_fieldAttrW [Site I] (hF : Fair I H FieldAttr.tableW) : Mute I H body FieldAttr.readW := by
  refine tame_attr ?_ (fun _ => rfl) hF
  intro name r _
  revert r
  unfold FieldAttr.tableW
  repeat' refine table_ite (fun _ => ?_) ?_
  all_goals (first
    | exact table_nil
    | exact mute_pure
    | exact mute_map mute_refSigW
    | exact mute_map mute_constW
    | exact mute_map (mute_vec mute_annotationW)
    | exact mute_map (mute_vec (mute_typeAnnotationW mute_fieldTarget)))

theorem mute_fieldW [Site I] (hF : Fair I H FieldAttr.tableW) : Mute I H body Field.readW :=
  mute_ap (mute_ap (mute_ap (mute_map mute_flags) mute_utf8) mute_typeW) (mute_vec (mute_fieldAttrW hF))

end Verif
