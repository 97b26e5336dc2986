import Verif.Lemmas.Tame
import Verif.Lemmas.SoundCode

/-! Instructions in input of unknown origin. -/

namespace Verif
open Spec

variable {α β γ δ : Type} {I : Place} {H : Harm}

theorem plain_of1 {f : α → β} {a : Reader α} (h : Plain a) : Plain (Reader.of1 f a) :=
  plain_bind h fun _ => plain_pure _

theorem plain_of2 {f : α → β → γ} {a : Reader α} {b : Reader β} (h : Plain a) (h' : Plain b) :
    Plain (Reader.of2 f a b) := plain_bind h fun _ => plain_of1 h'

theorem plain_of3 {f : α → β → γ → δ} {a : Reader α} {b : Reader β} {c : Reader γ} (h : Plain a) (h' : Plain b)
    (h'' : Plain c) : Plain (Reader.of3 f a b c) := plain_bind h fun _ => plain_of2 h' h''

theorem plain_readVec {ν : Type} {l : NumCodec ν} {r : Reader α} (h : Plain r) : Plain (readVec l r) :=
  plain_bind (plain_num l) fun _ => plain_replicate h _

theorem lookup_mem {ν : Type} [BEq ν] [LawfulBEq ν] {l : List (ν × α)} {k : ν} {a : α} (h : l.lookup k = some a) : (k, a) ∈ l := by
  induction l with
  | nil => cases h
  | cons x l ih =>
    obtain ⟨k', a'⟩ := x
    rw [List.lookup_cons] at h
    split at h
    · rename_i he
      cases h
      rw [eq_of_beq he]
      exact List.mem_cons_self
    · exact List.mem_cons_of_mem _ (ih h)

theorem plain_tagged {table : List (Nat × Reader α)} (h : ∀ p ∈ table, Plain p.2) : Plain (Reader.tagged table) := by
  refine plain_bind (plain_num u8) fun t => ?_
  split
  · rename_i r hr
    exact h _ (lookup_mem hr)
  · exact plain_fail calm_invalid

theorem plain_wide : Plain Wide.read := by
  refine plain_tagged ?_
  simp only [List.forall_mem_cons]
  refine ⟨?_, ?_, ?_, ?_, ?_, ?_, ?_, ?_, ?_, ?_, ?_, ?_, nofun⟩
  all_goals first | exact plain_of1 (plain_num _) | exact plain_of2 (plain_num _) (plain_num _)

theorem plain_entry : Plain SwitchEntry.read := plain_of2 (plain_num _) (plain_num _)

set_option maxRecDepth 2000 in
theorem table_plain : ∀ p ∈ RInsn.table, p.1 = 0xAA ∨ Plain p.2 := by
  unfold RInsn.table
  repeat
    refine List.forall_mem_cons.mpr ⟨by first
      | exact .inr (plain_pure _)
      | exact .inr (plain_of1 (plain_num _))
      | exact .inr (plain_of2 (plain_num _) (plain_num _))
      | exact .inr (plain_of3 (plain_num _) (plain_num _) (plain_num _))
      | exact .inr (plain_of1 plain_wide)
      | exact .inr (plain_of2 (plain_num _) (plain_readVec plain_entry))
      | exact .inl rfl, ?_⟩
  exact nofun

/-- Outcomes of the bounds of a switch. -/
theorem read_tbl (bs : Bytes) :
    match TblSwitch.read bs with
    | .error e => Calm (∃ (low high : Int32) (rest : Bytes), bs = i32.write low ++ (i32.write high ++ rest) ∧
          ¬ (0 ≤ high.toInt - low.toInt + 1 ∧ high.toInt - low.toInt + 1 < 2 ^ 31)) e
    | .ok (_, rest) => rest <:+ bs := by
  unfold TblSwitch.read Reader.bind
  have h1 := plain_num i32 bs
  rcases hr : i32.read bs with e | ⟨low, bs1⟩
  · rw [hr] at h1; exact Calm.of_false h1
  rw [hr] at h1
  obtain ⟨b1, e1, rfl⟩ := takes_num i32_lawful _ _ _ hr
  simp only
  have h2 := plain_num i32 bs1
  rcases hr2 : i32.read bs1 with e | ⟨high, bs2⟩
  · rw [hr2] at h2; exact Calm.of_false h2
  rw [hr2] at h2
  obtain ⟨b2, e2, rfl⟩ := takes_num i32_lawful _ _ _ hr2
  simp only at h1 h2 ⊢
  split
  · rename_i e he
    split at he
    · have h3 := plain_of1 (f := TblSwitch.mk low high)
        (plain_replicate (plain_num i32) (high.toInt - low.toInt + 1).toNat) bs2
      rw [he] at h3
      exact Calm.of_false h3
    · rename_i hb
      cases he
      exact calm_panic ⟨low, high, bs2, by rw [e1, e2], hb⟩
  · rename_i x he
    split at he
    · have h3 := plain_of1 (f := TblSwitch.mk low high)
        (plain_replicate (plain_num i32) (high.toInt - low.toInt + 1).toNat) bs2
      rw [he] at h3
      exact (List.IsSuffix.trans h3 h2).trans h1
    · cases he

/-- Outcomes of a raw instruction whose first byte is given. -/
theorem read_raw (o : UInt8) (xs : Bytes) :
    match RInsn.read (o :: xs) with
    | .error e => Calm (o = 0xAA ∧ ∃ (dflt : Bytes) (low high : Int32) (rest : Bytes),
        xs = dflt ++ (i32.write low ++ (i32.write high ++ rest)) ∧ dflt.length = 4 ∧
          ¬ (0 ≤ high.toInt - low.toInt + 1 ∧ high.toInt - low.toInt + 1 < 2 ^ 31)) e
    | .ok (_, rest) => rest <:+ xs := by
  have hu : u8.read (o :: xs) = .ok (o, xs) := by
    have := readsU1 o xs
    rwa [show U1 o.toNat = [o] by simp [U1], List.singleton_append] at this
  unfold RInsn.read Reader.tagged Reader.bind
  rw [hu]
  simp only
  rcases hl : RInsn.table.lookup o.toNat with _ | r
  · exact calm_invalid
  · simp only
    rcases table_plain _ (lookup_mem hl) with h | h
    · have ho : o = 0xAA := UInt8.toNat_inj.mp h
      subst ho
      have : RInsn.table.lookup (0xAA : UInt8).toNat = some (Reader.of2 .TableSwitch i32.read TblSwitch.read) := rfl
      rw [this] at hl
      cases hl
      unfold Reader.of2 Reader.bind
      have h1 := plain_num i32 xs
      rcases hr : i32.read xs with e | ⟨d, bs1⟩
      · rw [hr] at h1; exact Calm.of_false h1
      rw [hr] at h1
      obtain ⟨b1, e1, rfl⟩ := takes_num i32_lawful _ _ _ hr
      simp only at h1 ⊢
      unfold Reader.of1 Reader.bind
      have h2 := read_tbl bs1
      rcases hr2 : TblSwitch.read bs1 with e | ⟨t, bs2⟩
      · rw [hr2] at h2
        refine ⟨h2.1, h2.2.1, fun he => ⟨by first | rfl | trivial, ?_⟩⟩
        obtain ⟨low, high, rest, e2, hb⟩ := h2.2.2 he
        exact ⟨_, low, high, rest, by rw [e1, e2], by simp [NumCodec.write, toBe_length, i32], hb⟩
      · rw [hr2] at h2
        exact List.IsSuffix.trans h2 h1
    · have h : Plain r := h
      have := h xs
      rcases hr : r xs with e | ⟨x, rest⟩
      · rw [hr] at this; exact Calm.of_false this
      · rw [hr] at this; exact this

theorem mute_lbl [Site I] {p : Nat} {o : Int} : Mute I H true (lbl p o) := mute_getLabel

theorem mute_lbls [Site I] {p : Nat} : ∀ os, Mute I H true (lbls p os)
  | [] => mute_pure
  | _ :: os => mute_bind mute_lbl fun _ => mute_map (mute_lbls os)

theorem mute_lblEntries [Site I] {p : Nat} : ∀ os, Mute I H true (lblEntries p os)
  | [] => mute_pure
  | _ :: os => mute_bind mute_lbl fun _ => mute_map (mute_lblEntries os)

theorem tame_orDyn [Harsh H] {f : Pool → UInt16 → Res (Option α)} {i : UInt16} {body : Bool}
    (h : ∀ P e, PoolFine H P → f P i = .error e → Calm H e) :
    Tame I H body (fun x p => p = openO x) (rOrDyn f i) :=
  tame_lookupD (fun P p e hP he => orDynamic_calm hP (fun e he => h P e hP he) he)
    fun P p a q _ he => ⟨_, orDynamic_open he, rfl⟩

theorem tame_member [Harsh H] {i : UInt16} {body : Bool} : Tame I H body (fun x p => p = openO x) (rMember i) :=
  tame_orDyn fun _ _ hP he => member_calm hP he

theorem orDynamic_static {P : Pool} {f : UInt16 → Res (Option α)} {i : UInt16} {p q : List UInt16} {x : α}
    (h : Pool.orDynamic P f i p = .ok (some (.static x), q)) : f i = .ok (some x) := by
  unfold Pool.orDynamic at h
  split at h
  · cases h
  · split at h
    · rename_i a ha
      cases a with
      | none => cases h
      | some a => cases h; exact ha
    · cases h
  · cases h

theorem tame_classOr [Harsh H] {i : UInt16} {body : Bool} :
    Tame I H body (fun x p => p = openO x ∧ ∀ s, x = .static s → FineStr H s) (rClassOr i) :=
  tame_lookupD (f := fun P i p => Pool.orDynamic P (fun i => .ok (Pool.cls P i)) i p)
    (fun P p e hP he => orDynamic_calm hP (fun _ h => by cases h) he)
    fun P p a q hP he => ⟨openO a, orDynamic_open he, rfl, fun s hs => by
      subst hs
      exact indirect_fine hP (Except.ok.inj (orDynamic_static he))⟩

theorem arrayElem_calm [Harsh H] {c : Bytes} (hc : FineStr H c) {e : Err} (h : arrayElem c = .error e) : Calm H e := by
  unfold arrayElem at h
  split at h
  · cases h
  · cases h
  · rename_i he
    cases h
    exact okOrNone_calm he fun e he => parse_calm hc he

theorem toClassType_calm [Harsh H] {c : Bytes} (hc : FineStr H c) {e : Err} (h : toClassType c = .error e) : Calm H e := by
  unfold toClassType at h
  split at h
  · rename_i h0
    split at h
    · cases h
    · rename_i t hn ht
      obtain ⟨cs, hl⟩ := hc.loose
      obtain ⟨d, t', rfl⟩ := parseType_array hl h0 ht
      exact (hn d t' rfl).elim
    · rename_i he
      cases h
      exact parse_calm hc he
  · cases h

theorem tame_newArray [Harsh H] [Site I] {i : UInt16} {d : UInt8} {body : Bool} :
    Tame I H body (fun x p => p = openI x) (rNewArray i d) := by
  refine tame_bind tame_classOr fun c p hc => ?_
  obtain ⟨rfl, hs⟩ := hc
  cases c with
  | dynamic d => exact tame_pure (List.append_nil _)
  | static c => exact tame_map (mute_ofRes fun e he => arrayElem_calm (hs c rfl) he)

theorem tame_classType [Harsh H] [Site I] {i : UInt16} {body : Bool} :
    Tame I H body (fun x p => p = openO x) (rClassType i) := by
  refine tame_bind tame_classOr fun c p hc => ?_
  obtain ⟨rfl, hs⟩ := hc
  cases c with
  | dynamic d => exact tame_pure (List.append_nil _)
  | static c => exact tame_map (mute_ofRes fun e he => toClassType_calm (hs c rfl) he)

theorem tame_convert [Harsh H] [Site I] (p : Nat) (r : RInsn) : Tame I H true (fun i q => q = openI i) (convert p r) := by
  have pu : ∀ {i : Insn}, openI i = [] → Tame I H true (fun i q => q = openI i) (Rd.pure i) :=
    fun h => tame_pure h.symm
  have br : ∀ {f : Label → Insn} {o : Int}, (∀ l, openI (f l) = []) →
      Tame I H true (fun i q => q = openI i) (Rd.map f (lbl p o)) :=
    fun h => tame_map (mute_lbl.mono fun a q hq => by rw [hq, h])
  have mb : ∀ {f : OrDynamic MemberRef → Insn} {o : UInt16}, (∀ l, openI (f l) = openO l) →
      Tame I H true (fun i q => q = openI i) (Rd.map f (rMember o)) :=
    fun h => tame_map (tame_member.mono fun a q hq => by rw [hq, h])
  have ct : ∀ {f : OrDynamic ClassType → Insn} {o : UInt16}, (∀ l, openI (f l) = openO l) →
      Tame I H true (fun i q => q = openI i) (Rd.map f (rClassType o)) :=
    fun h => tame_map (tame_classType.mono fun a q hq => by rw [hq, h])
  have ps : ∀ {o : UInt16}, Tame I H true (fun i q => q = openI i) (rPush o) :=
    tame_map ((mute_lookupR fun P e hP he => constant_calm hP he).mono fun a q hq => hq)
  cases r with
  | TableSwitch d t =>
    refine tame_bind mute_lbl fun _ q hq => ?_
    subst hq
    exact tame_map (mute_lbls _)
  | LookupSwitch d es =>
    refine tame_bind mute_lbl fun _ q hq => ?_
    subst hq
    exact tame_map (mute_lblEntries _)
  | Wide w => cases w <;> exact pu rfl
  | NewArray n =>
    show Tame I H true _ (match newArrayType n with
      | some t => Rd.pure (Insn.newArray (.static t) 1)
      | none => Rd.fail .invalid)
    split
    · exact pu rfl
    · exact tame_fail calm_invalid
  | New n => exact tame_map (tame_classOr.mono fun a q hq => hq.1)
  | InvokeDynamic d u =>
    exact tame_map (tame_lookupD (fun P p e hP he => indy_calm hP he) fun P p a q _ he => ⟨_, indy_open he, rfl⟩)
  | _ =>
    first
    | exact pu rfl
    | exact br fun _ => rfl
    | exact mb fun _ => rfl
    | exact ct fun _ => rfl
    | exact ps
    | exact tame_newArray

theorem tame_insn [Harsh H] [Site I] (pos : Nat) {env : REnv} {st : RSt} {o : UInt8} {tl : Bytes} (hp : PoolFine H env.pool)
    (hb : InBody I true env st) (hi : I (o :: tl)) (hsw : BadSwitch pos (o :: tl) → H) :
    Post H (fun i p => p = openI i) st (o :: tl) (rInsn pos env st (o :: tl)) := by
  have key : ∀ pad xs, tl = pad ++ xs → (o = 0xAA → 12 ≤ xs.length → pad.length = 3 - pos % 4) →
      Post H (fun i p => p = openI i) st (o :: tl) (Rd.bind (Rd.lift RInsn.read) (convert pos) env st (o :: xs)) := by
    intro pad xs he hpad
    have hs : xs <:+ o :: tl := ⟨o :: pad, by rw [he]; rfl⟩
    have h1 := read_raw o xs
    unfold Rd.bind Rd.lift
    rcases hr : RInsn.read (o :: xs) with e | ⟨r, rest⟩
    · rw [hr] at h1
      refine h1.mono fun _ ⟨ho, d, low, high, rest, e1, h2, h3⟩ => ?_
      subst ho
      refine hsw ⟨pad, d, low, high, rest, by rw [he, e1], hpad rfl ?_, h2, h3⟩
      rw [e1, List.length_append, List.length_append, List.length_append, h2]
      simp [NumCodec.write, toBe_length, i32]
      omega
    · rw [hr] at h1
      have h1 : rest <:+ xs := h1
      have h2 := tame_convert pos r env st rest hp hb (Site.part (h1.trans hs).isInfix hi)
      simp only
      rcases hr2 : convert pos r env st rest with e | ⟨i, st', rest'⟩
      · rw [hr2] at h2; exact h2
      · rw [hr2] at h2
        obtain ⟨a, b, c⟩ := h2
        exact ⟨(a.trans h1).trans hs, b, c⟩
  unfold rInsn
  simp only
  split
  · rw [show 4 - pos % 4 = 3 - pos % 4 + 1 by omega, List.drop_succ_cons]
    refine key (tl.take (3 - pos % 4)) _ (List.take_append_drop _ _).symm fun _ h => ?_
    rw [List.length_drop] at h
    rw [List.length_take]
    omega
  · rename_i hno
    exact key [] tl rfl fun h => absurd (.inl h) hno

theorem tame_loop [Harsh H] [Site I] {len : Nat} {env : REnv} (hp : PoolFine H env.pool) : ∀ (n : Nat) {st : RSt} {bs : Bytes},
    bs.length = n → n ≤ len → InBody I true env st → I bs →
    (∀ pre suf rs, bs = pre ++ suf → Decodes (len - n) pre rs → BadSwitch (len - n + pre.length) suf → H) →
    match readLoop len env st bs with
    | .error e => Calm H e
    | .ok (is, st') => st'.labels.isSome = st.labels.isSome ∧
        st'.pending = st.pending ++ is.flatMap fun i => openI i.2 := by
  intro n
  induction n using Nat.strongRecOn with
  | _ n ih =>
    intro st bs hn hle hb hi hsw
    rw [readLoop]
    cases bs with
    | nil => exact ⟨rfl, (List.append_nil _).symm⟩
    | cons o tl =>
      rw [if_neg (by simp), hn]
      have h1 := tame_insn (len - n) hp hb hi (fun h => hsw [] _ [] rfl .nil h)
      rcases hr : rInsn (len - n) env st (o :: tl) with e | ⟨i, st', rest⟩
      · rw [hr] at h1; exact h1
      rw [hr] at h1
      obtain ⟨a, b, p, c, d⟩ := h1
      obtain ⟨ls, hls⟩ := Option.isSome_iff_exists.mp (hb.2 rfl).1
      obtain ⟨r, b', offs, e, hraw, _⟩ := rInsn_sound hr hls
      have hlt : rest.length < n := by
        have := rawAt_pos hraw
        rw [← hn, e, List.length_append]
        omega
      have hl : b'.length + rest.length = n := by rw [← hn, e, List.length_append]
      simp only
      rw [if_pos hlt]
      have hpos : len - rest.length = len - n + b'.length := by omega
      have h2 := ih rest.length hlt (st := st') rfl (by omega) ⟨hb.1, fun h => by rw [b]; exact hb.2 h⟩
        (Site.part a.isInfix hi) (by
          intro pre suf rs he hd hs
          refine hsw (b' ++ pre) suf ((len - n, r) :: rs) (by rw [e, he, List.append_assoc]) (.cons hraw ?_) ?_
          · rw [← hpos]; exact hd
          · rw [List.length_append, ← Nat.add_assoc, ← hpos]; exact hs)
      rcases hr2 : readLoop len env st' rest with e | ⟨is, st''⟩
      · rw [hr2] at h2; exact h2
      · rw [hr2] at h2
        refine ⟨h2.1.trans b, ?_⟩
        rw [h2.2, c, d, List.append_assoc]
        rfl

end Verif
