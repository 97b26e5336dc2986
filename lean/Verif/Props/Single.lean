import Verif.Lemmas.Derive
import Verif.Model.Single
import Verif.Props.Cp
import Verif.Props.Misc

/-! # C71, C72: borrowed constants, and values that are written as a reference to the pool -/

namespace Verif.Props
open Spec

/-! ## C71: borrowed constants -/

/-- The full claim: a borrowed constant is written in the layout of the class file format, like the
constant it stands for. -/
def C71_full : Prop := ∀ e, EntryOk e → ∃ b, Entry.writeRef e = .ok b ∧ EntryBytes e b

theorem writeRef_other {e : Entry} (he : ∀ s, e ≠ .utf8 s) : e.writeRef = e.write := by
  cases e with
  | utf8 s => exact absurd rfl (he s)
  | _ => rfl

theorem entryBytes_tag {e : Entry} {b : Bytes} (h : EntryBytes e b) :
    ∃ t rest, b = t :: rest ∧ t ≠ 0 ∧ ((∀ s, e ≠ .utf8 s) → t ≠ 1) := by
  cases h <;> exact ⟨_, _, rfl, by decide, by simp⟩

theorem bind_u8 {α : Type} (f : UInt8 → Reader α) (t : UInt8) (bs : Bytes) :
    Reader.bind u8.read f (t :: bs) = f t bs := by
  have : u8.read ([t] ++ bs) = .ok (t, bs) := by
    have := readsU1 t bs
    simpa [U1] using this
  unfold Reader.bind
  rw [show t :: bs = [t] ++ bs from rfl, this]

/-- C71. Constants other than strings are written in the layout of the format, with the bytes of the
owned constant, and both readers give the constant back. -/
theorem C71_others_partial {e : Entry} (he : ∀ s, e ≠ .utf8 s) : ∃ b, e.writeRef = .ok b ∧
    e.write = .ok b ∧ EntryBytes e b ∧ ReadsTo Entry.read b e ∧ ReadsTo Entry.readRef b e := by
  have hok : EntryOk e := by
    cases e with
    | utf8 s => exact absurd rfl (he s)
    | _ => trivial
  obtain ⟨b, h1, h2⟩ := entry_write hok
  refine ⟨b, (writeRef_other he).trans h1, h1, h2, entry_reads h2, fun rest => ?_⟩
  have h3 := entry_reads h2 rest
  obtain ⟨t, b', rfl, h4, h5⟩ := entryBytes_tag h2
  rw [List.cons_append] at h3 ⊢
  rw [Entry.readRef, bind_u8]
  rw [Entry.read, bind_u8] at h3
  unfold Entry.readRefPayload
  split
  · exact absurd rfl h4
  · exact absurd rfl (h5 he)
  · exact h3

/-- C71. A string is written as the byte 0 and its modified UTF-8, without a length. -/
theorem C71_string {s : Bytes} {v : List UInt16} (h : HasUtf16 s v) :
    Entry.writeRef (.utf8 s) = .ok (U1 0 ++ mutf8 v) := by
  obtain ⟨cs, h1, rfl, rfl⟩ := h
  rw [Entry.writeRef, writeStrRef, Mutf8.encode_eq cs h1.1]
  rfl

/-- C71. What is written for a string is read neither as a borrowed constant nor as a constant,
whatever follows. -/
theorem C71_string_lost {s bs : Bytes} (h : Entry.writeRef (.utf8 s) = .ok bs) (rest : Bytes) :
    Entry.readRef (bs ++ rest) = .error .invalid ∧ Entry.read (bs ++ rest) = .error .invalid := by
  rw [Entry.writeRef] at h
  split at h
  · cases h
    exact ⟨bind_u8 _ 0 _, bind_u8 _ 0 _⟩
  · cases h

/-- C71. A borrowed string is never in the layout of the format. -/
theorem C71_string_layout {s bs : Bytes} (h : Entry.writeRef (.utf8 s) = .ok bs) : ¬ EntryBytes (.utf8 s) bs := by
  intro hb
  have h1 := entry_reads hb []
  rw [(C71_string_lost h []).2] at h1
  cases h1

theorem C71_violated : ¬ C71_full := by
  intro h
  obtain ⟨b, h1, h2⟩ := h (.utf8 [0x41]) ⟨[0x41], ⟨[0x41], ⟨by
    intro c hc
    cases List.mem_singleton.mp hc
    show 65 ≤ _
    decide, by trivial⟩, rfl, rfl⟩, by decide⟩
  exact C71_string_layout h1 h2

/-- C71. Whatever is read as a borrowed constant is not a string, and is what is read as a constant. -/
theorem C71_read {bs rest : Bytes} {e : Entry} (h : Entry.readRef bs = .ok (e, rest)) :
    Entry.read bs = .ok (e, rest) ∧ ∀ s, e ≠ .utf8 s := by
  unfold Entry.readRef Reader.bind at h
  unfold Entry.read Reader.bind
  split at h
  · rename_i t bs' ht
    unfold Entry.readRefPayload at h
    split at h
    · cases h
    · cases h
    · rename_i h0 h1
      refine ⟨h, ?_⟩
      rintro s rfl
      unfold Entry.readPayload at h
      split at h
      all_goals first | exact h1 rfl | skip
      all_goals
        simp only [Reader.map, Reader.map2, Reader.bind, Reader.pure, Reader.fail] at h
        repeat split at h
        all_goals cases h
  · cases h

/-- The string `AB`. -/
example : (match Entry.writeRef (.utf8 [0x41, 0x42]) with
      | .ok bs => bs == [0, 0x41, 0x42]
      | .error _ => false) = true ∧
    (match Entry.write (.utf8 [0x41, 0x42]) with
      | .ok bs => bs == [1, 0, 2, 0x41, 0x42]
      | .error _ => false) = true := ⟨by decide +kernel, by decide +kernel⟩
/-- A reference to a field. -/
example : Entry.writeRef (.field 3 258) = .ok [9, 0, 3, 1, 2] ∧
    Entry.readRef [9, 0, 3, 1, 2, 7] = .ok (.field 3 258, [7]) := ⟨rfl, rfl⟩

/-! ## C72: numbers, members and method handles by themselves -/

/-- The bytes `bs` are the index of an entry of `P` for which `is` holds. -/
def Refer (is : UInt16 → Prop) (bs : Bytes) : Prop := ∃ i : UInt16, bs = U2 i.toNat ∧ is i

theorem rIdx_ok {α : Type} {f : Pool → UInt16 → Option α} {env : REnv} {st st' : RSt} {bs rest : Bytes}
    {x : α} : rIdx f env st bs = .ok (x, st', rest) ↔
      ∃ i : UInt16, bs = U2 i.toNat ++ rest ∧ f env.pool i = some x ∧ st' = st := by
  constructor
  · intro h
    unfold rIdx Rd.bind at h
    split at h
    · rename_i i st1 bs1 h1
      obtain ⟨rfl, rfl⟩ := Derive.rNum_u16.mp h1
      unfold rLookup at h
      split at h
      · rename_i a ha
        cases h
        exact ⟨i, rfl, ha, rfl⟩
      · cases h
    · cases h
  · rintro ⟨i, rfl, h, rfl⟩
    exact PReads.idx h st' rest

theorem rIdxR_ok {α : Type} {f : Pool → UInt16 → Res (Option α)} {env : REnv} {st st' : RSt}
    {bs rest : Bytes} {x : α} : rIdxR f env st bs = .ok (x, st', rest) ↔
      ∃ i : UInt16, bs = U2 i.toNat ++ rest ∧ f env.pool i = .ok (some x) ∧ st' = st := by
  constructor
  · intro h
    unfold rIdxR Rd.bind at h
    split at h
    · rename_i i st1 bs1 h1
      obtain ⟨rfl, rfl⟩ := Derive.rNum_u16.mp h1
      unfold rLookupR at h
      split at h
      · rename_i a ha
        cases h
        exact ⟨i, rfl, ha, rfl⟩
      · cases h
      · cases h
    · cases h
  · rintro ⟨i, rfl, h, rfl⟩
    exact PReads.idxR h st' rest

theorem wIdx_ok {i : Ins UInt16} {cp cp' : VecCp} {bs : Bytes} (h : wIdx i cp = .ok (bs, cp')) :
    ∃ n : UInt16, i cp = .ok (n, cp') ∧ bs = U2 n.toNat := by
  obtain ⟨n, cp1, h1, h2⟩ := Ins.bind_ok h
  cases h2
  exact ⟨n, h1, u16_write _⟩

/-- Any number: the entry `e` is inserted, and `f` looks for it. -/
theorem number_trip {α : Type} {e : Entry} {x : α} {f : Pool → UInt16 → Option α}
    (hf : ∀ (P : Pool) i, P i = some e → f P i = some x) {cp cp' cp'' : VecCp} {bs : Bytes} {P : Pool}
    (h0 : Steps VecCp.new cp) (h1 : wIdx (insertRaw e) cp = .ok (bs, cp')) (h2 : Steps cp' cp'')
    (hP : Agrees P cp''.entries) : Refer (fun i => P i = some e) bs ∧
      ∀ cs, PReads (rIdx f) ⟨P, cs⟩ bs x := by
  obtain ⟨i, h3, rfl⟩ := wIdx_ok h1
  have h4 := hP i e (C20_stable h0 h3 h2)
  exact ⟨⟨i, rfl, h4⟩, fun cs => PReads.idx (hf P i h4)⟩

/-- C72. A number is written as the index of an entry that holds it, and is read back with any pool
that has at least the entries the writer has at the end. -/
theorem C72_int {x : Int32} {cp cp' cp'' : VecCp} {bs : Bytes} {P : Pool} (h0 : Steps VecCp.new cp)
    (h1 : wI32 x cp = .ok (bs, cp')) (h2 : Steps cp' cp'') (hP : Agrees P cp''.entries) :
    Refer (fun i => P i = some (.int x)) bs ∧ ∀ cs, PReads rI32 ⟨P, cs⟩ bs x :=
  number_trip (fun P i h => by rw [Pool.int, h]) h0 h1 h2 hP

theorem C72_long {x : Int64} {cp cp' cp'' : VecCp} {bs : Bytes} {P : Pool} (h0 : Steps VecCp.new cp)
    (h1 : wI64 x cp = .ok (bs, cp')) (h2 : Steps cp' cp'') (hP : Agrees P cp''.entries) :
    Refer (fun i => P i = some (.long x)) bs ∧ ∀ cs, PReads rI64 ⟨P, cs⟩ bs x :=
  number_trip (fun P i h => by rw [Pool.long, h]) h0 h1 h2 hP

/-- C72. Floats keep every bit, also those of a NaN. -/
theorem C72_float {x : F32} {cp cp' cp'' : VecCp} {bs : Bytes} {P : Pool} (h0 : Steps VecCp.new cp)
    (h1 : wF32 x cp = .ok (bs, cp')) (h2 : Steps cp' cp'') (hP : Agrees P cp''.entries) :
    Refer (fun i => P i = some (.float x)) bs ∧ ∀ cs, PReads rF32 ⟨P, cs⟩ bs x :=
  number_trip (fun P i h => by rw [Pool.float, h]) h0 h1 h2 hP

theorem C72_double {x : F64} {cp cp' cp'' : VecCp} {bs : Bytes} {P : Pool} (h0 : Steps VecCp.new cp)
    (h1 : wF64 x cp = .ok (bs, cp')) (h2 : Steps cp' cp'') (hP : Agrees P cp''.entries) :
    Refer (fun i => P i = some (.double x)) bs ∧ ∀ cs, PReads rF64 ⟨P, cs⟩ bs x :=
  number_trip (fun P i h => by rw [Pool.double, h]) h0 h1 h2 hP

/-- C72. A number is read exactly where there is the index of an entry that holds it: an index of an
entry of another kind, and an index of no entry, are refused. -/
theorem C72_read_int {env : REnv} {st st' : RSt} {bs rest : Bytes} {x : Int32} :
    rI32 env st bs = .ok (x, st', rest) ↔
      ∃ i : UInt16, bs = U2 i.toNat ++ rest ∧ env.pool i = some (.int x) ∧ st' = st := by
  refine rIdx_ok.trans (exists_congr fun i => and_congr_right fun _ => and_congr_left fun _ => ?_)
  unfold Pool.int
  split <;> simp_all

theorem C72_read_long {env : REnv} {st st' : RSt} {bs rest : Bytes} {x : Int64} :
    rI64 env st bs = .ok (x, st', rest) ↔
      ∃ i : UInt16, bs = U2 i.toNat ++ rest ∧ env.pool i = some (.long x) ∧ st' = st := by
  refine rIdx_ok.trans (exists_congr fun i => and_congr_right fun _ => and_congr_left fun _ => ?_)
  unfold Pool.long
  split <;> simp_all

theorem C72_read_float {env : REnv} {st st' : RSt} {bs rest : Bytes} {x : F32} :
    rF32 env st bs = .ok (x, st', rest) ↔
      ∃ i : UInt16, bs = U2 i.toNat ++ rest ∧ env.pool i = some (.float x) ∧ st' = st := by
  refine rIdx_ok.trans (exists_congr fun i => and_congr_right fun _ => and_congr_left fun _ => ?_)
  unfold Pool.float
  split <;> simp_all

theorem C72_read_double {env : REnv} {st st' : RSt} {bs rest : Bytes} {x : F64} :
    rF64 env st bs = .ok (x, st', rest) ↔
      ∃ i : UInt16, bs = U2 i.toNat ++ rest ∧ env.pool i = some (.double x) ∧ st' = st := by
  refine rIdx_ok.trans (exists_congr fun i => and_congr_right fun _ => and_congr_left fun _ => ?_)
  unfold Pool.double
  split <;> simp_all

/-- C72. A member reference by itself. -/
theorem C72_member {m : MemberRef} {cp cp' cp'' : VecCp} {bs : Bytes} {P : Pool}
    (hm : Printable m.descriptor) (h0 : Steps VecCp.new cp) (h1 : wMemberRef m cp = .ok (bs, cp'))
    (h2 : Steps cp' cp'') (hP : Agrees P cp''.entries) :
    Refer (fun i => IsMember P i m) bs ∧ ∀ cs, PReads rMemberRef ⟨P, cs⟩ bs (clearFlag m) := by
  obtain ⟨i, h3, rfl⟩ := wIdx_ok h1
  have h4 := C25_member hm h0 h3 h2 hP
  exact ⟨⟨i, rfl, h4.2⟩, fun cs => PReads.idxR h4.1⟩

theorem kind_number (k : HandleKind) : k.toU8.toNat = refKind k := by cases k <;> rfl

theorem kind_reads (k : HandleKind) : ReadsTo HandleKind.read (U1 (refKind k)) k := by
  have : ReadsTo HandleKind.read (U1 k.toU8.toNat ++ []) k :=
    ReadsTo.bind (readsU1 k.toU8) (fun rest => by cases k <;> rfl)
  rwa [List.append_nil, kind_number] at this

/-- C72. The kind of a method handle is written as the number the class file format gives it, and
read back; no other byte is read as a kind. -/
theorem C72_kind (k : HandleKind) :
    k.write = U1 (refKind k) ∧ ReadsTo HandleKind.read (U1 (refKind k)) k := by
  refine ⟨?_, kind_reads k⟩
  rw [HandleKind.write, u8_write, kind_number]

theorem C72_kind_read {bs rest : Bytes} {k : HandleKind} :
    HandleKind.read bs = .ok (k, rest) ↔ bs = U1 (refKind k) ++ rest := by
  constructor
  · intro h
    cases bs with
    | nil => cases h
    | cons t bs =>
      rw [HandleKind.read, bind_u8] at h
      have : ∀ t : UInt8, ∀ k, HandleKind.ofU8 t = some k → U1 (refKind k) = [t] := by
        intro t k hk
        unfold HandleKind.ofU8 at hk
        split at hk <;> cases hk <;> rfl
      cases hk : HandleKind.ofU8 t with
      | some k' =>
        rw [hk] at h
        cases h
        rw [this t k hk]
        rfl
      | none =>
        rw [hk] at h
        cases h
  · rintro rfl
    exact kind_reads k rest

theorem check_clearFlag (k : HandleKind) (m : MemberRef) :
    MethodHandle.check ⟨k, clearFlag m⟩ = MethodHandle.check ⟨k, m⟩ := by
  obtain ⟨o, n, d, f⟩ := m
  cases d <;> rfl

/-- C72. A method handle that is written passes the check, and is written as its kind and the index of
its member. It is read back with any pool that has at least the entries the writer has at the end. -/
theorem C72_handle {h : MethodHandle} {cp cp' cp'' : VecCp} {bs : Bytes} {P : Pool}
    (hm : Printable h.member.descriptor) (h0 : Steps VecCp.new cp)
    (h1 : h.write cp = .ok (bs, cp')) (h2 : Steps cp' cp'') (hP : Agrees P cp''.entries) :
    h.check = .ok () ∧
    (∃ i : UInt16, bs = U1 (refKind h.kind) ++ U2 i.toNat ∧ IsMember P i h.member) ∧
    ∀ cs, PReads MethodHandle.read ⟨P, cs⟩ bs { h with member := clearFlag h.member } := by
  obtain ⟨u, cp1, h3, h4⟩ := Ins.bind_ok h1
  obtain ⟨h5, rfl⟩ := Ins.lift_ok h3
  have hw : wSeq [pure h.kind.write, wMemberRef h.member] cp1 = .ok (bs, cp') := h4
  obtain ⟨b1, cp2, h6, h7⟩ := Ins.bind_ok hw
  cases h6
  obtain ⟨b2, cp3, h8, h9⟩ := Ins.bind_ok h7
  cases h9
  obtain ⟨b3, cp4, h10, h11⟩ := Ins.bind_ok h8
  obtain ⟨b4, cp5, h12, h13⟩ := Ins.bind_ok h11
  cases h12
  cases h13
  rw [List.append_nil]
  obtain ⟨⟨i, rfl, hi⟩, hr⟩ := C72_member hm h0 h10 h2 hP
  rw [(C72_kind h.kind).1]
  refine ⟨h5, ⟨i, rfl, hi⟩, fun cs => ?_⟩
  refine PReads.bind (PReads.lift (C72_kind h.kind).2) ?_
  refine (PReads.bind (hr cs) (b2 := []) ?_).cast (List.append_nil _)
  refine (PReads.bind (b1 := []) (b2 := []) (PReads.ofRes (a := ()) ?_) (Rd.reads_pure _ _))
  rw [check_clearFlag]
  exact h5

/-- C72. A handle that does not pass the check is refused, whatever the pool. -/
theorem C72_handle_refused {h : MethodHandle} (hc : h.check ≠ .ok ()) (cp : VecCp) :
    h.write cp = .error .invalid := by
  rcases C30_total h with h1 | h1
  · exact absurd h1 hc
  · unfold MethodHandle.write
    simp only [Bind.bind, Ins.bind, Ins.lift, h1]

/-- C72. Whatever is read as a method handle is a kind and the index of a member, and passes the
check. -/
theorem C72_handle_read {env : REnv} {st st' : RSt} {bs rest : Bytes} {h : MethodHandle} :
    MethodHandle.read env st bs = .ok (h, st', rest) ↔
      h.check = .ok () ∧ st' = st ∧
      ∃ i : UInt16, bs = U1 (refKind h.kind) ++ U2 i.toNat ++ rest ∧
        env.pool.member i = .ok (some h.member) := by
  constructor
  · intro h0
    unfold MethodHandle.read Rd.bind at h0
    split at h0
    · rename_i k st1 bs1 h1
      unfold Rd.lift at h1
      split at h1
      · rename_i k' rest' hk
        cases h1
        rw [C72_kind_read] at hk
        subst hk
        dsimp only at h0
        split at h0
        · rename_i m st2 bs2 h2
          obtain ⟨i, rfl, hi, rfl⟩ := rIdxR_ok.mp h2
          split at h0
          · rename_i u st3 bs3 h3
            unfold Rd.ofRes at h3
            split at h3
            · rename_i u' hu
              cases h3
              cases h0
              exact ⟨hu, rfl, i, (List.append_assoc _ _ _).symm, hi⟩
            · cases h3
          · cases h0
        · cases h0
      · cases h1
    · cases h0
  · rintro ⟨hc, rfl, i, rfl, hi⟩
    have h1 : PReads MethodHandle.read env (U1 (refKind h.kind) ++ (U2 i.toNat ++ ([] ++ []))) h :=
      PReads.bind (PReads.lift (C72_kind h.kind).2) (PReads.bind (PReads.idxR hi)
        (PReads.bind (PReads.ofRes (a := ()) hc) (Rd.reads_pure _ _)))
    simpa using h1 st' rest

/-- A handle to the field `A.f` of a kind that invokes: it does not pass the check. -/
def wrongHandle : MethodHandle := ⟨.invokeStatic, ⟨[0x41], [0x66], .int, false⟩⟩

/-- The full claim: in whichever way a method handle is written, those that do not pass the check are
refused. -/
def C72_full : Prop := ∀ (h : MethodHandle) (cp : VecCp), h.check ≠ .ok () →
  (∃ e, h.write cp = .error e) ∧ ∃ e, wConst (.methodHandle h) cp = .error e

/-- A handle that does not pass the check is written as a constant. -/
theorem C72_violated : ¬ C72_full := by
  intro h
  obtain ⟨e, he⟩ := (h wrongHandle VecCp.new (by decide)).2
  revert he
  cases hw : wConst (.methodHandle wrongHandle) VecCp.new with
  | ok y => intro he; cases he
  | error e' =>
    exact absurd hw (by
      have : (match wConst (.methodHandle wrongHandle) VecCp.new with | .ok _ => true | .error _ => false) = true := by
        decide +kernel
      intro hw'
      rw [hw'] at this
      cases this)

/-- The check is made by the codec of method handles: the part of the claim that holds. -/
theorem C72_checked_partial (h : MethodHandle) (cp : VecCp) (hc : h.check ≠ .ok ()) :
    ∃ e, h.write cp = .error e := ⟨_, C72_handle_refused hc cp⟩

/-- A NaN with a payload, in a pool that holds another constant. -/
example : ∃ cp1 cp2, insertRaw (.long 5) VecCp.new = .ok (1, cp1) ∧ Steps VecCp.new cp1 ∧
    wF32 ⟨0x7FC00001⟩ cp1 = .ok ([0, 3], cp2) :=
  ⟨_, _, rfl, .raw (e := .long 5) (i := 1) (.refl _) rfl, rfl⟩

/-- A handle that is written: it passes the check and its descriptor has a text. -/
example : sampleHandle.check = .ok () ∧ Printable sampleHandle.member.descriptor ∧
    (match sampleHandle.write VecCp.new with | .ok (bs, _) => bs == [6, 0, 6] | .error _ => false) = true :=
  ⟨by rfl, sampleHandle_ok, by decide +kernel⟩

/-- One that is refused. -/
example : wrongHandle.check ≠ .ok () := by decide

end Verif.Props
