import Verif.Lemmas.CpInsert

/-! # C20 – C26, C49: the constant pool -/

namespace Verif.Props
open Spec

/-! ## C20: indices are stable -/

/-- C20. An index returned by an insertion into a pool built by insertions designates the inserted
entry after any further insertions. -/
theorem C20_stable {cp cp' cp'' : VecCp} {e : Entry} {i : UInt16} (h0 : Steps VecCp.new cp)
    (h1 : insertRaw e cp = .ok (i, cp')) (h2 : Steps cp' cp'') : At cp''.entries i.toNat e := by
  have i0 := steps_ok h0 VecCp.inv_new
  have i1 := insertRaw_ok i0.1 h1
  have i2 := steps_ok h2 i1.1
  exact i2.2.at_ i1.2.2.1

/-- C20. Two returned indices are equal (and then the entries are the same) or the entries take
disjoint ranges of indices; in particular none lies in the second slot of a long or double. -/
theorem C20_disjoint {cp cp' cp'' c : VecCp} {e f : Entry} {i j : UInt16} (h0 : Steps VecCp.new cp)
    (h1 : insertRaw e cp = .ok (i, cp')) (h2 : Steps cp' cp'') (h3 : insertRaw f cp'' = .ok (j, c)) :
    (i = j ∧ e = f) ∨ i.toNat + slots e ≤ j.toNat ∨ j.toNat + slots f ≤ i.toNat := by
  have a1 := C20_stable h0 h1 (h2.trans (.raw (.refl _) h3))
  have a2 := C20_stable (.trans (.raw h0 h1) h2) h3 (.refl _)
  rcases a1.disjoint a2 with h | h
  · exact .inl ⟨UInt16.toNat_inj.mp h.1, h.2⟩
  · exact .inr h

/-- C20. A returned index is at least 1 and the entry ends below the count written in the file. -/
theorem C20_range {cp cp' cp'' : VecCp} {e : Entry} {i : UInt16} (h0 : Steps VecCp.new cp)
    (h1 : insertRaw e cp = .ok (i, cp')) (h2 : Steps cp' cp'') :
    1 ≤ i.toNat ∧ i.toNat + slots e ≤ cp''.len.toNat := by
  have a1 := C20_stable h0 h1 h2
  have i2 := steps_ok (.trans (.raw h0 h1) h2) VecCp.inv_new
  have := a1.bounds
  rw [i2.1.len]
  exact this

/-- C20. Insertion fails exactly when the entry is new and the pool has no room for it. -/
theorem C20_full_pool {cp : VecCp} {e : Entry} (h0 : Steps VecCp.new cp) :
    (∃ x, insertRaw e cp = .error x) ↔ e ∉ cp.entries ∧ 65535 < 1 + slotsAll cp.entries + slots e := by
  have i0 := steps_ok h0 VecCp.inv_new
  have hl := i0.1.len
  have hs := size_slots e
  unfold insertRaw
  cases hc : cp.cache.lookup e with
  | some i =>
    have := ((i0.1.cache e i).mp hc).mem
    simp [this]
  | none =>
    have hne : e ∉ cp.entries := by
      intro hm
      obtain ⟨i, hi⟩ := At.of_mem hm
      have hb := hi.bounds
      have hlt := cp.len.toNat_lt
      have hp := slots_pos e
      have : At cp.entries (UInt16.ofNat i).toNat e := by
        rwa [UInt16.toNat_ofNat', Nat.mod_eq_of_lt (by omega)]
      rw [← i0.1.cache, hc] at this
      cases this
    simp only
    constructor
    · rintro ⟨x, hx⟩
      split at hx
      · cases hx
      · exact ⟨hne, by omega⟩
    · intro h
      exact ⟨.panic, by rw [if_neg (by omega)]⟩

/-- Insertions of a class entry, a long and another class entry: the third gets index 4. -/
example : ∃ cp1 cp2 cp3, insertRaw (.cls 7) VecCp.new = .ok (1, cp1) ∧
    insertRaw (.long 5) cp1 = .ok (2, cp2) ∧ insertRaw (.cls 9) cp2 = .ok (4, cp3) ∧
    Steps VecCp.new cp3 :=
  ⟨_, _, _, rfl, rfl, rfl, .raw (e := .cls 9) (i := 4) (.raw (e := .long 5) (i := 2)
    (.raw (e := .cls 7) (i := 1) (.refl _) rfl) rfl) rfl⟩

/-! ## C21: deduplication -/

/-- C21. Inserting an entry again, at any later time, returns the same index and leaves the pool as
it is. -/
theorem C21_same {cp cp' cp'' : VecCp} {e : Entry} {i : UInt16} (h0 : Steps VecCp.new cp)
    (h1 : insertRaw e cp = .ok (i, cp')) (h2 : Steps cp' cp'') : insertRaw e cp'' = .ok (i, cp'') := by
  have a := C20_stable h0 h1 h2
  have i2 := steps_ok (.trans (.raw h0 h1) h2) VecCp.inv_new
  unfold insertRaw
  rw [(i2.1.cache e i).mpr a]

/-- C21. Different entries get different indices. -/
theorem C21_different {cp cp' cp'' c : VecCp} {e f : Entry} {i j : UInt16} (h0 : Steps VecCp.new cp)
    (h1 : insertRaw e cp = .ok (i, cp')) (h2 : Steps cp' cp'') (h3 : insertRaw f cp'' = .ok (j, c))
    (h : e ≠ f) : i ≠ j := by
  intro he
  have hp1 := slots_pos e
  have hp2 := slots_pos f
  rcases C20_disjoint h0 h1 h2 h3 with h' | h' | h'
  · exact h h'.2
  · subst he; omega
  · subst he; omega

/-- C21. The pool never holds an entry twice. -/
theorem C21_nodup {cp : VecCp} (h0 : Steps VecCp.new cp) : cp.entries.Nodup := by
  induction h0 with
  | refl => simp [VecCp.new]
  | @raw b c e i hb hr hd =>
    unfold insertRaw at hr
    split at hr
    · cases hr; exact hd
    · rename_i hno
      split at hr
      · rename_i hlt
        cases hr
        have hf := (C20_full_pool (e := e) hb)
        simp only [List.nodup_append, List.nodup_cons, List.not_mem_nil, not_false_eq_true,
          List.nodup_nil, and_self, List.mem_cons, or_false, true_and]
        refine ⟨hd, ?_⟩
        rintro x hx y rfl rfl
        obtain ⟨i, hi⟩ := At.of_mem hx
        have i0 := steps_ok hb VecCp.inv_new
        have hb' := hi.bounds
        have hlt := b.len.toNat_lt
        have hl := i0.1.len
        have : At b.entries (UInt16.ofNat i).toNat x := by
          rwa [UInt16.toNat_ofNat', Nat.mod_eq_of_lt (by have := slots_pos x; omega)]
        rw [← i0.1.cache, hno] at this
        cases this
      · cases hr
  | bsm _ hr ih =>
    unfold insertBsm at hr
    cases hr
    exact ih

/-- C21. Floats are the same entry exactly if they have the same bit pattern: `-0.0` and `0.0` are
kept apart, and a NaN is found again. -/
theorem C21_floats {cp cp' cp'' c : VecCp} {a b : F32} {i j : UInt16} (h0 : Steps VecCp.new cp)
    (h1 : insertRaw (.float a) cp = .ok (i, cp')) (h2 : Steps cp' cp'')
    (h3 : insertRaw (.float b) cp'' = .ok (j, c)) : i = j ↔ a.bits = b.bits := by
  constructor
  · intro h
    by_cases he : Entry.float a = Entry.float b
    · cases he; rfl
    · exact absurd h (C21_different h0 h1 h2 h3 he)
  · intro h
    obtain rfl : a = b := by cases a; cases b; simp_all
    have := C21_same h0 h1 h2
    rw [this] at h3
    cases h3; rfl

/-- As `C21_floats`, for doubles. -/
theorem C21_doubles {cp cp' cp'' c : VecCp} {a b : F64} {i j : UInt16} (h0 : Steps VecCp.new cp)
    (h1 : insertRaw (.double a) cp = .ok (i, cp')) (h2 : Steps cp' cp'')
    (h3 : insertRaw (.double b) cp'' = .ok (j, c)) : i = j ↔ a.bits = b.bits := by
  constructor
  · intro h
    by_cases he : Entry.double a = Entry.double b
    · cases he; rfl
    · exact absurd h (C21_different h0 h1 h2 h3 he)
  · intro h
    obtain rfl : a = b := by cases a; cases b; simp_all
    have := C21_same h0 h1 h2
    rw [this] at h3
    cases h3; rfl

/-- `0.0`, `-0.0` and `0.0` again. -/
example : ∃ cp1 cp2, insertRaw (.float ⟨0⟩) VecCp.new = .ok (1, cp1) ∧
    insertRaw (.float ⟨0x80000000⟩) cp1 = .ok (2, cp2) ∧
    insertRaw (.float ⟨0⟩) cp2 = .ok (1, cp2) := ⟨_, _, rfl, rfl, rfl⟩

/-! ## C22: written pools read back -/

/-- C22. The bytes of a pool built by insertions have the layout of the JVM specification, and reading
them (whatever follows) gives a pool with the same entry at every index and no other entries. The
strings must be well-formed and short enough (C12). -/
theorem C22_roundtrip {cp : VecCp} (h0 : Steps VecCp.new cp)
    (hs : ∀ s, Entry.utf8 s ∈ cp.entries → ∃ v, HasUtf16 s v ∧ (mutf8 v).length < 65536) :
    ∃ bs m, cp.write = .ok bs ∧ PoolBytes cp.entries bs ∧
      (∀ rest, MapCp.read (bs ++ rest) = .ok (m, rest)) ∧
      ∀ (i : UInt16) e, m.get i = some e ↔ At cp.entries i.toNat e := by
  have i0 := steps_ok h0 VecCp.inv_new
  have hok : ∀ e ∈ cp.entries, EntryOk e := by
    intro e he
    cases e with
    | utf8 s => exact hs s he
    | _ => trivial
  obtain ⟨body, h1, h2⟩ := entries_write hok
  have hl := i0.1.len
  have hp : PoolBytes cp.entries (u16.write cp.len ++ body) :=
    ⟨body, h2, by have := cp.len.toNat_lt; omega, by rw [u16_write, hl]⟩
  obtain ⟨m, h3, h4⟩ := mapCp_read hp
  refine ⟨_, m, ?_, hp, h4, fun i e => h3 i e⟩
  unfold VecCp.write
  rw [h1]

/-- C22 and C20 together: an inserted entry is found at its index in the file. -/
theorem C22_found {cp cp' cp'' : VecCp} {e : Entry} {i : UInt16} (h0 : Steps VecCp.new cp)
    (h1 : insertRaw e cp = .ok (i, cp')) (h2 : Steps cp' cp'')
    (hs : ∀ s, Entry.utf8 s ∈ cp''.entries → ∃ v, HasUtf16 s v ∧ (mutf8 v).length < 65536) :
    ∃ bs m, cp''.write = .ok bs ∧ (∀ rest, MapCp.read (bs ++ rest) = .ok (m, rest)) ∧
      m.get i = some e := by
  obtain ⟨bs, m, h3, _, h5, h6⟩ := C22_roundtrip (.trans (.raw h0 h1) h2) hs
  exact ⟨bs, m, h3, h5, (h6 i e).mpr (C20_stable h0 h1 h2)⟩

/-- A pool with a long, a class and a string; two bytes follow it. -/
example : ∃ cp, Steps VecCp.new cp ∧
    (∀ s, Entry.utf8 s ∈ cp.entries → ∃ v, HasUtf16 s v ∧ (mutf8 v).length < 65536) ∧
    cp.write = .ok [0, 5, 5, 0, 0, 0, 0, 0, 0, 0, 1, 7, 0, 4, 1, 0, 1, 0x41] := by
  refine ⟨_, .raw (e := .utf8 [0x41]) (i := 4) (.raw (e := .cls 4) (i := 3)
    (.raw (e := .long 1) (i := 1) (.refl _) rfl) rfl) rfl, ?_, by decide +kernel⟩
  intro s hs
  simp only [VecCp.new, List.nil_append, List.cons_append, List.mem_cons, reduceCtorEq, false_or,
    List.not_mem_nil, or_false, Entry.utf8.injEq] at hs
  subst hs
  exact ⟨_, ⟨[0x41], ⟨by decide, trivial⟩, by decide, rfl⟩, by decide⟩

/-! ## C23: reading a pool -/

theorem at_cover (es : List Entry) : ∀ (pre : List Entry) (i : Nat), 1 + slotsAll pre ≤ i →
    i < 1 + slotsAll (pre ++ es) →
    ∃ j e, At (pre ++ es) j e ∧ (i = j ∨ (i = j + 1 ∧ slots e = 2)) := by
  induction es with
  | nil => intro pre i h1 h2; rw [List.append_nil] at h2; omega
  | cons e es ih =>
    intro pre i h1 h2
    rw [← List.singleton_append, ← List.append_assoc] at h2 ⊢
    by_cases h : 1 + slotsAll (pre ++ [e]) ≤ i
    · exact ih _ i h h2
    · rw [slotsAll_append, slotsAll_cons, slotsAll_nil] at h
      refine ⟨1 + slotsAll pre, e, (At.last _ _).append _, ?_⟩
      have h3 : slots e = 1 ∨ slots e = 2 := by cases e <;> simp [slots]
      omega

/-- C23. When a pool with count `count` has been read: the entries were read one after the other and
are numbered as in the specification; an index has an entry only if it is below the count; every index
from 1 to below the count has an entry or is the second half of a long or double. -/
theorem C23_accounts {bs rest : Bytes} {m : MapCp} (h : MapCp.read bs = .ok (m, rest)) :
    ∃ count tail es, u16.read bs = .ok (count, tail) ∧
      Reader.replicate es.length Entry.read tail = .ok (es, rest) ∧
      (∀ (i : UInt16) e, m.get i = some e ↔ At es i.toNat e) ∧
      (∀ (i : UInt16) e, m.get i = some e → 1 ≤ i.toNat ∧ i < count) ∧
      (∀ i : UInt16, 1 ≤ i.toNat → i < count → ∃ j e, m.get j = some e ∧
        (i = j ∨ (i.toNat = j.toNat + 1 ∧ slots e = 2))) := by
  unfold MapCp.read Reader.bind at h
  split at h
  · rename_i count tail hc
    obtain ⟨es, h1, h2, h3, h4⟩ := readLoop_ok count _ 1 [] [] tail rest m (Nat.le_refl _) rfl isMap_nil h
    simp only [List.nil_append] at h1 h2 h3 h4
    refine ⟨count, tail, es, hc, h3, h1, ?_, ?_⟩
    · intro i e he
      have := (h1 i e).mp he
      refine ⟨this.bounds.1, ?_⟩
      rw [UInt16.lt_iff_toNat_lt]
      exact (h4 _ _ this).resolve_left At.not_nil
    · intro i hi1 hi2
      rw [UInt16.lt_iff_toNat_lt] at hi2
      obtain ⟨j, e, hj, hij⟩ := at_cover es [] i.toNat (by simpa [slotsAll] using hi1) (by simpa using Nat.lt_of_lt_of_le hi2 h2)
      have hil := i.toNat_lt
      have hju : (UInt16.ofNat j).toNat = j := by
        rw [UInt16.toNat_ofNat', Nat.mod_eq_of_lt (by omega)]
      refine ⟨UInt16.ofNat j, e, (h1 _ _).mpr (by rwa [hju]), ?_⟩
      rcases hij with hij | hij
      · exact .inl (UInt16.toNat_inj.mp (by rw [hju]; exact hij))
      · exact .inr (by rw [hju]; exact hij)
  · cases h

/-- The pool of the previous example, read. -/
example : ∃ m, MapCp.read [0, 5, 5, 0, 0, 0, 0, 0, 0, 0, 1, 7, 0, 4, 1, 0, 1, 0x41, 0xCA] =
    .ok (m, [0xCA]) ∧ m.get 1 = some (.long 1) ∧ m.get 2 = none ∧ m.get 3 = some (.cls 4) := by
  have hp : PoolBytes [.long 1, .cls 4, .utf8 [0x41]]
      [0, 5, 5, 0, 0, 0, 0, 0, 0, 0, 1, 7, 0, 4, 1, 0, 1, 0x41] :=
    ⟨_, .cons .long (.cons .cls (.cons (.utf8 (v := [0x41])
      ⟨[0x41], ⟨by decide, trivial⟩, by decide, rfl⟩ (by decide)) .nil)), by decide, by decide⟩
  obtain ⟨m, h1, h2⟩ := mapCp_read hp
  refine ⟨m, h2 [0xCA], (h1 _ _).mpr ⟨[], _, rfl, rfl⟩, ?_, (h1 _ _).mpr ⟨[.long 1], _, rfl, rfl⟩⟩
  cases h3 : m.get 2 with
  | none => rfl
  | some e =>
    have a1 := (h1 _ _).mp h3
    rcases a1.disjoint (show At _ 1 (.long 1) from ⟨[], _, rfl, rfl⟩) with h | h | h
    · exact absurd h.1 (by decide)
    · have := slots_pos e; have h5 : (2 : UInt16).toNat = 2 := rfl; omega
    · simp [slots] at h

/-- The last part of C23: no input makes the reader panic. -/
def C23_full : Prop := ∀ bs, MapCp.read bs ≠ .error .panic

/-- `n + 1` declared slots: `n` class entries, then a long. -/
def lastWide (n : Nat) : Bytes := U2 (n + 2) ++
  ((List.replicate n [7, 0, 1]).flatten ++ [5, 0, 0, 0, 0, 0, 0, 0, 0])

theorem lastWide_read (n : Nat) (h : n + 2 < 65536) : ∃ acc : List (UInt16 × Entry),
    MapCp.read (lastWide n) =
      if n + 3 < 65536 then MapCp.readLoop (UInt16.ofNat (n + 2)) (1 + UInt16.ofNat n + 2)
        ((1 + UInt16.ofNat n, .long 0) :: acc) [] else .error .panic := by
  have hc : (UInt16.ofNat (n + 2)).toNat = n + 2 := by
    rw [UInt16.toNat_ofNat', Nat.mod_eq_of_lt (by omega)]
  have hn : (1 + UInt16.ofNat n).toNat = n + 1 := by
    rw [UInt16.toNat_add, UInt16.toNat_ofNat', Nat.mod_eq_of_lt (a := n) (by omega), Nat.mod_eq_of_lt]
    · simp; omega
    · simp; omega
  have hone : (1 : UInt16).toNat = 1 := rfl
  obtain ⟨acc, he⟩ := readLoop_cls (UInt16.ofNat (n + 2)) [5, 0, 0, 0, 0, 0, 0, 0, 0] n 1 []
    (by omega)
  refine ⟨acc, ?_⟩
  unfold MapCp.read Reader.bind lastWide
  rw [readsU2' (n + 2) h]
  simp only
  have hr : Entry.read [5, 0, 0, 0, 0, 0, 0, 0, 0] = .ok (.long 0, []) := by decide
  rw [he, MapCp.readLoop, if_pos (by rw [UInt16.lt_iff_toNat_lt]; omega), hr]
  simp only
  have h2 : (Entry.long 0).size.toNat = 2 := rfl
  by_cases h3 : n + 3 < 65536
  · rw [if_pos h3, if_pos (by omega)]
    rfl
  · rw [if_neg h3, if_neg (by omega)]

theorem C23_violated : ¬ C23_full := by
  intro h
  obtain ⟨acc, he⟩ := lastWide_read 65533 (by omega)
  rw [if_neg (by omega)] at he
  exact h _ he

/-- C23, what is true of the last part: only a declared count of 65535 can lead to a panic. -/
theorem C23_no_panic_partial {bs : Bytes} (h : MapCp.read bs = .error .panic) :
    ∃ rest, u16.read bs = .ok (65535, rest) := by
  unfold MapCp.read Reader.bind at h
  split at h
  · rename_i count tail hc
    have := readLoop_panic count _ 1 [] tail (Nat.le_refl _) h
    refine ⟨tail, ?_⟩
    rw [hc, UInt16.toNat_inj.mp (show count.toNat = (65535 : UInt16).toNat from this)]
  · rename_i e he
    cases h
    exact absurd he (NumCodec.read_no_panic _ _)

/-! ## C24, C25: values in the pool

`P` is any pool that holds the entries of the writer's pool, for instance the one read back from its
bytes (C22). -/

/-- A pool read from the written bytes agrees with the writer's pool. -/
theorem agrees_of_roundtrip {cp : VecCp} {m : MapCp}
    (h : ∀ (i : UInt16) e, m.get i = some e ↔ At cp.entries i.toNat e) : Agrees m.get cp.entries :=
  fun i e ha => (h i e).mpr ha

/-- The types inside a constant have a descriptor without surrogates. -/
def Plain : Constant → Prop
  | .member m => Printable m.descriptor
  | .methodType t => Printable t
  | .methodHandle h => Printable h.member.descriptor
  | _ => True

/-- A field reference cannot carry an interface flag. -/
def clearFlag (m : MemberRef) : MemberRef :=
  match m.descriptor with
  | .method _ _ => m
  | _ => { m with itfs := false }

/-- `clearFlag` inside a constant. -/
def clearFlags : Constant → Constant
  | .member m => .member (clearFlag m)
  | .methodHandle h => .methodHandle { h with member := clearFlag h.member }
  | c => c

theorem clearFlag_norm (m : MemberRef) : m.norm = clearFlag m := by
  obtain ⟨o, n, d, f⟩ := m
  cases d <;> simp [MemberRef.norm, clearFlag, JType.isMethod]

theorem clearFlags_norm (c : Constant) : c.norm = clearFlags c := by
  cases c <;> simp [Constant.norm, clearFlags, clearFlag_norm]

theorem agrees_steps {P : Pool} {a b : VecCp} (hi : a.Inv) (h : Steps a b) (hP : Agrees P b.entries) :
    Agrees P a.entries := hP.mono (steps_ok h hi).2

/-- C24. A constant inserted into a pool built by insertions is read back from its index after any
further insertions. -/
theorem C24_constant {cp cp' cp'' : VecCp} {c : Constant} {i : UInt16} {P : Pool} (hc : Plain c)
    (h0 : Steps VecCp.new cp) (h1 : insertConstant c cp = .ok (i, cp')) (h2 : Steps cp' cp'')
    (hP : Agrees P cp''.entries) : P.constant i = .ok (some (clearFlags c)) := by
  have i0 := steps_ok h0 VecCp.inv_new
  have hc' : ConstOk c := by cases c <;> exact hc
  have g := good_constant c hc' cp i cp' i0.1 h1
  have i1 := steps_ok g.1 i0.1
  rw [← clearFlags_norm]
  exact constant_of (g.2 P (agrees_steps i1.1 h2 hP))

/-- C24. Its index is that of an entry of the kind required by the specification. -/
theorem C24_layout {cp cp' cp'' : VecCp} {c : Constant} {i : UInt16} {P : Pool} (hc : Plain c)
    (h0 : Steps VecCp.new cp) (h1 : insertConstant c cp = .ok (i, cp')) (h2 : Steps cp' cp'')
    (hP : Agrees P cp''.entries) : IsConstant P i c := by
  have i0 := steps_ok h0 VecCp.inv_new
  have hc' : ConstOk c := by cases c <;> exact hc
  have g := good_constant c hc' cp i cp' i0.1 h1
  have i1 := steps_ok g.1 i0.1
  exact g.2 P (agrees_steps i1.1 h2 hP)

/-- Inserting values keeps the pool reachable by `insert_raw`, so that the theorems above apply to
any mixture of insertions. -/
theorem C24_steps {cp cp' : VecCp} {c : Constant} {i : UInt16} (hc : Plain c)
    (h0 : Steps VecCp.new cp) (h1 : insertConstant c cp = .ok (i, cp')) : Steps VecCp.new cp' := by
  have i0 := steps_ok h0 VecCp.inv_new
  have hc' : ConstOk c := by cases c <;> exact hc
  exact h0.trans (good_constant c hc' cp i cp' i0.1 h1).1

/-- C25. Member references. -/
theorem C25_member {cp cp' cp'' : VecCp} {m : MemberRef} {i : UInt16} {P : Pool}
    (hm : Printable m.descriptor) (h0 : Steps VecCp.new cp) (h1 : insertMember m cp = .ok (i, cp'))
    (h2 : Steps cp' cp'') (hP : Agrees P cp''.entries) :
    P.member i = .ok (some (clearFlag m)) ∧ IsMember P i m := by
  have i0 := steps_ok h0 VecCp.inv_new
  have g := good_member m hm cp i cp' i0.1 h1
  have i1 := steps_ok g.1 i0.1
  have := g.2 P (agrees_steps i1.1 h2 hP)
  rw [← clearFlag_norm]
  exact ⟨member_of this, this⟩

/-- C25. Names and types. -/
theorem C25_nameAndType {cp cp' cp'' : VecCp} {n : Bytes} {t : JType} {i : UInt16} {P : Pool}
    (ht : Printable t) (h0 : Steps VecCp.new cp)
    (h1 : insertNameAndType n (JType.display t) cp = .ok (i, cp'))
    (h2 : Steps cp' cp'') (hP : Agrees P cp''.entries) :
    P.nameAndType i = .ok (some (n, t)) ∧ IsNat P i n t := by
  have i0 := steps_ok h0 VecCp.inv_new
  have g := good_nat n ht cp i cp' i0.1 h1
  have i1 := steps_ok g.1 i0.1
  have := g.2 P (agrees_steps i1.1 h2 hP)
  exact ⟨nat_of this, this⟩

/-- C25. Method handles. -/
theorem C25_methodHandle {cp cp' cp'' : VecCp} {x : MethodHandle} {i : UInt16} {P : Pool}
    (ht : Printable x.member.descriptor) (h0 : Steps VecCp.new cp)
    (h1 : insertMethodHandle x cp = .ok (i, cp'))
    (h2 : Steps cp' cp'') (hP : Agrees P cp''.entries) :
    P.methodHandle i = .ok (some { x with member := clearFlag x.member }) ∧ IsHandle P i x := by
  have i0 := steps_ok h0 VecCp.inv_new
  have g := good_handle x ht cp i cp' i0.1 h1
  have i1 := steps_ok g.1 i0.1
  have := g.2 P (agrees_steps i1.1 h2 hP)
  rw [← clearFlag_norm]
  exact ⟨handle_of this, this⟩

theorem good_indirect (tag : UInt8) (s : Bytes) :
    Good (insertIndirect tag s) (fun P i => IsIndirect tag P i s) := by
  by_cases h7 : tag = 7
  · subst h7; exact fun cp i cp' hi h => ⟨(good_indirect7 s cp i cp' hi h).1, fun P hP =>
      .inl ⟨rfl, (good_indirect7 s cp i cp' hi h).2 P hP⟩⟩
  by_cases h8 : tag = 8
  · subst h8; exact fun cp i cp' hi h => ⟨(good_indirect8 s cp i cp' hi h).1, fun P hP =>
      .inr (.inl ⟨rfl, (good_indirect8 s cp i cp' hi h).2 P hP⟩)⟩
  by_cases h19 : tag = 19
  · subst h19; exact fun cp i cp' hi h => ⟨(good_indirect19 s cp i cp' hi h).1, fun P hP =>
      .inr (.inr (.inl ⟨rfl, (good_indirect19 s cp i cp' hi h).2 P hP⟩))⟩
  by_cases h20 : tag = 20
  · subst h20; exact fun cp i cp' hi h => ⟨(good_indirect20 s cp i cp' hi h).1, fun P hP =>
      .inr (.inr (.inr ⟨rfl, (good_indirect20 s cp i cp' hi h).2 P hP⟩))⟩
  intro cp i cp' hi h
  obtain ⟨j, cp1, h1, h2⟩ := Ins.bind_ok h
  split at h2 <;> first | contradiction | cases h2

/-- C25. Classes, strings, modules and packages: the name is read back from the index with the same
kind of reference, and with no other kind. -/
theorem C25_names {cp cp' cp'' : VecCp} {s : Bytes} {i : UInt16} {tag : UInt8} {P : Pool}
    (h0 : Steps VecCp.new cp) (h1 : insertIndirect tag s cp = .ok (i, cp')) (h2 : Steps cp' cp'')
    (hP : Agrees P cp''.entries) :
    (∀ tag', P.indirect tag' i = if tag' = tag then some s else none) ∧
      (tag = 7 → IsClass P i s) ∧ (tag = 8 → IsString P i s) ∧ (tag = 19 → IsModule P i s) ∧
      (tag = 20 → IsPackage P i s) := by
  have i0 := steps_ok h0 VecCp.inv_new
  have g := good_indirect tag s cp i cp' i0.1 h1
  have i1 := steps_ok g.1 i0.1
  have := g.2 P (agrees_steps i1.1 h2 hP)
  have hu : ∀ {j}, IsUtf8 P j s → Pool.wtf8 P j = some s := fun h => wtf8_of h
  rcases this with ⟨rfl, h⟩ | ⟨rfl, h⟩ | ⟨rfl, h⟩ | ⟨rfl, h⟩ <;>
  · refine ⟨fun tag' => ?_, by simp_all⟩
    obtain ⟨j, h1, h2⟩ := h
    simp only [Pool.indirect, h1, hu h2]

example : ∃ i cp, insertIndirect 20 [0x41] VecCp.new = .ok (i, cp) ∧ i = 2 ∧ cp.entries.length = 2 :=
  ⟨_, _, rfl, rfl, rfl⟩

/-- `java/lang/Object.a ([I)V` as a bootstrap handle. -/
def sampleHandle : MethodHandle :=
  ⟨.invokeStatic, ⟨[0x41], [0x61], .method [.array 1 .int] none, true⟩⟩

theorem printable_ascii {t : JType} (h : IsDescriptor t) {cs : List Nat} (hd : Desc t cs)
    (ha : ∀ c ∈ cs, c < 0x80) : Printable t := by
  refine ⟨h, fun ds hds c hc => ?_⟩
  have h1 := C15_write_text hd
  have h2 := C15_write_text hds
  have : cs = ds := encodeCps_injective cs ds (JType.Desc_isCodePoint hd) (JType.Desc_isCodePoint hds)
    (h1.symm.trans h2)
  subst this
  have := ha c hc
  unfold IsSurrogate
  omega

theorem sampleHandle_ok : Printable sampleHandle.member.descriptor := by
  refine printable_ascii (.void ?_) (.void (.cons (.array .int) .nil)) (by decide)
  intro p hp
  simp only [List.mem_cons, List.not_mem_nil, or_false] at hp
  subst hp
  exact .array (by decide) .int (by intros; simp)

/-- The handle, as a constant, in a pool that already holds its owner's name: seven entries are
needed and the handle gets index 7. -/
example : ∃ cp1 cp2, insertRaw (.utf8 [0x41]) VecCp.new = .ok (1, cp1) ∧
    insertConstant (.methodHandle sampleHandle) cp1 = .ok (7, cp2) ∧ Steps VecCp.new cp1 ∧
    cp2.entries = [.utf8 [0x41], .cls 1, .utf8 [0x61], .utf8 [0x28, 0x5B, 0x49, 0x29, 0x56], .nat 3 4,
      .imethod 2 5, .handle 6 6] := by
  refine ⟨_, ⟨[.utf8 [0x41], .cls 1, .utf8 [0x61], .utf8 [0x28, 0x5B, 0x49, 0x29, 0x56], .nat 3 4,
      .imethod 2 5, .handle 6 6], [(.handle 6 6, 7), (.imethod 2 5, 6), (.nat 3 4, 5),
      (.utf8 [0x28, 0x5B, 0x49, 0x29, 0x56], 4), (.utf8 [0x61], 3), (.cls 1, 2), (.utf8 [0x41], 1)], 8, []⟩,
    rfl, ?_, .raw (e := .utf8 [0x41]) (i := 1) (.refl _) rfl, rfl⟩
  rfl

theorem nodup_snd {refs : List (UInt16 × Nat)} (hn : (refs.map (·.2)).Nodup) {i j : UInt16} {k : Nat}
    (hi : (i, k) ∈ refs) (hj : (j, k) ∈ refs) (h : i ≠ j) : False := by
  induction refs with
  | nil => cases hi
  | cons r refs ih =>
    simp only [List.map_cons, List.nodup_cons, List.mem_map, not_exists, not_and] at hn
    rw [List.mem_cons] at hi hj
    rcases hi with hi | hi <;> rcases hj with hj | hj
    · rw [← hj] at hi; cases hi; exact h rfl
    · subst hi; exact hn.1 _ hj rfl
    · subst hj; exact hn.1 _ hi rfl
    · exact ih hn.2 hi hj

/-! ## C26: bootstrap methods -/

/-- C26. When the table is applied without error, every registered cell is set exactly once, and to
the entry of the table at the index it was registered with. `refs` lists the registered cells with
their indices. (A class file's table has fewer than 65536 entries.) -/
theorem C26_resolved {bsms : List Bsm} {refs : List (UInt16 × Nat)} {set : List (Nat × Bsm)}
    (hl : bsms.length ≤ 65536) (hn : (refs.map (·.2)).Nodup)
    (h : bootstrapMethods bsms refs = .ok set) :
    (set.map (·.1)).Perm (refs.map (·.2)) ∧
    ∀ i k, (i, k) ∈ refs → ∀ b, (k, b) ∈ set → bsms[i.toNat]? = some b := by
  unfold bootstrapMethods at h
  split at h
  · rename_i s hf
    cases h
    obtain ⟨h1, h2, h3⟩ := fillLoop_ok bsms 0 refs set [] hf (by omega)
    simp only [List.map_nil, List.append_nil] at h3
    refine ⟨h3, ?_⟩
    intro i k hik b hb
    obtain ⟨j, hj, _, hg⟩ := h1 k b hb
    have : i = j := by
      have hu := List.pairwise_map.mp hn
      by_cases hij : i = j
      · exact hij
      · exfalso
        exact nodup_snd hn hik hj hij
    subst this
    simpa using hg
  · cases h

/-- C26. The table is refused exactly when a registered index lies outside it. -/
theorem C26_refused {bsms : List Bsm} {refs : List (UInt16 × Nat)} (hl : bsms.length ≤ 65536) :
    (∃ e, bootstrapMethods bsms refs = .error e) ↔ ∃ i k, (i, k) ∈ refs ∧ bsms.length ≤ i.toNat := by
  unfold bootstrapMethods
  generalize hf : fillLoop 0 bsms refs = r
  obtain ⟨set, left⟩ := r
  obtain ⟨_, h2, _⟩ := fillLoop_ok bsms 0 refs set left hf (by omega)
  cases left with
  | nil =>
    simp only [reduceCtorEq, exists_false, false_iff]
    rintro ⟨i, k, h, hle⟩
    have := (h2 i k).mpr ⟨h, by omega⟩
    cases this
  | cons x left =>
    simp only [Except.error.injEq, exists_eq', true_iff]
    have := (h2 x.1 x.2).mp (by simp)
    exact ⟨x.1, x.2, this.1, by omega⟩

/-- Three call sites sharing two bootstrap methods. -/
example : ∃ a b : Bsm, bootstrapMethods [a, b] [(1, 0), (0, 1), (1, 2)] = .ok [(1, a), (0, b), (2, b)] :=
  ⟨⟨sampleHandle, []⟩, ⟨sampleHandle, [.static (.i32 1)]⟩, rfl⟩

/-! ## C49: dynamic constants and call sites -/

/-- The bootstrap method in a filled cell. -/
def Holds (c : Cell) (b : Bsm) : Prop := c = .filled b.handle b.arguments

/-- C49, full statement: the index returned for a dynamic constant (or call site) resolves, after any
further insertions, to its name, its type and the number of its bootstrap method in the table. -/
def C49_full : Prop := ∀ (cp cp' cp'' : VecCp) (d : Dynamic) (i : UInt16) (P : Pool) (ps : List UInt16),
  Printable d.descriptor → Steps VecCp.new cp → insertDynamic d cp = .ok (i, cp') → Steps cp' cp'' →
  Agrees P cp''.entries →
  ∃ k b, (if JType.isMethod d.descriptor then P.invokeDynamic i ps else P.dynamic i ps) =
      .ok (some ⟨.pending k, d.name, d.descriptor⟩, ps ++ [k]) ∧
    Holds d.bsm b ∧ (cp''.bsm)[k.toNat]? = some b

theorem getBsm_holds {d : Dynamic} {b : Bsm} (h : d.getBsm = .ok b) : Holds d.bsm b := by
  unfold Dynamic.getBsm at h
  split at h
  · cases h
  · rename_i h' as e
    cases h
    exact e

/-- C49 as long as there are fewer than 65536 bootstrap methods. -/
theorem C49_dynamic_partial {cp cp' cp'' : VecCp} {d : Dynamic} {i : UInt16} {P : Pool}
    (ps : List UInt16) (hd : Printable d.descriptor) (h0 : Steps VecCp.new cp)
    (h1 : insertDynamic d cp = .ok (i, cp')) (h2 : Steps cp' cp'') (hP : Agrees P cp''.entries)
    (hb : cp.bsm.length < 65536) :
    ∃ k b, (if JType.isMethod d.descriptor then P.invokeDynamic i ps else P.dynamic i ps) =
        .ok (some ⟨.pending k, d.name, d.descriptor⟩, ps ++ [k]) ∧
      Holds d.bsm b ∧ (cp''.bsm)[k.toNat]? = some b ∧ IsDynamic P i k d.name d.descriptor := by
  have i0 := steps_ok h0 VecCp.inv_new
  obtain ⟨b, h3, h4, h5, h6⟩ := insertDynamic_ok hd i0.1 h1
  have i1 := steps_ok h4 i0.1
  have i2 := steps_ok h2 i1.1
  have hdy := h6 P (agrees_steps i1.1 h2 hP)
  refine ⟨_, b, dynamic_of hdy ps, getBsm_holds h3, ?_, hdy⟩
  obtain ⟨t, ht⟩ := h5.trans i2.2.bsm
  rw [← ht, UInt16.toNat_ofNat', Nat.mod_eq_of_lt (by omega)]
  simp

/-- Inserting `n` bootstrap methods. -/
theorem steps_bsm (b : Bsm) (cp : VecCp) (n : Nat) :
    Steps cp { cp with bsm := cp.bsm ++ List.replicate n b } := by
  induction n with
  | zero => simp; exact .refl _
  | succ n ih =>
    refine .bsm (m := b) (i := UInt16.ofNat (cp.bsm ++ List.replicate n b).length) ih ?_
    unfold insertBsm
    rw [List.replicate_succ', List.append_assoc]

/-- A dynamic constant of type `int`. -/
def sampleDynamic : Dynamic := ⟨.filled sampleHandle [.static (.i32 1)], [0x61], .int⟩

theorem sampleDynamic_ok : Printable sampleDynamic.descriptor :=
  printable_ascii (.field .int) .int (by decide)

theorem sampleDynamic_insert (l : List Bsm) :
    ∃ i cp', insertDynamic sampleDynamic { VecCp.new with bsm := l } = .ok (i, cp') := ⟨4, _, rfl⟩

/-- Two bootstrap methods are already there. -/
example : ∃ i cp', insertDynamic sampleDynamic
    { VecCp.new with bsm := [⟨sampleHandle, []⟩, ⟨sampleHandle, []⟩] } = .ok (i, cp') ∧
    Steps VecCp.new { VecCp.new with bsm := [⟨sampleHandle, []⟩, ⟨sampleHandle, []⟩] } := by
  obtain ⟨i, cp', h⟩ := sampleDynamic_insert [⟨sampleHandle, []⟩, ⟨sampleHandle, []⟩]
  exact ⟨i, cp', h, steps_bsm ⟨sampleHandle, []⟩ VecCp.new 2⟩

/-- The 65537th bootstrap method gets the number 0. -/
theorem C49_violated : ¬ C49_full := by
  intro h
  have key : ∀ n, UInt16.ofNat n = 0 → 0 < n → False := by
    intro n hn hpos
    have hs : Steps VecCp.new { VecCp.new with bsm := List.replicate n ⟨sampleHandle, []⟩ } :=
      steps_bsm ⟨sampleHandle, []⟩ VecCp.new n
    obtain ⟨i, cp', hi⟩ := sampleDynamic_insert (List.replicate n ⟨sampleHandle, []⟩)
    obtain ⟨P, hP⟩ := agrees_exists cp'.entries
    obtain ⟨k, b, h1, h2, h3⟩ := h _ cp' cp' sampleDynamic i P [] sampleDynamic_ok hs hi (.refl _) hP
    obtain ⟨b', _, _, h5, h6⟩ := insertDynamic_ok sampleDynamic_ok (steps_ok hs VecCp.inv_new).1 hi
    rw [dynamic_of (h6 P hP) []] at h1
    simp only [List.length_replicate, hn, Except.ok.injEq, Prod.mk.injEq, Option.some.injEq,
      Dynamic.mk.injEq, Cell.pending.injEq, and_true, List.nil_append, List.cons.injEq] at h1
    obtain ⟨t, ht⟩ := h5
    rw [← h1.1, ← ht] at h3
    obtain ⟨m, rfl⟩ : ∃ m, n = m + 1 := ⟨n - 1, by omega⟩
    simp [List.replicate_succ] at h3
    rw [← h3] at h2
    simp [Holds, sampleDynamic] at h2
  exact key 65536 (by decide) (by omega)

end Verif.Props
