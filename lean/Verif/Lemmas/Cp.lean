import Verif.Lemmas.Rw
import Verif.Lemmas.Mutf8Inv
import Verif.Spec.Cp

/-! # Lemmas about the constant pool -/

namespace Verif
open Spec

/-! ## Big-endian bytes -/

theorem u8_write (x : UInt8) : u8.write x = U1 x.toNat := by
  simp [NumCodec.write, u8, toBe, U1]

theorem u16_write (x : UInt16) : u16.write x = U2 x.toNat := by
  simp [NumCodec.write, u16, toBe, U2]

theorem toBe4 (n : Nat) : toBe 4 n = U4 n := by
  simp [toBe, U4, U2, Nat.div_div_eq_div_mul]

theorem toBe8 (n : Nat) : toBe 8 n = U8 n := by
  simp [toBe, U8, U4, U2, Nat.div_div_eq_div_mul]

theorem u32_write (x : UInt32) : u32.write x = U4 x.toNat := toBe4 _
theorem i32_write (x : Int32) : i32.write x = U4 x.toUInt32.toNat := toBe4 _
theorem f32_write (x : F32) : f32.write x = U4 x.bits.toNat := toBe4 _
theorem i64_write (x : Int64) : i64.write x = U8 x.toUInt64.toNat := toBe8 _
theorem f64_write (x : F64) : f64.write x = U8 x.bits.toNat := toBe8 _

/-! ## Reader combinators -/

theorem ReadsTo.bind {α β : Type} {r : Reader α} {f : α → Reader β} {a b : Bytes} {x : α} {y : β}
    (h1 : ReadsTo r a x) (h2 : ReadsTo (f x) b y) : ReadsTo (Reader.bind r f) (a ++ b) y := by
  intro rest
  unfold Reader.bind
  rw [List.append_assoc, h1]
  exact h2 rest

theorem ReadsTo.map {α β : Type} {r : Reader α} {f : α → β} {a : Bytes} {x : α}
    (h1 : ReadsTo r a x) : ReadsTo (r.map f) a (f x) := by
  intro rest
  unfold Reader.map Reader.bind
  rw [h1]
  rfl

theorem ReadsTo.map2 {α β γ : Type} {r : Reader α} {s : Reader β} {f : α → β → γ} {a b : Bytes}
    {x : α} {y : β} (h1 : ReadsTo r a x) (h2 : ReadsTo s b y) :
    ReadsTo (Reader.map2 f r s) (a ++ b) (f x y) := by
  unfold Reader.map2
  refine h1.bind ?_
  have := ReadsTo.map (f := f x) h2
  exact this

theorem readsU1 (x : UInt8) : ReadsTo u8.read (U1 x.toNat) x := by
  rw [← u8_write]; exact NumCodec.reads u8_lawful x

theorem readsU2 (x : UInt16) : ReadsTo u16.read (U2 x.toNat) x := by
  rw [← u16_write]; exact NumCodec.reads u16_lawful x

theorem readsU4 (x : UInt32) : ReadsTo u32.read (U4 x.toNat) x := by
  rw [← u32_write]; exact NumCodec.reads u32_lawful x

theorem readsU2' (n : Nat) (h : n < 65536) : ReadsTo u16.read (U2 n) (UInt16.ofNat n) := by
  have := readsU2 (UInt16.ofNat n)
  rwa [UInt16.toNat_ofNat', Nat.mod_eq_of_lt (by omega)] at this

theorem readsU1' (n : Nat) (h : n < 256) : ReadsTo u8.read (U1 n) (UInt8.ofNat n) := by
  have := readsU1 (UInt8.ofNat n)
  rwa [UInt8.toNat_ofNat', Nat.mod_eq_of_lt (by omega)] at this

theorem readsU4' (n : Nat) (h : n < 4294967296) : ReadsTo u32.read (U4 n) (UInt32.ofNat n) := by
  have := readsU4 (UInt32.ofNat n)
  rwa [UInt32.toNat_ofNat', Nat.mod_eq_of_lt (by omega)] at this

/-! ## Entries -/

theorem size_slots (e : Entry) : e.size.toNat = slots e := by cases e <;> rfl

theorem slots_pos (e : Entry) : 1 ≤ slots e := by cases e <;> simp [slots]

theorem readString_bytes {s : Bytes} {v : List UInt16} (h : HasUtf16 s v)
    (hl : (mutf8 v).length < 65536) : ReadsTo readString (U2 (mutf8 v).length ++ mutf8 v) s := by
  obtain ⟨cs, hv, rfl, rfl⟩ := h
  intro rest
  unfold readString
  rw [List.append_assoc, readsU2' _ hl]
  simp only
  rw [readExact_append _ _ _ (by simp; omega)]
  simp only
  rw [Mutf8.decode_mcp cs hv]

theorem entry_reads {e : Entry} {b : Bytes} (h : EntryBytes e b) : ReadsTo Entry.read b e := by
  unfold Entry.read
  cases h with
  | utf8 h hl =>
    rw [List.append_assoc]
    exact ReadsTo.bind (readsU1' 1 (by decide)) (ReadsTo.map (readString_bytes h hl))
  | int =>
    refine ReadsTo.bind (readsU1' 3 (by decide)) (ReadsTo.map ?_)
    rw [← i32_write]; exact NumCodec.reads i32_lawful _
  | float =>
    refine ReadsTo.bind (readsU1' 4 (by decide)) (ReadsTo.map ?_)
    rw [← f32_write]; exact NumCodec.reads f32_lawful _
  | long =>
    refine ReadsTo.bind (readsU1' 5 (by decide)) (ReadsTo.map ?_)
    rw [← i64_write]; exact NumCodec.reads i64_lawful _
  | double =>
    refine ReadsTo.bind (readsU1' 6 (by decide)) (ReadsTo.map ?_)
    rw [← f64_write]; exact NumCodec.reads f64_lawful _
  | cls => exact ReadsTo.bind (readsU1' 7 (by decide)) (ReadsTo.map (readsU2 _))
  | str => exact ReadsTo.bind (readsU1' 8 (by decide)) (ReadsTo.map (readsU2 _))
  | field =>
    rw [List.append_assoc]
    exact ReadsTo.bind (readsU1' 9 (by decide)) (ReadsTo.map2 (readsU2 _) (readsU2 _))
  | method =>
    rw [List.append_assoc]
    exact ReadsTo.bind (readsU1' 10 (by decide)) (ReadsTo.map2 (readsU2 _) (readsU2 _))
  | imethod =>
    rw [List.append_assoc]
    exact ReadsTo.bind (readsU1' 11 (by decide)) (ReadsTo.map2 (readsU2 _) (readsU2 _))
  | nat =>
    rw [List.append_assoc]
    exact ReadsTo.bind (readsU1' 12 (by decide)) (ReadsTo.map2 (readsU2 _) (readsU2 _))
  | handle =>
    rw [List.append_assoc]
    exact ReadsTo.bind (readsU1' 15 (by decide)) (ReadsTo.map2 (readsU1 _) (readsU2 _))
  | mtype => exact ReadsTo.bind (readsU1' 16 (by decide)) (ReadsTo.map (readsU2 _))
  | dyn =>
    rw [List.append_assoc]
    exact ReadsTo.bind (readsU1' 17 (by decide)) (ReadsTo.map2 (readsU2 _) (readsU2 _))
  | indy =>
    rw [List.append_assoc]
    exact ReadsTo.bind (readsU1' 18 (by decide)) (ReadsTo.map2 (readsU2 _) (readsU2 _))
  | module => exact ReadsTo.bind (readsU1' 19 (by decide)) (ReadsTo.map (readsU2 _))
  | package => exact ReadsTo.bind (readsU1' 20 (by decide)) (ReadsTo.map (readsU2 _))

/-- An entry whose string, if any, fits the format. -/
def EntryOk : Entry → Prop
  | .utf8 s => ∃ v, HasUtf16 s v ∧ (mutf8 v).length < 65536
  | _ => True

theorem entry_write {e : Entry} (h : EntryOk e) : ∃ b, Entry.write e = .ok b ∧ EntryBytes e b := by
  cases e with
  | utf8 s =>
    obtain ⟨v, hv, hl⟩ := h
    refine ⟨_, ?_, EntryBytes.utf8 hv hl⟩
    obtain ⟨cs, h1, rfl, rfl⟩ := hv
    rw [Entry.write, writeString]
    rw [Mutf8.encode_eq cs h1.1]
    simp only [bind, Except.bind, pure, Except.pure, u8_write, u16_write]
    rw [UInt16.toNat_ofNat', Nat.mod_eq_of_lt (by omega), List.append_assoc]
    rfl
  | int i => exact ⟨_, rfl, by rw [u8_write, i32_write]; exact .int⟩
  | float i => exact ⟨_, rfl, by rw [u8_write, f32_write]; exact .float⟩
  | long i => exact ⟨_, rfl, by rw [u8_write, i64_write]; exact .long⟩
  | double i => exact ⟨_, rfl, by rw [u8_write, f64_write]; exact .double⟩
  | cls i => exact ⟨_, rfl, by rw [u8_write, u16_write]; exact .cls⟩
  | str i => exact ⟨_, rfl, by rw [u8_write, u16_write]; exact .str⟩
  | field o n => exact ⟨_, rfl, by rw [u8_write, u16_write, u16_write, ← List.append_assoc]; exact .field⟩
  | method o n => exact ⟨_, rfl, by rw [u8_write, u16_write, u16_write, ← List.append_assoc]; exact .method⟩
  | imethod o n => exact ⟨_, rfl, by rw [u8_write, u16_write, u16_write, ← List.append_assoc]; exact .imethod⟩
  | nat o n => exact ⟨_, rfl, by rw [u8_write, u16_write, u16_write, ← List.append_assoc]; exact .nat⟩
  | handle o n => exact ⟨_, rfl, by rw [u8_write, u8_write, u16_write, ← List.append_assoc]; exact .handle⟩
  | mtype i => exact ⟨_, rfl, by rw [u8_write, u16_write]; exact .mtype⟩
  | dyn o n => exact ⟨_, rfl, by rw [u8_write, u16_write, u16_write, ← List.append_assoc]; exact .dyn⟩
  | indy o n => exact ⟨_, rfl, by rw [u8_write, u16_write, u16_write, ← List.append_assoc]; exact .indy⟩
  | module i => exact ⟨_, rfl, by rw [u8_write, u16_write]; exact .module⟩
  | package i => exact ⟨_, rfl, by rw [u8_write, u16_write]; exact .package⟩

theorem entries_write {es : List Entry} (h : ∀ e ∈ es, EntryOk e) :
    ∃ b, writeAll Entry.write es = .ok b ∧ EntriesBytes es b := by
  induction es with
  | nil => exact ⟨_, rfl, .nil⟩
  | cons e es ih =>
    obtain ⟨b, h1, h2⟩ := entry_write (h e (by simp))
    obtain ⟨bs, h3, h4⟩ := ih (fun x hx => h x (by simp [hx]))
    refine ⟨b ++ bs, ?_, .cons h2 h4⟩
    rw [writeAll, h1, h3]
    rfl

/-! ## Numbering -/

theorem slotsAll_append (a b : List Entry) : slotsAll (a ++ b) = slotsAll a + slotsAll b := by
  simp [slotsAll]

theorem slotsAll_cons (e : Entry) (b : List Entry) : slotsAll (e :: b) = slots e + slotsAll b := by
  simp [slotsAll]

theorem slotsAll_nil : slotsAll [] = 0 := rfl

theorem Spec.At.append {es : List Entry} {i : Nat} {e : Entry} (h : At es i e) (new : List Entry) :
    At (es ++ new) i e := by
  obtain ⟨pre, suf, rfl, rfl⟩ := h
  exact ⟨pre, suf ++ new, by simp, rfl⟩

theorem Spec.At.last (es : List Entry) (e : Entry) : At (es ++ [e]) (1 + slotsAll es) e :=
  ⟨es, [], rfl, rfl⟩

theorem Spec.At.bounds {es : List Entry} {i : Nat} {e : Entry} (h : At es i e) :
    1 ≤ i ∧ i + slots e ≤ 1 + slotsAll es := by
  obtain ⟨pre, suf, rfl, rfl⟩ := h
  rw [slotsAll_append, slotsAll_cons]
  omega

theorem Spec.At.not_nil {i : Nat} {e : Entry} : ¬ At [] i e := by
  rintro ⟨pre, suf, h, _⟩
  simp at h

theorem Spec.At.snoc_iff {es : List Entry} {e x : Entry} {i : Nat} :
    At (es ++ [e]) i x ↔ At es i x ∨ (i = 1 + slotsAll es ∧ x = e) := by
  constructor
  · rintro ⟨pre, suf, h, rfl⟩
    rcases List.eq_nil_or_concat suf with rfl | ⟨s, l, rfl⟩
    · obtain ⟨rfl, h2⟩ := List.append_inj' h (by simp)
      simp only [List.cons.injEq, and_true] at h2
      exact .inr ⟨rfl, h2.symm⟩
    · simp only [List.concat_eq_append, ← List.cons_append, ← List.append_assoc] at h
      obtain ⟨rfl, h2⟩ := List.append_inj' h (by simp)
      exact .inl ⟨pre, s, rfl, rfl⟩
  · rintro (h | ⟨rfl, rfl⟩)
    · exact h.append _
    · exact At.last _ _

/-- Two entries of a pool are the same position or disjoint. -/
theorem Spec.At.disjoint {es : List Entry} {i j : Nat} {e f : Entry} (h1 : At es i e) (h2 : At es j f) :
    (i = j ∧ e = f) ∨ i + slots e ≤ j ∨ j + slots f ≤ i := by
  obtain ⟨p, s, rfl, rfl⟩ := h1
  obtain ⟨q, t, h, rfl⟩ := h2
  rcases List.append_eq_append_iff.mp h with ⟨a, rfl, h'⟩ | ⟨a, rfl, h'⟩
  · cases a with
    | nil => simp at h'; exact .inl ⟨by simp, h'.1⟩
    | cons x a =>
      simp at h'
      refine .inr (.inl ?_)
      rw [slotsAll_append, slotsAll_cons, h'.1]; omega
  · cases a with
    | nil => simp at h'; exact .inl ⟨by simp, h'.1.symm⟩
    | cons x a =>
      simp at h'
      refine .inr (.inr ?_)
      rw [slotsAll_append, slotsAll_cons, h'.1]; omega

theorem Spec.At.functional {es : List Entry} {i : Nat} {e f : Entry} (h1 : At es i e) (h2 : At es i f) :
    e = f := by
  have p1 := slots_pos e
  have p2 := slots_pos f
  rcases h1.disjoint h2 with h | h | h
  · exact h.2
  · omega
  · omega

theorem Spec.At.mem {es : List Entry} {i : Nat} {e : Entry} (h : At es i e) : e ∈ es := by
  obtain ⟨p, s, rfl, rfl⟩ := h
  simp

theorem Spec.At.of_mem {es : List Entry} {e : Entry} (h : e ∈ es) : ∃ i, At es i e := by
  obtain ⟨p, s, rfl⟩ := List.append_of_mem h
  exact ⟨_, p, s, rfl, rfl⟩

/-! ## Reading a pool -/

/-- The association list `acc` is the pool with entries `es`. -/
def IsMap (acc : List (UInt16 × Entry)) (es : List Entry) : Prop :=
  ∀ (j : UInt16) x, acc.lookup j = some x ↔ At es j.toNat x

theorem IsMap.snoc {acc : List (UInt16 × Entry)} {pre : List Entry} {i : UInt16} (e : Entry)
    (h : IsMap acc pre) (hi : i.toNat = 1 + slotsAll pre) : IsMap ((i, e) :: acc) (pre ++ [e]) := by
  intro j x
  rw [At.snoc_iff, List.lookup_cons]
  by_cases hj : j = i
  · subst hj
    simp only [beq_self_eq_true]
    constructor
    · intro h'; cases h'; exact .inr ⟨hi, rfl⟩
    · rintro (h' | ⟨_, rfl⟩)
      · have h1 := h'.bounds
        have h2 := slots_pos x
        omega
      · rfl
  · have hb : (j == i) = false := by simpa using hj
    rw [hb]
    simp only
    rw [h j x]
    constructor
    · exact .inl
    · rintro (h' | ⟨h1, _⟩)
      · exact h'
      · exact absurd (UInt16.toNat_inj.mp (h1.trans hi.symm)) hj

theorem readLoop_write {es : List Entry} {body : Bytes} (h : EntriesBytes es body) :
    ∀ (count i : UInt16) (acc : List (UInt16 × Entry)) (pre : List Entry),
      i.toNat = 1 + slotsAll pre → count.toNat = i.toNat + slotsAll es → IsMap acc pre →
      ∃ m : MapCp, IsMap m.entries (pre ++ es) ∧
        ∀ rest, MapCp.readLoop count i acc (body ++ rest) = .ok (m, rest) := by
  induction h with
  | nil =>
    intro count i acc pre hi hc hm
    refine ⟨⟨acc⟩, by simpa using hm, fun rest => ?_⟩
    rw [MapCp.readLoop, if_neg]
    · rfl
    · rw [UInt16.lt_iff_toNat_lt]; simp [slotsAll] at hc; omega
  | @cons e es b bs he _ ih =>
    intro count i acc pre hi hc hm
    rw [slotsAll_cons] at hc
    have hp := slots_pos e
    have hcl := count.toNat_lt
    have hs := size_slots e
    have hadd : (i + e.size).toNat = i.toNat + slots e := by
      rw [UInt16.toNat_add, Nat.mod_eq_of_lt (by omega), hs]
    obtain ⟨m, h1, h2⟩ := ih count (i + e.size) ((i, e) :: acc) (pre ++ [e])
      (by rw [hadd, slotsAll_append, slotsAll_cons, slotsAll_nil]; omega) (by omega) (hm.snoc e hi)
    refine ⟨m, by simpa using h1, fun rest => ?_⟩
    rw [MapCp.readLoop, if_pos (by rw [UInt16.lt_iff_toNat_lt]; omega), List.append_assoc,
      entry_reads he]
    simp only
    rw [if_pos (by omega), h2]

theorem isMap_nil : IsMap [] [] := by
  intro j x
  simp [At.not_nil]

theorem mapCp_read {es : List Entry} {bs : Bytes} (h : PoolBytes es bs) :
    ∃ m : MapCp, IsMap m.entries es ∧ ReadsTo MapCp.read bs m := by
  obtain ⟨body, h1, h2, rfl⟩ := h
  obtain ⟨m, h3, h4⟩ := readLoop_write h1 (UInt16.ofNat (1 + slotsAll es)) 1 [] [] rfl
    (by rw [UInt16.toNat_ofNat', Nat.mod_eq_of_lt (by omega)]; rfl) isMap_nil
  exact ⟨m, by simpa using h3, ReadsTo.bind (readsU2' _ h2) h4⟩

/-- What a successful run of the loop has read. -/
theorem readLoop_ok (count : UInt16) : ∀ (n : Nat) (i : UInt16) (acc : List (UInt16 × Entry))
    (pre : List Entry) (bs rest : Bytes) (m : MapCp), 65536 - i.toNat ≤ n →
    i.toNat = 1 + slotsAll pre → IsMap acc pre →
    MapCp.readLoop count i acc bs = .ok (m, rest) →
    ∃ es, IsMap m.entries (pre ++ es) ∧ count.toNat ≤ 1 + slotsAll (pre ++ es) ∧
      Reader.replicate es.length Entry.read bs = .ok (es, rest) ∧
      (∀ j x, At (pre ++ es) j x → At pre j x ∨ j < count.toNat) := by
  intro n
  induction n with
  | zero => intro i _ _ _ _ _ h; have := i.toNat_lt; omega
  | succ n ih =>
    intro i acc pre bs rest m hn hi hm h
    rw [MapCp.readLoop] at h
    split at h
    · rename_i hlt
      rw [UInt16.lt_iff_toNat_lt] at hlt
      split at h
      · rename_i e r he
        split at h
        · rename_i hs
          have hp := slots_pos e
          have hss := size_slots e
          have hadd : (i + e.size).toNat = i.toNat + slots e := by
            rw [UInt16.toNat_add, Nat.mod_eq_of_lt (by omega), hss]
          obtain ⟨es, h1, h2, h3, h4⟩ := ih (i + e.size) ((i, e) :: acc) (pre ++ [e]) r rest m
            (by omega) (by rw [hadd, slotsAll_append, slotsAll_cons, slotsAll_nil]; omega)
            (hm.snoc e hi) h
          refine ⟨e :: es, by simpa using h1, by simpa using h2, ?_, ?_⟩
          · rw [List.length_cons, Reader.replicate]
            unfold Reader.bind
            rw [he]
            simp only
            rw [h3]
            rfl
          · intro j x hj
            rw [← List.singleton_append, ← List.append_assoc] at hj
            rcases h4 j x hj with h5 | h5
            · rw [At.snoc_iff] at h5
              rcases h5 with h5 | ⟨h5, _⟩
              · exact .inl h5
              · exact .inr (by omega)
            · exact .inr h5
        · cases h
      · cases h
    · rename_i hlt
      rw [UInt16.lt_iff_toNat_lt] at hlt
      cases h
      refine ⟨[], by simpa using hm, by simp; omega, rfl, ?_⟩
      intro j x hj
      simp only [List.append_nil] at hj
      exact .inl hj

end Verif
