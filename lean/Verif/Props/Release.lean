import Verif.Lemmas.Release
import Verif.Props.Growth
import Verif.Props.Cp

/-! # Builds with and without overflow checks: C89 -/

namespace Verif.Props
open Spec Verif.Wtf8 Verif.JType

/-! ## C89 -/

/-- Full claim: what the library does does not depend on whether the build checks for overflow. Descriptors are parsed
alike, constant pools are read alike, constants get the same indices, and classes that were read are written alike. -/
def C89_full : Prop :=
  (∀ s, WellFormed s → parseTypeW s = parseType s) ∧
  (∀ bs, MapCp.readW bs = MapCp.read bs) ∧
  (∀ es, insertAll es VecCp.new = .ok (insertAllW es VecCp.new)) ∧
  ∀ (ord : Order) (input rest : Bytes) (x : Class), (∀ k n l, (ord k n l).Perm l) → Class.read ord input = .ok (x, rest) →
    ∃ n, ∀ fuel, n ≤ fuel → x.rewriteW fuel = x.rewrite fuel

/-! ### Descriptors -/

/-- Proved: a descriptor is parsed alike exactly if the build with checks does not panic; and without checks the
parser always answers, with a type or with an error. -/
theorem C89_types_partial (s : Bytes) (h : WellFormed s) :
    (parseTypeW s = parseType s ↔ parseType s ≠ .error .panic) ∧ ((∃ t, parseTypeW s = .ok t) ∨ parseTypeW s = .error .invalid) := by
  have h1 : (∃ t, parseTypeW s = .ok t) ∨ parseTypeW s = .error .invalid := by
    obtain ⟨cs, hv, rfl⟩ := h
    rw [parseTypeW, codepoints_encode cs hv.1]
    simp only
    rcases getTypeW_total (2 * cs.length + 2) cs (by omega) with h | ⟨t, rest, h, _⟩
    · rw [h]
      exact .inr rfl
    · rw [h]
      exact .inl ⟨t, rfl⟩
  refine ⟨⟨fun e he => ?_, parseTypeW_eq⟩, h1⟩
  rw [he] at e
  rw [e] at h1
  rcases h1 with ⟨t, h1⟩ | h1 <;> cases h1

theorem desc_head {t : JType} {cs : List Nat} (h : Desc t cs) (ha : ∀ d u, t ≠ .array d u) : ∃ c cs', cs = c :: cs' ∧ c ≠ 0x5B := by
  cases h with
  | array h => exact absurd rfl (ha _ _)
  | _ => exact ⟨_, _, rfl, by decide⟩

/-- Proved: without checks the number of brackets is taken modulo 256. -/
theorem C89_brackets_partial (t : JType) (h : IsDescriptor t) (ha : ∀ d u, t ≠ .array d u) (k : Nat) :
    parseTypeW (List.replicate (k + 1) 0x5B ++ toWtf8 t) = .ok (.array (UInt8.ofNat (k + 1)) t) := by
  obtain ⟨cs, hd⟩ := C15_text_exists h
  obtain ⟨c, cs', rfl, hc⟩ := desc_head hd ha
  have e : List.replicate (k + 1) (0x5B : UInt8) = encodeCps (List.replicate (k + 1) 0x5B) := by
    rw [encodeCps_replicate _ _ (by omega)]; rfl
  rw [C15_write_text hd, e, ← encodeCps_append, parseTypeW, codepoints_encode _ fun x hx => by
    rcases List.mem_append.mp hx with hx | hx
    · rw [(List.mem_replicate.mp hx).2]
      decide
    · exact Desc_isCodePoint hd x hx]
  simp only
  rw [List.replicate_succ, List.cons_append, getTypeW]
  simp only [Nat.reduceEqDiff, reduceIte]
  rw [countBrackets_replicate k c cs' hc]
  obtain ⟨rest, hg⟩ := getType_descriptor h hd (2 * (0x5B :: (List.replicate k 0x5B ++ c :: cs')).length + 1) (by simp; omega)
  simp only
  rw [getTypeW_eq _ _ (by rw [hg]; exact fun h => nomatch h), hg, Nat.add_comm 1 k]

/-- So the arrays of 256, 512, ... dimensions are all parsed as arrays without dimensions, which are written like
their elements. With checks the parser panics. -/
theorem C89_array_lost (t : JType) (h : IsDescriptor t) (ha : ∀ d u, t ≠ .array d u) (k : Nat) :
    parseTypeW (List.replicate (256 * (k + 1)) 0x5B ++ toWtf8 t) = .ok (.array 0 t) ∧ toWtf8 (.array 0 t) = toWtf8 t ∧
      parseType (List.replicate (256 * (k + 1)) 0x5B ++ toWtf8 t) = .error .panic := by
  refine ⟨?_, rfl, ?_⟩
  · have := C89_brackets_partial t h ha (256 * (k + 1) - 1)
    rw [show 256 * (k + 1) - 1 + 1 = 256 * (k + 1) by omega] at this
    rw [this, show UInt8.ofNat (256 * (k + 1)) = 0 from UInt8.toNat_inj.mp (by simp)]
  · obtain ⟨cs, hd⟩ := C15_text_exists h
    rw [C15_write_text hd]
    exact C16_overflow _ _ (by omega) (Desc_isCodePoint hd)

example : parseTypeW (List.replicate 256 0x5B ++ toWtf8 .int) = .ok (.array 0 .int) :=
  (C89_array_lost .int (.field .int) nofun 0).1

/-! ### Reading a constant pool -/

/-- Proved: a pool is read alike exactly if the build with checks does not panic; without checks there is no panic, no
undefined behaviour, and the loop ends. -/
theorem C89_read_partial (bs : Bytes) :
    (MapCp.readW bs = MapCp.read bs ↔ MapCp.read bs ≠ .error .panic) ∧
    ∀ e, MapCp.readW bs = .error e → e ≠ .panic ∧ e ≠ .ub ∧ e ≠ .diverge := by
  have h2 : ∀ e, MapCp.readW bs = .error e → e ≠ .panic ∧ e ≠ .ub ∧ e ≠ .diverge := by
    intro e h
    have hc : Calm False e := by
      unfold MapCp.readW Reader.bind at h
      split at h
      · exact readLoopW_calm _ (Nat.lt_succ_self _) e h
      · rename_i hu
        cases h
        have := plain_num u16 bs
        rw [hu] at this
        exact this
    exact ⟨fun h => hc.2.2 h, hc.1.1, hc.2.1⟩
  refine ⟨⟨fun e he => ?_, fun h => ?_⟩, h2⟩
  · rw [he] at e
    exact (h2 _ e).1 rfl
  · unfold MapCp.read Reader.bind at h ⊢
    unfold MapCp.readW Reader.bind
    rcases hu : u16.read bs with e | ⟨count, tail⟩
    · rfl
    · rw [hu] at h
      exact readLoopW_eq _ (Nat.lt_succ_self _) h

theorem readLoopW_cls (count : UInt16) (tail : Bytes) (c : UInt8) (fuel : Nat) : ∀ (n : Nat) (i : UInt16) (acc : List (UInt16 × Entry)),
    i.toNat + n ≤ count.toNat → ∃ acc' : List (UInt16 × Entry),
      MapCp.readLoopW count (fuel + n) i acc ((List.replicate n [7, 0, c]).flatten ++ tail) =
        MapCp.readLoopW count fuel (i + UInt16.ofNat n) acc' tail ∧
      (∀ j : UInt16, i.toNat ≤ j.toNat → j.toNat < i.toNat + n → acc'.lookup j = some (.cls c.toUInt16)) ∧
      ∀ j : UInt16, j.toNat < i.toNat → acc'.lookup j = acc.lookup j
  | 0, i, acc, _ => ⟨acc, by simp, fun j h1 h2 => by omega, fun j _ => rfl⟩
  | n + 1, i, acc, h => by
    have hc := count.toNat_lt
    have h1 : (i + 1).toNat = i.toNat + 1 := by
      rw [UInt16.toNat_add, Nat.mod_eq_of_lt (by simp; omega)]; rfl
    obtain ⟨acc', e, e1, e2⟩ := readLoopW_cls count tail c fuel n (i + 1) ((i, .cls c.toUInt16) :: acc) (by omega)
    have hr : ReadsTo Entry.read [7, 0, c] (.cls c.toUInt16) := by
      have := entry_reads (@EntryBytes.cls c.toUInt16)
      have he : U1 7 ++ U2 c.toUInt16.toNat = [7, 0, c] := by
        have := c.toNat_lt
        simp only [U1, U2, UInt8.toNat_toUInt16, List.cons_append, List.nil_append, List.cons.injEq, and_true]
        refine ⟨rfl, ?_, ?_⟩ <;> apply UInt8.toNat_inj.mp <;> simp <;> omega
      rwa [he] at this
    refine ⟨acc', ?_, fun j h3 h4 => ?_, fun j h3 => ?_⟩
    · rw [show fuel + (n + 1) = fuel + n + 1 from rfl, MapCp.readLoopW, if_pos (by rw [UInt16.lt_iff_toNat_lt]; omega),
        List.replicate_succ, List.flatten_cons, List.append_assoc, hr]
      refine e.trans ?_
      congr 1
      rw [← UInt16.toNat_inj]
      simp [UInt16.toNat_add]
      omega
    · by_cases hj : j = i
      · subst hj
        rw [e2 j (by omega), List.lookup_cons, beq_self_eq_true]
      · exact e1 j (by have : j.toNat ≠ i.toNat := fun h => hj (UInt16.toNat_inj.mp h); omega) (by omega)
    · rw [e2 j (by omega), List.lookup_cons]
      have : (j == i) = false := beq_eq_false_iff_ne.mpr fun h => by rw [h] at h3; omega
      rw [this]

/-- A pool of `n` constants and a long, followed by `n + 2` other constants. -/
def wrapFile (n : Nat) : Bytes := U2 (n + 2) ++ ((List.replicate n [7, 0, 1]).flatten ++
  ([5, 0, 0, 0, 0, 0, 0, 0, 0] ++ ((List.replicate (n + 2) [7, 0, 2]).flatten ++ [])))

theorem wrapFile_read (n : Nat) (hn : n + 3 = 65536) : MapCp.read (wrapFile n) = .error .panic ∧
    ∃ m, MapCp.readW (wrapFile n) = .ok (m, []) ∧ ∀ j : UInt16, j.toNat < n + 2 → m.get j = some (.cls 2) := by
  have hc : (UInt16.ofNat (n + 2)).toNat = n + 2 := by
    rw [UInt16.toNat_ofNat', Nat.mod_eq_of_lt (by omega)]
  have hi : (1 + UInt16.ofNat n).toNat = n + 1 := by
    rw [UInt16.toNat_add, UInt16.toNat_ofNat', Nat.mod_eq_of_lt (a := n) (by omega), Nat.mod_eq_of_lt]
    · simp; omega
    · simp; omega
  have hone : (1 : UInt16).toNat = 1 := rfl
  have hl : ReadsTo Entry.read [5, 0, 0, 0, 0, 0, 0, 0, 0] (.long 0) := entry_reads (@EntryBytes.long 0)
  have h2 : (Entry.long 0).size.toNat = 2 := rfl
  constructor
  · obtain ⟨acc, he⟩ := readLoop_cls (UInt16.ofNat (n + 2))
      ([5, 0, 0, 0, 0, 0, 0, 0, 0] ++ ((List.replicate (n + 2) [7, 0, 2]).flatten ++ [])) n 1 [] (by omega)
    unfold MapCp.read Reader.bind wrapFile
    rw [readsU2' (n + 2) (by omega)]
    simp only
    rw [he, MapCp.readLoop, if_pos (by rw [UInt16.lt_iff_toNat_lt]; omega), hl]
    simp only
    rw [if_neg (by omega)]
  · generalize htl : ([5, 0, 0, 0, 0, 0, 0, 0, 0] ++ ((List.replicate (n + 2) [7, 0, 2]).flatten ++ []) : Bytes) = tail
    have hlen : tail.length = 9 + 3 * (n + 2) := by
      rw [← htl]
      simp
      omega
    obtain ⟨acc, he, _, _⟩ := readLoopW_cls (UInt16.ofNat (n + 2)) tail 1 (2 * n + 9 + 3 * (n + 2) + 1) n 1 [] (by omega)
    obtain ⟨acc', he', hm, _⟩ := readLoopW_cls (UInt16.ofNat (n + 2)) [] 2 (2 * n + 9 + 2 * (n + 2)) (n + 2) 0
      ((1 + UInt16.ofNat n, .long 0) :: acc) (by rw [hc]; simp)
    refine ⟨⟨acc'⟩, ?_, fun j hj => hm j (Nat.zero_le _) (by show j.toNat < 0 + (n + 2); omega)⟩
    unfold MapCp.readW Reader.bind wrapFile
    rw [readsU2' (n + 2) (by omega), htl]
    simp only
    rw [show ((List.replicate n [7, 0, 1]).flatten ++ tail : Bytes).length + 1 = 2 * n + 9 + 3 * (n + 2) + 1 + n by
      rw [List.length_append, hlen]
      simp
      omega]
    rw [he, MapCp.readLoopW, if_pos (by rw [UInt16.lt_iff_toNat_lt]; omega), ← htl, hl]
    simp only
    rw [show 1 + UInt16.ofNat n + (Entry.long 0).size = 0 from UInt16.toNat_inj.mp (by
      rw [UInt16.toNat_add, hi, h2]
      simp
      omega)]
    rw [show 2 * n + 9 + 3 * (n + 2) = 2 * n + 9 + 2 * (n + 2) + (n + 2) by omega, he']
    rw [show 2 * n + 9 + 2 * (n + 2) = 2 * n + 8 + 2 * (n + 2) + 1 by omega, MapCp.readLoopW, if_neg (by
      rw [UInt16.lt_iff_toNat_lt, UInt16.toNat_add, hc]
      simp
      omega)]

/-- So without checks a pool can be read that has more entries than its count says, in which the later ones replace the
first ones, and in which index 0 has an entry. -/
theorem C89_overwritten : ∃ bs m, MapCp.read bs = .error .panic ∧ MapCp.readW bs = .ok (m, []) ∧
    Entry.read (bs.drop 2) = .ok (.cls 1, bs.drop 5) ∧ m.get 1 = some (.cls 2) ∧ m.get 0 = some (.cls 2) := by
  obtain ⟨h1, m, h2, h3⟩ := wrapFile_read 65533 (by decide)
  have hr : ReadsTo Entry.read [7, 0, 1] (.cls 1) := entry_reads (@EntryBytes.cls 1)
  refine ⟨_, m, h1, h2, ?_, h3 1 (by decide), h3 0 (by decide)⟩
  have e : ∀ n, (wrapFile (n + 1)).drop 2 = [7, 0, 1] ++ (wrapFile (n + 1)).drop 5 := fun n => rfl
  rw [e 65532]
  exact hr _

/-! ### The constant pool -/

/-- Proved: constants are inserted alike exactly if the build with checks does not panic. For different constants that
is when they fit, with the number of entries written in the file still a 16-bit number. -/
theorem C89_pool_partial (es : List Entry) :
    (insertAll es VecCp.new = .ok (insertAllW es VecCp.new) ↔ insertAll es VecCp.new ≠ .error .panic) ∧
    (es.Nodup → (insertAll es VecCp.new ≠ .error .panic ↔ 1 + slotsAll es < 65536)) := by
  have h := insertAll_cases es VecCp.new
  refine ⟨⟨fun e he => ?_, fun hn => h.resolve_right hn⟩, fun hd => ?_⟩
  · rw [he] at e
    cases e
  · have hf := insertAll_fits es VecCp.new hd fun _ _ => rfl
    rw [show 1 + slotsAll es = VecCp.new.len.toNat + slotsAll es from rfl, ← hf]
    constructor
    · exact fun hn => ⟨_, h.resolve_right hn⟩
    · rintro ⟨r, hr⟩ e
      rw [hr] at e
      cases e

/-- Proved: without checks the index of a constant is its place modulo 65536, and so is the number of entries that is
written before them. -/
theorem C89_indices_partial (es : List Entry) (h : es.Nodup) :
    (insertAllW es VecCp.new).1 = (List.range es.length).map (fun n => UInt16.ofNat (1 + slotsAll (es.take n))) ∧
    (insertAllW es VecCp.new).2.len = UInt16.ofNat (1 + slotsAll es) ∧ (insertAllW es VecCp.new).2.entries = es := by
  obtain ⟨h1, h2, h3⟩ := insertAllW_indices es VecCp.new h fun _ _ => rfl
  have e : ∀ n : Nat, VecCp.new.len + UInt16.ofNat n = UInt16.ofNat (1 + n) := fun n =>
    UInt16.toNat_inj.mp (by simp [VecCp.new])
  refine ⟨?_, ?_, by rw [h3]; rfl⟩
  · rw [h1]
    exact List.map_congr_left fun n _ => e _
  · rw [h2, e]

/-- So if there are more than 65536 different constants then two of them get the same index. -/
theorem C89_shared_index (es : List Entry) (h : es.Nodup) (hl : 65536 < es.length) :
    ∃ (i j : Nat) (a b : Entry) (k : UInt16), es[i]? = some a ∧ es[j]? = some b ∧ a ≠ b ∧
      (insertAllW es VecCp.new).1[i]? = some k ∧ (insertAllW es VecCp.new).1[j]? = some k := by
  have hi := (C89_indices_partial es h).1
  have hlen : (insertAllW es VecCp.new).1.length = es.length := by rw [hi, List.length_map, List.length_range]
  have hn : ¬ (insertAllW es VecCp.new).1.Nodup := by
    intro hn
    have := nodup_below 65536 ((insertAllW es VecCp.new).1.map UInt16.toNat) (by
      rw [List.Nodup, List.pairwise_map]
      exact hn.imp fun hne e => hne (UInt16.toNat_inj.mp e)) (fun x hx => by
        obtain ⟨k, _, rfl⟩ := List.mem_map.mp hx
        exact k.toNat_lt)
    rw [List.length_map, hlen] at this
    omega
  apply Classical.byContradiction
  intro hc
  refine hn (List.pairwise_iff_getElem.mpr fun i j hi hj hij e => hc ?_)
  refine ⟨i, j, es[i]'(by omega), es[j]'(by omega), (insertAllW es VecCp.new).1[i], List.getElem?_eq_getElem _,
    List.getElem?_eq_getElem _, ?_, List.getElem?_eq_getElem _, ?_⟩
  · exact List.pairwise_iff_getElem.mp h i j (by omega) (by omega) hij
  · rw [e]
    exact List.getElem?_eq_getElem _

/-- The constants 0, 1, 2, ... -/
def intEntries (n : Nat) : List Entry := (List.range n).map fun k => .int (Int32.ofNat k)

theorem intEntries_nodup {n : Nat} (h : n ≤ 2 ^ 31) : (intEntries n).Nodup := by
  rw [intEntries, List.Nodup, List.pairwise_map]
  refine List.Pairwise.imp_of_mem (fun {a b} ha hb hab e => ?_) List.nodup_range
  injection e with e
  have := congrArg Int32.toInt e
  rw [Int32.toInt_ofNat_of_lt (by have := List.mem_range.mp ha; omega),
    Int32.toInt_ofNat_of_lt (by have := List.mem_range.mp hb; omega)] at this
  exact hab (by omega)

theorem intEntries_length (n : Nat) : (intEntries n).length = n := by rw [intEntries, List.length_map, List.length_range]

theorem intEntries_slots (n : Nat) : slotsAll (intEntries n) = n := by
  have : ∀ l : List Nat, slotsAll (l.map fun k => .int (Int32.ofNat k)) = l.length := by
    intro l
    induction l with
    | nil => rfl
    | cons a l ih =>
      rw [List.length_cons, ← ih]
      show 1 + slotsAll _ = _
      omega
  rw [intEntries, this, List.length_range]

/-- 65535 constants: the number of entries is written as 0. -/
example : (insertAllW (intEntries 65535) VecCp.new).2.len = 0 := by
  rw [(C89_indices_partial _ (intEntries_nodup (by decide))).2.1, intEntries_slots]
  rfl

example : ∃ (i j : Nat) (a b : Entry) (k : UInt16), (intEntries 65537)[i]? = some a ∧ (intEntries 65537)[j]? = some b ∧ a ≠ b ∧
    (insertAllW (intEntries 65537) VecCp.new).1[i]? = some k ∧ (insertAllW (intEntries 65537) VecCp.new).1[j]? = some k :=
  C89_shared_index _ (intEntries_nodup (by decide)) (by rw [intEntries_length]; decide)

/-! ### Bootstrap methods -/

/-- Proved: what the build with checks writes the other writes too. -/
theorem C89_agree_partial (x : Class) (fuel : Nat) (out : Bytes) (h : x.rewrite fuel = .ok out) : x.rewriteW fuel = .ok out :=
  rewriteW_eq h

/-- Proved, for every class that was read: if the table of bootstrap methods is not circular then writing ends without
checks, too; if it is circular nothing is written. -/
theorem C89_ends_partial (ord : Order) (hord : ∀ k n l, (ord k n l).Perm l) (input rest : Bytes) (x : Class)
    (h : Class.read ord input = .ok (x, rest)) :
    (¬ Circular (bsmTable x.attrs) → ∀ fuel, (bsmTable x.attrs).length + 2 ≤ fuel → x.rewriteW fuel ≠ .error .diverge) ∧
    (Circular (bsmTable x.attrs) → ∀ fuel out, x.rewriteW fuel ≠ .ok out) := by
  have hx := read_shared (fun k n l v hv => (hord k n l).mem_iff.mp hv) h
  exact ⟨fun hT fuel hf => rewriteW_ends hx hT hf, fun hT fuel out => rewriteW_circular hx hT fuel out⟩

/-- One round of the loop. -/
def roundOf (T : List Bsm) (cp : VecCp) : Res (Bytes × VecCp) := wAll (fun b => (b.look T).write) cp.bsm { cp with bsm := [] }

theorem stuck_batches {T : List Bsm} {cp : VecCp} {bs : Bytes} (h : roundOf T cp = .ok (bs, cp)) (hb : cp.bsm.length ≠ 0) :
    ∀ (fuel : Nat) (i : UInt16), writeBatchesInW T fuel i cp = .error .diverge
  | 0, _ => rfl
  | fuel + 1, i => by
    rw [writeBatchesInW, if_neg hb]
    unfold roundOf at h
    rw [h]
    simp only [stuck_batches h hb fuel]

/-- A bootstrap method with an argument made with itself. -/
def loopBsm : Bsm := ⟨⟨.invokeStatic, ⟨[0x41], [0x41], .method [] none, false⟩⟩, [.dynamic (.pending 0) [0x41] .int]⟩
def loopTable : List Bsm := [loopBsm, ⟨⟨.invokeStatic, ⟨[0x41], [0x41], .method [] none, false⟩⟩, []⟩]
/-- A class with that table. -/
def loopSite : Class := ⟨⟨0, .j8⟩, ⟨0x21⟩, [0x41], none, [], [],
  [⟨⟨1⟩, [0x41], .method [] none, [.code ⟨0, 0, [.invokeDynamic ⟨.pending 0, [0x41], .method [] none⟩, .return none], [], []⟩]⟩],
  [.bootstrapMethods loopTable]⟩

set_option maxRecDepth 100000 in
theorem loopSite_read : Class.read (fun _ _ l => l) (tableFile [0, 11] []) = .ok (loopSite, []) := by
  with_unfolding_all rfl

/-- The pool after a step. -/
def poolAfter (r : Res (Bytes × VecCp)) : VecCp := match r with
  | .ok (_, cp) => cp
  | .error _ => VecCp.new

theorem poolAfter_ok {r : Res (Bytes × VecCp)} (h : r.isOk = true) : ∃ bs, r = .ok (bs, poolAfter r) := by
  rcases r with e | ⟨a, b⟩
  · cases h
  · exact ⟨a, rfl⟩

def loopWritten : Res (Bytes × VecCp) := (loopSite.look loopTable).writeBody { VecCp.new with bsm := ownBsms loopSite.attrs }
/-- The pool when the body of the class was written, after the first round, and after the second. -/
def loopPool : VecCp := poolAfter loopWritten
def loopNext : VecCp := poolAfter (roundOf loopTable loopPool)
def loopLast : VecCp := poolAfter (roundOf loopTable loopNext)

set_option maxRecDepth 100000 in
theorem loopPool_bsm : loopPool.bsm = loopTable ++ [loopBsm] := by with_unfolding_all rfl

theorem loopWritten_ok : ∃ bs, loopWritten = .ok (bs, loopPool) := poolAfter_ok (by decide +kernel)

theorem loopNext_ok : ∃ bs, roundOf loopTable loopPool = .ok (bs, loopNext) := by
  rw [loopNext]
  exact poolAfter_ok (by decide +kernel)

theorem loopLast_ok : ∃ bs, roundOf loopTable loopNext = .ok (bs, loopLast) := by
  rw [loopLast]
  exact poolAfter_ok (by decide +kernel)

theorem loopNext_bsm : loopNext.bsm = [loopBsm, loopBsm] := by
  obtain ⟨bs, h⟩ := loopNext_ok
  rw [round_look h, loopPool_bsm]
  rfl

theorem loopLast_eq : loopLast = loopNext := by
  obtain ⟨bs, h⟩ := loopLast_ok
  have h1 : loopLast.bsm = loopNext.bsm := by
    rw [round_look h, loopNext_bsm]
    rfl
  have h2 : loopLast.entries = loopNext.entries ∧ loopLast.cache = loopNext.cache ∧ loopLast.len = loopNext.len := by decide +kernel
  generalize loopLast = a at h1 h2
  generalize loopNext = b at h1 h2
  cases a
  cases b
  obtain ⟨h2, h3, h4⟩ := h2
  simp only at h1 h2 h3 h4
  subst h1 h2 h3 h4
  rfl

/-- Without checks the loop in clazz.rs:113-120 runs for ever on a class that was read from a file, whereas with checks
the count overflows and the program panics. -/
theorem C89_forever : ∃ x, Class.read (fun _ _ l => l) (tableFile [0, 11] []) = .ok (x, []) ∧
    (∀ fuel, x.rewriteW fuel = .error .diverge) ∧ ∀ fuel, 65538 ≤ fuel → x.rewrite fuel ≠ .error .diverge := by
  refine ⟨loopSite, loopSite_read, fun fuel => ?_, fun fuel hf => ?_⟩
  · obtain ⟨b0, h0⟩ := loopWritten_ok
    obtain ⟨b1, h1⟩ := loopNext_ok
    obtain ⟨b2, h2⟩ := loopLast_ok
    rw [loopLast_eq] at h2
    have hn : loopNext.bsm.length ≠ 0 := by rw [loopNext_bsm]; decide
    have hp : loopPool.bsm.length ≠ 0 := by rw [loopPool_bsm]; decide
    have hb : writeBatchesInW loopTable fuel 0 loopPool = .error .diverge := by
      cases fuel with
      | zero => rfl
      | succ fuel =>
        rw [writeBatchesInW, if_neg hp]
        unfold roundOf at h1
        rw [h1]
        simp only [stuck_batches h2 hn fuel]
    exact rewriteW_stuck rfl h0 hp hb
  · have hx := read_shared (fun k n l v hv => (List.Perm.refl l).mem_iff.mp hv) loopSite_read
    rw [rewrite_stable hx hf]
    exact rewrite_ends hx

/-- Violated, by descriptors (`C89_array_lost`), by constant pools (`C89_overwritten`), by constants
(`C89_shared_index`) and by bootstrap methods (`C89_forever`). -/
theorem C89_violated : ¬ (∀ s, WellFormed s → parseTypeW s = parseType s) ∧
    ¬ (∀ bs, MapCp.readW bs = MapCp.read bs) ∧
    ¬ (∀ es, insertAll es VecCp.new = .ok (insertAllW es VecCp.new)) ∧
    ¬ (∀ (ord : Order) (input rest : Bytes) (x : Class), (∀ k n l, (ord k n l).Perm l) → Class.read ord input = .ok (x, rest) →
      ∃ n, ∀ fuel, n ≤ fuel → x.rewriteW fuel = x.rewrite fuel) ∧ ¬ C89_full := by
  have h3 : ¬ (∀ (ord : Order) (input rest : Bytes) (x : Class), (∀ k n l, (ord k n l).Perm l) →
      Class.read ord input = .ok (x, rest) → ∃ n, ∀ fuel, n ≤ fuel → x.rewriteW fuel = x.rewrite fuel) := by
    intro h
    obtain ⟨x, h1, h2, h3⟩ := C89_forever
    obtain ⟨n, h⟩ := h _ _ _ x (fun _ _ l => List.Perm.refl l) h1
    have := h (max n 65538) (Nat.le_max_left _ _)
    rw [h2] at this
    exact h3 _ (Nat.le_max_right _ _) this.symm
  refine ⟨fun h => ?_, fun h => ?_, fun h => ?_, h3, fun h => h3 h.2.2.2⟩
  · obtain ⟨h1, _, h2⟩ := C89_array_lost .int (.field .int) nofun 0
    have := h (List.replicate (256 * (0 + 1)) 0x5B ++ toWtf8 .int) ⟨List.replicate (256 * (0 + 1)) 0x5B ++ [0x49],
      ⟨by decide +kernel, noPair_ascii _ (by decide +kernel)⟩, by decide +kernel⟩
    rw [h1, h2] at this
    cases this
  · obtain ⟨bs, m, h1, h2, _⟩ := C89_overwritten
    have := h bs
    rw [h1, h2] at this
    cases this
  · have hn := (C89_pool_partial (intEntries 65535)).2 (intEntries_nodup (by decide))
    have := (C89_pool_partial (intEntries 65535)).1.mp (h _)
    rw [hn, intEntries_slots] at this
    omega

end Verif.Props
