import Verif.Lemmas.Wtf8More
import Verif.Lemmas.Wtf8Debug
import Verif.Props.Wtf8

/-!
# Properties of the string API (C60 – C64, and `Display` for C07)

`Spec.Does` describes every safe call by its effect on UTF-16 units; the model `Call.run` works on
bytes.
-/

namespace Verif.Props
open Verif.Spec Verif.Wtf8

/-- `Display` prints the text with every surrogate replaced by U+FFFD. -/
theorem C07_display (cs : List Nat) (h : ∀ c ∈ cs, IsCodePoint c) :
    display (encodeCps cs) = encodeCps (lossy cs) := by
  unfold display
  rw [displayFrom_flatten]
  exact C07_toStringLossy cs h

example : display (encodeCps sampleCps) =
    encodeCps [0x61, 0xE9, 0x20AC, 0x1F600, 0xFFFD, 0x62, 0xFFFD] :=
  C07_display _ sampleCps_valid.1

/-- `Debug` of a code point is `U+` and four to six hexadecimal digits of its number. -/
theorem C07_codepoint_debug (c : Nat) (h : IsCodePoint c) :
    ∃ ds, cpDebug c = [85, 43] ++ ds ∧ IsHex ds c ∧ 4 ≤ ds.length ∧ ds.length ≤ 6 :=
  cpDebug_spec c h

example : cpDebug 0x1F4A9 = [85, 43, 49, 70, 52, 65, 57] := by with_unfolding_all decide

/-- `Debug` of a string is the quoted string, with surrogates as `\u{` and four digits and `}`, whatever
`char::escape_debug` is. -/
theorem C07_debug (esc : Nat → Bytes) (cs : List Nat) (h : ∀ c ∈ cs, IsCodePoint c) :
    ∃ t, debug esc (encodeCps cs) = .ok ([34] ++ t ++ [34]) ∧ Quoted esc cs t :=
  debug_spec esc cs h

/-- `"a\u{d800}"`: the example of the documentation, with a small `d`. -/
example : ∃ t, debug (fun c => [UInt8.ofNat c]) (encodeCps [0x61, 0xD800]) = .ok ([34] ++ t ++ [34]) ∧
    Quoted (fun c => [UInt8.ofNat c]) [0x61, 0xD800] t :=
  C07_debug _ _ (by decide)

/-! ## C60 -/

/-- The strings and texts in memory are the WTF-8 and UTF-8 forms of the given units. -/
structure Represents (h : Heap) (a : Units) : Prop where
  len : h.strings.length = a.strings.length
  get : ∀ i, HasUtf16 (h.get i) (a.get i)
  tlen : h.texts.length = a.texts.length
  text : ∀ i, TextUnits (h.texts.getD i []) (a.texts.getD i [])

/-- No string yet. -/
def noStrings : Heap := ⟨[], []⟩

/-- Full statement: a program of safe calls has no undefined behaviour, and every `&str` or `String`
that it gets is UTF-8. -/
def C60_full : Prop := ∀ p : List Call, (∀ c ∈ p, c.Typed) →
  runCalls p noStrings ≠ .error .ub ∧
    ∀ h, runCalls p noStrings = .ok h → ∀ t ∈ h.texts, WellFormedUtf8 t

/-- `Wtf8Str::from_bytes(b"\xED\xA0\x41")?[..2].codepoints().next()`. -/
def badRead : List Call := [.fromBytes [0xED, 0xA0, 0x41], .indexTo 0 2, .codepoints 1]

/-- `Wtf8Str::from_bytes(b"\xED\xA0\x41")?[..2].as_str()`. -/
def badText : List Call := [.fromBytes [0xED, 0xA0, 0x41], .indexTo 0 2, .asStr 1]

theorem badRead_ub : runCalls badRead noStrings = .error .ub := by
  have h : codepoints [0xED, 0xA0] = none := by
    unfold codepoints
    have : nextCodePoint [0xED, 0xA0] = .oob := by decide
    split <;> simp_all
  have e1 : (Call.fromBytes [0xED, 0xA0, 0x41]).run noStrings = .ok ⟨[[0xED, 0xA0, 0x41]], []⟩ := by
    decide
  have e2 : (Call.indexTo 0 2).run ⟨[[0xED, 0xA0, 0x41]], []⟩ =
      .ok ⟨[[0xED, 0xA0, 0x41], [0xED, 0xA0]], []⟩ := by decide
  have e3 : (Call.codepoints 1).run ⟨[[0xED, 0xA0, 0x41], [0xED, 0xA0]], []⟩ = .error .ub := by
    show (orUb (codepoints [0xED, 0xA0])).map _ = _
    rw [h]
    rfl
  unfold badRead
  rw [runCalls, e1]
  simp only [bind, Except.bind]
  rw [runCalls, e2]
  simp only [bind, Except.bind]
  rw [runCalls, e3]
  rfl

theorem badText_text : runCalls badText noStrings =
    .ok ⟨[[0xED, 0xA0, 0x41], [0xED, 0xA0]], [[0xED, 0xA0]]⟩ := by
  have e1 : (Call.fromBytes [0xED, 0xA0, 0x41]).run noStrings = .ok ⟨[[0xED, 0xA0, 0x41]], []⟩ := by
    decide
  have e2 : (Call.indexTo 0 2).run ⟨[[0xED, 0xA0, 0x41]], []⟩ =
      .ok ⟨[[0xED, 0xA0, 0x41], [0xED, 0xA0]], []⟩ := by decide
  have e3 : (Call.asStr 1).run ⟨[[0xED, 0xA0, 0x41], [0xED, 0xA0]], []⟩ =
      .ok ⟨[[0xED, 0xA0, 0x41], [0xED, 0xA0]], [[0xED, 0xA0]]⟩ := by
    have hn : nextSurrogate [0xED, 0xA0] 0 = none := by
      simp [nextSurrogate, nextSurrogateFrom]
    have ha : asStr [0xED, 0xA0] = some [0xED, 0xA0] := by simp only [asStr, hn]
    show (match asStr [0xED, 0xA0] with
      | some t => Except.ok (Heap.tell _ t)
      | none => _) = _
    rw [ha]
    rfl
  unfold badText
  rw [runCalls, e1]
  simp only [bind, Except.bind]
  rw [runCalls, e2]
  simp only [bind, Except.bind]
  rw [runCalls, e3]
  rfl

/-- Violated: three safe calls read past the end of a string. -/
theorem C60_violated : ¬ C60_full := by
  intro h
  exact (h badRead (by simp [badRead, Call.Typed])).1 badRead_ub

/-- Violated in a second way: three safe calls give a `&str` that is not UTF-8. -/
theorem C60_text_violated : ¬ ∀ p : List Call, (∀ c ∈ p, c.Typed) →
    ∀ h, runCalls p noStrings = .ok h → ∀ t ∈ h.texts, WellFormedUtf8 t := by
  intro h
  obtain ⟨cs, hc, e⟩ := h badText (by simp [badText, Call.Typed]) _ badText_text [0xED, 0xA0] (by simp)
  have := codepoints_loose (LooseEnc_of_encode cs fun c hx => (hc c hx).1)
  rw [e] at this
  have hb : codepoints [0xED, 0xA0] = none := by
    unfold codepoints
    have : nextCodePoint [0xED, 0xA0] = .oob := by decide
    split <;> simp_all
  rw [hb] at this
  simp at this

/-- Violated in a third way: `decode_surrogate_pair` is public and safe, and makes a `char` that does
not exist out of two low surrogates. -/
theorem C60_pair_violated : ∃ p : List Call, (∀ c ∈ p, c.Typed) ∧ (∀ bs, .fromBytes bs ∉ p) ∧
    runCalls p noStrings = .error .ub :=
  ⟨[.new, .pushPair 0 0xDC00 0xDC00], by simp [Call.Typed], by simp, by decide⟩

/-- Exactly when: `decode_surrogate_pair` panics if a unit is below its range, is undefined behaviour if
both units are at least `0xDC00`, and returns the character of a surrogate pair. -/
theorem C60_decodePair (l t : UInt16) :
    (decodePair l t = .error .panic ↔ l.toNat < 0xD800 ∨ t.toNat < 0xDC00) ∧
    (decodePair l t = .error .ub ↔ 0xDC00 ≤ l.toNat ∧ 0xDC00 ≤ t.toNat) ∧
    (LeadUnit l → TrailUnit t → ∃ c, decodePair l t = .ok c ∧ utf16 c = [l, t]) :=
  ⟨decodePair_panic_iff l t, decodePair_ub_iff l t,
    fun hl ht => ⟨_, decodePair_pair l t hl ht, (utf16_pair l t hl ht).1⟩⟩

example : decodePair 0xD83D 0xDE00 = .ok 0x1F600 ∧ decodePair 0xDE00 0xDE00 = .error .ub ∧
    decodePair 0xD83D 0x41 = .error .panic := by decide

theorem Represents.unique {h : Heap} {a b : Units} (h1 : Represents h a) (h2 : Represents h b) :
    a = b := by
  have key : ∀ l m : List (List UInt16), l.length = m.length → (∀ i, l.getD i [] = m.getD i []) →
      l = m := by
    intro l m hl hg
    apply List.ext_getElem hl
    intro i hi hi'
    have := hg i
    simpa [List.getD_eq_getElem?_getD, hi, hi'] using this
  obtain ⟨as, at'⟩ := a
  obtain ⟨bs, bt⟩ := b
  have e1 := key as bs (h1.len.symm.trans h2.len) fun i => HasUtf16.unique (h1.get i) (h2.get i)
  have e2 := key at' bt (h1.tlen.symm.trans h2.tlen) fun i =>
    HasUtf16.unique (TextUnits.has (h1.text i)) (TextUnits.has (h2.text i))
  rw [e1, e2]

theorem getD_append_one {α : Type} (l : List α) (x d : α) (i : Nat) :
    (l ++ [x]).getD i d = if i < l.length then l.getD i d else if i = l.length then x else d := by
  simp only [List.getD_eq_getElem?_getD, List.getElem?_append]
  split
  · rfl
  · split
    · simp_all
    · rw [List.getElem?_eq_none (by simp; omega)]; rfl

theorem getD_set {α : Type} (l : List α) (x d : α) (i j : Nat) :
    (l.set i x).getD j d = if i = j ∧ i < l.length then x else l.getD j d := by
  simp only [List.getD_eq_getElem?_getD, List.getElem?_set]
  by_cases h : i = j
  · subst h
    by_cases hl : i < l.length
    · simp [hl]
    · simp [hl, List.getElem?_eq_none (Nat.le_of_not_lt hl)]
  · simp [h]

theorem Represents.add {h : Heap} {a : Units} (hr : Represents h a) {s : Bytes} {v : List UInt16}
    (hs : HasUtf16 s v) : Represents (h.add s) (a.add v) where
  len := by simp [Heap.add, Units.add, hr.len]
  get i := by
    unfold Heap.get Units.get Heap.add Units.add
    simp only
    rw [getD_append_one, getD_append_one, hr.len]
    split
    · exact hr.get i
    · split
      · exact hs
      · exact has_nil
  tlen := hr.tlen
  text := hr.text

theorem Represents.put {h : Heap} {a : Units} (hr : Represents h a) (i : Nat) {s : Bytes}
    {v : List UInt16} (hs : HasUtf16 s v) : Represents (h.put i s) (a.put i v) where
  len := by simp [Heap.put, Units.put, hr.len]
  get j := by
    unfold Heap.get Units.get Heap.put Units.put
    simp only
    rw [getD_set, getD_set, hr.len]
    split
    · exact hs
    · exact hr.get j
  tlen := hr.tlen
  text := hr.text

theorem Represents.tell {h : Heap} {a : Units} (hr : Represents h a) {t : Bytes} {w : List UInt16}
    (ht : TextUnits t w) : Represents (h.tell t) (a.tell w) where
  len := hr.len
  get := hr.get
  tlen := by simp [Heap.tell, Units.tell, hr.tlen]
  text i := by
    unfold Heap.tell Units.tell
    simp only
    rw [getD_append_one, getD_append_one, hr.tlen]
    split
    · exact hr.text i
    · split
      · exact ht
      · exact ⟨[], by simp, rfl, rfl⟩

/-- What the effect of a call is: it does not run into undefined behaviour, it succeeds exactly when
the specification has an outcome, and the outcome is the specified one. -/
def Agree (c : Call) (h : Heap) (a : Units) : Prop :=
  ((∃ h' a', c.run h = .ok h' ∧ Represents h' a') ∨ c.run h = .error .panic) ∧
  ∀ a', Does c a a' ↔ ∃ h', c.run h = .ok h' ∧ Represents h' a'

theorem agree_of {c : Call} {h : Heap} {a : Units} {h' : Heap} {a' : Units} (e : c.run h = .ok h')
    (hd : Does c a a') (hr : Represents h' a') (hu : ∀ b, Does c a b → b = a') : Agree c h a := by
  refine ⟨.inl ⟨h', a', e, hr⟩, fun b => ⟨fun hb => ?_, ?_⟩⟩
  · rw [hu b hb]; exact ⟨h', e, hr⟩
  · rintro ⟨h2, e2, hr2⟩
    rw [e] at e2
    obtain rfl := Except.ok.inj e2
    rw [Represents.unique hr2 hr]
    exact hd

/-- A positional call that cuts a string. -/
theorem agree_cut {c : Call} {h : Heap} {a : Units} {v : List UInt16} (n : Nat)
    (f : List Nat → Nat → List Nat) (r : Res Bytes) (g : Heap → Bytes → Heap)
    (g' : Units → List UInt16 → Units) {cs : List Nat} (hcs : CpsOf v cs)
    (hg : ∀ s v, HasUtf16 s v → Represents (g h s) (g' a v))
    (he : c.run h = r.map (g h))
    (hr : ∀ x, r = .ok x ↔ ∃ j, OffsetOf cs j n ∧ x = encodeCps (f cs j))
    (hp : (∃ x, r = .ok x) ∨ r = .error .panic)
    (hv : ∀ j, ValidCps (f cs j))
    (hd : ∀ a', Does c a a' ↔ ∃ j, OffsetOf cs j n ∧ a' = g' a (utf16All (f cs j))) : Agree c h a := by
  constructor
  · rcases hp with ⟨x, hx⟩ | hx
    · obtain ⟨j, _, rfl⟩ := (hr x).mp hx
      left; exact ⟨g h _, g' a _, by rw [he, hx]; rfl, hg _ _ ⟨_, hv j, rfl, rfl⟩⟩
    · right; rw [he, hx]; rfl
  · intro a'
    rw [hd]
    constructor
    · rintro ⟨j, hj, rfl⟩
      have := (hr _).mpr ⟨j, hj, rfl⟩
      exact ⟨g h (encodeCps (f cs j)), by rw [he, this]; rfl, hg _ _ ⟨_, hv j, rfl, rfl⟩⟩
    · rintro ⟨h', e, hrep⟩
      rcases hp with ⟨x, hx⟩ | hx
      · obtain ⟨j, hj, rfl⟩ := (hr x).mp hx
        rw [he, hx] at e
        obtain rfl := Except.ok.inj e
        exact ⟨j, hj, Represents.unique hrep (hg _ _ ⟨_, hv j, rfl, rfl⟩)⟩
      · rw [he, hx] at e
        simp [Except.map] at e

theorem sliceTo_total (s : Bytes) (n : Nat) : (∃ x, sliceTo s n = .ok x) ∨ sliceTo s n = .error .panic := by
  unfold sliceTo; split
  · exact .inl ⟨_, rfl⟩
  · exact .inr rfl

theorem truncate_total (s : Bytes) (n : Nat) :
    (∃ x, truncate s n = .ok x) ∨ truncate s n = .error .panic := by
  unfold truncate; split
  · exact .inl ⟨_, rfl⟩
  · exact .inr rfl

theorem sliceFrom_total (s : Bytes) (n : Nat) :
    (∃ x, sliceFrom s n = .ok x) ∨ sliceFrom s n = .error .panic := by
  unfold sliceFrom; split
  · exact .inl ⟨_, rfl⟩
  · exact .inr rfl

theorem slice_total (s : Bytes) (b e : Nat) :
    (∃ x, slice s b e = .ok x) ∨ slice s b e = .error .panic := by
  unfold slice; split
  · exact .inl ⟨_, rfl⟩
  · exact .inr rfl

/-- Prefixes of units that do not split a pair are prefixes of code points. -/
theorem prefix_iff {v : List UInt16} {cs : List Nat} (h : CpsOf v cs) (P : List UInt16 → List UInt16 → Prop)
    (n : Nat) : (∃ p q, v = p ++ q ∧ Whole p q ∧ wtf8Length p = n ∧ P p q) ↔
      ∃ j, OffsetOf cs j n ∧ P (utf16All (cs.take j)) (utf16All (cs.drop j)) := by
  constructor
  · rintro ⟨p, q, rfl, hw, rfl, hP⟩
    obtain ⟨k, hk, rfl, rfl⟩ := split_whole h hw
    exact ⟨k, ⟨hk, wtf8Length_utf16All _ (ValidCps_take h.1 k)⟩, hP⟩
  · rintro ⟨j, ⟨hj, rfl⟩, hP⟩
    obtain ⟨e, hw⟩ := split_take h j
    exact ⟨_, _, e, hw, wtf8Length_utf16All _ (ValidCps_take h.1 j), hP⟩

theorem lossyCps_scalar (cs : List Nat) (h : ∀ c ∈ cs, IsCodePoint c) :
    ∀ c ∈ lossyCps cs, IsCodePoint c ∧ ¬ IsSurrogate c := by
  intro c hc
  simp only [lossyCps, List.mem_map] at hc
  obtain ⟨d, hd, rfl⟩ := hc
  split
  · exact ⟨by decide, by decide⟩
  · exact ⟨h d hd, by assumption⟩

/-- Proved part: a call whose `from_bytes` argument has no malformed high surrogate has exactly the
specified effect on UTF-16 units, and panics exactly when it has none. Missing from C60: byte strings
with an `ED A0..AF` that is followed by something else than a continuation byte. -/
theorem C60_call_partial (c : Call) (hc : c.Clean) (h : Heap) (a : Units) (hr : Represents h a) :
    Agree c h a := by
  have cpsOf : ∀ i, ∃ cs, CpsOf (a.get i) cs ∧ h.get i = encodeCps cs := by
    intro i
    obtain ⟨cs, hcs⟩ := CpsOf.exists (a.get i)
    exact ⟨cs, hcs, HasUtf16.cps (hr.get i) hcs⟩
  cases c with
  | new => exact agree_of rfl .new (hr.add has_nil) (by intro b hb; cases hb; rfl)
  | fromStr t =>
    obtain ⟨w, hw⟩ := TextUnits.of hc
    refine agree_of rfl (.fromStr hw) (hr.add (TextUnits.has hw)) ?_
    intro b hb
    cases hb with
    | fromStr hw' => rw [HasUtf16.unique (TextUnits.has hw') (TextUnits.has hw)]
  | fromBytes bs =>
    cases hf : fromBytes bs with
    | ok s =>
      obtain rfl := fromBytes_eq bs s hf
      obtain ⟨cs, h1, h2⟩ := (C02_fromBytes_partial s).mp hf
      have e := loose_complete h1 hc
      have hv : ValidCps cs := ⟨LooseEnc_isCodePoint h1, h2⟩
      have hu : HasUtf16 s (utf16All cs) := ⟨cs, hv, e, rfl⟩
      refine agree_of (h' := h.add s) (by simp only [Call.run, hf]) (.fromBytes hu) (hr.add hu) ?_
      intro b hb
      cases hb with
      | fromBytes hw => rw [HasUtf16.unique hw hu]
      | fromBytesErr hn => exact absurd ⟨cs, hv, e⟩ hn
    | error er =>
      have hn : ¬ WellFormed bs := by
        intro hw
        rw [C01_fromBytes_accepts bs hw] at hf
        cases hf
      refine agree_of (h' := h) (by simp only [Call.run, hf]) (.fromBytesErr hn) hr ?_
      intro b hb
      cases hb with
      | fromBytes hw => obtain ⟨cs, hv, e, _⟩ := hw; exact absurd ⟨cs, hv, e⟩ hn
      | fromBytesErr => rfl
  | fromWide v =>
    have hu : HasUtf16 (fromWide v) v := by
      have hd := decodeCps_spec v
      exact ⟨decodeCps v, hd.1, (fromWide_eq v hd.1.1).symm, hd.2.1⟩
    exact agree_of rfl .fromWide (hr.add hu) (by intro b hb; cases hb; rfl)
  | fromIter cs =>
    have hu : HasUtf16 (fromIter cs) (utf16All cs) := has_extend has_nil hc
    exact agree_of rfl .fromIter (hr.add hu) (by intro b hb; cases hb; rfl)
  | copy i => exact agree_of rfl .copy (hr.add (hr.get i)) (by intro b hb; cases hb; rfl)
  | index i b e =>
    obtain ⟨cs, hcs, es⟩ := cpsOf i
    have hs := C06_slice cs hcs.1 b e
    rw [← es] at hs
    have hrun : (Call.index i b e).run h = (slice (h.get i) b e).map h.add := rfl
    constructor
    · rcases slice_total (h.get i) b e with ⟨x, hx⟩ | hx
      · obtain ⟨k, j, _, _, _, rfl⟩ := (hs x).mp hx
        left
        exact ⟨h.add _, a.add _, by rw [hrun, hx]; rfl,
          hr.add ⟨_, ValidCps_drop (ValidCps_take hcs.1 j) k, rfl, rfl⟩⟩
      · right; rw [hrun, hx]; rfl
    · intro a'
      constructor
      · intro hd
        cases hd with
        | @index _ _ p q r e1 hw1 hw2 =>
          have e1' : CpsOf (p ++ (q ++ r)) cs := by rw [← List.append_assoc, ← e1]; exact hcs
          have e2' : CpsOf (p ++ q ++ r) cs := by rw [← e1]; exact hcs
          obtain ⟨j, hj, hpq, hr'⟩ := split_whole e2' hw2
          obtain ⟨k, hk, hp, hqr⟩ := split_whole e1' hw1
          have hpq' : CpsOf (p ++ q) (cs.take j) := ⟨ValidCps_take hcs.1 j, hpq.symm⟩
          have hw3 : Whole p q := by
            intro x hx y hy
            refine hw1 x hx y ?_
            cases q with
            | nil => simp at hy
            | cons z q => simpa using hy
          obtain ⟨i', hi', hp', hq'⟩ := split_whole hpq' hw3
          have hi2 : i' ≤ j := by simp at hi'; omega
          have ht : (cs.take j).take i' = cs.take i' := by
            rw [List.take_take, Nat.min_eq_left hi2]
          have hok := (hs (encodeCps ((cs.take j).drop i'))).mpr ⟨i', j, hi2,
            ⟨by omega, by rw [hp', ht]; exact wtf8Length_utf16All _ (ValidCps_take hcs.1 i')⟩,
            ⟨hj, by rw [hpq]; exact wtf8Length_utf16All _ (ValidCps_take hcs.1 j)⟩, rfl⟩
          refine ⟨h.add (encodeCps ((cs.take j).drop i')), by rw [hrun, hok]; rfl, hr.add ?_⟩
          exact ⟨_, ValidCps_drop (ValidCps_take hcs.1 j) i', rfl, hq'.symm⟩
      · rintro ⟨h', e', hrep⟩
        rcases slice_total (h.get i) b e with ⟨x, hx⟩ | hx
        · obtain ⟨k, j, hkj, ⟨hk, rfl⟩, ⟨hj, rfl⟩, rfl⟩ := (hs x).mp hx
          rw [hrun, hx] at e'
          obtain rfl := Except.ok.inj e'
          have hvj := ValidCps_take hcs.1 j
          have hu : HasUtf16 (encodeCps ((cs.take j).drop k)) (utf16All ((cs.take j).drop k)) :=
            ⟨_, ValidCps_drop hvj k, rfl, rfl⟩
          rw [Represents.unique hrep (hr.add hu)]
          have hpj : CpsOf (utf16All (cs.take j)) (cs.take j) := ⟨hvj, rfl⟩
          obtain ⟨s1, w1⟩ := split_take hcs j
          obtain ⟨s2, w2⟩ := split_take hpj k
          obtain ⟨s3, w3⟩ := split_take hcs k
          have ht : (cs.take j).take k = cs.take k := by
            rw [List.take_take, Nat.min_eq_left hkj]
          rw [ht] at s2 w2
          have hd := Does.index (a := a) (i := i) (p := utf16All (cs.take k))
            (q := utf16All ((cs.take j).drop k)) (r := utf16All (cs.drop j))
            (by rw [← s2]; exact s1)
            (by
              have : utf16All ((cs.take j).drop k) ++ utf16All (cs.drop j) = utf16All (cs.drop k) := by
                rw [s1, s2, List.append_assoc] at s3
                exact List.append_cancel_left s3
              rw [this]; exact w3)
            (by rw [← s2]; exact w1)
          rw [← s2, wtf8Length_utf16All _ (ValidCps_take hcs.1 k), wtf8Length_utf16All _ hvj] at hd
          exact hd
        · rw [hrun, hx] at e'
          simp [Except.map] at e'
  | indexFrom i b =>
    obtain ⟨cs, hcs, es⟩ := cpsOf i
    have hs := C06_sliceFrom cs hcs.1 b
    rw [← es] at hs
    refine agree_cut b (fun cs j => cs.drop j) (sliceFrom (h.get i) b) Heap.add Units.add hcs
      (fun s v hsv => hr.add hsv) rfl hs (sliceFrom_total _ _) (fun j => ValidCps_drop hcs.1 j) ?_
    intro a'
    rw [← prefix_iff hcs (fun p q => a' = a.add q) b]
    constructor
    · intro hd; cases hd with | indexFrom e hw => exact ⟨_, _, e, hw, rfl, rfl⟩
    · rintro ⟨p, q, e, hw, rfl, rfl⟩; exact .indexFrom e hw
  | indexTo i n =>
    obtain ⟨cs, hcs, es⟩ := cpsOf i
    have hs := fun x => (C06_truncate cs hcs.1 n x).2
    rw [← es] at hs
    refine agree_cut n (fun cs j => cs.take j) (sliceTo (h.get i) n) Heap.add Units.add hcs
      (fun s v hsv => hr.add hsv) rfl hs (sliceTo_total _ _) (fun j => ValidCps_take hcs.1 j) ?_
    intro a'
    rw [← prefix_iff hcs (fun p q => a' = a.add p) n]
    constructor
    · intro hd; cases hd with | indexTo e hw => exact ⟨_, _, e, hw, rfl, rfl⟩
    · rintro ⟨p, q, e, hw, rfl, rfl⟩; exact .indexTo e hw
  | truncate i n =>
    obtain ⟨cs, hcs, es⟩ := cpsOf i
    have hs := fun x => (C06_truncate cs hcs.1 n x).1
    rw [← es] at hs
    refine agree_cut n (fun cs j => cs.take j) (truncate (h.get i) n) (fun h => h.put i)
      (fun a => a.put i) hcs
      (fun s v hsv => hr.put i hsv) rfl hs (truncate_total _ _) (fun j => ValidCps_take hcs.1 j) ?_
    intro a'
    rw [← prefix_iff hcs (fun p q => a' = a.put i p) n]
    constructor
    · intro hd; cases hd with | truncate e hw => exact ⟨_, _, e, hw, rfl, rfl⟩
    · rintro ⟨p, q, e, hw, rfl, rfl⟩; exact .truncate e hw
  | rest i k =>
    obtain ⟨cs, hcs, es⟩ := cpsOf i
    have hu : HasUtf16 (encodeCps (cs.drop k)) (utf16All (cs.drop k)) :=
      ⟨_, ValidCps_drop hcs.1 k, rfl, rfl⟩
    refine agree_of (h' := h.add (encodeCps (cs.drop k))) ?_ (.rest hcs) (hr.add hu) ?_
    · simp only [Call.run]
      rw [es, restAfter_encode cs hcs.1.1]; rfl
    · intro b hb
      cases hb with
      | rest hd => rw [CpsOf.unique hd hcs]
  | push i c =>
    exact agree_of rfl .push (hr.put i (has_push (hr.get i) hc)) (by intro b hb; cases hb; rfl)
  | pushChar i c =>
    exact agree_of rfl .pushChar (hr.put i (has_pushChar (hr.get i) hc)) (by intro b hb; cases hb; rfl)
  | pushPair i l t =>
    have hrun : (Call.pushPair i l t).run h =
        (decodePair l t).map fun c => h.put i (pushChar (h.get i) c) := rfl
    by_cases hl : LeadUnit l ∧ TrailUnit t
    · obtain ⟨hu, hcp⟩ := utf16_pair l t hl.1 hl.2
      refine agree_of (h' := h.put i (pushChar (h.get i) (decodeSurrogatePair l t))) ?_
        (.pushPair hl.1 hl.2) (hr.put i (by rw [← hu]; exact has_pushChar (hr.get i) hcp))
        (by intro b hb; cases hb; rfl)
      rw [hrun, decodePair_pair l t hl.1 hl.2]
      rfl
    · have hp : decodePair l t = .error .panic := by
        rcases hc with hc | hc
        · exact absurd hc hl
        · exact decodePair_panic l t hc
      refine ⟨.inr (by rw [hrun, hp]; rfl), fun a' => ⟨fun hd => ?_, fun ⟨h', e, _⟩ => ?_⟩⟩
      · cases hd with
        | pushPair h1 h2 => exact absurd ⟨h1, h2⟩ hl
      · rw [hrun, hp] at e
        simp [Except.map] at e
  | pushStr i t =>
    obtain ⟨w, hw⟩ := TextUnits.of hc
    refine agree_of rfl (.pushStr hw) (hr.put i (has_pushStr (hr.get i) hw)) ?_
    intro b hb
    cases hb with
    | pushStr hw' => rw [HasUtf16.unique (TextUnits.has hw') (TextUnits.has hw)]
  | pushWtf8 i j =>
    exact agree_of rfl .pushWtf8 (hr.put i (has_pushWtf8 (hr.get i) (hr.get j)))
      (by intro b hb; cases hb; rfl)
  | extend i cs =>
    exact agree_of rfl .extend (hr.put i (has_extend (hr.get i) hc)) (by intro b hb; cases hb; rfl)
  | clear i => exact agree_of rfl .clear (hr.put i has_nil) (by intro b hb; cases hb; rfl)
  | lower i =>
    exact agree_of rfl .lower (hr.put i (has_lower (hr.get i))) (by intro b hb; cases hb; rfl)
  | upper i =>
    exact agree_of rfl .upper (hr.put i (has_upper (hr.get i))) (by intro b hb; cases hb; rfl)
  | cloneInto i j =>
    refine agree_of (h' := h.put j (h.get i)) ?_ .cloneInto (hr.put j (hr.get i))
      (by intro b hb; cases hb; rfl)
    simp only [Call.run]
    rw [cloneInto_eq]; rfl
  | codepoints i =>
    obtain ⟨cs, hcs, es⟩ := cpsOf i
    refine agree_of (h' := h) ?_ .codepoints hr (by intro b hb; cases hb; rfl)
    simp only [Call.run]
    rw [es, C03_codepoints_exact cs hcs.1.1]; rfl
  | encodeWide i =>
    obtain ⟨cs, hcs, es⟩ := cpsOf i
    refine agree_of (h' := h) ?_ .encodeWide hr (by intro b hb; cases hb; rfl)
    simp only [Call.run]
    rw [es, C04_encodeWide_exact cs hcs.1.1]; rfl
  | asStr i =>
    obtain ⟨cs, hcs, es⟩ := cpsOf i
    have e := C07_asStr cs hcs.1.1
    rw [← es] at e
    by_cases hs : ∀ c ∈ cs, ¬ IsSurrogate c
    · rw [if_pos hs] at e
      have ht : TextUnits (h.get i) (a.get i) :=
        ⟨cs, fun c hx => ⟨hcs.1.1 c hx, hs c hx⟩, es.symm, hcs.2⟩
      refine agree_of (h' := h.tell (h.get i)) (by simp only [Call.run, e]) (.asStr hcs hs)
        (hr.tell ht) ?_
      intro b hb
      cases hb with
      | asStr => rfl
      | asStrNone hd hc' hsur =>
        rw [CpsOf.unique hd hcs] at hc'
        exact absurd hsur (hs _ hc')
    · rw [if_neg hs] at e
      obtain ⟨c, hc', hsur⟩ : ∃ c, c ∈ cs ∧ IsSurrogate c := by
        apply Classical.byContradiction
        intro hn
        exact hs fun c hx hsur => hn ⟨c, hx, hsur⟩
      refine agree_of (h' := h) (by simp only [Call.run, e]) (.asStrNone hcs hc' hsur) hr ?_
      intro b hb
      cases hb with
      | asStr hd hs' => rw [CpsOf.unique hd hcs] at hs'; exact absurd hs' hs
      | asStrNone => rfl
  | lossy i =>
    obtain ⟨cs, hcs, es⟩ := cpsOf i
    have ht : TextUnits (encodeCps (lossyCps cs)) (utf16All (lossyCps cs)) :=
      ⟨_, lossyCps_scalar cs hcs.1.1, rfl, rfl⟩
    refine agree_of (h' := h.tell (encodeCps (lossyCps cs))) ?_ (.lossy hcs) (hr.tell ht) ?_
    · simp only [Call.run]
      rw [es, C07_toStringLossy cs hcs.1.1]; rfl
    · intro b hb
      cases hb with
      | lossy hd => rw [CpsOf.unique hd hcs]
  | intoLossy i =>
    obtain ⟨cs, hcs, es⟩ := cpsOf i
    have ht : TextUnits (encodeCps (lossyCps cs)) (utf16All (lossyCps cs)) :=
      ⟨_, lossyCps_scalar cs hcs.1.1, rfl, rfl⟩
    refine agree_of (h' := h.tell (encodeCps (lossyCps cs))) ?_ (.intoLossy hcs) (hr.tell ht) ?_
    · simp only [Call.run]
      rw [es, C07_intoStringLossy cs hcs.1.1]; rfl
    · intro b hb
      cases hb with
      | intoLossy hd => rw [CpsOf.unique hd hcs]
  | display i =>
    obtain ⟨cs, hcs, es⟩ := cpsOf i
    have ht : TextUnits (encodeCps (lossyCps cs)) (utf16All (lossyCps cs)) :=
      ⟨_, lossyCps_scalar cs hcs.1.1, rfl, rfl⟩
    refine agree_of (h' := h.tell (encodeCps (lossyCps cs))) ?_ (.display hcs) (hr.tell ht) ?_
    · simp only [Call.run]
      rw [es, C07_display cs hcs.1.1]; rfl
    · intro b hb
      cases hb with
      | display hd => rw [CpsOf.unique hd hcs]

/-- The steps of a program on units. -/
inductive DoesAll : List Call → Units → Units → Prop
  | nil {a} : DoesAll [] a a
  | cons {c p a b d} : Does c a b → DoesAll p b d → DoesAll (c :: p) a d

/-- A program of clean calls has exactly the effect that its calls have on units, in order. -/
theorem C60_program_partial (p : List Call) (hp : ∀ c ∈ p, c.Clean) (h : Heap) (a : Units)
    (hr : Represents h a) :
    ((∃ h' a', runCalls p h = .ok h' ∧ Represents h' a') ∨ runCalls p h = .error .panic) ∧
      ∀ a', DoesAll p a a' ↔ ∃ h', runCalls p h = .ok h' ∧ Represents h' a' := by
  induction p generalizing h a with
  | nil =>
    refine ⟨.inl ⟨h, a, rfl, hr⟩, fun a' => ⟨?_, ?_⟩⟩
    · intro hd; cases hd; exact ⟨h, rfl, hr⟩
    · rintro ⟨h', e, hr'⟩
      obtain rfl := Except.ok.inj e
      rw [Represents.unique hr' hr]
      exact .nil
  | cons c p ih =>
    have ih := ih fun x hx => hp x (by simp [hx])
    obtain ⟨h1, h2⟩ := C60_call_partial c (hp c (by simp)) h a hr
    rcases h1 with ⟨k, b, e, hb⟩ | e
    · have eok : runCalls (c :: p) h = runCalls p k := by rw [runCalls, e]; rfl
      obtain ⟨i1, i2⟩ := ih k b hb
      rw [eok]
      refine ⟨i1, fun a' => ?_⟩
      rw [← i2]
      constructor
      · intro hd
        cases hd with
        | cons hd hds =>
          obtain ⟨k', e', hk'⟩ := (h2 _).mp hd
          rw [e] at e'
          obtain rfl := Except.ok.inj e'
          rwa [Represents.unique hk' hb] at hds
      · intro hds
        exact .cons ((h2 b).mpr ⟨k, e, hb⟩) hds
    · have eerr : runCalls (c :: p) h = .error .panic := by rw [runCalls, e]; rfl
      rw [eerr]
      refine ⟨.inr rfl, fun a' => ⟨fun hd => ?_, fun ⟨_, he, _⟩ => nomatch he⟩⟩
      cases hd with
      | cons hd hds =>
        obtain ⟨k', e', _⟩ := (h2 _).mp hd
        rw [e] at e'
        exact nomatch e'

theorem noStrings_represents : Represents noStrings ⟨[], []⟩ where
  len := rfl
  get _ := has_nil
  tlen := rfl
  text _ := ⟨[], by simp, rfl, rfl⟩

/-- Programs of clean calls have no undefined behaviour; all their strings stay well-formed and all
texts they get are UTF-8. -/
theorem C60_safe_partial (p : List Call) (hp : ∀ c ∈ p, c.Clean) :
    runCalls p noStrings ≠ .error .ub ∧
      ∀ h, runCalls p noStrings = .ok h →
        (∀ s ∈ h.strings, WellFormed s) ∧ ∀ t ∈ h.texts, WellFormedUtf8 t := by
  obtain ⟨h1, _⟩ := C60_program_partial p hp noStrings _ noStrings_represents
  constructor
  · rcases h1 with ⟨k, b, e, _⟩ | e <;> rw [e] <;> simp
  · intro h e
    rcases h1 with ⟨k, b, e', hk⟩ | e'
    · rw [e'] at e
      obtain rfl := Except.ok.inj e
      constructor
      · intro s hs
        obtain ⟨i, hi, rfl⟩ := List.mem_iff_getElem.mp hs
        obtain ⟨cs, hv, e2, _⟩ := hk.get i
        refine ⟨cs, hv, e2.trans ?_⟩
        simp [Heap.get, List.getD_eq_getElem?_getD, hi]
      · intro t ht
        obtain ⟨i, hi, rfl⟩ := List.mem_iff_getElem.mp ht
        obtain ⟨cs, hv, e2, _⟩ := hk.text i
        refine ⟨cs, hv, e2.trans ?_⟩
        simp [List.getD_eq_getElem?_getD, hi]
    · rw [e'] at e
      exact nomatch e

/-- A clean program: two halves of a surrogate pair are joined, cut off again and printed. -/
def sampleProgram : List Call :=
  [.fromWide [0x61, 0xD83D], .fromBytes [0xED, 0xB8, 0x80, 0x62], .pushWtf8 0 1, .indexTo 0 5,
    .lossy 1, .upper 0]

theorem highsComplete_of (bs : Bytes)
    (h : ∀ i < bs.length, bs[i]? = some 0xED → ∀ b x, bs[i + 1]? = some b → bs[i + 2]? = some x →
      0xA0 ≤ b.toNat → b.toNat ≤ 0xAF → 0x80 ≤ x.toNat ∧ x.toNat ≤ 0xBF) : HighsComplete bs := by
  intro p q b x e
  refine h p.length (by rw [e]; simp) (by rw [e]; simp) b x ?_ ?_
  · rw [e, List.getElem?_append_right (by omega)]; simp
  · rw [e, List.getElem?_append_right (by omega)]; simp

theorem sampleProgram_clean : ∀ c ∈ sampleProgram, c.Clean := by
  intro c hc
  simp only [sampleProgram, List.mem_cons, List.not_mem_nil, or_false] at hc
  rcases hc with rfl | rfl | rfl | rfl | rfl | rfl
  · trivial
  · refine highsComplete_of _ ?_
    intro i hi h0 b x h1 h2 h3 h4
    match i, hi with
    | 0, _ => simp at h1; subst h1; simp at h4
    | 1, _ => simp at h0
    | 2, _ => simp at h0
    | 3, _ => simp at h0
  all_goals trivial

/-- The program turns `61 D83D`, `DE00 62` into `41 D83D DE00 42`, and keeps the cut `61 D83D DE00`. -/
example : ∃ h, runCalls sampleProgram noStrings = .ok h ∧ Represents h
    ⟨[[0x41, 0xD83D, 0xDE00, 0x42], [0xDE00, 0x62], [0x61, 0xD83D, 0xDE00]],
      [[0xFFFD, 0x62]]⟩ := by
  refine ((C60_program_partial sampleProgram sampleProgram_clean noStrings _
    noStrings_represents).2 _).mp ?_
  have t0 : HasUtf16 [0xED, 0xB8, 0x80, 0x62] [0xDE00, 0x62] :=
    ⟨[0xDE00, 0x62], ⟨by decide, by simp [NoPair, IsLead]⟩, by decide, by decide⟩
  have t1 := Does.indexTo (a := ⟨[[0x61, 0xD83D, 0xDE00, 0x62], [0xDE00, 0x62]], []⟩) (i := 0)
    (p := [0x61, 0xD83D, 0xDE00]) (q := [0x62]) rfl (by simp [Whole, TrailUnit, IsTrail])
  have t2 : CpsOf [0xDE00, 0x62] [0xDE00, 0x62] :=
    ⟨⟨by decide, by simp [NoPair, IsLead]⟩, by decide⟩
  exact .cons .fromWide (.cons (.fromBytes t0) (.cons .pushWtf8 (.cons t1
    (.cons (.lossy t2) (.cons .upper .nil)))))

/-! ## C61 -/

/-- Strings are ordered like their sequences of code points. -/
theorem C61_order (cs ds : List Nat) (hc : ∀ c ∈ cs, IsCodePoint c) (hd : ∀ c ∈ ds, IsCodePoint c) :
    cmp (encodeCps cs) (encodeCps ds) = cmpCps cs ds :=
  cmp_encode cs ds hc hd

/-- The order is that of the strings: `Ordering::Equal` is equality. -/
theorem C61_eq (s t : Bytes) (v w : List UInt16) (hs : HasUtf16 s v) (ht : HasUtf16 t w) :
    (eq s t = true ↔ v = w) ∧ (cmp s t = .eq ↔ v = w) := by
  have h1 : eq s t = true ↔ v = w := by
    unfold eq
    rw [beq_iff_eq]
    constructor
    · rintro rfl; exact HasUtf16.unique hs ht
    · rintro rfl
      obtain ⟨cs, hcs⟩ := CpsOf.exists v
      rw [HasUtf16.cps hs hcs, HasUtf16.cps ht hcs]
  refine ⟨h1, ?_⟩
  rw [← h1]
  unfold eq
  rw [beq_iff_eq]
  exact cmp_eq_iff s t

/-- The laws of `Ord`: antisymmetry and transitivity (equality is `C61_eq`). -/
theorem C61_laws (s t u : Bytes) :
    cmp t s = (cmp s t).swap ∧ (cmp s t = .lt → cmp t u = .lt → cmp s u = .lt) :=
  ⟨cmp_swap s t, cmp_trans s t u⟩

/-- Hashing several strings in a row, as for a tuple or a `Vec`, never confuses where one string ends
and the next begins. -/
theorem C61_hash (l m : List Bytes) (hl : ∀ s ∈ l, WellFormed s) (hm : ∀ s ∈ m, WellFormed s) :
    l.flatMap hashInput = m.flatMap hashInput ↔ l = m := by
  constructor
  · intro h
    induction l generalizing m with
    | nil =>
      cases m with
      | nil => rfl
      | cons t m => simp [hashInput] at h
    | cons s l ih =>
      cases m with
      | nil => simp [hashInput] at h
      | cons t m =>
        obtain ⟨cs, hc, rfl⟩ := hl s (by simp)
        obtain ⟨ds, hd, rfl⟩ := hm t (by simp)
        rw [List.flatMap_cons, List.flatMap_cons] at h
        unfold hashInput at h
        rw [List.append_assoc, List.append_assoc] at h
        obtain ⟨e1, e2⟩ := split_stop (encode_noFE cs hc.1) (encode_noFE ds hd.1) h
        rw [e1, ih m (fun x hx => hl x (by simp [hx])) (fun x hx => hm x (by simp [hx])) e2]
  · rintro rfl; rfl

/-- A supplementary code point is larger than U+FF5E, although its first UTF-16 unit is smaller. -/
example : cmp (encodeCps [0x61, 0x10000]) (encodeCps [0x61, 0xFF5E]) = .gt := by
  rw [C61_order _ _ (by decide) (by decide)]; decide
example : [encodeCps [0x61], encodeCps [0x62]].flatMap hashInput ≠
    [encodeCps [0x61, 0x62], []].flatMap hashInput := by decide

/-! ## C62 -/

/-- While iterating over code points, the string that `as_str` returns is the rest of the string, and
`size_hint` gives bounds of the number of items that follow. -/
theorem C62_codepoints (cs : List Nat) (h : ValidCps cs) (k : Nat) :
    ∃ rest lo hi, restAfter (encodeCps cs) k = some rest ∧ rest = encodeCps (cs.drop k) ∧
      codepoints rest = some (cs.drop k) ∧ sizeHint rest = (lo, some hi) ∧
      lo ≤ (cs.drop k).length ∧ (cs.drop k).length ≤ hi := by
  have hv := ValidCps_drop h k
  have hlen := length_encode (cs.drop k)
  refine ⟨encodeCps (cs.drop k), _, _, restAfter_encode cs h.1 k, rfl,
    C03_codepoints_exact _ hv.1, rfl, ?_, hlen.1⟩
  have := Nat.min_le_left ((encodeCps (cs.drop k)).length + 3) usizeMax
  omega

/-- While iterating over UTF-16 units, also between the halves of a surrogate pair, `size_hint` gives
bounds of the number of units that follow. Rust strings are shorter than 2^63 bytes. -/
theorem C62_encodeWide (cs : List Nat) (h : ValidCps cs) (hlen : (encodeCps cs).length < 2 ^ 63)
    (k : Nat) :
    ∃ rest e lo hi, wideAfter (encodeCps cs) 0 k = some (rest, e) ∧
      encodeWideFrom rest e = some ((utf16All cs).drop k) ∧ sizeHintWide rest e = (lo, some hi) ∧
      lo ≤ ((utf16All cs).drop k).length ∧ ((utf16All cs).drop k).length ≤ hi := by
  obtain ⟨j, e, h1, h2⟩ := wideAfter_encode k cs h.1 0
  have hv := (ValidCps_drop h j).1
  have l1 := length_encode (cs.drop j)
  have l2 := length_utf16All (cs.drop j)
  have l3 : (encodeCps (cs.drop j)).length ≤ (encodeCps cs).length := by
    conv => rhs; rw [← List.take_append_drop j cs, encodeCps_append]
    simp
  have e2 : ((utf16All cs).drop k) = (if e ≠ 0 then [e] else []) ++ utf16All (cs.drop j) := by
    simpa using h2
  refine ⟨encodeCps (cs.drop j), e, min ((encodeCps (cs.drop j)).length + 3) usizeMax / 4 +
    (if e ≠ 0 then 1 else 0), (encodeCps (cs.drop j)).length * 2 + (if e ≠ 0 then 1 else 0), h1,
    ?_, ?_, ?_, ?_⟩
  · rw [e2]; exact encodeWideFrom_encode _ hv e
  · have k1 : checked ((encodeCps (cs.drop j)).length * 2) =
        some ((encodeCps (cs.drop j)).length * 2) := by
      unfold checked usizeMax; rw [if_pos (by omega)]
    have k2 : ∀ x, x ≤ 1 → checked ((encodeCps (cs.drop j)).length * 2 + x) =
        some ((encodeCps (cs.drop j)).length * 2 + x) := by
      intro x hx; unfold checked usizeMax; rw [if_pos (by omega)]
    unfold sizeHintWide sizeHint
    simp only [Option.bind_some, k1]
    rw [k2 _ (by split <;> omega)]
  · rw [e2, List.length_append]
    have := Nat.min_le_left ((encodeCps (cs.drop j)).length + 3) usizeMax
    split <;> simp <;> omega
  · rw [e2, List.length_append]
    split <;> simp <;> omega

/-- Between the halves of a pair one unit is pending. -/
example : wideAfter (encodeCps [0x1F600, 0x61]) 0 1 = some ([0x61], 0xDE00) := by decide
example : sizeHintWide [0x61] 0xDE00 = (2, some 3) := by decide

/-! ## C63 -/

/-- ASCII letters, and nothing else, change case; the result is again well-formed. -/
theorem C63_case (cs : List Nat) (h : ValidCps cs) :
    toAsciiLowercase (encodeCps cs) = encodeCps (cs.map lowerCp) ∧ ValidCps (cs.map lowerCp) ∧
    toAsciiUppercase (encodeCps cs) = encodeCps (cs.map upperCp) ∧ ValidCps (cs.map upperCp) := by
  refine ⟨?_, ValidCps_map _ _ h lowerCp_lt lowerCp_ge, ?_, ValidCps_map _ _ h upperCp_lt upperCp_ge⟩
  · exact encodeCps_map asciiLower lowerCp cs h.1
      (fun b hb => Bits.u8_ext (by rw [asciiLower_toNat, lowerCp_ge _ hb]))
      (fun b _ => asciiLower_toNat b) lowerCp_lt lowerCp_ge
  · exact encodeCps_map asciiUpper upperCp cs h.1
      (fun b hb => Bits.u8_ext (by rw [asciiUpper_toNat, upperCp_ge _ hb]))
      (fun b _ => asciiUpper_toNat b) upperCp_lt upperCp_ge

theorem zip_all_iff (f : UInt8 → UInt8) (s t : Bytes) :
    (s.length == t.length && (s.zip t).all fun p => f p.1 == f p.2) = true ↔ s.map f = t.map f := by
  induction s generalizing t with
  | nil => cases t <;> simp
  | cons a s ih =>
    cases t with
    | nil => simp
    | cons b t =>
      have := ih t
      simp only [Bool.and_eq_true, beq_iff_eq] at this ⊢
      simp only [List.length_cons, Nat.add_right_cancel_iff, List.zip_cons_cons, List.all_cons,
        Bool.and_eq_true, beq_iff_eq, List.map_cons, List.cons.injEq, ← this]
      constructor
      · rintro ⟨a, b, c⟩; exact ⟨b, a, c⟩
      · rintro ⟨a, b, c⟩; exact ⟨b, a, c⟩

/-- Comparison without case: equal after lowering the ASCII letters of the code points. -/
theorem C63_eqIgnoreCase (cs ds : List Nat) (hc : ValidCps cs) (hd : ValidCps ds) :
    eqIgnoreAsciiCase (encodeCps cs) (encodeCps ds) = true ↔ cs.map lowerCp = ds.map lowerCp := by
  unfold eqIgnoreAsciiCase
  rw [zip_all_iff]
  have h1 := (C63_case cs hc).1
  have h2 := (C63_case ds hd).1
  unfold toAsciiLowercase at h1 h2
  rw [h1, h2]
  constructor
  · exact encodeCps_injective _ _ (C63_case cs hc).2.1.1 (C63_case ds hd).2.1.1
  · intro e; rw [e]

theorem gutf8_ascii (c : Nat) (h : IsCodePoint c) : (gutf8 c).all (fun b => b < 128) = true ↔ c < 128 := by
  have hc := h
  unfold IsCodePoint at hc
  rcases gutf8_cases c h with ⟨k1, a, e, ha⟩ | ⟨k1, k2, a, b, e, ha, hb⟩ |
      ⟨k1, k2, a, b, q, e, ha, hb, hq⟩ | ⟨k1, a, b, q, r, e, ha, hb, hq, hr⟩ <;>
  rw [e] <;> simp [UInt8.lt_iff_toNat_lt] <;> omega

/-- `is_ascii`: all code points are below 128. -/
theorem C63_isAscii (cs : List Nat) (h : ∀ c ∈ cs, IsCodePoint c) :
    isAscii (encodeCps cs) = true ↔ ∀ c ∈ cs, c < 128 := by
  unfold isAscii
  induction cs with
  | nil => simp [encodeCps]
  | cons c cs ih =>
    rw [encodeCps_cons, List.all_append, Bool.and_eq_true, gutf8_ascii c (h c (by simp)),
      ih fun x hx => h x (by simp [hx])]
    simp

/-- `ascii_byte_at`: the code point that starts at the position when it is ASCII, `0xFF` everywhere
else inside the string, and a panic outside. -/
theorem C63_asciiByteAt (cs : List Nat) (h : ∀ c ∈ cs, IsCodePoint c) (i : Nat) :
    (∀ k c, cs[k]? = some c → c < 128 → i = (encodeCps (cs.take k)).length →
      asciiByteAt (encodeCps cs) i = .ok (UInt8.ofNat c)) ∧
    (i < (encodeCps cs).length →
      (∀ k c, cs[k]? = some c → i = (encodeCps (cs.take k)).length → 128 ≤ c) →
      asciiByteAt (encodeCps cs) i = .ok 0xFF) ∧
    ((encodeCps cs).length ≤ i → asciiByteAt (encodeCps cs) i = .error .panic) := by
  refine ⟨?_, ?_, ?_⟩
  · intro k c hk hc hi
    have e : (UInt8.ofNat c).toNat = c := by rw [Bits.u8_ofNat_toNat]; omega
    have := (ascii_at cs h i (UInt8.ofNat c) (by omega)).mpr ⟨k, by rw [e]; exact hk, hi⟩
    unfold asciiByteAt
    rw [this]
    simp only
    rw [if_pos]
    rw [UInt8.le_iff_toNat_le, e]
    simp; omega
  · intro hi hk
    unfold asciiByteAt
    rw [List.getElem?_eq_getElem hi]
    simp only
    rw [if_neg]
    rw [UInt8.le_iff_toNat_le]
    intro hle
    simp only [UInt8.reduceToNat] at hle
    obtain ⟨k, hk1, hk2⟩ := (ascii_at cs h i _ (by omega)).mp (List.getElem?_eq_getElem hi)
    have := hk k _ hk1 hk2
    omega
  · intro hi
    unfold asciiByteAt
    rw [List.getElem?_eq_none hi]

example : toAsciiUppercase (encodeCps [0x61, 0xE9, 0x17F, 0x7A]) = encodeCps [0x41, 0xE9, 0x17F, 0x5A] := by
  decide
example : eqIgnoreAsciiCase (encodeCps [0x41, 0xE9]) (encodeCps [0x61, 0xE9]) = true := by decide
example : eqIgnoreAsciiCase (encodeCps [0xC9]) (encodeCps [0xE9]) = false := by decide
/-- `@` and the backquote differ only in the case bit, but are not letters. -/
example : eqIgnoreAsciiCase [0x40] [0x60] = false := by decide
example : asciiByteAt (encodeCps [0xE9, 0x61]) 2 = .ok 0x61 ∧
    asciiByteAt (encodeCps [0xE9, 0x61]) 1 = .ok 0xFF := by decide

/-- `Codepoint`: conversions from numbers and to characters. -/
theorem C63_codepoint (n : Nat) :
    (cpFromU32 n = some n ↔ IsCodePoint n) ∧ (cpFromU32 n = none ↔ ¬ IsCodePoint n) ∧
    (∀ c, toChar n = some c ↔ c = n ∧ ¬ IsSurrogate n) ∧
    toCharLossy n = (if IsSurrogate n then 0xFFFD else n) := by
  unfold cpFromU32 toCharLossy toChar IsCodePoint IsSurrogate
  refine ⟨?_, ?_, ?_, ?_⟩
  · split <;> simp_all
  · split <;> simp_all
  · intro c
    split
    · simp_all
    · rename_i hn
      simp only [Option.some.injEq]
      exact ⟨fun e => ⟨e.symm, hn⟩, fun e => e.1.symm⟩
  · split <;> rename_i hn
    · exact (if_pos (show IsSurrogate n from hn)).symm
    · exact (if_neg (show ¬ IsSurrogate n from hn)).symm

/-! ## C64 -/

/-- Full statement (documentation of `Wtf8Error::error_len`): `None` says that more input could make
the bytes valid; `Some(len)` says that the `len` bytes from `valid_up_to` on are the invalid sequence,
and that decoding can resume behind them; no ASCII character is lost by that. -/
def C64_full : Prop := ∀ bs e, fromBytes bs = .error e →
  (e.errorLen = none ↔ ∃ more, fromBytes (bs ++ more) = .ok (bs ++ more)) ∧
  ∀ n, e.errorLen = some n → e.validUpTo + n ≤ bs.length ∧
    ∀ b ∈ (bs.drop e.validUpTo).take n, 128 ≤ b.toNat

/-- Violated: for `E1 41` the invalid sequence is said to be 3 bytes long. It would reach beyond the
end of the input, and it contains the letter `A`. -/
theorem C64_violated : ¬ C64_full := by
  intro h
  have := ((h [0xE1, 0x41] ⟨0, some 3⟩ (by decide)).2 3 rfl).1
  simp at this

/-- Violated also without running past the end: `C3 41 42` has an error of 2 bytes, which swallows the
letter `A`. -/
theorem C64_swallow_violated : ¬ ∀ bs e n, fromBytes bs = .error e → e.errorLen = some n →
    ∀ b ∈ (bs.drop e.validUpTo).take n, 128 ≤ b.toNat := by
  intro h
  have := h [0xC3, 0x41, 0x42] ⟨0, some 2⟩ 2 (by decide) rfl 0x41 (by decide)
  simp at this

theorem validate_of (bs : Bytes) (e : Wtf8Error) (h : fromBytes bs = .error e) :
    validateFrom 0 false bs = .error e := by
  unfold fromBytes validate at h
  cases hv : validateFrom 0 false bs with
  | ok u => rw [hv] at h; simp [bind, Except.bind, pure, Except.pure] at h
  | error e' => rw [hv] at h; simp [bind, Except.bind] at h; rw [h]

/-- Proved part: an error with a length is final, whatever input follows; hence bytes that some
continuation would make valid are always reported with `None`, and nothing but the last three bytes can
be incomplete. The length is between 1 and 6. Missing: the length is not that of the invalid bytes. -/
theorem C64_final_partial (bs : Bytes) (e : Wtf8Error) (h : fromBytes bs = .error e) :
    (∀ n, e.errorLen = some n → 1 ≤ n ∧ n ≤ 6 ∧ ∀ more, fromBytes (bs ++ more) = .error e) ∧
    ((∃ more, fromBytes (bs ++ more) = .ok (bs ++ more)) →
      e.errorLen = none ∧ bs.length ≤ e.validUpTo + 3) := by
  have hv := validate_of bs e h
  have key : ∀ n, e.errorLen = some n → ∀ more, fromBytes (bs ++ more) = .error e := by
    intro n hn more
    unfold fromBytes validate
    rw [validateFrom_more 0 false bs more e hv (by simp [hn])]
    rfl
  refine ⟨fun n hn => ?_, ?_⟩
  · have := validateFrom_len 0 false bs e n hv hn
    exact ⟨this.1, this.2, key n hn⟩
  · rintro ⟨more, hm⟩
    cases hl : e.errorLen with
    | none => exact ⟨rfl, (C48_validUpTo_partial bs e h).2.2 hl⟩
    | some n => rw [key n hl more] at hm; cases hm

example : fromBytes [0x61, 0xE2, 0x82] = .error ⟨1, none⟩ ∧
    fromBytes ([0x61, 0xE2, 0x82] ++ [0xAC]) = .ok [0x61, 0xE2, 0x82, 0xAC] := by decide
example : fromBytes [0x61, 0xC0, 0x80] = .error ⟨1, some 1⟩ := by decide

end Verif.Props
