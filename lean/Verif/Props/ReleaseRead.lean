import Verif.Lemmas.ReleaseRead
import Verif.Props.Input

/-! # Property C103: reading a class with and without overflow checks -/

namespace Verif.Props
open Spec Sig

/-- C103, full statement: a class file is read in the same way in a build without overflow checks. -/
def C103_full : Prop := ∀ (ord : Order) (input : Bytes), (∀ k n l, (ord k n l).Perm l) →
  Class.readW ord input = Class.read ord input

/-- Proved: it is, unless the build with checks panics. -/
theorem C103_agree_partial (ord : Order) (input : Bytes) (h : Class.read ord input ≠ .error .panic) :
    Class.readW ord input = Class.read ord input := Class.readW_agrees ord input h

/-- A class that is read with checks is read without, as the same class. -/
theorem C103_accepted_partial (ord : Order) (input rest : Bytes) (x : Class) (h : Class.read ord input = .ok (x, rest)) :
    Class.readW ord input = .ok (x, rest) := by
  rw [C103_agree_partial ord input (by rw [h]; exact nofun), h]

/-- A file that is refused with checks is refused without, with the same error. -/
theorem C103_refused_partial (ord : Order) (input : Bytes) (e : Err) (he : e ≠ .panic) (h : Class.read ord input = .error e) :
    Class.readW ord input = .error e := by
  rw [C103_agree_partial ord input (by rw [h]; exact fun hh => he (by cases hh; rfl)), h]

/-- A build without checks panics on fewer files. -/
theorem C103_panics (ord : Order) (input : Bytes) (h : Class.readW ord input = .error .panic) :
    Class.read ord input = .error .panic := by
  rcases Agrees.cases (Class.readW_agrees ord input) with h1 | ⟨e, h1, h2⟩ | ⟨a, h1, h2⟩
  · exact h1
  · rw [h1, ← h2, h]
  · rw [h2] at h
    cases h

/-- Neither build panics on a file without the features listed in `Hazard`; both then do the same. -/
theorem C103_harmless_partial (ord : Order) (input : Bytes) (h : ¬ Hazard input) :
    Class.readW ord input = Class.read ord input ∧ Class.readW ord input ≠ .error .panic := by
  have h1 := C54_no_panic_partial ord input h
  have h2 := C103_agree_partial ord input h1
  exact ⟨h2, by rw [h2]; exact h1⟩

/-! ## What is read where the checks panic -/

/-- The table of a `tableswitch`: the number of offsets is `high - low + 1` modulo 2^32, as a signed number. -/
theorem C103_switch (low high : Int32) (offs : List Int32) (rest : Bytes)
    (h : (offs.length : Int) = (high.toInt - low.toInt + 1).bmod (2 ^ 32)) :
    TblSwitch.readW (i32.write low ++ (i32.write high ++ (offs.flatMap i32.write ++ rest))) = .ok (⟨low, high, offs⟩, rest) := by
  have hl : (high - low + 1).toInt = (offs.length : Int) := by
    rw [Int32.toInt_add, Int32.toInt_sub, Int32.toInt_one, Int.bmod_add_bmod, h]
  have hr : ∀ os : List Int32, Reader.replicate os.length i32.read (os.flatMap i32.write ++ rest) = .ok (os, rest) := by
    intro os
    induction os with
    | nil => rfl
    | cons o os ih =>
      rw [List.flatMap_cons, List.append_assoc, List.length_cons, Reader.replicate, Reader.bind, NumCodec.reads i32_lawful _ _]
      simp only [Reader.bind, ih]
      rfl
  unfold TblSwitch.readW Reader.bind
  rw [NumCodec.reads i32_lawful _ _]
  simp only
  rw [NumCodec.reads i32_lawful _ _]
  simp only
  rw [hl, if_pos (by omega), Int.toNat_natCast, Reader.of1, Reader.bind, hr offs]
  rfl

/-- With checks the same table makes the reader panic, unless `high - low + 1` is the number of offsets itself. -/
theorem C103_switch_checked (low high : Int32) (offs : List Int32) (rest : Bytes)
    (hn : (offs.length : Int) ≠ high.toInt - low.toInt + 1)
    (h : (offs.length : Int) = (high.toInt - low.toInt + 1).bmod (2 ^ 32)) :
    TblSwitch.read (i32.write low ++ (i32.write high ++ (offs.flatMap i32.write ++ rest))) = .error .panic := by
  unfold TblSwitch.read Reader.bind
  rw [NumCodec.reads i32_lawful _ _]
  simp only
  rw [NumCodec.reads i32_lawful _ _]
  simp only
  rw [if_neg]
  · rfl
  · intro h2
    apply hn
    rw [h, Int.bmod_def]
    split <;> omega

/-- `low` is the greatest and `high` the least number: two offsets. -/
example : TblSwitch.readW (i32.write 2147483647 ++ (i32.write (-2147483648) ++ (([5, 6] : List Int32).flatMap i32.write ++ [9]))) =
    .ok (⟨2147483647, -2147483648, [5, 6]⟩, [9]) := C103_switch _ _ _ _ (by decide)

/-- The range of a local variable: its end is taken modulo 2^16. -/
theorem C103_range (start len : UInt16) (env : REnv) (m : LabelMap) (p : List UInt16) (bs : Bytes) (s e : Label)
    (hs : m.lookup start.toUInt32 = some s) (he : m.lookup (start + len).toUInt32 = some e) :
    rangeLabelsW start len env ⟨p, some m⟩ bs = .ok ((s, e), ⟨p, some m⟩, bs) := by
  simp only [rangeLabelsW, Rd.bind, Rd.map, getLabel, hs, he, Rd.pure]

/-- With checks the same range makes the reader panic if it wraps. -/
theorem C103_range_checked (start len : UInt16) (env : REnv) (m : LabelMap) (p : List UInt16) (bs : Bytes) (s : Label)
    (hs : m.lookup start.toUInt32 = some s) (h : 65536 ≤ start.toNat + len.toNat) :
    rangeLabels start len env ⟨p, some m⟩ bs = .error .panic := by
  simp only [rangeLabels, Rd.bind, getLabel, hs]
  rw [if_neg (by omega)]
  rfl

/-- The variable begins at 3 and ends at 1. -/
example (env : REnv) : rangeLabelsW 3 65534 env ⟨[], some [(1, 7), (3, 8)]⟩ [] =
    .ok ((8, 7), ⟨[], some [(1, 7), (3, 8)]⟩, []) := C103_range _ _ _ _ _ _ _ _ rfl rfl

theorem countBrackets_run : ∀ (n : Nat) (s : Str), s.head? ≠ some 0x5B →
    JType.countBrackets (List.replicate n 0x5B ++ s) = (n, s)
  | 0, [], _ => rfl
  | 0, c :: cs, h => by
    rw [List.replicate_zero, List.nil_append, JType.countBrackets, if_neg]
    exact fun hc => h (by rw [hc]; rfl)
  | n + 1, s, h => by
    rw [List.replicate_succ, List.cons_append, JType.countBrackets, if_pos rfl, countBrackets_run n s h]

/-- The dimensions of an array in a signature are counted modulo 256. -/
theorem C103_brackets (n fuel : Nat) (s s' : Str) (t : TypeSig) (hs : s.head? ≠ some 0x5B)
    (h : typeSigW fuel s = .ok (t, s')) :
    refTypeSigW (fuel + 1) (List.replicate (n + 1) 0x5B ++ s) = .ok (.array (UInt8.ofNat (n + 1)) t, s') := by
  rw [List.replicate_succ, List.cons_append, refTypeSigW, if_pos rfl, countBrackets_run n s hs, h]

/-- With checks 256 brackets make the parser panic. -/
theorem C103_brackets_checked (n fuel : Nat) (s : Str) (hs : s.head? ≠ some 0x5B) (hn : 255 ≤ n) :
    refTypeSig (fuel + 1) (List.replicate (n + 1) 0x5B ++ s) = .error .panic := by
  rw [List.replicate_succ, List.cons_append, refTypeSig, if_pos rfl, countBrackets_run n s hs, if_neg (by simp only; omega)]

/-- 257 brackets before `I`: an array of one dimension. -/
example : refTypeSigW 9 (List.replicate 257 0x5B ++ [0x49]) = .ok (.array 1 .int, []) :=
  C103_brackets 256 8 [0x49] [] .int (by decide) (by rfl)

def accepts (r : Res (Class × Bytes)) : Bool :=
  match r with
  | .ok (_, []) => true
  | _ => false

theorem accepts_iff {r : Res (Class × Bytes)} (h : accepts r = true) : ∃ x, r = .ok (x, []) := by
  unfold accepts at h
  split at h
  · exact ⟨_, rfl⟩
  · cases h

/-- A file whose `tableswitch` ranges over all keys: with checks the reader panics, without the file is accepted. -/
theorem C103_violated_switch : ∃ input, Class.read (fun _ _ l => l) input = .error .panic ∧
    ∃ x, Class.readW (fun _ _ l => l) input = .ok (x, []) :=
  ⟨tinyFile noArgs [] [0xAA, 0, 0, 0, 0, 0, 0, 0, 0x80, 0, 0, 0, 0x7F, 0xFF, 0xFF, 0xFF] [],
    panics_iff (by decide +kernel), accepts_iff (by decide +kernel)⟩

/-- A file with a local variable that ends before it begins. -/
theorem C103_violated_range : ∃ input, Class.read (fun _ _ l => l) input = .error .panic ∧
    ∃ x, Class.readW (fun _ _ l => l) input = .ok (x, []) :=
  ⟨tinyFile noArgs [utf8Bytes N.localVariableTable] [0xB1] [[0, 5, 0, 0, 0, 12, 0, 1, 0, 1, 0xFF, 0xFF, 0, 1, 0, 4, 0, 0]],
    panics_iff (by decide +kernel), accepts_iff (by decide +kernel)⟩

/-- A file with a descriptor of 256 brackets. -/
theorem C103_violated_brackets : ∃ input, Class.read (fun _ _ l => l) input = .error .panic ∧
    ∃ x, Class.readW (fun _ _ l => l) input = .ok (x, []) :=
  ⟨tinyFile (List.replicate 256 0x5B ++ [0x49]) [] [0xB1] [], panics_iff (by decide +kernel), accepts_iff (by decide +kernel)⟩

/-- A file with a misplaced line number: the lookup panics in either build. -/
example : Class.readW (fun _ _ l => l)
    (tinyFile noArgs [utf8Bytes N.lineNumberTable] [0x10, 7, 0xB1] [[0, 5, 0, 0, 0, 6, 0, 1, 0, 1, 0, 9]]) = .error .panic :=
  panics_iff (by decide +kernel)

theorem C103_violated : ¬ C103_full := by
  intro h
  obtain ⟨input, h1, x, h2⟩ := C103_violated_range
  have := h (fun _ _ l => l) input (fun _ _ _ => List.Perm.refl _)
  rw [h1, h2] at this
  cases this

set_option maxRecDepth 100000 in
/-- A file that is read with checks (the hypothesis of `C103_accepted_partial`). -/
example : ∃ x, Class.readW (fun _ _ l => l) (tinyFile noArgs [utf8Bytes N.lineNumberTable]
    [0xAA, 0, 0, 0, 0, 0, 0, 0, 0, 0, 0, 0, 0, 0, 0, 1, 0, 0, 0, 0, 0, 0, 0, 0] [[0, 5, 0, 0, 0, 6, 0, 1, 0, 0, 0, 9]]) =
      .ok (x, []) := by
  obtain ⟨x, h⟩ := accepts_iff (r := Class.read (fun _ _ l => l) (tinyFile noArgs [utf8Bytes N.lineNumberTable]
    [0xAA, 0, 0, 0, 0, 0, 0, 0, 0, 0, 0, 0, 0, 0, 0, 1, 0, 0, 0, 0, 0, 0, 0, 0] [[0, 5, 0, 0, 0, 6, 0, 1, 0, 0, 0, 9]]))
    (by decide +kernel)
  exact ⟨x, C103_accepted_partial _ _ _ _ h⟩

end Verif.Props
