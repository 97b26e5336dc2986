import Verif.Lemmas.ReleaseSafeClass
import Verif.Props.ReleaseRead

/-! # Property C105: reading input of unknown origin in a build without overflow checks -/

namespace Verif.Props
open Spec

/-- C105, full statement: on no input does reading a class file panic. -/
def C105_full : Prop := ∀ (ord : Order) (input : Bytes), (∀ k n l, (ord k n l).Perm l) →
  Class.readW ord input ≠ .error .panic

/-- C105. Reading, whatever the input, never reaches undefined behaviour and never loops for ever. -/
theorem C105_safe (ord : Order) (input : Bytes) :
    Class.readW ord input ≠ .error .ub ∧ Class.readW ord input ≠ .error .diverge := by
  have h := read_classW ord input
  rcases hr : Class.readW ord input with e | ⟨x, rest⟩
  · rw [hr] at h
    exact ⟨fun h' => by cases h'; exact h.1.1 rfl, fun h' => by cases h'; exact h.2.1 rfl⟩
  · exact ⟨nofun, nofun⟩

/-- C105, what is true of the full statement: a panic needs a bad method body, with the count of a `tableswitch` that is
negative with 32 bits or a line number for a position that is not an instruction. -/
theorem C105_no_panic_partial (ord : Order) (input : Bytes) (h : ¬ HazardW input) :
    Class.readW ord input ≠ .error .panic := by
  intro he
  have h' := read_classW ord input
  rw [he] at h'
  exact h (h'.2.2 rfl)

/-- C105. What remains after reading is the end of the input. -/
theorem C105_consumes (ord : Order) (input : Bytes) {x : Class} {rest : Bytes}
    (h : Class.readW ord input = .ok (x, rest)) : rest <:+ input := by
  have h' := read_classW ord input
  rw [h] at h'
  exact h'.1

/-- C105. The bootstrap methods of a class that was read are resolved. -/
theorem C105_resolved (ord : Order) (input : Bytes) {x : Class} {rest : Bytes}
    (h : Class.readW ord input = .ok (x, rest)) : resolveCells (openClass x) x.attrs = .ok () := by
  have h' := read_classW ord input
  rw [h] at h'
  exact h'.2

/-! ## The features that remain do make the reader panic -/

/-- A `tableswitch` from 1 to -1. -/
theorem C105_violated_switch : Class.readW (fun _ _ l => l)
    (tinyFile noArgs [] [0xAA, 0, 0, 0, 0, 0, 0, 0, 0, 0, 0, 1, 0xFF, 0xFF, 0xFF, 0xFF] []) = .error .panic :=
  panics_iff (by decide +kernel)

/-- A `tableswitch` from 0 to the greatest number: there would be 2^31 targets, which is negative with 32 bits. -/
theorem C105_violated_wide : Class.readW (fun _ _ l => l)
    (tinyFile noArgs [] [0xAA, 0, 0, 0, 0, 0, 0, 0, 0, 0, 0, 0, 0x7F, 0xFF, 0xFF, 0xFF] []) = .error .panic :=
  panics_iff (by decide +kernel)

/-- A line number for a position inside an instruction. -/
theorem C105_violated_line : Class.readW (fun _ _ l => l)
    (tinyFile noArgs [utf8Bytes N.lineNumberTable] [0x10, 7, 0xB1] [[0, 5, 0, 0, 0, 6, 0, 1, 0, 1, 0, 9]]) =
      .error .panic :=
  panics_iff (by decide +kernel)

theorem C105_violated : ¬ C105_full := fun h =>
  h (fun _ _ l => l) _ (fun _ _ l => List.Perm.refl l) C105_violated_switch

/-! ## The hypothesis -/

/-- Without the byte 0xAA and the word `LineNumberTable` there is no hazard. -/
theorem C105_plain {input : Bytes} (h1 : (0xAA : UInt8) ∉ input) (h2 : ∀ cp rest, MapCp.readW (input.drop 8) = .ok (cp, rest) →
    ∀ i, ¬ IsUtf8 cp.get i N.lineNumberTable) : ¬ HazardW input := by
  rintro ⟨cp, rest, i, payload, h, hi, hp, ms, ml, code, tail, he,
    (⟨pre, suf, rs, rfl, _, pad, dflt, low, high, rest', rfl, _⟩ | ⟨rs, _, pc, line, ⟨j, es, hj, _⟩, _⟩)⟩
  · have hp2 : payload <:+: input := by
      have h3 := read_poolW (input := input) (List.drop_suffix 8 _).isInfix
      rw [h] at h3
      exact List.IsInfix.trans ⟨U2 i.toNat ++ U4 payload.length, [], by simp⟩
        (List.IsInfix.trans hp (List.IsInfix.trans h3.1.isInfix (List.drop_suffix 8 _).isInfix))
    refine h1 (hp2.subset ?_)
    rw [he]
    simp
  · exact h2 cp rest h j hj

theorem C105_plain_of {input : Bytes} (h1 : (0xAA : UInt8) ∉ input)
    (h4 : (match MapCp.readW (input.drop 8) with
      | .ok (cp, _) => cp.entries.all fun e => match e.2 with | .utf8 s => decide (s ≠ N.lineNumberTable) | _ => true
      | .error _ => false) = true) : ¬ HazardW input := by
  refine C105_plain h1 fun cp rest h i hi => ?_
  rw [h] at h4
  have h5 := List.all_eq_true.mp h4 _ (lookup_mem hi)
  simp only [decide_eq_true_eq] at h5
  exact h5 rfl

/-- 256 brackets, on which a build with checks panics, are no hazard here. -/
example : ¬ HazardW (tinyFile (List.replicate 256 0x5B ++ [0x49]) [] [0xB1] []) :=
  C105_plain_of (by decide +kernel) (by decide +kernel)

/-- Nor is a variable whose range ends after position 65535. -/
example : ¬ HazardW (tinyFile noArgs [utf8Bytes N.localVariableTable] [0xB1]
    [[0, 5, 0, 0, 0, 12, 0, 1, 0, 1, 0xFF, 0xFF, 0, 1, 0, 4, 0, 0]]) :=
  C105_plain_of (by decide +kernel) (by decide +kernel)

/-- A `tableswitch` over all keys has no targets here, and is accepted (`C103_violated_switch`). -/
example : Targets (-2147483648) 2147483647 0 := ⟨by decide, -1, by decide⟩

/-- The class read from 256 brackets, and what remains. -/
example : ∃ x, Class.readW (fun _ _ l => l) (tinyFile (List.replicate 256 0x5B ++ [0x49]) [] [0xB1] []) = .ok (x, []) :=
  accepts_iff (by decide +kernel)

/-! ## Attributes with a wrong length -/

/-- C105. If the reader complains of the length of an attribute, then behind the pool there is an attribute with that name
and that length. -/
theorem C105_length (ord : Order) (input : Bytes) {claimed used : UInt32} {name : Bytes}
    (h : Class.readW ord input = .error (.attrLen claimed used name)) : ∃ cp rest i payload,
      MapCp.readW (input.drop 8) = .ok (cp, rest) ∧ IsUtf8 cp.get i name ∧ payload.length = claimed.toNat ∧
      U2 i.toNat ++ (U4 payload.length ++ payload) <:+: rest := by
  have h' := read_classW ord input
  rw [h] at h'
  obtain ⟨cp, rest, i, w, left, h1, h2, h3, h4, _, rfl, _⟩ := h'.1.2 _ _ _ rfl
  exact ⟨cp, rest, i, w, h1, h2, by simp; omega, h3⟩

/-- A line number table that claims one byte too many. -/
example : (match Class.readW (fun _ _ l => l)
      (tinyFile noArgs [utf8Bytes N.lineNumberTable] [0xB1] [[0, 5, 0, 0, 0, 7, 0, 1, 0, 0, 0, 9, 0xEE]]) with
    | .error (.attrLen 7 6 n) => n == N.lineNumberTable
    | _ => false) = true := by decide +kernel

end Verif.Props
