import Verif.Lemmas.TySound
import Verif.Props.Wtf8

/-!
# Type descriptors (C15 – C17)

`Spec.Desc t cs` is the descriptor grammar of JVMS 4.3, written independently of the parser and the
printers.
-/

namespace Verif.Props
open Verif.Spec Verif.Wtf8 Verif.JType

/-- `([[Ljava/é;D)V`-like sample: a method type with an array of a class and a double. -/
def sampleMethod : JType :=
  .method [.array 2 (.ref (encodeCps [0x6A, 0x61, 0x2F, 0xE9, 0xD800])), .double] none

theorem sampleMethod_ok : IsDescriptor sampleMethod := by
  refine .void ?_
  intro p hp
  simp only [List.mem_cons, List.not_mem_nil, or_false] at hp
  rcases hp with rfl | rfl
  · refine .array (by decide) (.ref ⟨by decide, ?_⟩ (by decide)) (by intros; simp)
    refine ⟨by decide, by decide, by decide, by decide, trivial⟩
  · exact .double

theorem field_text {t : JType} (h : IsField t) : ∃ cs, Desc t cs := by
  induction h with
  | ref hv _ => exact ⟨_, .ref hv⟩
  | array _ _ _ ih => obtain ⟨cs, h⟩ := ih; exact ⟨_, .array h⟩
  | byte => exact ⟨_, .byte⟩
  | char => exact ⟨_, .char⟩
  | double => exact ⟨_, .double⟩
  | float => exact ⟨_, .float⟩
  | int => exact ⟨_, .int⟩
  | long => exact ⟨_, .long⟩
  | boolean => exact ⟨_, .boolean⟩
  | short => exact ⟨_, .short⟩

theorem fields_text {ps : List JType} (h : ∀ p ∈ ps, IsField p) : ∃ cs, DescList ps cs := by
  induction ps with
  | nil => exact ⟨_, .nil⟩
  | cons p ps ih =>
    obtain ⟨cs, h1⟩ := field_text (h p (by simp))
    obtain ⟨ds, h2⟩ := ih (fun x hx => h x (by simp [hx]))
    exact ⟨_, .cons h1 h2⟩

theorem parse_encode (cs : List Nat) {t : JType} {rest : List Nat} (h : ∀ c ∈ cs, IsCodePoint c)
    (hg : getType (2 * cs.length + 2) cs = .ok (t, rest)) : parseType (encodeCps cs) = .ok t := by
  rw [parseType, codepoints_encode cs h]
  simp only [hg]

/-! ## C15 -/

/-- Every well-formed type has a descriptor text. -/
theorem C15_text_exists {t : JType} (h : IsDescriptor t) : ∃ cs, Desc t cs := by
  cases h with
  | field h => exact field_text h
  | void h => obtain ⟨cs, h⟩ := fields_text h; exact ⟨_, .void h⟩
  | method h hr =>
    obtain ⟨cs, h⟩ := fields_text h
    obtain ⟨ds, hr⟩ := field_text hr
    exact ⟨_, .method h hr⟩

/-- The form written into class files is exactly the JVMS descriptor text (for every type value that
has one, well-formed or not). -/
theorem C15_write_text {t : JType} {cs : List Nat} (h : Desc t cs) : toWtf8 t = encodeCps cs := by
  have := writeType_desc h [] (by simp)
  exact this

/-- Parsing what the class-file writer prints. -/
theorem C15_write_parse (t : JType) (h : IsDescriptor t) : parseType (toWtf8 t) = .ok t := by
  obtain ⟨cs, hd⟩ := C15_text_exists h
  rw [C15_write_text hd, parseType, codepoints_encode cs (Desc_isCodePoint hd)]
  obtain ⟨rest, hr⟩ := getType_descriptor h hd (2 * cs.length + 2) (Nat.le_refl _)
  simp only [hr]

/-- Parsing the `Display` text, when no name holds a surrogate. -/
theorem C15_display_parse (t : JType) (h : IsDescriptor t)
    (hs : ∀ cs, Desc t cs → ∀ c ∈ cs, ¬ IsSurrogate c) : parseType (display t) = .ok t := by
  obtain ⟨cs, hd⟩ := C15_text_exists h
  rw [display_desc hd, map_repl_of_none cs (hs cs hd), ← C15_write_text hd]
  exact C15_write_parse t h

/-- Different well-formed types have different descriptors. -/
theorem C15_injective (t u : JType) (ht : IsDescriptor t) (hu : IsDescriptor u)
    (h : toWtf8 t = toWtf8 u) : t = u := by
  have h1 := C15_write_parse t ht
  rw [h, C15_write_parse u hu] at h1
  cases h1
  rfl

example : parseType (toWtf8 sampleMethod) = .ok sampleMethod := C15_write_parse _ sampleMethod_ok

example : parseType (display (.array 3 .int)) = .ok (.array 3 .int) := by
  refine C15_display_parse _ (.field (.array (by decide) .int (by intros; simp))) ?_
  intro cs h
  cases h with
  | array h' => cases h'; decide

/-! ## C16 -/

/-- Full statement: what is accepted is exactly the text of the result. -/
def C16_full : Prop := ∀ s t, WellFormed s → parseType s = .ok t → ∃ cs, Desc t cs ∧ s = encodeCps cs

/-- `BX` is accepted as `byte`. -/
theorem C16_violated : ¬ C16_full := by
  intro h
  obtain ⟨cs, hd, he⟩ := h [0x42, 0x58] .byte ⟨[0x42, 0x58], ⟨by decide, by decide, trivial⟩, rfl⟩
    (parse_encode [0x42, 0x58] (by decide) (by rfl))
  cases hd
  simp [encodeCps, gutf8] at he

/-- What holds: the text of the result is a prefix of the input. Missing: rejection of the rest. -/
theorem C16_prefix_partial (s : Bytes) (t : JType) (h : WellFormed s) (hp : parseType s = .ok t) :
    ∃ cs rest, Desc t cs ∧ s = encodeCps (cs ++ rest) := by
  obtain ⟨cs, hv, rfl⟩ := h
  rw [parseType, codepoints_encode cs hv.1] at hp
  simp only at hp
  split at hp
  · rename_i t' rest hg
    cases hp
    obtain ⟨used, hu, _, hc⟩ := getType_sound _ _ _ _ hv hg
    rcases hc with hd | ⟨hr, hd⟩
    · exact ⟨used, rest, hd, by rw [hu]⟩
    · cases rest with
      | nil => simp at hr
      | cons a tl =>
        simp at hr
        subst hr
        exact ⟨used ++ [0x56], tl, hd, by rw [hu]; simp⟩
  · cases hp

/-- A text starting with `[` only gives array types. -/
theorem C16_bracket_array (s : Bytes) (t : JType) (h : WellFormed (0x5B :: s))
    (hp : parseType (0x5B :: s) = .ok t) : ∃ d u, t = .array d u := by
  obtain ⟨cs, hv, he⟩ := h
  obtain ⟨cs', rfl⟩ : ∃ cs', cs = 0x5B :: cs' := by
    cases cs with
    | nil => simp [encodeCps] at he
    | cons c cs' =>
      have h1 := nextCodePoint_gutf8 c (hv.1 c (by simp)) (encodeCps cs')
      have h2 := nextCodePoint_gutf8 0x5B (by decide) s
      rw [← encodeCps_cons, he] at h1
      rw [show gutf8 0x5B ++ s = 0x5B :: s from rfl, h1] at h2
      cases h2
      exact ⟨cs', rfl⟩
  rw [← he, parseType, codepoints_encode _ hv.1] at hp
  simp only at hp
  split at hp
  · rename_i t' rest hg
    cases hp
    rcases getType_cases (2 * (0x5B :: cs').length + 1) 0x5B cs' with
      ⟨t0, hd0, h0⟩ | ⟨hc, h0⟩ | ⟨hc, h0⟩ | ⟨hc, h0⟩ | h0
    · generalize hx : (0x5B : Nat) = x at hd0
      generalize hl : [x] = l at hd0
      cases hd0 with
      | array => exact ⟨_, _, (by rw [h0] at hg; cases hg; rfl)⟩
      | _ => simp at hl; try omega
    · omega
    · rw [h0] at hg
      split at hg
      · split at hg
        · cases hg; exact ⟨_, _, rfl⟩
        · cases hg
      · cases hg
    · omega
    · rw [h0] at hg; cases hg
  · cases hp

/-- On well-formed strings the parser always answers: it never loops, never reaches undefined
behaviour, and panics only where 256 brackets follow each other. -/
theorem C16_total (s : Bytes) (h : WellFormed s) :
    (∃ t, parseType s = .ok t) ∨ parseType s = .error .invalid ∨
      (parseType s = .error .panic ∧
        ∃ a b, s = encodeCps a ++ List.replicate 256 0x5B ++ encodeCps b) := by
  obtain ⟨cs, hv, rfl⟩ := h
  rw [parseType, codepoints_encode cs hv.1]
  simp only
  cases hg : getType (2 * cs.length + 2) cs with
  | ok p => exact .inl ⟨p.1, rfl⟩
  | error e =>
    rcases getType_err _ _ _ (by omega) hg with rfl | ⟨rfl, a, b, hb⟩
    · exact .inr (.inl rfl)
    · refine .inr (.inr ⟨rfl, a, b, ?_⟩)
      rw [hb, encodeCps_append, encodeCps_append, encodeCps_replicate _ _ (by omega)]
      rfl

/-- The panic is real: the counter of dimensions overflows on every text starting with 256 or more
brackets. -/
theorem C16_overflow (k : Nat) (cs : List Nat) (hk : 256 ≤ k) (h : ∀ c ∈ cs, IsCodePoint c) :
    parseType (List.replicate k 0x5B ++ encodeCps cs) = .error .panic := by
  have e : List.replicate k (0x5B : UInt8) = encodeCps (List.replicate k 0x5B) := by
    rw [encodeCps_replicate _ _ (by omega)]; rfl
  have hcb : ∀ (j : Nat) (l : List Nat), j ≤ (countBrackets (List.replicate j 0x5B ++ l)).1 := by
    intro j l
    induction j with
    | zero => simp
    | succ j ih =>
      rw [List.replicate_succ, List.cons_append, countBrackets, if_pos rfl]
      exact Nat.succ_le_succ ih
  rw [e, ← encodeCps_append, parseType, codepoints_encode]
  · obtain ⟨j, rfl⟩ : ∃ j, k = j + 1 := ⟨k - 1, by omega⟩
    rw [List.replicate_succ, List.cons_append]
    simp only
    have := hcb j cs
    rcases getType_cases (2 * (0x5B :: (List.replicate j 0x5B ++ cs)).length + 1) 0x5B
      (List.replicate j 0x5B ++ cs) with ⟨t0, hd0, h0⟩ | ⟨hc, h0⟩ | ⟨hc, h0⟩ | ⟨hc, h0⟩ | h0
    · exfalso
      rw [getType] at h0
      simp only [Nat.reduceEqDiff, reduceIte] at h0
      rw [if_neg (by omega)] at h0
      cases h0
    · omega
    · rw [h0, if_neg (by omega)]
    · omega
    · exfalso
      rw [getType] at h0
      simp only [Nat.reduceEqDiff, reduceIte] at h0
      rw [if_neg (by omega)] at h0
      cases h0
  · intro c hc
    rw [List.mem_append] at hc
    rcases hc with hc | hc
    · rw [List.eq_of_mem_replicate hc]; decide
    · exact h c hc

example : ∃ cs rest, Desc (.method [.int] none) cs ∧
    ([0x28, 0x49, 0x29, 0x56, 0x21] : Bytes) = encodeCps (cs ++ rest) :=
  C16_prefix_partial _ _ ⟨[0x28, 0x49, 0x29, 0x56, 0x21], ⟨by decide,
    by decide, by decide, by decide, by decide, trivial⟩, rfl⟩
    (parse_encode [0x28, 0x49, 0x29, 0x56, 0x21] (by decide) (by rfl))

example : ∃ d u, (.array 2 .int : JType) = .array d u :=
  C16_bracket_array [0x5B, 0x49] _ ⟨[0x5B, 0x5B, 0x49], ⟨by decide, by decide, by decide, trivial⟩, rfl⟩
    (parse_encode [0x5B, 0x5B, 0x49] (by decide) (by rfl))

/-! ## C17 -/

/-- Full statement: both printed forms agree. -/
def C17_full : Prop := ∀ t cs, Desc t cs → display t = toWtf8 t

/-- A class named by one unpaired surrogate. -/
theorem C17_violated : ¬ C17_full := by
  intro h
  have hd : Desc (.ref (encodeCps [0xD800])) (0x4C :: ([0xD800] ++ [0x3B])) :=
    .ref ⟨by decide, trivial⟩
  have h1 := h _ _ hd
  rw [display_desc hd, C15_write_text hd] at h1
  revert h1
  decide

/-- The `Display` form is the descriptor text with every surrogate replaced by U+FFFD. -/
theorem C17_display {t : JType} {cs : List Nat} (h : Desc t cs) : display t = encodeCps (lossy cs) :=
  display_desc h

/-- What holds: the forms agree on types whose text has no surrogate. Missing: the other types. -/
theorem C17_agree_partial (t : JType) (cs : List Nat) (h : Desc t cs)
    (hs : ∀ c ∈ cs, ¬ IsSurrogate c) : display t = toWtf8 t := by
  rw [C15_write_text h, display_desc h, map_repl_of_none cs hs]

example : display (.ref (encodeCps [0x41, 0x1F600])) = toWtf8 (.ref (encodeCps [0x41, 0x1F600])) :=
  C17_agree_partial _ _ (.ref ⟨by decide, by decide, trivial⟩) (by decide)

end Verif.Props
