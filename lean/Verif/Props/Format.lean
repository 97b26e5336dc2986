import Verif.Lemmas.Format
import Verif.Props.Wtf8Api
import Verif.Props.Ty

/-! # Properties of formatting (C91, C92) -/

namespace Verif.Props
open Spec Wtf8 Format

/-! ## C91 -/

/-- Full claim: a string, formatted with options, is its text (with U+FFFD for surrogates) in the layout that the options
ask for; the text of a type is laid out, or the options are ignored. -/
def C91_full : Prop :=
  (∀ (o : Options) (cs : List Nat), (∀ c ∈ cs, IsCodePoint c) → NoPair cs →
    ∃ out, displayWith o (encodeCps cs) = .ok (encodeCps out) ∧ Laid o (lossy cs) out) ∧
  ∀ (o : Options) (t : JType) (ds : List Nat), t.display = encodeCps ds →
    ∃ out, typeWith o t = encodeCps out ∧ (Laid o ds out ∨ out = ds)

/-- Proved: strings without surrogates. -/
theorem C91_string_partial (o : Options) (cs : List Nat) (h : ∀ c ∈ cs, IsCodePoint c) (hs : ∀ c ∈ cs, ¬ IsSurrogate c) :
    ∃ out, displayWith o (encodeCps cs) = .ok (encodeCps out) ∧ Laid o cs out :=
  ⟨_, (displayWith_spec o cs h).1 hs, (laid_iff _ _ _).mpr rfl⟩

/-- With a surrogate, the options are ignored. -/
theorem C91_surrogate (o : Options) (cs : List Nat) (h : ∀ c ∈ cs, IsCodePoint c) (hs : ∃ c ∈ cs, IsSurrogate c) :
    displayWith o (encodeCps cs) = .ok (encodeCps (lossy cs)) := (displayWith_spec o cs h).2 hs

/-- Proved: without options all strings and all types are formatted as their plain text (C07, C17). -/
theorem C91_plain_partial (cs : List Nat) (h : ∀ c ∈ cs, IsCodePoint c) (t : JType) :
    displayWith {} (encodeCps cs) = .ok (encodeCps (lossy cs)) ∧ typeWith {} t = t.display := by
  constructor
  · by_cases hs : ∃ c ∈ cs, IsSurrogate c
    · exact C91_surrogate {} cs h hs
    · have hs : ∀ c ∈ cs, ¬ IsSurrogate c := fun c hc hx => hs ⟨c, hc, hx⟩
      rw [(displayWith_spec {} cs h).1 hs, pad_same (by simp) (by simp)]
      exact congrArg (fun l => Except.ok (encodeCps l)) (map_repl_of_none cs hs).symm
  · exact typeWith_plain {} t fun _ _ => pad_same (by simp) (by simp)

/-- Proved: for a type the options are ignored if no array in it has fewer dimensions than the width or more than the
precision; for instance if it has no arrays. -/
theorem C91_type_partial (o : Options) (t : JType) (hw : ∀ w, o.width = some w → ∀ d ∈ dims t, w ≤ d)
    (hp : ∀ p, o.precision = some p → ∀ d ∈ dims t, d ≤ p) : typeWith o t = t.display :=
  typeWith_plain o t fun d hd => pad_same (by simpa using fun w h => hw w h d hd) (by simpa using fun p h => hp p h d hd)

/-- The brackets of an array are laid out, and the text of its elements follows. -/
theorem C91_array (o : Options) (d : UInt8) (t : JType) :
    ∃ out, typeWith o (.array d t) = encodeCps out ++ typeWith o t ∧ Laid o (List.replicate d.toNat 0x5B) out :=
  ⟨_, by rw [typeWith], (laid_iff _ _ _).mpr rfl⟩

/-- `{:3}` of the type `int[]` is `[  I`, which is no descriptor. -/
example : typeWith { width := some 3 } (.array 1 .int) = [0x5B, 0x20, 0x20, 0x49] ∧
    (JType.parseType [0x5B, 0x20, 0x20, 0x49]).isOk = false := by decide +kernel

/-- `{:.1}` of the type `int[][]` is the descriptor of another type, `int[]`. -/
theorem C91_other_type : typeWith { precision := some 1 } (.array 2 .int) = (JType.array 1 .int).display := by decide +kernel

theorem C91_violated : ¬ C91_full := fun h => by
  obtain ⟨out, h1, h2⟩ := h.2 { width := some 3 } (.array 1 .int) [0x5B, 0x49] (by decide +kernel)
  have h3 : typeWith { width := some 3 } (.array 1 .int) = encodeCps [0x5B, 0x20, 0x20, 0x49] := by decide +kernel
  rcases h2 with h2 | rfl
  · rw [(laid_iff _ _ _).mp h2] at h1
    revert h1
    decide +kernel
  · revert h1
    decide +kernel

/-- Strings violate it too: `{:3}` of a surrogate has one character. -/
theorem C91_string_violated : ¬ ∀ (o : Options) (cs : List Nat), (∀ c ∈ cs, IsCodePoint c) → NoPair cs →
    ∃ out, displayWith o (encodeCps cs) = .ok (encodeCps out) ∧ Laid o (lossy cs) out := fun h => by
  obtain ⟨out, h1, h2⟩ := h { width := some 3 } [0xD800] (by decide) trivial
  rw [C91_surrogate _ _ (by decide) ⟨_, .head _, by decide⟩, (laid_iff _ _ _).mp h2] at h1
  revert h1
  decide +kernel

example : ∃ out, displayWith { fill := 0x2A, align := some .center, width := some 6, precision := some 3 }
      (encodeCps [0x61, 0xE9, 0x62, 0x63]) = .ok (encodeCps out) ∧
    Laid { fill := 0x2A, align := some .center, width := some 6, precision := some 3 } [0x61, 0xE9, 0x62, 0x63] out :=
  C91_string_partial _ _ (by decide) (by decide)

/-- `*aéb**`. -/
example : pad { fill := 0x2A, align := some .center, width := some 6, precision := some 3 } [0x61, 0xE9, 0x62, 0x63] =
    [0x2A, 0x61, 0xE9, 0x62, 0x2A, 0x2A] := by decide

example : typeWith { width := some 2 } (.method [.array 2 .int] none) = (JType.method [.array 2 .int] none).display :=
  C91_type_partial _ _ (by decide) (by decide)

/-! ## C92 -/

/-- The release of the Java platform for a version of class files, as in JVMS table 4.1-A. -/
inductive Release : Version → String → Prop
  | j1_0 {m} : m ≤ 3 → Release ⟨m, .j1⟩ "JDK 1.0.2"
  | j1_1 {m} : 3 < m → Release ⟨m, .j1⟩ "JDK 1.1"
  | jdk {m v} (k : Nat) : v.tag.toNat = 44 + k → 2 ≤ k → k ≤ 4 → Release ⟨m, v⟩ ("JDK 1." ++ toString k)
  | se_0 {m v} (k : Nat) : v.tag.toNat = 44 + k → 5 ≤ k → k ≤ 6 → Release ⟨m, v⟩ ("Java SE " ++ toString k ++ ".0")
  | se {m v} (k : Nat) : v.tag.toNat = 44 + k → 7 ≤ k → Release ⟨m, v⟩ ("Java SE " ++ toString k)

/-- The text of a version is the name of its release and its minor version. -/
theorem C92_release (v : Version) : ∃ name, Release v name ∧
    versionText v = name.toList.map Char.toNat ++ " minor version ".toList.map Char.toNat ++ decimal v.minor.toNat := by
  obtain ⟨m, v⟩ := v
  cases v
  case j1 =>
    by_cases h : m ≤ 3
    · exact ⟨_, .j1_0 h, by unfold versionText; simp only [if_pos h]; rfl⟩
    · exact ⟨_, .j1_1 (by simpa using h), by unfold versionText; simp only [if_neg h]; rfl⟩
  case j1_2 => exact ⟨_, .jdk 2 (by decide) (by decide) (by decide), rfl⟩
  case j1_3 => exact ⟨_, .jdk 3 (by decide) (by decide) (by decide), rfl⟩
  case j1_4 => exact ⟨_, .jdk 4 (by decide) (by decide) (by decide), rfl⟩
  case j5 => exact ⟨_, .se_0 5 (by decide) (by decide) (by decide), rfl⟩
  case j6 => exact ⟨_, .se_0 6 (by decide) (by decide) (by decide), rfl⟩
  case j7 => exact ⟨_, .se 7 (by decide) (by decide), rfl⟩
  case j8 => exact ⟨_, .se 8 (by decide) (by decide), rfl⟩
  case j9 => exact ⟨_, .se 9 (by decide) (by decide), rfl⟩
  case j10 => exact ⟨_, .se 10 (by decide) (by decide), rfl⟩
  case j11 => exact ⟨_, .se 11 (by decide) (by decide), rfl⟩
  case j12 => exact ⟨_, .se 12 (by decide) (by decide), rfl⟩
  case j13 => exact ⟨_, .se 13 (by decide) (by decide), rfl⟩
  case j14 => exact ⟨_, .se 14 (by decide) (by decide), rfl⟩
  case j15 => exact ⟨_, .se 15 (by decide) (by decide), rfl⟩

/-- No two versions have the same text. -/
theorem C92_versions_differ (v w : Version) (h : versionText v = versionText w) : v = w := by
  obtain ⟨a, h1, h2, h3⟩ := text_parts v
  obtain ⟨b, h4, h5, h6⟩ := text_parts w
  rw [h1, h4] at h
  obtain ⟨rfl, h'⟩ := before_mark h2 h5 h
  have hd := decimal_inj _ _ (List.append_cancel_left h')
  have hm := majorTexts_inj _ _ ⟨a, h3, h6⟩
  obtain ⟨m, v⟩ := v
  obtain ⟨m', w⟩ := w
  cases hm
  cases UInt16.toNat_inj.mp hd
  rfl

/-- The number at the end is the minor version: decimal digits whose value it is. -/
theorem C92_minor (v : Version) : ∃ ds : List Nat, (∀ d ∈ ds, d < 10) ∧ ds.foldl (fun n d => 10 * n + d) 0 = v.minor.toNat ∧
    decimal v.minor.toNat = ds.map (0x30 + ·) := decimal_value _

/-- `Java SE 8 minor version 0` -/
example : versionText ⟨0, .j8⟩ = "Java SE 8 minor version 0".toList.map Char.toNat := by with_unfolding_all decide

example : versionText ⟨65535, .j12⟩ = "Java SE 12 minor version 65535".toList.map Char.toNat := by with_unfolding_all decide

end Verif.Props
