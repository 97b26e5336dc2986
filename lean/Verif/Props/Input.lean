import Verif.Lemmas.TameClass
import Verif.Props.Cp

/-! # Properties C54, C26: reading input of unknown origin -/

namespace Verif.Props
open Spec

/-! ## C54: reading never panics, never loops, never leaves the language -/

/-- C54, full statement: on no input does reading a class file panic. -/
def C54_full : Prop := ∀ (ord : Order) (input : Bytes), (∀ k n l, (ord k n l).Perm l) →
  Class.read ord input ≠ .error .panic

/-- C54. Reading a class file, whatever the input, never reaches undefined behaviour and never loops
for ever. -/
theorem C54_safe (ord : Order) (input : Bytes) :
    Class.read ord input ≠ .error .ub ∧ Class.read ord input ≠ .error .diverge := by
  have h := read_class ord input
  rcases hr : Class.read ord input with e | ⟨x, rest⟩
  · rw [hr] at h
    exact ⟨fun h' => by cases h'; exact h.1.1 rfl, fun h' => by cases h'; exact h.2.1 rfl⟩
  · exact ⟨nofun, nofun⟩

/-- C54, what is true of the full statement: a panic needs one of the features listed in `Hazard`. -/
theorem C54_no_panic_partial (ord : Order) (input : Bytes) (h : ¬ Hazard input) :
    Class.read ord input ≠ .error .panic := by
  intro he
  have h' := read_class ord input
  rw [he] at h'
  exact h (h'.2.2 rfl)

/-- C54. What remains after reading is the end of the input. -/
theorem C54_consumes (ord : Order) (input : Bytes) {x : Class} {rest : Bytes}
    (h : Class.read ord input = .ok (x, rest)) : rest <:+ input := by
  have h' := read_class ord input
  rw [h] at h'
  exact h'.1

/-! ### The features of `Hazard` do make the reader panic -/

def utf8Bytes (s : Bytes) : Bytes := 1 :: (u16.write (UInt16.ofNat s.length) ++ s)

/-- A class file with one method; `extra` are the entries of the pool from the fifth on. -/
def tinyFile (desc : Bytes) (extra : List Bytes) (code : Bytes) (attrs : List Bytes)
    (classAttrs : List Bytes := []) : Bytes :=
  let body := [0, 0, 0, 0] ++ u32.write (UInt32.ofNat code.length) ++ code ++ [0, 0] ++
    u16.write (UInt16.ofNat attrs.length) ++ attrs.flatten
  [0xCA, 0xFE, 0xBA, 0xBE, 0, 0, 0, 52] ++ u16.write (UInt16.ofNat (extra.length + 5)) ++
    utf8Bytes [0x41] ++ [7, 0, 1] ++ utf8Bytes N.code ++
    utf8Bytes desc ++ extra.flatten ++ [0, 0x21, 0, 2, 0, 0, 0, 0, 0, 0, 0, 1] ++
    [0, 1, 0, 1, 0, 4, 0, 1, 0, 3] ++ u32.write (UInt32.ofNat body.length) ++ body ++
    u16.write (UInt16.ofNat classAttrs.length) ++ classAttrs.flatten

def noArgs : Bytes := [0x28, 0x29, 0x56]

/-- Without any of them the file is read: here with one line number for the only instruction. -/
example : (match Class.read (fun _ _ l => l)
      (tinyFile noArgs [utf8Bytes N.lineNumberTable] [0xB1] [[0, 5, 0, 0, 0, 6, 0, 1, 0, 0, 0, 9]]) with
    | .ok (x, rest) => rest.isEmpty && x.methods.length == 1
    | .error _ => false) = true := by decide +kernel

def panics (r : Res (Class × Bytes)) : Bool :=
  match r with
  | .error .panic => true
  | _ => false

theorem panics_iff {r : Res (Class × Bytes)} (h : panics r = true) : r = .error .panic := by
  unfold panics at h
  split at h
  · rfl
  · cases h

/-- A `tableswitch` with `high < low - 1`. -/
theorem C54_violated_switch : Class.read (fun _ _ l => l)
    (tinyFile noArgs [] [0xAA, 0, 0, 0, 0, 0, 0, 0, 0, 0, 0, 1, 0xFF, 0xFF, 0xFF, 0xFF] []) = .error .panic :=
  panics_iff (by decide +kernel)

/-- A line number for a position inside an instruction. -/
theorem C54_violated_line : Class.read (fun _ _ l => l)
    (tinyFile noArgs [utf8Bytes N.lineNumberTable] [0x10, 7, 0xB1] [[0, 5, 0, 0, 0, 6, 0, 1, 0, 1, 0, 9]]) =
      .error .panic :=
  panics_iff (by decide +kernel)

/-- A local variable whose range ends after position 65535. -/
theorem C54_violated_range : Class.read (fun _ _ l => l)
    (tinyFile noArgs [utf8Bytes N.localVariableTable] [0xB1]
      [[0, 5, 0, 0, 0, 12, 0, 1, 0, 1, 0xFF, 0xFF, 0, 1, 0, 4, 0, 0]]) = .error .panic :=
  panics_iff (by decide +kernel)

/-- A descriptor with 256 brackets. -/
theorem C54_violated_brackets : Class.read (fun _ _ l => l)
    (tinyFile (List.replicate 256 0x5B ++ [0x49]) [] [0xB1] []) = .error .panic :=
  panics_iff (by decide +kernel)

/-- The hypothesis of `C54_no_panic_partial` holds of a class with a method. -/
example : ¬ Hazard (tinyFile noArgs [] [0x10, 7, 0x57, 0xB1] []) := by
  have h0 : (tinyFile noArgs [] [0x10, 7, 0x57, 0xB1] []).length < 256 := by decide +kernel
  have h1 : (0xAA : UInt8) ∉ tinyFile noArgs [] [0x10, 7, 0x57, 0xB1] [] := by decide +kernel
  rintro (⟨head, rest, h, hl⟩ | h | ⟨cp, rest, i, payload, h, hi, hp, hb⟩)
  · have h2 : ((tinyFile noArgs [] [0x10, 7, 0x57, 0xB1] []).drop 8).head? = some 0 := by decide +kernel
    rw [h, List.append_assoc, ← hl, List.drop_left] at h2
    cases h2
  · have := h.length_le
    rw [List.length_replicate] at this
    omega
  · have hp2 : payload <:+: tinyFile noArgs [] [0x10, 7, 0x57, 0xB1] [] := by
      have h3 := read_pool (input := tinyFile noArgs [] [0x10, 7, 0x57, 0xB1] []) (List.drop_suffix 8 _).isInfix
      rw [h] at h3
      exact List.IsInfix.trans ⟨U2 i.toNat ++ U4 payload.length, [], by simp⟩
        (List.IsInfix.trans hp (List.IsInfix.trans h3.1.isInfix (List.drop_suffix 8 _).isInfix))
    have hu : ∀ name ∈ [N.lineNumberTable, N.localVariableTable, N.localVariableTypeTable], ∀ i, ¬ IsUtf8 cp.get i name := by
      intro name hn j hj
      have hm := lookup_mem hj
      have h4 : (match MapCp.read ((tinyFile noArgs [] [0x10, 7, 0x57, 0xB1] []).drop 8) with
        | .ok (cp, _) => cp.entries.all fun e => match e.2 with | .utf8 s => decide (s.length < 15) | _ => true
        | .error _ => false) = true := by decide +kernel
      rw [h] at h4
      have h5 := List.all_eq_true.mp h4 _ hm
      simp only [List.mem_cons, List.not_mem_nil, or_false] at hn
      rcases hn with rfl | rfl | rfl <;> (simp only [decide_eq_true_eq] at h5; revert h5; decide)
    obtain ⟨ms, ml, code, tail, he, (⟨pre, suf, rs, rfl, _, pad, dflt, low, high, rest', rfl, _⟩ | ⟨rs, _, hbad⟩)⟩ := hb
    · refine h1 (hp2.subset ?_)
      rw [he]
      simp
    · rcases hbad with ⟨pc, line, ⟨j, es, hj, _⟩, _⟩ | ⟨name, start, len, more, (rfl | rfl), ⟨j, es, hj, _⟩, _⟩
      all_goals exact hu _ (by simp) j hj

/-- The features are found in these inputs: 256 brackets in a row. -/
example : Hazard (tinyFile (List.replicate 256 0x5B ++ [0x49]) [] [0xB1] []) := by
  refine .brackets ⟨(tinyFile (List.replicate 256 0x5B ++ [0x49]) [] [0xB1] []).take 27,
    (tinyFile (List.replicate 256 0x5B ++ [0x49]) [] [0xB1] []).drop 283, ?_⟩
  decide +kernel

theorem C54_violated : ¬ C54_full := fun h =>
  h (fun _ _ l => l) _ (fun _ _ l => List.Perm.refl l) C54_violated_switch

/-! ## C26 for whole classes -/

/-- C26. In a class that was read, every cell has an entry in the first `BootstrapMethods` attribute, if
there is one. -/
theorem C26_class_resolved (ord : Order) (input : Bytes) {x : Class} {rest : Bytes}
    (h : Class.read ord input = .ok (x, rest)) (pre post : List ClassAttr) (ms : List Bsm)
    (ha : x.attrs = pre ++ .bootstrapMethods ms :: post)
    (hp : ∀ a ∈ pre, ∀ l, a ≠ .bootstrapMethods l) : ∀ k ∈ openClass x, k.toNat < ms.length := by
  have h' := read_class ord input
  rw [h] at h'
  have h2 := h'.2
  have ht : bootstrapTable x.attrs = some ms := by
    rw [ha]
    clear ha
    induction pre with
    | nil => rfl
    | cons a pre ih =>
      have h1 := hp a (by simp)
      have h2 := ih fun b hb => hp b (by simp [hb])
      cases a with
      | bootstrapMethods l => exact absurd rfl (h1 l)
      | _ => exact h2
  intro k hk
  unfold resolveCells at h2
  rw [ht] at h2
  simp only at h2
  by_cases hl : ms.length ≤ 65536
  · rcases hb : bootstrapMethods ms ((openClass x).mapIdx fun n k => (k, n)) with e | set
    · rw [hb] at h2; cases h2
    · by_cases hk' : k.toNat < ms.length
      · exact hk'
      · obtain ⟨n, hn, hn'⟩ := List.getElem_of_mem hk
        have := (C26_refused (bsms := ms) (refs := (openClass x).mapIdx fun n k => (k, n)) hl).mpr
          ⟨k, n, by rw [List.mem_mapIdx]; exact ⟨n, hn, by rw [hn']⟩, by omega⟩
        obtain ⟨e, he⟩ := this
        rw [hb] at he; cases he
  · have := k.toNat_lt; omega

/-- A call site of bootstrap method `k` in a class with one bootstrap method. -/
def siteFile (k : UInt8) : Bytes :=
  tinyFile noArgs [[12, 0, 1, 0, 4], [18, 0, k, 0, 5], utf8Bytes N.bootstrapMethods, [10, 0, 2, 0, 5], [15, 6, 0, 8]]
    [0xBA, 0, 6, 0, 0, 0xB1] [] [[0, 7, 0, 0, 0, 6, 0, 1, 0, 9, 0, 0]]

/-- The class is read if the call site refers to entry 0, and refused if it refers to entry 1. -/
example : (match Class.read (fun _ _ l => l) (siteFile 0) with
      | .ok (x, rest) => rest.isEmpty && openClass x == [0] && (bootstrapTable x.attrs).isSome
      | .error _ => false) = true ∧
    (match Class.read (fun _ _ l => l) (siteFile 1) with
      | .error .invalid => true
      | _ => false) = true := by decide +kernel

/-- C26 for classes, full statement: in a class that was read every cell has an entry. -/
def C26_class_full : Prop := ∀ (ord : Order) (input : Bytes) (x : Class) (rest : Bytes),
  (∀ k n l, (ord k n l).Perm l) → Class.read ord input = .ok (x, rest) → ∀ k ∈ openClass x,
    ∃ ms, .bootstrapMethods ms ∈ x.attrs ∧ k.toNat < ms.length

/-- A body with a call site of bootstrap method 0, in a class without `BootstrapMethods`. -/
def danglingFile : Bytes :=
  tinyFile noArgs [[12, 0, 1, 0, 4], [18, 0, 0, 0, 5]] [0xBA, 0, 6, 0, 0, 0xB1] []

/-- The class is read, with an empty cell, and writing it panics. -/
theorem C26_violated_class : ∃ x, Class.read (fun _ _ l => l) danglingFile = .ok (x, []) ∧
    openClass x = [0] ∧ x.attrs.length = 0 ∧ x.write = .error .panic := by
  have h : (match Class.read (fun _ _ l => l) danglingFile with
    | .ok (x, rest) => rest.isEmpty && openClass x == [0] && x.attrs.length == 0 &&
        match x.write with | .error .panic => true | _ => false
    | .error _ => false) = true := by decide +kernel
  split at h
  · rename_i x rest hx
    simp only [Bool.and_eq_true, List.isEmpty_iff, beq_iff_eq] at h
    obtain ⟨⟨⟨h1, h2⟩, h3⟩, h4⟩ := h
    subst h1
    refine ⟨x, hx, h2, h3, ?_⟩
    split at h4
    · assumption
    · cases h4
  · cases h

theorem C26_violated : ¬ C26_class_full := by
  intro h
  obtain ⟨x, h1, h2, h3, _⟩ := C26_violated_class
  obtain ⟨ms, hm, _⟩ := h _ _ _ _ (fun _ _ l => List.Perm.refl l) h1 0 (by rw [h2]; simp)
  rw [List.length_eq_zero_iff.mp h3] at hm
  cases hm

end Verif.Props
