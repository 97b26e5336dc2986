import Verif.Props.Write
import Verif.Lemmas.Rewritten

/-! # Writing a class whose cells are shared: C66 -/

namespace Verif.Props
open Spec

/-! ## C66 -/

/-- Full claim, in the words of dynamic.rs:51-53: dynamic constants may refer to themselves through the table of
bootstrap methods, but the values of this library cannot. -/
def C66_full : Prop := ∀ (ord : Order) (input rest : Bytes) (x : Class),
  (∀ k n l, (ord k n l).Perm l) → Class.read ord input = .ok (x, rest) → ¬ Circular (bsmTable x.attrs)

/-- A class with two bootstrap methods and a call site of the first of them. `first` and `second` are their arguments;
entries 11 and 12 of the pool are dynamic constants made with bootstrap methods 0 and 1. -/
def tableFile (first second : Bytes) : Bytes :=
  tinyFile noArgs [[12, 0, 1, 0, 4], utf8Bytes N.bootstrapMethods, [10, 0, 2, 0, 5], [15, 6, 0, 7], utf8Bytes [0x49],
      [12, 0, 1, 0, 9], [17, 0, 0, 0, 10], [17, 0, 1, 0, 10], [18, 0, 0, 0, 5]]
    [0xBA, 0, 13, 0, 0, 0xB1] []
    [[0, 6] ++ u32.write (UInt32.ofNat (10 + first.length + second.length)) ++ [0, 2] ++
      [0, 8] ++ u16.write (UInt16.ofNat (first.length / 2)) ++ first ++
      [0, 8] ++ u16.write (UInt16.ofNat (second.length / 2)) ++ second]

/-- The numbers of the entries in the arguments of an entry. -/
def entriesUsed (b : Bsm) : List UInt16 := b.arguments.filterMap fun
  | .dynamic (.pending k) _ _ => some k
  | _ => none

theorem entriesUsed_iff {T : List Bsm} {i : Nat} {b : Bsm} (hb : T[i]? = some b) {k : UInt16} (h : k ∈ entriesUsed b) :
    UsesEntry T i k.toNat := by
  obtain ⟨a, ha, hk⟩ := List.mem_filterMap.mp h
  split at hk
  · cases hk
    exact ⟨b, k, _, _, hb, ha, rfl⟩
  · cases hk

theorem map_two {α β : Type} {f : α → β} {l : List α} {c d : β} (h : l.map f = [c, d]) :
    ∃ a b, l = [a, b] ∧ f a = c ∧ f b = d := by
  obtain ⟨a, l, rfl, h1, h⟩ := List.map_eq_cons_iff.mp h
  obtain ⟨b, l, rfl, h2, h⟩ := List.map_eq_cons_iff.mp h
  rw [List.map_eq_nil_iff.mp h]
  exact ⟨a, b, rfl, h1, h2⟩

/-- Each of the two bootstrap methods has an argument made with the other. -/
theorem circular_read : ∃ x, Class.read (fun _ _ l => l) (tableFile [0, 12] [0, 11]) = .ok (x, []) ∧
    Circular (bsmTable x.attrs) := by
  have h : (match Class.read (fun _ _ l => l) (tableFile [0, 12] [0, 11]) with
    | .ok (x, rest) => rest.isEmpty && (bsmTable x.attrs).map entriesUsed == [[1], [0]]
    | .error _ => false) = true := by decide +kernel
  split at h
  · rename_i x rest hx
    simp only [Bool.and_eq_true, List.isEmpty_iff, beq_iff_eq] at h
    obtain ⟨h1, h2⟩ := h
    subst h1
    refine ⟨x, hx, 0, ?_⟩
    obtain ⟨b0, b1, hT, h2⟩ := map_two h2
    rw [hT]
    exact .step (entriesUsed_iff (i := 0) (k := 1) rfl (by rw [h2.1]; simp))
      (.one (entriesUsed_iff (i := 1) (k := 0) rfl (by rw [h2.2]; simp)))
  · cases h

/-- Violated: reading fills the cells of dynamic constants afterwards, with copies that share their cells. -/
theorem C66_violated : ¬ C66_full := by
  intro h
  obtain ⟨x, hx, hc⟩ := circular_read
  exact h _ _ _ x (fun _ _ l => List.Perm.refl l) hx hc

/-- Proved, for every class that was read: writing it ends, with a result or with an error or panic, and without
undefined behaviour. 65538 is a bound on the number of rounds of the loop in clazz.rs:113-120, in a build with overflow checks. -/
theorem C66_ends_partial (ord : Order) (hord : ∀ k n l, (ord k n l).Perm l) (input rest : Bytes) (x : Class)
    (h : Class.read ord input = .ok (x, rest)) :
    (∀ fuel, 65538 ≤ fuel → x.rewrite fuel = x.rewrite 65538) ∧
      ((∃ out, x.rewrite 65538 = .ok out) ∨ x.rewrite 65538 = .error .panic ∨ x.rewrite 65538 = .error .invalid) := by
  have hx := read_shared (fun k n l v hv => (hord k n l).mem_iff.mp hv) h
  refine ⟨fun fuel hf => rewrite_stable hx hf, ?_⟩
  haveI : Usual (fun e => e = Err.panic ∨ e = Err.invalid ∨ e = Err.diverge) := ⟨.inl rfl, .inr (.inl rfl)⟩
  have he := ends_rewrite (U := fun e => e = Err.panic ∨ e = Err.invalid ∨ e = Err.diverge) (.inr (.inr rfl)) hx 65538
  have hd := rewrite_ends hx
  generalize x.rewrite 65538 = r at he hd ⊢
  rcases r with e | out
  · rcases he e rfl with rfl | rfl | rfl
    · exact .inr (.inl rfl)
    · exact .inr (.inr rfl)
    · exact absurd rfl hd
  · exact .inl ⟨out, rfl⟩

/-- Proved: if the table is not circular then the class is written as if every dynamic constant had its own copy of
its bootstrap method, of those in the arguments, and so on. -/
theorem C66_written_partial (ord : Order) (hord : ∀ k n l, (ord k n l).Perm l) (input rest : Bytes) (x : Class)
    (h : Class.read ord input = .ok (x, rest)) (hT : ¬ Circular (bsmTable x.attrs)) :
    x.rewrite 65538 = (completed x).write := by
  have hx := read_shared (fun k n l v hv => (hord k n l).mem_iff.mp hv) h
  obtain ⟨n, hn⟩ := rewrite_completed hx hT
  rw [← hn (max n 65538) (Nat.le_max_left _ _), rewrite_stable hx (Nat.le_max_right _ _)]

/-- Proved: if the table is circular then the class cannot be written. -/
theorem C66_circular_partial (ord : Order) (hord : ∀ k n l, (ord k n l).Perm l) (input rest : Bytes) (x : Class)
    (h : Class.read ord input = .ok (x, rest)) (hT : Circular (bsmTable x.attrs)) (fuel : Nat) (out : Bytes) :
    x.rewrite fuel ≠ .ok out :=
  rewrite_circular (read_shared (fun k n l v hv => (hord k n l).mem_iff.mp hv) h) hT fuel out

/-- So a class that was read can be written exactly if its table is not circular and its copy can be written. -/
theorem C66_iff_partial (ord : Order) (hord : ∀ k n l, (ord k n l).Perm l) (input rest out : Bytes) (x : Class)
    (h : Class.read ord input = .ok (x, rest)) :
    x.rewrite 65538 = .ok out ↔ ¬ Circular (bsmTable x.attrs) ∧ (completed x).write = .ok out := by
  constructor
  · intro e
    have hT : ¬ Circular (bsmTable x.attrs) := fun hc => C66_circular_partial ord hord input rest x h hc 65538 out e
    exact ⟨hT, by rw [← C66_written_partial ord hord input rest x h hT]; exact e⟩
  · rintro ⟨hT, e⟩
    rw [C66_written_partial ord hord input rest x h hT]
    exact e

/-- A table that is not circular: the first entry has an argument made with the second. -/
example : ∃ x rest, Class.read (fun _ _ l => l) (tableFile [0, 12] []) = .ok (x, rest) ∧ ¬ Circular (bsmTable x.attrs) ∧
    ∃ out, x.rewrite 4 = .ok out ∧ (completed x).write = .ok out := by
  have h : (match Class.read (fun _ _ l => l) (tableFile [0, 12] []) with
    | .ok (x, rest) => (bsmTable x.attrs).map entriesUsed == [[1], []] &&
        match x.rewrite 4, (completed x).write with
        | .ok out, .ok out' => out == out'
        | _, _ => false
    | .error _ => false) = true := by decide +kernel
  split at h
  · rename_i x rest hx
    simp only [Bool.and_eq_true, beq_iff_eq] at h
    obtain ⟨h1, h2⟩ := h
    refine ⟨x, rest, hx, ?_, ?_⟩
    · obtain ⟨b0, b1, hT, h1⟩ := map_two h1
      rw [hT]
      have hu : ∀ i j, UsesEntry [b0, b1] i j → i = 0 ∧ j = 1 := by
        rintro i j ⟨b, k, n, t, hb, ha, rfl⟩
        have hk : k ∈ entriesUsed b := List.mem_filterMap.mpr ⟨_, ha, rfl⟩
        match i, hb with
        | 0, hb =>
          cases hb
          rw [h1.1] at hk
          rw [List.mem_singleton.mp hk]
          exact ⟨rfl, rfl⟩
        | 1, hb =>
          cases hb
          rw [h1.2] at hk
          cases hk
      rintro ⟨i, hi⟩
      have : ∀ i j, Reaches [b0, b1] i j → i = 0 ∧ j = 1 := by
        intro i j h
        induction h with
        | one h => exact hu _ _ h
        | step h _ ih => exact ⟨(hu _ _ h).1, ih.2⟩
      have := this i i hi
      omega
    · split at h2
      · rename_i out out' h3 h4
        rw [beq_iff_eq] at h2
        exact ⟨out, h3, h2 ▸ h4⟩
      · cases h2
  · cases h

end Verif.Props
