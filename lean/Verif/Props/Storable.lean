import Verif.Props.Reread
import Verif.Lemmas.Storable

/-! # Writing a class that was read: C68 -/

namespace Verif.Props
open Spec

/-! ## C68 -/

/-- Full claim: a class that was read can be written, if its bootstrap table is not circular (C66). -/
def C68_full : Prop := ∀ (ord : Order) (_ : ∀ k n l, (ord k n l).Perm l) (input rest : Bytes) (x : Class),
  Class.read ord input = .ok (x, rest) → input.length < 2 ^ 31 → ¬ Circular (bsmTable x.attrs) →
    ∃ out, x.rewrite 65538 = .ok out

/-- Proved, for classes as `Storable` says whose constants fit in one pool. `L` is any list in which the constants are;
the uses of dynamic constants are counted apart because each has an entry of its own (C59). The strings, the
lengths of all other tables, the labels, the jumps and the ranges of variables need no condition: the reader does not
return what cannot be written. -/
theorem C68_success_partial (ord : Order) (hord : ∀ k n l, (ord k n l).Perm l) (input rest : Bytes) (x : Class)
    (h : Class.read ord input = .ok (x, rest)) (hl : input.length < 2 ^ 31) (hx : Storable x) (L : List Sym)
    (hc : ∀ s ∈ consts (completed x), s ∈ L) (hL : symSize L + dynamicUses (completed x) ≤ 65534) :
    ∃ out, x.rewrite 65538 = .ok out := by
  obtain ⟨out, e⟩ := storable_written hord h hl hx hc hL
  exact ⟨out, by rw [C66_written_partial ord hord input rest x h hx.acyclic, e]⟩

/-- Proved: such a class is written, and if it is also as C67 asks then what was written is read as the same class.
(A pool of 65535 strings can by itself be longer than 4 GiB.) -/
theorem C68_roundtrip_partial (ord : Order) (hord : ∀ k n l, (ord k n l).Perm l) (input rest : Bytes) (x : Class)
    (h : Class.read ord input = .ok (x, rest)) (hl : input.length < 2 ^ 31) (hx : Storable x) (hr : Regular x)
    (L : List Sym) (hc : ∀ s ∈ consts (completed x), s ∈ L) (hL : symSize L + dynamicUses (completed x) ≤ 65534) :
    ∃ out, x.rewrite 65538 = .ok out ∧ (out.length < 2 ^ 32 → ∃ y, Class.read ord out = .ok (y, []) ∧ Restored x y) := by
  obtain ⟨out, e⟩ := C68_success_partial ord hord input rest x h hl hx L hc hL
  refine ⟨out, e, fun ho => ?_⟩
  have := C67_roundtrip_partial ord hord input rest out x h hr e hl ho []
  rwa [List.append_nil] at this

/-! ### A class to which this applies -/

theorem callSite_storable : Storable callSite := by
  have hn := acyclic_static (table_static (regular_static callSite_regular))
  have hw : (writtenBsms (completed callSite)).map (fun b => b.arguments.length) = [1, 0, 1] := by decide +kernel
  refine ⟨fun m hm b hb => ?_, .inr ⟨_, List.mem_singleton.mpr rfl, rfl⟩, hn, ?_, ?_⟩
  · cases List.mem_singleton.mp hm
    have hb : MethodAttrOf.code b = MethodAttrOf.code _ := List.mem_singleton.mp hb
    cases hb
    exact ⟨by decide, fun d low h => by simp at h, nofun⟩
  · have := congrArg List.length hw
    rw [List.length_map] at this
    rw [Table, this]
    decide
  · have := congrArg (fun l => (l.map fun n => 4 + 2 * n).sum) hw
    rw [List.map_map] at this
    have e : ((writtenBsms (completed callSite)).map fun b => 4 + 2 * b.arguments.length).sum = 16 := this
    rw [e]
    decide

example : ∃ out, callSite.rewrite 65538 = .ok out :=
  C68_success_partial _ (fun _ _ l => List.Perm.refl l) _ _ _ callSite_read (by decide +kernel) callSite_storable
    (consts (completed callSite)) (fun _ h => h) (by decide +kernel)

/-! ### Classes that cannot be written -/

/-- The class of a file can be read but not written. -/
def unwritable (input : Bytes) : Bool :=
  match Class.read (fun _ _ l => l) input with
  | .ok (x, _) => (bootstrapTable x.attrs).isNone && (match (completed x).write with
    | .error .panic => true
    | _ => false)
  | .error _ => false

theorem unwritable_panics {input : Bytes} (h : unwritable input = true) :
    ∃ x rest, Class.read (fun _ _ l => l) input = .ok (x, rest) ∧ ¬ Circular (bsmTable x.attrs) ∧
      x.rewrite 65538 = .error .panic := by
  unfold unwritable at h
  split at h
  · rename_i x rest hx
    simp only [Bool.and_eq_true] at h
    have hT : ¬ Circular (bsmTable x.attrs) := by
      rw [bootstrapTable_eq, Option.isNone_iff_eq_none.mp h.1]
      exact acyclic_static nofun
    refine ⟨x, rest, hx, hT, ?_⟩
    rw [C66_written_partial _ (fun _ _ l => List.Perm.refl l) _ _ _ hx hT]
    have h2 := h.2
    split at h2
    · assumption
    · cases h2
  · cases h

/-- A call site in a class without `BootstrapMethods`: the file is read, and writing the class panics. -/
theorem C68_violated_table : ∃ x rest, Class.read (fun _ _ l => l)
      (tinyFile noArgs [[12, 0, 1, 0, 4], [18, 0, 0, 0, 5]] [0xBA, 0, 6, 0, 0, 0xB1] []) = .ok (x, rest) ∧
    ¬ Circular (bsmTable x.attrs) ∧ x.rewrite 65538 = .error .panic :=
  unwritable_panics (by decide +kernel)

/-- A `tableswitch` from 0 to -1: the file is read, and writing the class panics. -/
theorem C68_violated_switch : ∃ x rest, Class.read (fun _ _ l => l) (tinyFile noArgs []
      [0x03, 0xAA, 0, 0, 0, 0, 0, 15, 0, 0, 0, 0, 0xFF, 0xFF, 0xFF, 0xFF, 0xB1] []) = .ok (x, rest) ∧
    ¬ Circular (bsmTable x.attrs) ∧ x.rewrite 65538 = .error .panic :=
  unwritable_panics (by decide +kernel)

/-- Violated by both. -/
theorem C68_violated : ¬ C68_full := by
  intro h
  obtain ⟨x, rest, hx, hT, hw⟩ := C68_violated_table
  obtain ⟨out, e⟩ := h _ (fun _ _ l => List.Perm.refl l) _ rest x hx (by decide +kernel) hT
  rw [hw] at e
  cases e

end Verif.Props
