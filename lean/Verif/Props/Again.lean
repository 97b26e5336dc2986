import Verif.Props.Reread
import Verif.Props.Repro
import Verif.Lemmas.AgainClass

/-! # C79: a copy of a copy is the copy -/

namespace Verif.Props
open Spec Sig

/-- Full claim: once a file has been read and written, doing so again changes nothing more. -/
def C79_full : Prop := ∀ (ord : Order), (∀ k n l, (ord k n l).Perm l) → ∀ input out : Bytes,
  copy ord 65538 input = .ok out → copy ord 65538 out = .ok out

set_option maxRecDepth 100000 in
/-- Every copy of a class with a call site has one more entry in its table of bootstrap methods (C56). -/
theorem C79_violated : ¬ C79_full := by
  intro h
  have key : (match copy (fun _ _ l => l) 65538 (tableFile [0, 2] []) with
    | .ok out => match copy (fun _ _ l => l) 65538 out with
      | .ok out' => out'.length == out.length + 6
      | .error _ => false
    | .error _ => false) = true := by decide +kernel
  split at key
  · rename_i out ho
    have := h _ (fun _ _ _ => .refl _) _ _ ho
    rw [this] at key
    simp at key
  · cases key

/-- Proved: so it is, and for any order of hash maps in either run, for the classes of C67 in which no method has
two variables or more (C77) and no instruction has a dynamic constant or call site. What the first copy changes --
the order of the constant pool, of the entries of `lookupswitch` and of the attributes of bodies, the choice of `ldc_w`
or `goto_w`, conversions to the type a value has already -- the second does not. -/
theorem C79_copy_partial (ord ord' : Order) (ho : ∀ k n l, (ord k n l).Perm l) (ho' : ∀ k n l, (ord' k n l).Perm l)
    (input rest out : Bytes) (x : Class) (h : Class.read ord input = .ok (x, rest)) (hx : Regular x)
    (hf : FewVariables x) (hd : classDynamics x = []) (hl : input.length < 2 ^ 31)
    (hc : copy ord 65538 input = .ok out) (hlo : out.length < 2 ^ 32) : copy ord' 65538 out = .ok out := by
  have hst := regular_static hx
  have hs := read_shared (fun k n l v hv => (ho k n l).mem_iff.mp hv) h
  obtain ⟨h1, h2, h3⟩ := regular_fit (read_good ho h hl) hs hx
  have hun : ∀ m ∈ x.methods, ∀ b, .code b ∈ m.attrs → Undynamic b := fun m hm b hb => regular_undynamic hx hd hm hb
  have hcx := complete_undynamic hst hun
  unfold copy at hc
  rw [h] at hc
  change x.rewrite 65538 = _ at hc
  rw [C66_written_partial ord ho input rest x h (acyclic_static (table_static hst)), hcx] at hc
  rw [hcx] at h1 h2 h3
  obtain ⟨y, hy, hr⟩ := C47_roundtrip_partial ord' ho' x out h1 h2 hc hlo h3 []
  rw [List.append_nil] at hy
  obtain ⟨h4, h5, h6⟩ := class_again hst h1.count hd
    (fun m hm b hb => ⟨read_orderly ho h hl m hm b hb, hun m hm b hb, hf m hm b hb⟩) hr
  unfold copy
  rw [hy]
  show y.rewrite 65538 = _
  rw [C66_written_partial ord' ho' out [] y hy (acyclic_static (table_static h5)), complete_undynamic h5 h6, h4, hc]

/-! ### A class to which this applies -/

/-- A jump over an instruction, and `ldc` of a string, in a file in which no index is as it will be written. -/
def plainFile : Bytes := tinyFile noArgs [utf8Bytes [0x42], [8, 0, 5]] [0xC8, 0, 0, 0, 8, 0x13, 0, 6, 0xB1] []

def plainClass : Class := ⟨⟨0, .j8⟩, ⟨0x21⟩, [0x41], none, [], [],
  [⟨⟨1⟩, [0x41], .method [] none, [.code ⟨0, 0, [.jump .always 0, .push (.static (.string [0x42])), .label 0,
    .return none], [], []⟩]⟩], []⟩

set_option maxRecDepth 100000 in
theorem plainClass_read : Class.read (fun _ _ l => l) plainFile = .ok (plainClass, []) := by with_unfolding_all rfl

theorem plainClass_regular : Regular plainClass := by
  have hd : IsDescriptor (.method [] none) := .void (by simp)
  have f1 : Fitting [0x41] := fits (by decide +kernel)
  have f2 : Fitting [0x42] := fits (by decide +kernel)
  have f3 : Fitting (JType.toWtf8 (.method [] none)) := fits (by decide +kernel)
  refine ⟨nofun, fun m hm => ?_, nofun, by decide, by decide, ⟨f1, nofun, nofun, nofun, fun m hm => ?_, nofun, fun b hb => ?_⟩⟩
  · cases List.mem_singleton.mp hm
    refine ⟨hd, fun a ha => ?_⟩
    cases List.mem_singleton.mp ha
    refine ⟨fun i hi => ?_, nofun, .inl (by decide)⟩
    simp only [List.mem_cons, List.not_mem_nil, or_false] at hi
    rcases hi with rfl | rfl | rfl | rfl <;> trivial
  · cases List.mem_singleton.mp hm
    refine ⟨f1, f3, fun a ha => ?_⟩
    cases List.mem_singleton.mp ha
    refine ⟨fun i hi => ?_, nofun, nofun⟩
    simp only [List.mem_cons, List.not_mem_nil, or_false] at hi
    rcases hi with rfl | rfl | rfl | rfl
    · trivial
    · exact f2
    · trivial
    · trivial
  · simp [usedBsms, plainClass, givenBsms, classDynamics, attrDynamics, insnDynamics, orDynamics] at hb

/-- The first copy is three bytes shorter; the second, in any run, is the first. -/
example : ∃ out, copy (fun _ _ l => l) 65538 plainFile = .ok out ∧ out.length + 3 = plainFile.length ∧
    ∀ ord, (∀ k n l, (ord k n l).Perm l) → copy ord 65538 out = .ok out := by
  have key : (match copy (fun _ _ l => l) 65538 plainFile with
    | .ok out => out.length + 3 == plainFile.length
    | .error _ => false) = true := by decide +kernel
  split at key
  · rename_i out ho
    have hl : out.length + 3 = plainFile.length := by simpa using key
    have h86 : plainFile.length = 86 := by decide +kernel
    refine ⟨out, ho, hl, fun ord hord => ?_⟩
    refine C79_copy_partial _ ord (fun _ _ _ => .refl _) hord _ _ out _ plainClass_read plainClass_regular ?_ rfl
      (by omega) ho (by omega)
    intro m hm b hb vs hv
    cases List.mem_singleton.mp hm
    cases List.mem_singleton.mp hb
    cases hv
  · cases key

end Verif.Props
