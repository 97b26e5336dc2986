import Verif.Props.Edit
import Verif.Lemmas.Collide

/-! # C94: the file tells what class was written -/

namespace Verif.Props
open Spec Sig

/-- Full claim: classes that are written as the same file differ only in what a class file does not tell. -/
def C94_full : Prop := ∀ (x y : Class) (bs : Bytes), x.write = .ok bs → y.write = .ok bs → AlikeClass x y

/-- Proved for the classes of C47. -/
theorem C94_alike_partial (x y : Class) (bs : Bytes) (hx : x.Writable) (hy : y.Writable) (hsx : AllClass Fitting x)
    (hsy : AllClass Fitting y) (hrx : (withTable x).Readable CodeReadable) (hry : (withTable y).Readable CodeReadable)
    (h : x.write = .ok bs) (h' : y.write = .ok bs) (hl : bs.length < 2 ^ 32) : AlikeClass x y := by
  obtain ⟨z, hz, h1⟩ := C47_roundtrip_partial (fun _ _ l => l) (fun _ _ l => .refl l) x bs hx hsx h hl hrx []
  obtain ⟨z', hz', h2⟩ := C47_roundtrip_partial (fun _ _ l => l) (fun _ _ l => .refl l) y bs hy hsy h' hl hry []
  rw [hz] at hz'
  cases hz'
  exact alike_class h1 h2

/-- Proved for classes that are put together from parts of others, as in C93: in particular, whoever compares the files
misses no change. -/
theorem C94_parts_partial (x y : Class) (bs : Bytes) (hx : FromParts x) (hx' : Together x) (hy : FromParts y)
    (hy' : Together y) (h : x.write = .ok bs) (h' : y.write = .ok bs) (hl : bs.length < 2 ^ 32) : AlikeClass x y := by
  obtain ⟨a1, a2, a3⟩ := parts_fit hx hx'
  obtain ⟨b1, b2, b3⟩ := parts_fit hy hy'
  exact C94_alike_partial x y bs a1 b1 a2 b2 a3 b3 h h' hl

/-- Proved: if two files that were read are copied to the same file, they say the same. -/
theorem C94_copies_partial (ord ord' : Order) (ho : ∀ k n l, (ord k n l).Perm l) (ho' : ∀ k n l, (ord' k n l).Perm l)
    (input input' rest rest' out : Bytes) (x y : Class) (h : Class.read ord input = .ok (x, rest)) (hx : Regular x)
    (h' : Class.read ord' input' = .ok (y, rest')) (hy : Regular y) (hl : input.length < 2 ^ 31)
    (hl' : input'.length < 2 ^ 31) (hc : copy ord 65538 input = .ok out) (hc' : copy ord' 65538 input' = .ok out)
    (hlo : out.length < 2 ^ 32) : AlikeClass (completed x) (completed y) := by
  have key : ∀ {ord : Order}, (∀ k n l, (ord k n l).Perm l) → ∀ {input rest x}, Class.read ord input = .ok (x, rest) →
      Regular x → input.length < 2 ^ 31 → copy ord 65538 input = .ok out →
      (completed x).write = .ok out ∧ (completed x).Writable ∧ AllClass Fitting (completed x) ∧
        (withTable (completed x)).Readable CodeReadable := by
    intro ord ho input rest x h hx hl hc
    unfold copy at hc
    rw [h] at hc
    change x.rewrite 65538 = _ at hc
    rw [C66_written_partial ord ho input rest x h (acyclic_static (table_static (regular_static hx)))] at hc
    exact ⟨hc, regular_fit (read_good ho h hl) (read_shared (fun k n l v hv => (ho k n l).mem_iff.mp hv) h) hx⟩
  obtain ⟨a0, a1, a2, a3⟩ := key ho h hx hl hc
  obtain ⟨b0, b1, b2, b3⟩ := key ho' h' hy hl' hc'
  exact C94_alike_partial _ _ out a1 b1 a2 b2 a3 b3 a0 b0 hlo

/-! ### Classes to which this applies -/

/-- Two bodies that differ in the number of a label, and are written as the same file. -/
def relabelled : Class := { plainClass with methods := [⟨⟨1⟩, [0x41], .method [] none,
  [.code ⟨0, 0, [.lineNumber 3, .jump .always 7, .push (.static (.string [0x42])), .label 7, .return none], [], []⟩]⟩] }

theorem relabelled_same : ∃ bs, plainClass.write = .ok bs ∧ relabelled.write = .ok bs ∧ plainClass ≠ relabelled := by
  have key : (match plainClass.write, relabelled.write with
    | .ok a, .ok b => a == b
    | _, _ => false) = true := by decide +kernel
  split at key
  · rename_i a b ha hb
    rw [beq_iff_eq] at key
    subst key
    refine ⟨_, ha, hb, fun h => ?_⟩
    have := congrArg ClassOf.methods h
    unfold plainClass relabelled at this
    simp at this
  · cases key

theorem plainClass_completed : completed plainClass = plainClass := by
  with_unfolding_all rfl

theorem plainClass_parts : FromParts plainClass := by
  have h := plainClass_file
  rw [plainClass_completed] at h
  exact ⟨fun f hf => .inl ⟨_, h, hf⟩, fun m hm => .inl ⟨_, h, hm⟩, fun a ha => .inl ⟨_, h, ha⟩, .inl ⟨_, h, rfl⟩,
    .inl ⟨_, h, rfl⟩, .inl ⟨_, h, rfl⟩, fun s hs => .inl ⟨_, h, hs⟩⟩

theorem relabelled_parts : FromParts relabelled := by
  have h := plainClass_file
  rw [plainClass_completed] at h
  refine ⟨fun f hf => .inl ⟨_, h, hf⟩, fun m hm => .inr ?_, fun a ha => .inl ⟨_, h, ha⟩, .inl ⟨_, h, rfl⟩,
    .inl ⟨_, h, rfl⟩, .inl ⟨_, h, rfl⟩, fun s hs => .inl ⟨_, h, hs⟩⟩
  have hd : IsDescriptor (.method [] none) := .void (by simp)
  have f1 : Fitting [0x41] := fits (by decide +kernel)
  have f2 : Fitting [0x42] := fits (by decide +kernel)
  have f3 : Fitting (JType.toWtf8 (.method [] none)) := fits (by decide +kernel)
  cases List.mem_singleton.mp hm
  refine ⟨⟨((fromFile_fit h).1.methods.2 _ (List.mem_singleton.mpr rfl)).1, hd, fun a ha => ?_⟩, fun a ha => ?_, ⟨f1, f3, fun a ha => ?_⟩, fun b hb => ?_⟩
  · cases List.mem_singleton.mp ha
    refine ⟨⟨fun i hi => ?_, by decide, by decide, by decide, nofun⟩, .inl (by decide)⟩
    simp only [List.mem_cons, List.not_mem_nil, or_false] at hi
    rcases hi with rfl | rfl | rfl | rfl | rfl <;> trivial
  · cases List.mem_singleton.mp ha
    refine ⟨fun i hi => ?_, nofun, .nil⟩
    simp only [List.mem_cons, List.not_mem_nil, or_false] at hi
    rcases hi with rfl | rfl | rfl | rfl | rfl <;> trivial
  · cases List.mem_singleton.mp ha
    refine ⟨fun i hi => ?_, nofun, nofun⟩
    simp only [List.mem_cons, List.not_mem_nil, or_false] at hi
    rcases hi with rfl | rfl | rfl | rfl | rfl <;> first | trivial | exact f2
  · simp [attrDynamics, insnDynamics, orDynamics] at hb

example : AlikeClass plainClass relabelled := by
  obtain ⟨bs, h, h', _⟩ := relabelled_same
  obtain ⟨_, hw, hl⟩ := written_of (x := plainClass) (n := 83) (by decide +kernel)
  rw [h] at hw
  cases hw
  exact C94_parts_partial _ _ bs plainClass_parts ⟨by decide, by decide, by decide, by decide, by decide +kernel, by decide +kernel⟩
    relabelled_parts ⟨by decide, by decide, by decide, by decide, by decide +kernel, by decide +kernel⟩ h h' (by omega)

/-! ### What is written alike otherwise -/

/-- A method that stores into a static field, or loads from it. -/
def accessing (o : GetOrPut) : Class := smallClass [⟨⟨1⟩, [0x41], .method [] none,
  [.code ⟨1, 0, [.field o .static (.static ⟨[0x41], [0x42], .int, false⟩), .return none], [], []⟩]⟩] []

set_option maxRecDepth 100000 in
/-- A class that stores into a static field and one that loads from it are written as the same file (C34). -/
theorem C94_violated : ¬ C94_full := by
  intro h
  have key : (match (accessing .put).write, (accessing .get).write with
    | .ok a, .ok b => a == b
    | _, _ => false) = true := by decide +kernel
  split at key
  · rename_i a b ha hb
    rw [beq_iff_eq] at key
    subst key
    cases (h _ _ _ ha hb).methods with
    | cons hm _ =>
      cases hm.attrs with
      | cons hc _ =>
        obtain ⟨ρ, ρ', hc⟩ := hc
        have := hc.insns
        simp [normal, renI] at this
  · cases key

end Verif.Props
