import Verif.Spec.Edit
import Verif.Lemmas.Reread
import Verif.Lemmas.Shared

/-! # Parts of classes that were read can be written and read -/

namespace Verif
open Spec Sig

/-- What is known of a class that was read. -/
theorem fromFile_fit {x : Class} (h : FromFile x) :
    x.Writable ∧ AllClass Fitting x ∧ (withTable x).Readable CodeReadable ∧ (∀ b ∈ usedBsms x, StaticBsm b) := by
  obtain ⟨ord, input, rest, y, hord, hr, hl, hy, rfl⟩ := h
  have hs := read_shared (fun k n l v hv => (hord k n l).mem_iff.mp hv) hr
  obtain ⟨h1, h2, h3⟩ := regular_fit (read_good hord hr hl) hs hy
  refine ⟨h1, h2, h3, fun b hb => ?_⟩
  have hst := regular_static hy
  rw [completed_static hst] at hb
  exact hst b (looked_bsms hs.cells hb)

theorem fromFile_bsm {x : Class} (h : FromFile x) {b : Bsm} (hb : b ∈ usedBsms x) : NewBsm b := by
  obtain ⟨h1, h2, h3, h4⟩ := fromFile_fit h
  have hw := written_static h4
  refine ⟨h1.table.2 b (hw ▸ hb), ?_, h2.table b hb, h4 b hb⟩
  have : ClassAttr.bootstrapMethods (writtenBsms x) ∈ (withTable x).attrs := by
    unfold withTable
    refine List.mem_append_right _ ?_
    rw [if_neg (by rw [List.isEmpty_iff]; intro he; rw [he] at hb; cases hb)]
    exact List.mem_singleton.mpr rfl
  exact h3.attrs _ this b (hw ▸ hb)

theorem fromFile_field {x : Class} (h : FromFile x) {f : Field} (hf : f ∈ x.fields) : NewField f := by
  obtain ⟨h1, h2, h3, _⟩ := fromFile_fit h
  exact ⟨h1.fields.2 f hf, h3.fields f hf, h2.fields f hf⟩

theorem fromFile_method {x : Class} (h : FromFile x) {m : Method} (hm : m ∈ x.methods) : NewMethod m := by
  obtain ⟨h1, h2, h3, _⟩ := fromFile_fit h
  refine ⟨h1.methods.2 m hm, h3.methods m hm, h2.methods m hm, fun b hb => fromFile_bsm h ?_⟩
  refine List.mem_append_right _ ?_
  obtain ⟨d, hd, hb⟩ := List.mem_flatMap.mp hb
  exact List.mem_flatMap.mpr ⟨d, List.mem_flatMap.mpr ⟨m, hm, hd⟩, hb⟩

theorem fromFile_attr {x : Class} (h : FromFile x) {a : ClassAttr} (ha : a ∈ x.attrs) : NewAttr a := by
  obtain ⟨h1, h2, h3, _⟩ := fromFile_fit h
  have hb : ∀ ms, a = .bootstrapMethods ms → ∀ b ∈ ms, NewBsm b := fun ms hms b hb =>
    fromFile_bsm h (List.mem_append_left _ (List.mem_flatMap.mpr ⟨a, ha, by rw [hms]; exact hb⟩))
  refine ⟨h1.attrs.2 a ha, ?_, h2.attrs a ha, hb⟩
  cases hba : isBootstrap a
  · refine h3.attrs a (List.mem_append_left _ (List.mem_filter.mpr ⟨ha, ?_⟩))
    rw [hba]; rfl
  · cases a with
    | bootstrapMethods ms => exact fun b hb' => (hb ms rfl b hb').read
    | _ => cases hba

/-- The class can be written and read. -/
theorem parts_fit {y : Class} (h : FromParts y) (ht : Together y) :
    y.Writable ∧ AllClass Fitting y ∧ (withTable y).Readable CodeReadable := by
  have hf : ∀ f ∈ y.fields, NewField f := fun f hf => (h.fields f hf).elim (fun ⟨_, hx, hf⟩ => fromFile_field hx hf) id
  have hm : ∀ m ∈ y.methods, NewMethod m := fun m hm =>
    (h.methods m hm).elim (fun ⟨_, hx, hm⟩ => fromFile_method hx hm) id
  have ha : ∀ a ∈ y.attrs, NewAttr a := fun a ha => (h.attrs a ha).elim (fun ⟨_, hx, ha⟩ => fromFile_attr hx ha) id
  have hb : ∀ b ∈ usedBsms y, NewBsm b := by
    intro b hb
    rcases List.mem_append.mp hb with hb | hb
    · obtain ⟨a, hay, hb⟩ := List.mem_flatMap.mp hb
      cases a with
      | bootstrapMethods ms => exact (ha _ hay).bsms ms rfl b hb
      | _ => cases hb
    · obtain ⟨d, hd, hb⟩ := List.mem_flatMap.mp hb
      obtain ⟨m, hmy, hd⟩ := List.mem_flatMap.mp hd
      exact (hm m hmy).bsms b (List.mem_flatMap.mpr ⟨d, hd, hb⟩)
  have hst : ∀ b ∈ usedBsms y, StaticBsm b := fun b h => (hb b h).static
  have hwr := written_static hst
  refine ⟨⟨?_, ht.interfaces, ⟨ht.fields, fun f h => (hf f h).write⟩, ⟨ht.methods, fun m h => (hm m h).write⟩,
      ⟨ht.attrs, fun a h => (ha a h).write⟩, ht.one, ?_, ordered_static hst⟩,
    ⟨?_, ?_, fun s hs => ?_, fun f h => (hf f h).strings, fun m h => (hm m h).strings, fun a h => (ha a h).strings,
      fun b h => (hb b h).strings⟩,
    ⟨fun f h => (hf f h).read, fun m h => (hm m h).read, fun a hay => ?_⟩⟩
  · exact h.access.elim (fun ⟨_, hx, he⟩ => he ▸ (fromFile_fit hx).1.access) id
  · rw [hwr]
    exact ⟨ht.room, fun b h => (hb b h).write⟩
  · exact h.name.elim (fun ⟨_, hx, he⟩ => he ▸ (fromFile_fit hx).2.1.name) id
  · exact h.superName.elim (fun ⟨_, hx, he⟩ => he ▸ (fromFile_fit hx).2.1.superName) id
  · exact (h.interfaces s hs).elim (fun ⟨_, hx, hs⟩ => (fromFile_fit hx).2.1.interfaces s hs) id
  · rcases List.mem_append.mp hay with hay | hay
    · exact (ha a (List.mem_filter.mp hay).1).read
    · split at hay
      · cases hay
      · cases List.mem_singleton.mp hay
        intro b hbw
        rw [hwr] at hbw
        exact (hb b hbw).read

end Verif
