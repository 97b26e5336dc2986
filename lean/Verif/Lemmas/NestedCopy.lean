import Verif.Spec.NestedCopy
import Verif.Lemmas.Nested
import Verif.Lemmas.Reread
import Verif.Lemmas.Growth

/-! # Copies of classes whose bootstrap arguments are dynamic constants -/

namespace Verif
open Spec Sig

theorem nested_given {x : Class} (h : RegularNested x) : ∀ b ∈ givenBsms x.attrs, NestedBsm b := by
  intro b hb
  obtain ⟨a, ha, hb⟩ := List.mem_flatMap.mp hb
  cases a with
  | bootstrapMethods ms => exact (h.attrs _ ha).2 b hb
  | _ => cases hb

theorem given_arguments {x : Class} (hg : ClassGood x) : ∀ b ∈ givenBsms x.attrs, b.arguments.length < 65536 := by
  intro b hb
  obtain ⟨a, ha, hb⟩ := List.mem_flatMap.mp hb
  cases a with
  | bootstrapMethods ms => exact ((hg.attrs.2 _ ha).2 ms rfl).2 b hb
  | _ => cases hb

theorem nested_full {x : Class} (hs : SharedClass x) (hg : ClassGood x) (hr : resolveCells (openClass x) x.attrs = .ok ())
    (h : RegularNested x) {b : Bsm} (hb : FullBsm x b) : BsmWritable b ∧ BsmReadable b := by
  have harg : ∀ a ∈ b.arguments, ArgWritable a ∧ StaticArg a := by
    obtain ⟨b0, hb0, rfl⟩ := hb
    intro a ha
    have hf := full_arg hs hg hr h.acyclic ⟨b0, hb0, rfl⟩ ha
    obtain ⟨a0, ha0, rfl⟩ := List.mem_map.mp ha
    rcases (nested_given h b0 hb0).arguments a0 ha0 with ⟨c, rfl, hc⟩ | ⟨c, n, t, rfl, ht, hm⟩
    · have e : fillArg (bsmTable x.attrs) (bsmTable x.attrs).length (.static c) = .static c := by
        cases (bsmTable x.attrs).length <;> rfl
      rw [e]
      exact hc
    · obtain ⟨k, rfl⟩ := (given_shared hs b0 hb0).2 _ ha0 _ _ _ rfl
      generalize (bsmTable x.attrs).length = m at hf
      have e : ∃ c, fillArg (bsmTable x.attrs) m (.dynamic (.pending k) n t) = .dynamic c n t := by
        cases m with
        | zero => exact ⟨_, rfl⟩
        | succ m =>
          rw [fillArg]
          split <;> exact ⟨_, rfl⟩
      obtain ⟨c, e⟩ := e
      rw [e] at hf ⊢
      rcases hf with ⟨c', hf⟩ | ⟨b', n', t', _, hf⟩
      · cases hf
      · cases hf
        exact ⟨⟨ht, hm, _, _, rfl⟩, trivial⟩
  have hb' := hb
  obtain ⟨b0, hb0, e⟩ := hb
  have h0 := nested_given h b0 hb0
  have hh : b.handle = b0.handle := by rw [e]; rfl
  have hl : b.arguments.length = b0.arguments.length := by rw [e]; exact List.length_map _
  refine ⟨⟨hh ▸ h0.handle.1, ?_, fun a ha => (harg a ha).1⟩, hh ▸ h0.handle.2, fun a ha => (harg a ha).2⟩
  rw [hl]
  exact given_arguments hg b0 hb0

theorem fillArg_strings {S : Bytes → Prop} {T : List Bsm} (hT : ∀ b ∈ T, AllBsm S b) : ∀ (n : Nat) (a : Arg), AllArgs S [a] →
    AllArgs S [fillArg T n a]
  | 0, a, h => h
  | n + 1, .static c, h => h
  | n + 1, .dynamic (.filled _ _) _ _, h => h
  | n + 1, .dynamic (.pending k) nm t, h => by
    rw [fillArg]
    rcases e : T[k.toNat]? with _ | b
    · exact h
    · have hb := hT b (List.mem_of_getElem? e)
      rw [AllArgs] at h
      rw [AllArgs, AllCell]
      refine ⟨⟨h.1.1, h.1.2.1, hb.1, allArgs_iff.mpr fun a' ha' => ?_⟩, h.2⟩
      obtain ⟨a, ha, rfl⟩ := List.mem_map.mp ha'
      exact fillArg_strings hT n a (allArgs_iff.mp hb.2 a ha)

theorem completed_count {x : Class} (hs : SharedClass x) (hne : ∀ ms, .bootstrapMethods ms ∈ x.attrs → ms ≠ [])
    (hone : (x.attrs.filter isBootstrap).length ≤ 1) :
    ((completed x).attrs.filter isBootstrap).length = if (usedBsms (completed x)).isEmpty then 0 else 1 := by
  have hfl : ((completed x).attrs.filter isBootstrap).length = (x.attrs.filter isBootstrap).length := by
    show ((x.attrs.map _).filter _).length = _
    rw [List.filter_map, List.length_map]
    congr 2
    funext a
    cases a <;> rfl
  rw [hfl]
  rcases hf : x.attrs.filter isBootstrap with _ | ⟨a, as⟩
  · have hgv : givenBsms x.attrs = [] := by
      refine List.flatMap_eq_nil_iff.mpr fun a ha => ?_
      have := (List.filter_eq_nil_iff.mp hf) a ha
      cases a with
      | bootstrapMethods ms => exact absurd rfl this
      | _ => rfl
    have hu : usedBsms (completed x) = [] := by
      refine List.eq_nil_iff_forall_not_mem.mpr fun b hb => ?_
      obtain ⟨b', hb', _⟩ := used_full hs b hb
      rw [hgv] at hb'
      cases hb'
    rw [hu]; rfl
  · rw [hf, List.length_cons] at hone
    have ha : a ∈ x.attrs.filter isBootstrap := by rw [hf]; exact List.mem_cons_self
    obtain ⟨ha, hb⟩ := List.mem_filter.mp ha
    cases a with
    | bootstrapMethods ms =>
      rcases ms with _ | ⟨b, ms⟩
      · exact absurd rfl (hne _ ha)
      have hm : b ∈ givenBsms x.attrs := List.mem_flatMap.mpr ⟨_, ha, List.mem_cons_self⟩
      rw [List.length_cons, if_neg]
      · omega
      · rw [List.isEmpty_iff]
        intro hu
        have := (List.append_eq_nil_iff.mp hu).1
        rw [completed_given, List.map_eq_nil_iff] at this
        rw [this] at hm
        cases hm
    | _ => cases hb

/-- The class with its cells filled can be written and read again. -/
theorem nested_fit {x : Class} (hg : ClassGood x) (hs : SharedClass x) (hr : resolveCells (openClass x) x.attrs = .ok ())
    (h : RegularNested x) : (completed x).Unordered ∧ AllClass Fitting (completed x) ∧
      (withTable (completed x)).Readable CodeReadable := by
  have hmeth : ∀ m ∈ (completed x).methods, KnownFlags m.access ∧ IsDescriptor m.descriptor ∧ ∀ a ∈ m.attrs,
      a.Writable (fun b => CodeWritable b ∧ Compact b.code) ∧ a.Readable CodeReadable := by
    intro m' hm'
    obtain ⟨m, hm, rfl⟩ := List.mem_map.mp hm'
    refine ⟨(hg.methods.2 m hm).access, (h.methods m hm).1, fun a' ha' => ?_⟩
    obtain ⟨a, ha, rfl⟩ := List.mem_map.mp ha'
    exact (hg.methods.2 m hm).attrs a ha ((h.methods m hm).2 a ha) _
  have hfull : ∀ b ∈ writtenBsms (completed x), FullBsm x b :=
    full_rounds hs hg hr h.acyclic _ _ (used_full hs)
  have hattr : ∀ a ∈ (completed x).attrs, a.Writable ∧ a.Readable := by
    intro a' ha'
    obtain ⟨a, ha, rfl⟩ := List.mem_map.mp ha'
    cases a with
    | bootstrapMethods ms =>
      have : ∀ b ∈ ms.map (fillBsm (bsmTable x.attrs) (bsmTable x.attrs).length), BsmWritable b ∧ BsmReadable b := by
        intro b hb
        obtain ⟨b0, hb0, rfl⟩ := List.mem_map.mp hb
        exact nested_full hs hg hr h ⟨b0, List.mem_flatMap.mpr ⟨_, ha, hb0⟩, rfl⟩
      exact ⟨fun b hb => (this b hb).1, fun b hb => (this b hb).2⟩
    | _ => exact (hg.attrs.2 _ ha).1 nofun (h.attrs _ ha)
  refine ⟨⟨hg.access, hg.interfaces, ⟨hg.fields.1, fun f hf => ?_⟩, ⟨?_, fun m hm => ?_⟩, ⟨?_, fun a ha => (hattr a ha).1⟩,
    completed_count hs (fun ms hms => (h.attrs _ hms).1) h.one, ?_, fun b hb => (nested_full hs hg hr h (hfull b hb)).1⟩,
    ?_, ⟨fun f hf a ha => ?_, fun m hm a ha => ?_, fun a ha => ?_⟩⟩
  · have := h.fields f hf
    exact ⟨(hg.fields.2 f hf).access, this.1, fun a ha => ((hg.fields.2 f hf).attrs a ha (this.2 a ha)).1⟩
  · show (x.methods.map _).length < _
    rw [List.length_map]
    exact hg.methods.1
  · have := hmeth m hm
    exact ⟨this.1, this.2.1, fun a ha => (this.2.2 a ha).1⟩
  · show (x.attrs.map _).length < _
    rw [List.length_map]
    exact hg.attrs.1
  · rw [writtenBsms, rounds_count, completed_size hs]
    exact h.room
  · refine ⟨h.strings.name, h.strings.superName, h.strings.interfaces, h.strings.fields, fun m' hm' => ?_,
      fun a' ha' => ?_, fun b hb => ?_⟩
    · rw [completed_methods] at hm'
      obtain ⟨m, hm, rfl⟩ := List.mem_map.mp hm'
      exact looked_method (h.strings.methods m hm)
    · obtain ⟨a, ha, rfl⟩ := List.mem_map.mp ha'
      have := h.strings.attrs a ha
      cases a <;> exact this
    · obtain ⟨b0, hb0, rfl⟩ := used_full hs b hb
      have hgs : ∀ b ∈ givenBsms x.attrs, AllBsm Fitting b := fun b hb => h.strings.table b (List.mem_append_left _ hb)
      have h0 := hgs b0 hb0
      refine ⟨h0.1, allArgs_iff.mpr fun a' ha' => ?_⟩
      obtain ⟨a, ha, rfl⟩ := List.mem_map.mp ha'
      exact fillArg_strings (fun b hb => hgs b (table_given _ b hb)) _ _ (allArgs_iff.mp h0.2 a ha)
  · exact ((hg.fields.2 f hf).attrs a ha ((h.fields f hf).2 a ha)).2
  · exact ((hmeth m hm).2.2 a ha).2
  · rcases List.mem_append.mp ha with ha | ha
    · exact (hattr a (List.mem_filter.mp ha).1).2
    · split at ha
      · cases ha
      · cases List.mem_singleton.mp ha
        exact fun b hb => (nested_full hs hg hr h (hfull b hb)).2

end Verif
