import Verif.Props.Again
import Verif.Lemmas.Edit

/-! # C93: changing a class that was read -/

namespace Verif.Props
open Spec Sig

/-- `z` says what `y` says (C47): names, flags, fields and attributes are the same, and bodies are the same up to the
names of labels. -/
def Kept (y z : Class) : Prop :=
  SameClass (writtenBsms y) (fun b b' => ∃ ρ, SameBody (writtenBsms y) b b' ρ) (withTable y) z

/-- Full claim: if parts of classes that were read are put together, and the result is written, then it is read as
it was put together. -/
def C93_full : Prop := ∀ (ord : Order), (∀ k n l, (ord k n l).Perm l) → ∀ (y : Class) (out : Bytes), FromParts y →
  y.fields.length < 65536 → y.methods.length < 65536 → y.attrs.length < 65536 → y.interfaces.length < 65536 →
  (usedBsms y).length < 65536 → y.write = .ok out → out.length < 2 ^ 32 → ∃ z, Class.read ord out = .ok (z, []) ∧ Kept y z

/-- Proved, if the result has an attribute `BootstrapMethods` just if it needs one. The parts can be from any number
of classes. -/
theorem C93_parts_partial (ord : Order) (hord : ∀ k n l, (ord k n l).Perm l) (y : Class) (out : Bytes)
    (h : FromParts y) (ht : Together y) (hw : y.write = .ok out) (hl : out.length < 2 ^ 32) (more : Bytes) :
    ∃ z, Class.read ord (out ++ more) = .ok (z, more) ∧ Kept y z := by
  obtain ⟨h1, h2, h3⟩ := parts_fit h ht
  exact C47_roundtrip_partial ord hord y out h1 h2 hw hl h3 more

theorem matched_getElem {α β : Type} {R : α → β → Prop} {as : List α} {bs : List β} (h : Matched R as bs) :
    as.length = bs.length ∧ ∀ (i : Nat) a, as[i]? = some a → ∃ b, bs[i]? = some b ∧ R a b := by
  induction h with
  | nil => exact ⟨rfl, nofun⟩
  | cons h _ ih =>
    refine ⟨congrArg (· + 1) ih.1, fun i a ha => ?_⟩
    cases i with
    | zero => cases ha; exact ⟨_, rfl, h⟩
    | succ i => exact ih.2 i a ha

/-- Proved: fields, interfaces and methods are found where they were put, and the methods say what they said. -/
theorem C93_members_partial (ord : Order) (hord : ∀ k n l, (ord k n l).Perm l) (y : Class) (out : Bytes)
    (h : FromParts y) (ht : Together y) (hw : y.write = .ok out) (hl : out.length < 2 ^ 32) :
    ∃ z, Class.read ord out = .ok (z, []) ∧ z.fields = y.fields ∧ z.interfaces = y.interfaces ∧
      z.methods.length = y.methods.length ∧ ∀ (i : Nat) m, y.methods[i]? = some m → ∃ m', z.methods[i]? = some m' ∧
        SameMethod (fun b b' => ∃ ρ, SameBody (writtenBsms y) b b' ρ) m m' := by
  obtain ⟨z, hz, hk⟩ := C93_parts_partial ord hord y out h ht hw hl []
  rw [List.append_nil] at hz
  have := matched_getElem hk.methods
  exact ⟨z, hz, hk.fields, hk.interfaces, this.1.symm, this.2⟩

theorem sublist_flatMap {α β : Type} {as bs : List α} (h : as.Sublist bs) (f : α → List β) :
    (as.flatMap f).Sublist (bs.flatMap f) := by
  induction h with
  | slnil => exact .refl _
  | cons a _ ih => exact ih.trans (List.sublist_append_right _ _)
  | cons_cons a _ ih => exact List.Sublist.append (.refl _) ih

/-- Proved: fields, methods, interfaces and attributes can be removed from a class that was read, and it can have
another name, another superclass and other flags. Only the attribute `BootstrapMethods` must stay. -/
theorem C93_removed_partial (ord : Order) (hord : ∀ k n l, (ord k n l).Perm l) (x y : Class) (out : Bytes)
    (hx : FromFile x) (hf : y.fields.Sublist x.fields) (hm : y.methods.Sublist x.methods)
    (hi : y.interfaces.Sublist x.interfaces) (ha : y.attrs.Sublist x.attrs)
    (hb : y.attrs.filter isBootstrap = x.attrs.filter isBootstrap) (hacc : KnownFlags y.access)
    (hn : Fitting y.name) (hsup : AllOpt Fitting y.superName) (hw : y.write = .ok out) (hl : out.length < 2 ^ 32)
    (more : Bytes) : ∃ z, Class.read ord (out ++ more) = .ok (z, more) ∧ Kept y z := by
  obtain ⟨h1, _, _, _⟩ := fromFile_fit hx
  have hg : ∀ as : List ClassAttr, givenBsms (as.filter isBootstrap) = givenBsms as := by
    intro as
    induction as with
    | nil => rfl
    | cons a as ih =>
      cases a with
      | bootstrapMethods ms => exact congrArg (ms ++ ·) ih
      | _ => exact ih
  have hgiven : givenBsms y.attrs = givenBsms x.attrs := by rw [← hg, hb, hg]
  have hused : (usedBsms y).Sublist (usedBsms x) := by
    unfold usedBsms
    rw [hgiven]
    exact List.Sublist.append (.refl _) (sublist_flatMap (sublist_flatMap hm _) _)
  have hne : ∀ a ∈ x.attrs.filter isBootstrap, givenBsms x.attrs ≠ [] := by
    intro a ha hnil
    obtain ⟨ha, hba⟩ := List.mem_filter.mp ha
    obtain ⟨_, _, _, x0, _, _, _, hr, rfl⟩ := hx
    obtain ⟨a0, ha0, rfl⟩ := List.mem_map.mp ha
    have hne := hr.attrs a0 ha0
    cases a0 with
    | bootstrapMethods ms =>
      rcases ms with _ | ⟨b, ms⟩
      · exact hne.1 rfl
      · have : fillBsm (bsmTable x0.attrs) (bsmTable x0.attrs).length b ∈ givenBsms (completed x0).attrs :=
          List.mem_flatMap.mpr ⟨_, ha, List.mem_cons_self⟩
        rw [hnil] at this
        cases this
    | _ => cases hba
  refine C93_parts_partial ord hord y out
    ⟨fun f h => .inl ⟨x, hx, hf.subset h⟩, fun m h => .inl ⟨x, hx, hm.subset h⟩, fun a h => .inl ⟨x, hx, ha.subset h⟩,
      .inr hacc, .inr hn, .inr hsup, fun s h => .inl ⟨x, hx, hi.subset h⟩⟩
    ⟨Nat.lt_of_le_of_lt hf.length_le h1.fields.1, Nat.lt_of_le_of_lt hm.length_le h1.methods.1,
      Nat.lt_of_le_of_lt ha.length_le h1.attrs.1, Nat.lt_of_le_of_lt hi.length_le h1.interfaces, ?_, ?_⟩ hw hl more
  · have hc := h1.count
    rw [hb]
    rcases hl : x.attrs.filter isBootstrap with _ | ⟨a, as⟩
    · rw [hl] at hc
      have : usedBsms x = [] := by
        split at hc
        · rename_i h; exact List.isEmpty_iff.mp h
        · cases hc
      rw [this] at hused
      rw [List.sublist_nil.mp hused]
      rfl
    · have hgn := hne a (by rw [hl]; exact List.mem_cons_self)
      have hxn : usedBsms x ≠ [] := fun h => hgn (List.append_eq_nil_iff.mp h).1
      have hyn : usedBsms y ≠ [] := fun h => hgn (hgiven ▸ (List.append_eq_nil_iff.mp h).1)
      rw [hl, if_neg (by rw [List.isEmpty_iff]; exact hxn)] at hc
      rw [hc, if_neg (by rw [List.isEmpty_iff]; exact hyn)]
  · refine Nat.lt_of_le_of_lt hused.length_le ?_
    have := h1.table.1
    rwa [written_static (fromFile_fit hx).2.2.2] at this

/-! ### Classes to which this applies -/

theorem plainClass_file : FromFile (completed plainClass) :=
  ⟨_, _, _, _, fun _ _ _ => .refl _, plainClass_read, by decide +kernel, plainClass_regular, rfl⟩

theorem callSite_file : FromFile (completed callSite) :=
  ⟨_, _, _, _, fun _ _ _ => .refl _, callSite_read, by decide +kernel, callSite_regular, rfl⟩

/-- The class with a call site, and a method from another class. -/
def joined : Class := { completed callSite with methods := (completed callSite).methods ++ (completed plainClass).methods }

theorem joined_parts : FromParts joined := by
  refine ⟨fun f hf => .inl ⟨_, callSite_file, hf⟩, fun m hm => ?_, fun a ha => .inl ⟨_, callSite_file, ha⟩,
    .inl ⟨_, callSite_file, rfl⟩, .inl ⟨_, callSite_file, rfl⟩, .inl ⟨_, callSite_file, rfl⟩,
    fun s hs => .inl ⟨_, callSite_file, hs⟩⟩
  rcases List.mem_append.mp hm with hm | hm
  · exact .inl ⟨_, callSite_file, hm⟩
  · exact .inl ⟨_, plainClass_file, hm⟩

example : ∃ out z, joined.write = .ok out ∧ Class.read (fun _ _ l => l) out = .ok (z, []) ∧ Kept joined z ∧
    z.methods.length = 2 := by
  obtain ⟨out, hw, hl⟩ := written_of (x := joined) (n := 177) (by decide +kernel)
  obtain ⟨z, hz, hk⟩ := C93_parts_partial (fun _ _ l => l) (fun _ _ l => List.Perm.refl l) joined out joined_parts
    ⟨by decide, by decide, by decide, by decide, by decide +kernel, by decide +kernel⟩ hw (by omega) []
  rw [List.append_nil] at hz
  exact ⟨out, z, hw, hz, hk, (matched_getElem hk.methods).1.symm⟩

/-- All methods are removed; the table stays. -/
def emptied : Class := { completed callSite with methods := [], name := [0x42] }

example : ∃ out z, emptied.write = .ok out ∧ Class.read (fun _ _ l => l) out = .ok (z, []) ∧ z.methods = [] ∧
    z.name = [0x42] := by
  obtain ⟨out, hw, hl⟩ := written_of (x := emptied) (n := 95) (by decide +kernel)
  obtain ⟨z, hz, hk⟩ := C93_removed_partial (fun _ _ l => l) (fun _ _ l => List.Perm.refl l) _ emptied out callSite_file
    (List.Sublist.refl _) (List.nil_sublist _) (.refl _) (.refl _) rfl
    (fromFile_fit callSite_file).1.access (fits (n := [0x42]) (by decide +kernel)) (fromFile_fit callSite_file).2.1.superName
    hw (by omega) []
  rw [List.append_nil] at hz
  exact ⟨out, z, hw, hz, List.length_eq_zero_iff.mp (matched_getElem hk.methods).1.symm, hk.name⟩

/-! ### What goes wrong otherwise -/

/-- The class without a call site, and the method that has one. -/
def moved : Class := { completed plainClass with methods := (completed plainClass).methods ++ (completed callSite).methods }

theorem moved_parts : FromParts moved := by
  refine ⟨fun f hf => .inl ⟨_, plainClass_file, hf⟩, fun m hm => ?_, fun a ha => .inl ⟨_, plainClass_file, ha⟩,
    .inl ⟨_, plainClass_file, rfl⟩, .inl ⟨_, plainClass_file, rfl⟩, .inl ⟨_, plainClass_file, rfl⟩,
    fun s hs => .inl ⟨_, plainClass_file, hs⟩⟩
  rcases List.mem_append.mp hm with hm | hm
  · exact .inl ⟨_, plainClass_file, hm⟩
  · exact .inl ⟨_, callSite_file, hm⟩

set_option maxRecDepth 100000 in
/-- If a method with a call site is put into a class that had none, then the table of bootstrap methods is behind the
end of the class that is written: the number of attributes does not count it. -/
theorem C93_violated : ¬ C93_full := by
  intro h
  have key : (match moved.write with
    | .ok out => out.length < 1000 && match Class.read (fun _ _ l => l) out with
      | .ok (_, rest) => !rest.isEmpty
      | .error _ => true
    | .error _ => false) = true := by decide +kernel
  split at key
  · rename_i out ho
    simp only [Bool.and_eq_true, decide_eq_true_eq] at key
    obtain ⟨z, hz, _⟩ := h (fun _ _ l => l) (fun _ _ _ => .refl _) moved out moved_parts (by decide) (by decide) (by decide)
      (by decide) (by decide +kernel) ho (by omega)
    rw [hz] at key
    exact absurd key.2 (by simp)
  · cases key

def untabled : Class := { completed callSite with attrs := [] }

set_option maxRecDepth 100000 in
/-- So it is if the attribute is removed and the call site stays: what is read has no table, and its call site no
bootstrap method. -/
theorem C93_without_table : ∃ out z rest, untabled.write = .ok out ∧
    Class.read (fun _ _ l => l) out = .ok (z, rest) ∧ rest ≠ [] ∧ z.attrs = [] ∧
      (classDynamics z).map (fun d => (ownBsm d).length) = [0] := by
  have key : (match untabled.write with
    | .ok out => match Class.read (fun _ _ l => l) out with
      | .ok (z, rest) => !rest.isEmpty && z.attrs.isEmpty && (classDynamics z).map (fun d => (ownBsm d).length) == [0]
      | .error _ => false
    | .error _ => false) = true := by decide +kernel
  split at key
  · rename_i out ho
    split at key
    · rename_i z rest hz
      simp only [Bool.and_eq_true, Bool.not_eq_true', List.isEmpty_iff, beq_iff_eq] at key
      exact ⟨out, z, rest, ho, hz, by intro h; rw [h] at key; simp at key, key.1.2, key.2⟩
    · cases key
  · cases key

end Verif.Props
