import Verif.Props.Reread
import Verif.Lemmas.NestedOrder

/-! # Classes whose bootstrap arguments are dynamic constants: C96 -/

namespace Verif.Props
open Spec Sig

/-! ## C96 -/

/-- C96. However the table of a class is ordered: what is written is read, with everything but the dynamic arguments as
it was, and the dynamic arguments of every round numbered from zero on in the order in which they come. -/
theorem C96_numbers (ord : Order) (hord : ∀ k n l, (ord k n l).Perm l) (x : Class) (bs : Bytes) (hx : x.Unordered)
    (hs : AllClass Fitting x) (h : x.write = .ok bs) (hl : bs.length < 2 ^ 32)
    (hr : (withTable x).Readable CodeReadable) (rest : Bytes) :
    ∃ y, Class.read ord (bs ++ rest) = .ok (y, rest) ∧ y.attrs = (withNumbers x).attrs ∧
      SameClass [] (fun b b' => ∃ ρ, SameBody (writtenBsms x) b b' ρ) (withNumbers x) y :=
  class_reread_numbers hx hs h hl hr ord hord rest

/-- C96. So the class is read as it was exactly if the bootstrap methods of dynamic arguments are the first entries, in the
order of the arguments. -/
theorem C96_iff (ord : Order) (hord : ∀ k n l, (ord k n l).Perm l) (x : Class) (bs : Bytes) (hx : x.Unordered)
    (hs : AllClass Fitting x) (h : x.write = .ok bs) (hl : bs.length < 2 ^ 32)
    (hr : (withTable x).Readable CodeReadable) (rest rest' : Bytes) (y : Class)
    (hy : Class.read ord (bs ++ rest) = .ok (y, rest')) :
    SameClass (writtenBsms x) (fun b b' => ∃ ρ, SameBody (writtenBsms x) b b' ρ) (withTable x) y ↔ Ordered (usedBsms x) := by
  constructor
  · intro hsame
    obtain ⟨y', hy', ha, _⟩ := C96_numbers ord hord x bs hx hs h hl hr rest
    rw [hy] at hy'
    cases hy'
    refine ordered_of_right hx ?_
    have h1 := bootstrapTable_resolve (writtenBsms x) y.attrs
    have h2 := bsmTable_withTable x
    have h3 := bsmTable_withNumbers x
    rw [hsame.attrs] at h1
    rw [bootstrapTable_eq, h1] at h2
    rw [← ha, bootstrapTable_eq] at h3
    rw [← h3]
    rcases hb : bootstrapTable y.attrs with _ | ms
    · rw [hb] at h2
      rw [← h2]
      rfl
    · rw [hb] at h2
      exact h2
  · intro ho
    obtain ⟨y', hy', hsame⟩ := C47_roundtrip_partial ord hord x bs
      ⟨hx.access, hx.interfaces, hx.fields, hx.methods, hx.attrs, hx.count, hx.table, ho⟩ hs h hl hr rest
    rw [hy] at hy'
    cases hy'
    exact hsame

theorem read_resolved {ord : Order} {input rest : Bytes} {x : Class} (h : Class.read ord input = .ok (x, rest)) :
    resolveCells (openClass x) x.attrs = .ok () := by
  have := read_class ord input
  rw [h] at this
  exact this.2

/-- C96. The copy of a class file is read, and its dynamic arguments are numbered in this way. -/
theorem C96_copy (ord : Order) (hord : ∀ k n l, (ord k n l).Perm l) (input rest out : Bytes) (x : Class)
    (h : Class.read ord input = .ok (x, rest)) (hx : RegularNested x) (hw : x.rewrite 65538 = .ok out)
    (hl : input.length < 2 ^ 31) (ho : out.length < 2 ^ 32) (more : Bytes) :
    ∃ y, Class.read ord (out ++ more) = .ok (y, more) ∧ y.attrs = (withNumbers (completed x)).attrs ∧
      SameClass [] (fun b b' => ∃ ρ, SameBody (writtenBsms (completed x)) b b' ρ) (withNumbers (completed x)) y ∧
      (Restored x y ↔ Ordered (usedBsms (completed x))) := by
  have hs := read_shared (fun k n l v hv => (hord k n l).mem_iff.mp hv) h
  obtain ⟨h1, h2, h3⟩ := nested_fit (read_good hord h hl) hs (read_resolved h) hx
  rw [C66_written_partial ord hord input rest x h hx.acyclic] at hw
  obtain ⟨y, hy, ha, hsame⟩ := C96_numbers ord hord _ out h1 h2 hw ho h3 more
  exact ⟨y, hy, ha, hsame, C96_iff ord hord _ out h1 h2 hw ho h3 more more y hy⟩

/-- C96. If no two entries of the table are the same, then the copy says what the original says exactly if the dynamic
arguments of the table are made with its entries from the first on, one after the other, and no instruction uses an
entry with a dynamic argument. -/
theorem C96_copy_iff (ord : Order) (hord : ∀ k n l, (ord k n l).Perm l) (input rest out : Bytes) (x : Class)
    (h : Class.read ord input = .ok (x, rest)) (hx : RegularNested x) (hd : (bsmTable x.attrs).Nodup)
    (hw : x.rewrite 65538 = .ok out) (hl : input.length < 2 ^ 31) (ho : out.length < 2 ^ 32) (more rest' : Bytes) (y : Class)
    (hy : Class.read ord (out ++ more) = .ok (y, rest')) : Restored x y ↔ InOrder x := by
  have hs := read_shared (fun k n l v hv => (hord k n l).mem_iff.mp hv) h
  have hg := read_good hord h hl
  have hc := read_resolved h
  obtain ⟨y', hy', _, _, hiff⟩ := C96_copy ord hord input rest out x h hx hw hl ho more
  rw [hy] at hy'
  cases hy'
  rw [hiff]
  by_cases hne : bsmTable x.attrs = []
  · have hu : usedBsms (completed x) = [] := by
      refine List.eq_nil_iff_forall_not_mem.mpr fun b hb => ?_
      obtain ⟨b', hb', _⟩ := used_full hs b hb
      rw [given_one hx.one, hne] at hb'
      cases hb'
    unfold InOrder
    rw [hu, hne]
    refine ⟨fun _ => ⟨rfl, fun d _ k b _ hb => ?_⟩, fun _ => List.prefix_refl _⟩
    cases hb
  have hb : ∃ a ∈ x.attrs, isBootstrap a = true := by
    rcases e : bsmTable x.attrs with _ | ⟨b, _⟩
    · exact absurd e hne
    · exact given_found (table_given _ b (by rw [e]; exact List.mem_cons_self))
  have hf : ∀ b ∈ bsmTable x.attrs, ∀ k n t, Arg.dynamic (.pending k) n t ∈ b.arguments →
      k.toNat < (bsmTable x.attrs).length := by
    intro b hb' k n t ha
    obtain ⟨b', hk⟩ := cells_found hg hc hb (open_given (table_given _ b hb') ha)
    exact (List.getElem?_eq_some_iff.mp hk).1
  have hd' : ∀ d ∈ classDynamics x, ∀ k, d.bsm = .pending k → k.toNat < (bsmTable x.attrs).length := by
    intro d hd k hk
    obtain ⟨b', hk⟩ := cells_found hg hc hb (open_class hd hk)
    exact (List.getElem?_eq_some_iff.mp hk).1
  rw [ordered_numbers hs hx.one hx.acyclic hf hd' hd, numbers_inOrder hs hx.acyclic hf hd']

/-- C96. In particular a class is not restored if one of its instructions uses an entry with a dynamic argument. -/
theorem C96_used_lost (ord : Order) (hord : ∀ k n l, (ord k n l).Perm l) (input rest out : Bytes) (x : Class)
    (h : Class.read ord input = .ok (x, rest)) (hx : RegularNested x) (hd : (bsmTable x.attrs).Nodup)
    (hw : x.rewrite 65538 = .ok out) (hl : input.length < 2 ^ 31) (ho : out.length < 2 ^ 32)
    (d : Dynamic) (k j : UInt16) (b : Bsm) (n : Bytes) (t : JType) (h1 : d ∈ classDynamics x) (h2 : d.bsm = .pending k)
    (h3 : (bsmTable x.attrs)[k.toNat]? = some b) (h4 : .dynamic (.pending j) n t ∈ b.arguments) :
    ∃ y, Class.read ord out = .ok (y, []) ∧ ¬ Restored x y := by
  obtain ⟨y, hy, _⟩ := C96_copy ord hord input rest out x h hx hw hl ho []
  have hiff := C96_copy_iff ord hord input rest out x h hx hd hw hl ho [] [] y hy
  rw [List.append_nil] at hy
  refine ⟨y, hy, fun hr => ?_⟩
  have h5 := (hiff.mp hr).2 d h1 k b h2 h3
  have h6 : j.toNat ∈ argEntries b := List.mem_filterMap.mpr ⟨_, h4, rfl⟩
  rw [h5] at h6
  cases h6

/-- The first dynamic argument has the number from which numbering starts. -/
theorem numberArgs_first {n : Nat} : ∀ {as : List Arg}, (∃ c nm t, Arg.dynamic c nm t ∈ as) →
    ∃ nm t, Arg.dynamic (.pending (UInt16.ofNat n)) nm t ∈ numberArgs n as
  | [], h => by
    obtain ⟨_, _, _, h⟩ := h
    cases h
  | .static c :: as, h => by
    obtain ⟨c', nm, t, h⟩ := h
    obtain ⟨nm', t', h'⟩ := numberArgs_first (n := n) (as := as) ⟨c', nm, t, by
      rcases List.mem_cons.mp h with h | h
      · cases h
      · exact h⟩
    exact ⟨nm', t', List.mem_cons_of_mem _ h'⟩
  | .dynamic c nm t :: as, _ => ⟨nm, t, List.mem_cons_self⟩

/-- C96. If the first entry of the table has a dynamic argument, then in the copy that argument is made with the entry
itself. The copy cannot be copied. -/
theorem C96_circular (ord : Order) (hord : ∀ k n l, (ord k n l).Perm l) (input rest out : Bytes) (x : Class)
    (h : Class.read ord input = .ok (x, rest)) (hx : RegularNested x) (hw : x.rewrite 65538 = .ok out)
    (hl : input.length < 2 ^ 31) (ho : out.length < 2 ^ 32) (b : Bsm) (c : Cell) (n : Bytes) (t : JType)
    (h1 : (bsmTable x.attrs)[0]? = some b) (h2 : .dynamic c n t ∈ b.arguments) :
    ∃ y, Class.read ord out = .ok (y, []) ∧ UsesEntry (bsmTable y.attrs) 0 0 ∧
      ∀ fuel out', y.rewrite fuel ≠ .ok out' := by
  obtain ⟨y, hy, ha, _⟩ := C96_copy ord hord input rest out x h hx hw hl ho []
  rw [List.append_nil] at hy
  have hu : UsesEntry (bsmTable y.attrs) 0 0 := by
    rw [ha, bsmTable_withNumbers, numberedBsms, numberRounds_step]
    have e : ∃ us, usedBsms (completed x) = fillBsm (bsmTable x.attrs) (bsmTable x.attrs).length b :: us := by
      unfold usedBsms
      rw [completed_given, given_one hx.one]
      rcases e : bsmTable x.attrs with _ | ⟨b', bs⟩
      · rw [e] at h1
        cases h1
      · rw [e] at h1
        cases h1
        exact ⟨_, rfl⟩
    obtain ⟨us, e⟩ := e
    rw [e]
    obtain ⟨c', hc'⟩ : ∃ c', fillArg (bsmTable x.attrs) (bsmTable x.attrs).length (.dynamic c n t) = .dynamic c' n t := by
      cases (bsmTable x.attrs).length with
      | zero => exact ⟨_, rfl⟩
      | succ m =>
        cases c with
        | filled _ _ => exact ⟨_, rfl⟩
        | pending k =>
          rw [fillArg]
          split <;> exact ⟨_, rfl⟩
    obtain ⟨nm, t', hm⟩ := numberArgs_first (n := 0) (as := (fillBsm (bsmTable x.attrs) (bsmTable x.attrs).length b).arguments)
      ⟨c', n, t, List.mem_map.mpr ⟨_, h2, hc'⟩⟩
    exact ⟨_, _, nm, t', rfl, hm, rfl⟩
  exact ⟨y, hy, hu, C66_circular_partial ord hord out [] y hy ⟨0, .one hu⟩⟩

/-! ### Two classes -/

def layerHandle : MethodHandle := ⟨.invokeStatic, ⟨[0x41], [0x41], .method [] none, false⟩⟩

/-- A call site of the first of two bootstrap methods. -/
def layered (first second : List Arg) : Class := ⟨⟨0, .j8⟩, ⟨0x21⟩, [0x41], none, [], [],
  [⟨⟨1⟩, [0x41], .method [] none, [.code ⟨0, 0, [.invokeDynamic ⟨.pending 0, [0x41], .method [] none⟩, .return none], [], []⟩]⟩],
  [.bootstrapMethods [⟨layerHandle, first⟩, ⟨layerHandle, second⟩]]⟩

def madeWith (k : UInt16) : Arg := .dynamic (.pending k) [0x41] .int

set_option maxRecDepth 100000 in
/-- The second bootstrap method has an argument made with the first. -/
theorem below_read : Class.read (fun _ _ l => l) (tableFile [] [0, 11]) = .ok (layered [] [madeWith 0], []) := by
  with_unfolding_all rfl

set_option maxRecDepth 100000 in
/-- The first bootstrap method, which is the one used, has an argument made with the second. -/
theorem above_read : Class.read (fun _ _ l => l) (tableFile [0, 12] []) = .ok (layered [madeWith 1] [], []) := by
  with_unfolding_all rfl

theorem layered_regular {first second : List Arg} (h1 : ∀ a ∈ first, ∃ k, a = madeWith k) (h2 : ∀ a ∈ second, ∃ k, a = madeWith k)
    (hT : ¬ Circular [⟨layerHandle, first⟩, ⟨layerHandle, second⟩]) (hr : copySize (layered first second) < 65536) :
    RegularNested (layered first second) := by
  have hd : IsDescriptor (.method [] none) := .void (by simp)
  have hp : Printable (.method [] none) := printable_ascii hd (.void .nil) (by decide)
  have f1 : Fitting [0x41] := fits (by decide +kernel)
  have f2 : Fitting (JType.display (.method [] none)) := fits (by decide +kernel)
  have f3 : Fitting (JType.toWtf8 (.method [] none)) := fits (by decide +kernel)
  have f4 : Fitting (JType.display .int) := fits (by decide +kernel)
  have hb : ∀ {as : List Arg}, (∀ a ∈ as, ∃ k, a = madeWith k) → NestedBsm ⟨layerHandle, as⟩ ∧ AllBsm Fitting ⟨layerHandle, as⟩ := by
    intro as has
    refine ⟨⟨⟨hp, rfl⟩, fun a ha => ?_⟩, ⟨f1, f1, f2⟩, allArgs_iff.mpr fun a ha => ?_⟩
    · obtain ⟨k, rfl⟩ := has a ha
      exact .inr ⟨_, _, _, rfl, printable_int, nofun⟩
    · obtain ⟨k, rfl⟩ := has a ha
      rw [madeWith, AllArgs, AllArgs, AllCell]
      exact ⟨⟨f1, f4, trivial⟩, trivial⟩
  refine ⟨nofun, fun m hm => ?_, fun a ha => ?_, Nat.le_refl 1, hT, hr, ⟨f1, nofun, nofun, nofun, fun m hm => ?_, fun a ha => ?_, fun b hb' => ?_⟩⟩
  · cases List.mem_singleton.mp hm
    refine ⟨hd, fun a ha => ?_⟩
    cases List.mem_singleton.mp ha
    refine ⟨fun i hi => ?_, nofun, .inl (by decide)⟩
    simp only [List.mem_cons, List.not_mem_nil, or_false] at hi
    rcases hi with rfl | rfl
    · exact ⟨hp, _, _, rfl⟩
    · trivial
  · cases List.mem_singleton.mp ha
    refine ⟨nofun, fun b hb' => ?_⟩
    simp only [List.mem_cons, List.not_mem_nil, or_false] at hb'
    rcases hb' with rfl | rfl
    · exact (hb h1).1
    · exact (hb h2).1
  · cases List.mem_singleton.mp hm
    refine ⟨f1, f3, fun a ha => ?_⟩
    cases List.mem_singleton.mp ha
    refine ⟨fun i hi => ?_, nofun, nofun⟩
    simp only [List.mem_cons, List.not_mem_nil, or_false] at hi
    rcases hi with rfl | rfl
    · exact ⟨f1, f2⟩
    · trivial
  · cases List.mem_singleton.mp ha
    trivial
  · have : b = ⟨layerHandle, first⟩ ∨ b = ⟨layerHandle, second⟩ := by
      simpa [usedBsms, layered, givenBsms, classDynamics, attrDynamics, insnDynamics, ownBsm] using hb'
    rcases this with rfl | rfl
    · exact (hb h1).2
    · exact (hb h2).2

/-- A table in which only one entry uses another. -/
theorem not_circular {T : List Bsm} {i j : Nat} (hne : i ≠ j) (h : ∀ i' j', UsesEntry T i' j' → i' = i ∧ j' = j) : ¬ Circular T := by
  rintro ⟨m, hm⟩
  have : ∀ a b, Reaches T a b → a = i ∧ b = j := by
    intro a b h'
    induction h' with
    | one h' => exact h _ _ h'
    | step h' _ ih => exact ⟨(h _ _ h').1, ih.2⟩
  obtain ⟨e1, e2⟩ := this m m hm
  exact hne (e1.symm.trans e2)

theorem below_regular : RegularNested (layered [] [madeWith 0]) := by
  refine layered_regular nofun (fun a ha => ⟨0, List.mem_singleton.mp ha⟩) (not_circular (i := 1) (j := 0) (by decide) ?_) (by decide)
  rintro i j ⟨b, k, n, t, hb, ha, rfl⟩
  match i, hb with
  | 0, hb => cases hb; cases ha
  | 1, hb =>
    cases hb
    cases List.mem_singleton.mp ha
    exact ⟨rfl, rfl⟩

theorem above_regular : RegularNested (layered [madeWith 1] []) := by
  refine layered_regular (fun a ha => ⟨1, List.mem_singleton.mp ha⟩) nofun (not_circular (i := 0) (j := 1) (by decide) ?_) (by decide)
  rintro i j ⟨b, k, n, t, hb, ha, rfl⟩
  match i, hb with
  | 0, hb =>
    cases hb
    cases List.mem_singleton.mp ha
    exact ⟨rfl, rfl⟩
  | 1, hb => cases hb; cases ha

theorem layered_distinct {first second : List Arg} (h : first ≠ second) : (bsmTable (layered first second).attrs).Nodup := by
  show [Bsm.mk layerHandle first, Bsm.mk layerHandle second].Nodup
  simp [h]

/-- The first of them is copied right. -/
example : ∃ out y, (layered [] [madeWith 0]).rewrite 65538 = .ok out ∧ Class.read (fun _ _ l => l) out = .ok (y, []) ∧
    Restored (layered [] [madeWith 0]) y := by
  have hr := C66_written_partial _ (fun _ _ l => List.Perm.refl l) _ _ _ below_read below_regular.acyclic
  obtain ⟨out, hw, hl⟩ := written_of (x := completed (layered [] [madeWith 0])) (n := 154) (by decide +kernel)
  rw [hw] at hr
  obtain ⟨y, hy, _⟩ := C96_copy _ (fun _ _ l => List.Perm.refl l) _ _ out _ below_read below_regular hr (by decide +kernel) (by omega) []
  have := (C96_copy_iff _ (fun _ _ l => List.Perm.refl l) _ _ out _ below_read below_regular (layered_distinct nofun) hr
    (by decide +kernel) (by omega) [] [] y hy).mpr ⟨rfl, fun d hd k b hk hb => by
      cases List.mem_singleton.mp hd
      cases hk
      cases hb
      rfl⟩
  rw [List.append_nil] at hy
  exact ⟨out, y, hr, hy, this⟩

/-- The second is not. -/
example : ∃ out y, (layered [madeWith 1] []).rewrite 65538 = .ok out ∧ Class.read (fun _ _ l => l) out = .ok (y, []) ∧
    ¬ Restored (layered [madeWith 1] []) y := by
  have hr := C66_written_partial _ (fun _ _ l => List.Perm.refl l) _ _ _ above_read above_regular.acyclic
  obtain ⟨out, hw, hl⟩ := written_of (x := completed (layered [madeWith 1] [])) (n := 165) (by decide +kernel)
  rw [hw] at hr
  obtain ⟨y, hy, h⟩ := C96_used_lost _ (fun _ _ l => List.Perm.refl l) _ _ out _ above_read above_regular (layered_distinct nofun) hr
    (by decide +kernel) (by omega) _ 0 1 _ _ _ List.mem_cons_self rfl rfl List.mem_cons_self
  exact ⟨out, y, hr, hy, h⟩

/-- And its copy cannot be written. -/
example : ∃ out y, (layered [madeWith 1] []).rewrite 65538 = .ok out ∧ Class.read (fun _ _ l => l) out = .ok (y, []) ∧
    ∀ fuel out', y.rewrite fuel ≠ .ok out' := by
  have hr := C66_written_partial _ (fun _ _ l => List.Perm.refl l) _ _ _ above_read above_regular.acyclic
  obtain ⟨out, hw, hl⟩ := written_of (x := completed (layered [madeWith 1] [])) (n := 165) (by decide +kernel)
  rw [hw] at hr
  obtain ⟨y, hy, _, h⟩ := C96_circular _ (fun _ _ l => List.Perm.refl l) _ _ out _ above_read above_regular hr
    (by decide +kernel) (by omega) _ _ _ _ rfl List.mem_cons_self
  exact ⟨out, y, hr, hy, h⟩

/-- In the copy of the second, the argument of the first entry is made with that entry itself: a circle, where there was none. -/
example : (numberedBsms (completed (layered [madeWith 1] []))).map argEntries = [[0], [], [1], [], []] := by decide +kernel

end Verif.Props
