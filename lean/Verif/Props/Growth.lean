import Verif.Props.Storable
import Verif.Lemmas.Growth

/-! # The size of the bootstrap table of a copy: C83 -/

namespace Verif.Props
open Spec

/-! ## C83 -/

/-- Full claim: a class that is read and written gets at most one bootstrap method for every use of one, by an
instruction or by an argument, in addition to those it has. -/
def C83_full : Prop := ∀ (ord : Order) (input rest out rest' : Bytes) (x y : Class),
  (∀ k n l, (ord k n l).Perm l) → Class.read ord input = .ok (x, rest) → x.rewrite 65538 = .ok out →
  Class.read ord out = .ok (y, rest') → (bsmTable y.attrs).length ≤ usesSize x

/-- A class with a call site and `n` bootstrap methods. The call site uses the first; each but the last has two equal
arguments, the dynamic constant that is made with the next. -/
def chainFile (n : Nat) : Bytes :=
  let table := [0, UInt8.ofNat n] ++ (List.range n).flatMap fun k =>
    if k + 1 < n then [0, 8, 0, 2, 0, UInt8.ofNat (12 + k), 0, UInt8.ofNat (12 + k)] else [0, 8, 0, 0]
  tinyFile noArgs ([[12, 0, 1, 0, 4], utf8Bytes N.bootstrapMethods, [10, 0, 2, 0, 5], [15, 6, 0, 7], utf8Bytes [0x49],
      [12, 0, 1, 0, 9]] ++ (List.range n).map (fun k => [17, 0, UInt8.ofNat k, 0, 10]) ++ [[18, 0, 0, 0, 5]])
    [0xBA, 0, UInt8.ofNat (11 + n), 0, 0, 0xB1] [] [[0, 6] ++ u32.write (UInt32.ofNat table.length) ++ table]

/-- What the table of such a class looks like. -/
def chainEntries (n : Nat) : List (List Nat) := (List.range n).map fun k => if k + 1 < n then [k + 1, k + 1] else []

theorem chain_entry {T : List Bsm} {n i : Nat} (h : T.map argEntries = chainEntries n) (hi : i < n) :
    ∃ b, T[i]? = some b ∧ argEntries b = if i + 1 < n then [i + 1, i + 1] else [] := by
  have e : (T.map argEntries)[i]? = some (if i + 1 < n then [i + 1, i + 1] else []) := by
    rw [h, chainEntries, List.getElem?_map, List.getElem?_range hi]
    rfl
  rw [List.getElem?_map] at e
  exact Option.map_eq_some_iff.mp e

theorem chain_length {T : List Bsm} {n : Nat} (h : T.map argEntries = chainEntries n) : T.length = n := by
  have := congrArg List.length h
  rwa [List.length_map, chainEntries, List.length_map, List.length_range] at this

theorem chain_acyclic {T : List Bsm} {n : Nat} (h : T.map argEntries = chainEntries n) : ¬ Circular T := by
  have hu : ∀ i j, UsesEntry T i j → i < j := by
    rintro i j ⟨b, k, nm, t, hb, ha, rfl⟩
    have hi := (List.getElem?_eq_some_iff.mp hb).1
    rw [chain_length h] at hi
    obtain ⟨b', hb', e⟩ := chain_entry h hi
    rw [hb] at hb'
    cases hb'
    have hk : k.toNat ∈ argEntries b := List.mem_filterMap.mpr ⟨_, ha, rfl⟩
    rw [e] at hk
    split at hk
    · simp at hk
      omega
    · cases hk
  have hr : ∀ i j, Reaches T i j → i < j := by
    intro i j h
    induction h with
    | one h => exact hu _ _ h
    | step h _ ih => exact Nat.lt_trans (hu _ _ h) ih
  rintro ⟨i, hi⟩
  exact Nat.lt_irrefl i (hr i i hi)

theorem chain_doubles {T : List Bsm} {n : Nat} (h : T.map argEntries = chainEntries n) :
    ∀ m i, i + m < n → Doubles T m i
  | 0, i, hi => by
    show i < T.length
    rw [chain_length h]
    exact hi
  | m + 1, i, hi => by
    obtain ⟨b, hb, e⟩ := chain_entry h (show i < n by omega)
    rw [if_pos (by omega)] at e
    exact ⟨b, i + 1, hb, by rw [e]; simp, chain_doubles h m (i + 1) (by omega)⟩

/-- Violated: with three bootstrap methods there may be eight, and there are eighteen. -/
theorem C83_violated : ¬ C83_full := by
  intro h
  have hk : (match Class.read (fun _ _ l => l) (chainFile 3) with
    | .ok (x, _) => usesSize x == 8 && (bsmTable x.attrs).map argEntries == chainEntries 3 &&
      match (completed x).write with
      | .ok out => (match Class.read (fun _ _ l => l) out with
          | .ok (y, _) => (bsmTable y.attrs).length == 18
          | .error _ => false)
      | .error _ => false
    | .error _ => false) = true := by decide +kernel
  split at hk
  · rename_i x rest hx
    rw [Bool.and_eq_true, Bool.and_eq_true, beq_iff_eq, beq_iff_eq] at hk
    obtain ⟨⟨h1, h2⟩, hk⟩ := hk
    have hT := chain_acyclic (n := 3) h2
    split at hk
    · rename_i out ho
      split at hk
      · rename_i y rest' hy
        rw [beq_iff_eq] at hk
        have := h _ _ _ _ _ x y (fun _ _ l => List.Perm.refl l) hx
          ((C66_iff_partial _ (fun _ _ l => List.Perm.refl l) _ _ _ _ hx).mpr ⟨hT, ho⟩) hy
        rw [hk, h1] at this
        omega
      · cases hk
    · cases hk
  · cases hk

/-- Proved, for every class with strings that fit: the file that is written says how many bootstrap methods it has,
and this is the number of those that the class has and uses, and that these use, and so on. -/
theorem C83_count_partial (x : Class) (bs : Bytes) (hs : AllClass Fitting x) (hi : x.interfaces.length < 65536)
    (hf : x.fields.length < 65536) (hm : x.methods.length < 65536) (hn : usedBsms x ≠ [])
    (hu : (usedBsms x).length < 65536) (h : x.write = .ok bs) (hl : bs.length < 2 ^ 32) :
    TableCount (x.attrs.filter fun a => !isBootstrap a).length bs (writtenBsms x).length := by
  rw [writtenBsms, rounds_count]
  exact table_count hs hi hf hm hn hu h hl

/-- Proved: for a class that was read, this number is what is had by counting, for every use of an entry, all that
belongs to it. -/
theorem C83_copy_partial (ord : Order) (hord : ∀ k n l, (ord k n l).Perm l) (input rest out : Bytes) (x : Class)
    (h : Class.read ord input = .ok (x, rest)) (hin : input.length < 2 ^ 31) (hs : AllClass Fitting (completed x))
    (hn : givenBsms x.attrs ≠ []) (hu : (givenBsms x.attrs).length + (classDynamics x).length < 65536)
    (hw : x.rewrite 65538 = .ok out) (hl : out.length < 2 ^ 32) :
    TableCount (x.attrs.filter fun a => !isBootstrap a).length out (copySize x) := by
  have hx := read_shared (fun k n l v hv => (hord k n l).mem_iff.mp hv) h
  have hg := read_good hord h hin
  obtain ⟨hT, e⟩ := (C66_iff_partial ord hord input rest out x h).mp hw
  have h1 := C83_count_partial (completed x) out hs hg.interfaces hg.fields.1 (by
    rw [completed_methods, List.length_map]
    exact hg.methods.1) (by
    rw [usedBsms, completed_given]
    intro e
    exact hn (List.map_eq_nil_iff.mp (List.append_eq_nil_iff.mp e).1)) (by
    rw [usedBsms, List.length_append, completed_given, List.length_map, completed_dynamics]
    have : (((classDynamics x).map (Dynamic.look (fullTable x))).flatMap ownBsm).length ≤ (classDynamics x).length := by
      generalize classDynamics x = ds
      induction ds with
      | nil => exact Nat.le_refl _
      | cons d ds ih =>
        rw [List.map_cons, List.flatMap_cons, List.length_append, List.length_cons]
        have := own_length (d.look (fullTable x))
        omega
    omega) e hl
  rw [writtenBsms, rounds_count, completed_size hx] at h1
  have ha : ((completed x).attrs.filter fun a => !isBootstrap a).length = (x.attrs.filter fun a => !isBootstrap a).length := by
    show ((x.attrs.map _).filter _).length = _
    rw [List.filter_map, List.length_map]
    refine congrArg (fun p => (x.attrs.filter p).length) (funext fun a => ?_)
    cases a <;> rfl
  rwa [ha] at h1

/-- Proved: if a class that was read can be written, then with nothing shared no entry of its table stands for more than
65536 entries. -/
theorem C83_limit_partial (ord : Order) (hord : ∀ k n l, (ord k n l).Perm l) (input rest out : Bytes) (x : Class)
    (h : Class.read ord input = .ok (x, rest)) (hw : x.rewrite 65538 = .ok out) (i : Nat) :
    entrySize (bsmTable x.attrs) ((bsmTable x.attrs).length + 1) i ≤ 65536 := by
  have hx := read_shared (fun k n l v hv => (hord k n l).mem_iff.mp hv) h
  obtain ⟨hT, e⟩ := (C66_iff_partial ord hord input rest out x h).mp hw
  exact entry_limit hx (completed_legible hx) e i

/-- Proved: where each of `m` entries is used twice by the one before, the last is written `2 ^ m` times: the entry at
the start stands for at least `2 ^ (m + 1) - 1` entries. -/
theorem C83_doubles_partial (T : List Bsm) (hT : ¬ Circular T) (m i : Nat) (h : Doubles T m i) :
    2 ^ (m + 1) - 1 ≤ entrySize T (T.length + 1) i := by
  have := doubles_size m (T.length + 1) i h (by have := doubles_short hT h; omega)
  omega

/-- So a class with seventeen such entries can be read, but not written. -/
theorem C83_unwritable_partial (ord : Order) (hord : ∀ k n l, (ord k n l).Perm l) (input rest : Bytes) (x : Class)
    (h : Class.read ord input = .ok (x, rest)) (m i : Nat) (hm : 16 ≤ m) (hd : Doubles (bsmTable x.attrs) m i)
    (out : Bytes) : x.rewrite 65538 ≠ .ok out := by
  intro e
  have hT := ((C66_iff_partial ord hord input rest out x h).mp e).1
  have h1 := C83_limit_partial ord hord input rest out x h e i
  have h2 := C83_doubles_partial _ hT m i hd
  have h3 : 2 ^ 17 ≤ 2 ^ (m + 1) := Nat.pow_le_pow_right (by decide) (by omega)
  omega

/-- A class file of less than 500 bytes that is read, and that has no circular table, but cannot be written. -/
theorem C68_violated_doubling : (chainFile 17).length < 500 ∧
    ∃ x, Class.read (fun _ _ l => l) (chainFile 17) = .ok (x, []) ∧ ¬ Circular (bsmTable x.attrs) ∧
      Doubles (bsmTable x.attrs) 16 0 ∧ ∀ out, x.rewrite 65538 ≠ .ok out := by
  refine ⟨by decide +kernel, ?_⟩
  have hk : (match Class.read (fun _ _ l => l) (chainFile 17) with
    | .ok (x, rest) => rest.isEmpty && (bsmTable x.attrs).map argEntries == chainEntries 17
    | .error _ => false) = true := by decide +kernel
  split at hk
  · rename_i x rest hx
    rw [Bool.and_eq_true, beq_iff_eq, List.isEmpty_iff] at hk
    obtain ⟨rfl, h2⟩ := hk
    have hd := chain_doubles h2 16 0 (by decide)
    exact ⟨x, hx, chain_acyclic h2, hd,
      C83_unwritable_partial _ (fun _ _ l => List.Perm.refl l) _ _ x hx 16 0 (by decide) hd⟩
  · cases hk

/-- Proved: the claim holds, with equality, for a class that was read in which the entries that are used have no dynamic
arguments themselves. -/
theorem C83_flat_partial (x : Class) (hT : ∀ k ∈ (givenBsms x.attrs).flatMap argEntries ++ (classDynamics x).flatMap dynEntry,
      ∃ b, (bsmTable x.attrs)[k]? = some b ∧ argEntries b = [])
    (hd : ∀ d ∈ classDynamics x, ∃ k, d.bsm = .pending k) : copySize x = usesSize x := by
  have key : ∀ (d : Nat) (ks : List Nat), (∀ k ∈ ks, ∃ b, (bsmTable x.attrs)[k]? = some b ∧ argEntries b = []) →
      (ks.map (entrySize (bsmTable x.attrs) (d + 1))).sum = ks.length := by
    intro d ks
    induction ks with
    | nil => exact fun _ => rfl
    | cons k ks ih =>
      intro h
      obtain ⟨b, hb, e⟩ := h k (.head _)
      rw [List.map_cons, List.sum_cons, ih fun k hk => h k (.tail _ hk), entrySize, hb, List.length_cons]
      simp only [e, List.map_nil, List.sum_nil]
      omega
  have h1 := key (bsmTable x.attrs).length _ fun k hk => hT k (List.mem_append_right _ hk)
  have h2 : (((givenBsms x.attrs).flatMap argEntries).map
      (entrySize (bsmTable x.attrs) (bsmTable x.attrs).length)).sum = ((givenBsms x.attrs).flatMap argEntries).length := by
    rcases he : (givenBsms x.attrs).flatMap argEntries with _ | ⟨k, ks⟩
    · rfl
    · rw [he] at hT
      obtain ⟨b, hb, -⟩ := hT k (.head _)
      obtain ⟨n, hn⟩ : ∃ n, (bsmTable x.attrs).length = n + 1 :=
        ⟨(bsmTable x.attrs).length - 1, by have := (List.getElem?_eq_some_iff.mp hb).1; omega⟩
      rw [hn]
      exact key n _ fun k hk => hT k (List.mem_append_left _ hk)
  have h3 : ((classDynamics x).flatMap dynEntry).length = (classDynamics x).length := by
    revert hd
    generalize classDynamics x = ds
    intro hd
    induction ds with
    | nil => rfl
    | cons d ds ih =>
      obtain ⟨k, e⟩ := hd d (.head _)
      rw [List.flatMap_cons, List.length_append, ih fun d hd' => hd d (.tail _ hd'), dynEntry, e, List.length_cons]
      simp only [List.length_cons, List.length_nil]
      omega
  rw [copySize, usesSize, h1, h2, h3]

/-! ### Classes to which this applies -/

/-- A call site with a bootstrap method that has an argument made with another. -/
def nestedSite : Class := ⟨⟨0, .j8⟩, ⟨0x21⟩, [0x41], none, [], [],
  [⟨⟨1⟩, [0x41], .method [] none, [.code ⟨0, 0, [.invokeDynamic ⟨.pending 0, [0x41], .method [] none⟩, .return none], [], []⟩]⟩],
  [.bootstrapMethods [⟨⟨.invokeStatic, ⟨[0x41], [0x41], .method [] none, false⟩⟩, [.dynamic (.pending 1) [0x41] .int]⟩,
    ⟨⟨.invokeStatic, ⟨[0x41], [0x41], .method [] none, false⟩⟩, []⟩]]⟩

set_option maxRecDepth 100000 in
theorem nestedSite_read : Class.read (fun _ _ l => l) (tableFile [0, 12] []) = .ok (nestedSite, []) := by
  with_unfolding_all rfl

theorem nestedSite_fits : AllClass Fitting (completed nestedSite) := by
  have f1 : Fitting [0x41] := fits (by decide +kernel)
  have f2 : Fitting (JType.display (.method [] none)) := fits (by decide +kernel)
  have f3 : Fitting (JType.toWtf8 (.method [] none)) := fits (by decide +kernel)
  have f4 : Fitting (JType.toWtf8 .int) := fits (by decide +kernel)
  have g1 : AllBsm Fitting ⟨⟨.invokeStatic, ⟨[0x41], [0x41], .method [] none, false⟩⟩, []⟩ := by
    refine ⟨⟨f1, f1, f2⟩, ?_⟩
    rw [AllArgs]
    trivial
  have g2 : AllBsm Fitting ⟨⟨.invokeStatic, ⟨[0x41], [0x41], .method [] none, false⟩⟩,
      [.dynamic (.filled ⟨.invokeStatic, ⟨[0x41], [0x41], .method [] none, false⟩⟩ []) [0x41] .int]⟩ := by
    refine ⟨⟨f1, f1, f2⟩, ?_⟩
    rw [AllArgs, AllArgs, AllCell]
    exact ⟨⟨f1, f4, ⟨f1, f1, f2⟩, g1.2⟩, trivial⟩
  have hu : usedBsms (completed nestedSite) = [⟨⟨.invokeStatic, ⟨[0x41], [0x41], .method [] none, false⟩⟩,
      [.dynamic (.filled ⟨.invokeStatic, ⟨[0x41], [0x41], .method [] none, false⟩⟩ []) [0x41] .int]⟩,
      ⟨⟨.invokeStatic, ⟨[0x41], [0x41], .method [] none, false⟩⟩, []⟩, ⟨⟨.invokeStatic, ⟨[0x41], [0x41], .method [] none, false⟩⟩,
      [.dynamic (.filled ⟨.invokeStatic, ⟨[0x41], [0x41], .method [] none, false⟩⟩ []) [0x41] .int]⟩] := rfl
  refine ⟨f1, nofun, nofun, nofun, fun m hm => ?_, fun a ha => ?_, fun b hb => ?_⟩
  · rw [show m = _ from List.mem_singleton.mp hm]
    refine ⟨f1, f3, fun a ha => ?_⟩
    rw [show a = _ from List.mem_singleton.mp ha]
    refine ⟨fun i hi => ?_, nofun, nofun⟩
    have hi : i ∈ [_, _] := hi
    simp only [List.mem_cons, List.not_mem_nil, or_false] at hi
    rcases hi with rfl | rfl
    · exact ⟨f1, f2⟩
    · trivial
  · rw [show a = _ from List.mem_singleton.mp ha]
    trivial
  · rw [hu] at hb
    simp only [List.mem_cons, List.not_mem_nil, or_false] at hb
    rcases hb with rfl | rfl | rfl
    · exact g2
    · exact g1
    · exact g2

example : ∃ out, nestedSite.rewrite 65538 = .ok out ∧ TableCount 0 out 5 := by
  obtain ⟨out, hw, hl⟩ := written_of (x := completed nestedSite) (n := 165) (by decide +kernel)
  have hT : ¬ Circular (bsmTable nestedSite.attrs) := by
    have hu : ∀ i j, Reaches (bsmTable nestedSite.attrs) i j → i = 0 ∧ j = 1 := by
      have h1 : ∀ i j, UsesEntry (bsmTable nestedSite.attrs) i j → i = 0 ∧ j = 1 := by
        rintro i j ⟨b, k, n, t, hb, ha, rfl⟩
        match i, hb with
        | 0, hb =>
          cases hb
          cases List.mem_singleton.mp ha
          exact ⟨rfl, rfl⟩
        | 1, hb =>
          cases hb
          cases ha
      intro i j h
      induction h with
      | one h => exact h1 _ _ h
      | step h _ ih => exact ⟨(h1 _ _ h).1, ih.2⟩
    rintro ⟨i, hi⟩
    have := hu i i hi
    omega
  have e := (C66_iff_partial _ (fun _ _ l => List.Perm.refl l) _ _ out _ nestedSite_read).mpr ⟨hT, hw⟩
  exact ⟨out, e, C83_copy_partial _ (fun _ _ l => List.Perm.refl l) _ _ _ _ nestedSite_read (by decide +kernel)
    nestedSite_fits (by decide) (by decide) e (by omega)⟩

example : copySize callSite = 3 ∧ usesSize callSite = 3 := by
  have := C83_flat_partial callSite (by
    intro k hk
    have : k = 0 := List.mem_singleton.mp hk
    subst this
    exact ⟨_, rfl, rfl⟩) (by
    intro d hd
    rw [show d = _ from List.mem_singleton.mp hd]
    exact ⟨0, rfl⟩)
  exact ⟨by rw [this]; rfl, rfl⟩

end Verif.Props
