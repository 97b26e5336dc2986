import Verif.Props.Class
import Verif.Props.Wtf8
import Verif.Props.Input
import Verif.Spec.Rewrite
import Verif.Lemmas.Ends

/-! # Writing a class, and writing one that was read: C55, C56, C57 -/

namespace Verif.Props
open Spec

/-! ## C55 -/

/-- The constant pool of a class file (C23). -/
def FilePool (file : Bytes) (P : Pool) : Prop := ∃ m rest, MapCp.read (file.drop 8) = .ok (m, rest) ∧ P = m.get

/-- "PermittedSubclasses" -/
def permittedSubclasses : Bytes := [0x50, 0x65, 0x72, 0x6D, 0x69, 0x74, 0x74, 0x65, 0x64, 0x53, 0x75, 0x62, 0x63,
  0x6C, 0x61, 0x73, 0x73, 0x65, 0x73]

/-- Full claim, for one attribute that the library does not know (JVMS 4.7.31) and one class in it: in a class
that is read and written the attribute still names the same class. -/
def C55_full : Prop := ∀ (ord : Order) (input rest out : Bytes) (x : Class) (P P' : Pool),
  (∀ k n l, (ord k n l).Perm l) → Class.read ord input = .ok (x, rest) → (completed x).write = .ok out →
  FilePool input P → FilePool out P' → ∀ (i : UInt16) (s : Bytes),
  .raw ⟨permittedSubclasses, u16.write 1 ++ u16.write i⟩ ∈ x.attrs → IsClass P i s → IsClass P' i s

/-- A class that permits one subclass, `B`; `gap` is a constant that is not used. -/
def sealedFile : Bytes :=
  tinyFile noArgs [utf8Bytes permittedSubclasses, utf8Bytes [0x67, 0x61, 0x70], utf8Bytes [0x42], [7, 0, 7]] [0xB1] []
    [[0, 5, 0, 0, 0, 4, 0, 1, 0, 8]]

def poolOf (file : Bytes) : Pool :=
  match MapCp.read (file.drop 8) with
  | .ok (m, _) => m.get
  | .error _ => fun _ => none

def isClass (P : Pool) (i : UInt16) (s : Bytes) : Bool :=
  match P i with
  | some (.cls j) => match P j with
    | some (.utf8 t) => t == s
    | _ => false
  | _ => false

theorem isClass_iff {P : Pool} {i : UInt16} {s : Bytes} : isClass P i s = true ↔ IsClass P i s := by
  unfold isClass
  constructor
  · intro h
    split at h
    · rename_i j hj
      split at h
      · rename_i t ht
        rw [beq_iff_eq] at h
        exact ⟨j, hj, h ▸ ht⟩
      · cases h
    · cases h
  · rintro ⟨j, h1, h2⟩
    rw [h1]
    simp only
    rw [show P j = some (.utf8 s) from h2]
    simp

/-- Violated: the attribute is kept as it is, with the number of a constant in the pool that was read; in the
pool that is written this number belongs to another constant, or to none. -/
theorem C55_violated : ¬ C55_full := by
  intro h
  have hk : (match Class.read (fun _ _ l => l) sealedFile with
    | .ok (x, _) =>
      (match x.attrs with
        | [.raw a] => a.name == permittedSubclasses && a.inner == u16.write 1 ++ u16.write 8
        | _ => false) &&
      match (completed x).write with
      | .ok out => (match MapCp.read (out.drop 8) with
          | .ok (m, _) => !isClass m.get 8 [0x42]
          | .error _ => false)
      | .error _ => false
    | .error _ => false) = true := by decide +kernel
  have hp : (match MapCp.read (sealedFile.drop 8) with
    | .ok (m, _) => isClass m.get 8 [0x42]
    | .error _ => false) = true := by decide +kernel
  split at hk
  · rename_i x rest hx
    rw [Bool.and_eq_true] at hk
    obtain ⟨h1, h2⟩ := hk
    split at h2
    · rename_i out ho
      split at h2
      · rename_i m' r' hm'
        split at hp
        · rename_i m r hm
          have hmem : ClassAttr.raw ⟨permittedSubclasses, u16.write 1 ++ u16.write 8⟩ ∈ x.attrs := by
            split at h1
            · rename_i a ha
              simp only [Bool.and_eq_true, beq_iff_eq] at h1
              rw [ha, ← h1.1, ← h1.2]
              exact List.mem_singleton.mpr rfl
            · cases h1
          have := h _ _ _ _ x _ _ (fun _ _ l => List.Perm.refl l) hx ho ⟨m, r, hm, rfl⟩ ⟨m', r', hm', rfl⟩ 8 [0x42]
            hmem (isClass_iff.mp hp)
          rw [← isClass_iff] at this
          rw [this] at h2
          cases h2
        · cases hp
      · cases h2
    · cases h2
  · cases hk

/-- Proved: the bytes of unknown attributes of a class and of its fields are kept. -/
theorem C55_bytes_partial (ord : Order) (hord : ∀ k n l, (ord k n l).Perm l) (x : Class) (bs : Bytes)
    (hx : x.Writable) (hs : AllClass Fitting x) (h : x.write = .ok bs) (hl : bs.length < 2 ^ 32)
    (hr : (withTable x).Readable CodeReadable) (rest : Bytes) :
    ∃ y, Class.read ord (bs ++ rest) = .ok (y, rest) ∧
      (∀ a, .raw a ∈ y.attrs ↔ .raw a ∈ x.attrs) ∧ y.fields = x.fields := by
  obtain ⟨y, h1, h2⟩ := C47_roundtrip_partial ord hord x bs hx hs h hl hr rest
  refine ⟨y, h1, fun a => ?_, h2.fields⟩
  have h3 : .raw a ∈ (withTable x).attrs ↔ .raw a ∈ x.attrs := by
    unfold withTable
    simp only [List.mem_append, List.mem_filter]
    constructor
    · rintro (h | h)
      · exact h.1
      · split at h
        · cases h
        · cases List.mem_singleton.mp h
    · intro h
      exact .inl ⟨h, rfl⟩
  rw [← h3, ← h2.attrs, List.mem_map]
  constructor
  · intro h
    exact ⟨_, h, rfl⟩
  · rintro ⟨b, hb, he⟩
    cases b <;> cases he
    exact hb

/-! ## C56 -/

/-- Full claim: a class that is read and written has as many bootstrap methods as before. -/
def C56_full : Prop := ∀ (ord : Order) (input rest out rest' : Bytes) (x y : Class),
  (∀ k n l, (ord k n l).Perm l) → Class.read ord input = .ok (x, rest) → (completed x).write = .ok out →
  Class.read ord out = .ok (y, rest') → (bsmTable y.attrs).length = (bsmTable x.attrs).length

/-- Violated: a class with one call site and one bootstrap method gets a second one. -/
theorem C56_violated : ¬ C56_full := by
  intro h
  have hk : (match Class.read (fun _ _ l => l) (siteFile 0) with
    | .ok (x, _) => match (completed x).write with
      | .ok out => (match Class.read (fun _ _ l => l) out with
          | .ok (y, _) => (bsmTable y.attrs).length == 2 && (bsmTable x.attrs).length == 1
          | .error _ => false)
      | .error _ => false
    | .error _ => false) = true := by decide +kernel
  split at hk
  · rename_i x rest hx
    split at hk
    · rename_i out ho
      split at hk
      · rename_i y r' hy
        simp only [Bool.and_eq_true, beq_iff_eq] at hk
        have := h _ _ _ _ _ x y (fun _ _ l => List.Perm.refl l) hx ho hy
        omega
      · cases hk
    · cases hk
  · cases hk

/-- Proved: the number is that of the bootstrap methods a class has, plus one for every use, if no argument of
a bootstrap method is dynamic. So every rewriting adds as many as there are uses. -/
theorem C56_count_partial (ord : Order) (hord : ∀ k n l, (ord k n l).Perm l) (x : Class) (bs : Bytes)
    (hx : x.Writable) (hs : AllClass Fitting x) (h : x.write = .ok bs) (hl : bs.length < 2 ^ 32)
    (hr : (withTable x).Readable CodeReadable) (ha : ∀ b ∈ usedBsms x, argBsms b = [])
    (hd : ∀ d ∈ classDynamics x, ∃ h as, d.bsm = .filled h as) (rest : Bytes) :
    ∃ y, Class.read ord (bs ++ rest) = .ok (y, rest) ∧
      (bsmTable y.attrs).length = (givenBsms x.attrs).length + (classDynamics x).length := by
  obtain ⟨y, h1, h2⟩ := C47_roundtrip_partial ord hord x bs hx hs h hl hr rest
  refine ⟨y, h1, ?_⟩
  have e1 : ∀ n, rounds n ([] : List Bsm) = [] := by
    intro n
    induction n with
    | zero => rfl
    | succ n ih => exact ih
  have e2 : (usedBsms x).flatMap argBsms = [] := List.flatMap_eq_nil_iff.mpr ha
  have e3 : writtenBsms x = usedBsms x := by
    unfold writtenBsms
    rcases hu : usedBsms x with _ | ⟨b, bs⟩
    · exact e1 _
    · rw [hu] at e2
      have : bsmNodes (b :: bs) = (argNodes b.arguments + bsmNodes bs) + 1 := by
        simp only [bsmNodes, List.map_cons, List.sum_cons]
        omega
      rw [this, rounds, e2, e1, List.append_nil]
  have e4 : ((classDynamics x).flatMap ownBsm).length = (classDynamics x).length := by
    revert hd
    generalize classDynamics x = ds
    intro hd
    induction ds with
    | nil => rfl
    | cons d ds ih =>
      obtain ⟨h, as, e⟩ := hd d (by simp)
      rw [List.flatMap_cons, List.length_append, ih (fun d h => hd d (by simp [h])), ownBsm, e]
      simp only [List.length_cons, List.length_nil]
      omega
  have e5 : (bsmTable y.attrs).length = (writtenBsms x).length := by
    have h1 := bootstrapTable_resolve (writtenBsms x) y.attrs
    have h3 := bsmTable_withTable x
    rw [h2.attrs] at h1
    rw [bootstrapTable_eq, h1] at h3
    rw [bootstrapTable_eq]
    rcases hb : bootstrapTable y.attrs with _ | ms
    · rw [hb] at h3
      rw [← h3]
      rfl
    · rw [hb] at h3
      rw [← h3]
      simp
  rw [e5, e3, usedBsms, List.length_append, e4]

/-! ## C57 -/

/-- Writing a class, any class, ends: with a class file, with an error for the caller, with a panic, or (see
`C57_no_ub`) in undefined behaviour. It neither runs forever nor gives any other error. -/
theorem C57_ends (x : Class) : (∃ bs, x.write = .ok bs) ∨ x.write = .error .invalid ∨ x.write = .error .panic ∨
    x.write = .error .ub := by
  rcases h : x.write with e | bs
  · haveI : Usual fun e => e = .invalid ∨ e = .panic ∨ e = .ub := ⟨.inr (.inl rfl), .inl rfl⟩
    have := ends_class (U := fun e => e = .invalid ∨ e = .panic ∨ e = .ub) (x := x) (.inl (.inr (.inr rfl))) e h
    rcases this with rfl | rfl | rfl
    · exact .inr (.inl rfl)
    · exact .inr (.inr (.inl rfl))
    · exact .inr (.inr (.inr rfl))
  · exact .inl ⟨bs, rfl⟩

/-- If the strings of the class have code points, then there is no undefined behaviour. -/
theorem C57_no_ub (x : Class) (h : LegibleClass x) : x.write ≠ .error .ub := by
  intro hw
  haveI : Usual fun e => e ≠ .ub := ⟨(fun h => nomatch h), (fun h => nomatch h)⟩
  exact ends_class (U := fun e => e ≠ .ub) (x := x) (.inr h) .ub hw rfl

/-- The strings that the library accepts from its users have code points, also those that it should have
refused (C02). -/
theorem C57_accepted (s : Bytes) (h : Wtf8.fromBytes s = .ok s) : Legible s :=
  let ⟨cs, h, _⟩ := (C02_fromBytes_partial s).mp h
  ⟨cs, h⟩

/-- Without that there is: a name that breaks off within a character. -/
theorem C57_ub_witness : ∃ x : Class, x.methods = [] ∧ x.attrs = [] ∧ ¬ Legible x.name ∧ x.write = .error .ub := by
  refine ⟨⟨⟨0, .j8⟩, ⟨0x21⟩, [0x41, 0xE2, 0x82], none, [], [], [], []⟩, rfl, rfl, ?_, ?_⟩
  · rintro ⟨cs, h⟩
    have h1 := Wtf8.codepoints_loose h
    have h2 : Wtf8.codepoints [0x41, 0xE2, 0x82] = none := by decide +kernel
    rw [h2] at h1
    cases h1
  · have h : (match Class.write ⟨⟨0, .j8⟩, ⟨0x21⟩, [0x41, 0xE2, 0x82], none, [], [], [], []⟩ with
        | .error .ub => true | _ => false) = true := by decide +kernel
    split at h
    · assumption
    · cases h

/-! ## Cases -/

/-- `sampleClass` has one bootstrap method and one call site; the class that is read has two, and after the next
rewriting three. -/
example : sampleClass.Writable ∧ AllClass Fitting sampleClass ∧ (withTable sampleClass).Readable CodeReadable ∧
    (∀ b ∈ usedBsms sampleClass, argBsms b = []) ∧ (∀ d ∈ classDynamics sampleClass, ∃ h as, d.bsm = .filled h as) ∧
    (givenBsms sampleClass.attrs).length = 1 ∧ (classDynamics sampleClass).length = 1 := by
  refine ⟨sampleClass_writable, sampleClass_fits, sampleClass_readable, ?_, ?_, rfl, rfl⟩
  · intro b hb
    rw [sampleClass_used] at hb
    simp only [List.mem_cons, List.not_mem_nil, or_false] at hb
    rcases hb with rfl | rfl <;> rfl
  · intro d hd
    rw [show classDynamics sampleClass = [sampleSite] from rfl] at hd
    rw [List.mem_singleton.mp hd]
    exact ⟨_, _, rfl⟩

/-- A legible class with a lone high surrogate in its name, a call site, a bootstrap table and a debug
extension: it is written. -/
def oddClass : Class := ⟨⟨0, .j8⟩, ⟨0x21⟩, [0x41, 0xED, 0xA0, 0x80], some [0x42], [], [], [sampleCaller],
  [.bootstrapMethods [⟨sampleHandle, [.static (.i32 8)]⟩], .debugExtension [0x78, 0xED, 0xA0, 0x81]]⟩

theorem oddClass_legible : LegibleClass oddClass := by
  have hf : ∀ {n : Bytes}, (n.all (fun b => 0 < b && b < 128) && decide (n.length < 65536)) = true → Legible n :=
    fun h => legible_fitting (fits h)
  have hh : AllMember Legible sampleHandle.member :=
    ⟨hf (by decide +kernel), hf (by decide +kernel), hf (by decide +kernel)⟩
  refine ⟨⟨?_, ?_, (fun s hs => nomatch hs), (fun s hs => nomatch hs), ?_, ?_, ?_⟩, ?_⟩
  · exact C57_accepted _ (by decide +kernel)
  · intro s hs
    cases hs
    exact hf (by decide +kernel)
  · intro m hm
    rw [show m = _ from List.mem_singleton.mp hm]
    refine ⟨hf (by decide +kernel), hf (by decide +kernel), fun a ha => ?_⟩
    rw [List.mem_singleton.mp ha]
    refine ⟨fun i hi => ?_, by simp, by simp⟩
    simp only [List.mem_cons, List.not_mem_nil, or_false] at hi
    rcases hi with rfl | rfl
    · exact ⟨hf (by decide +kernel), hf (by decide +kernel)⟩
    · trivial
  · intro a ha
    simp only [oddClass, List.mem_cons, List.not_mem_nil, or_false] at ha
    rcases ha with rfl | rfl <;> trivial
  · intro b hb
    have : b = ⟨sampleHandle, [.static (.i32 8)]⟩ ∨ b = ⟨sampleHandle, [.static (.i32 7)]⟩ := by
      have hu : usedBsms oddClass = [⟨sampleHandle, [.static (.i32 8)]⟩, ⟨sampleHandle, [.static (.i32 7)]⟩] := rfl
      rw [hu] at hb
      simpa using hb
    rcases this with rfl | rfl <;> exact ⟨hh, by rw [AllArgs, AllArgs]; exact ⟨trivial, trivial⟩⟩
  · intro s hs
    simp only [oddClass, List.mem_cons, List.not_mem_nil, or_false, reduceCtorEq, false_or,
      ClassAttr.debugExtension.injEq] at hs
    rw [hs]
    exact C57_accepted _ (by decide +kernel)

example : LegibleClass oddClass ∧ (∃ bs, oddClass.write = .ok bs) ∧ oddClass.write ≠ .error .ub := by
  refine ⟨oddClass_legible, ?_, C57_no_ub _ oddClass_legible⟩
  have h : (match oddClass.write with | .ok _ => true | .error _ => false) = true := by decide +kernel
  rcases e : oddClass.write with e' | bs <;> rw [e] at h
  · cases h
  · exact ⟨bs, rfl⟩

/-- The other ends occur: a body that jumps to a label that is not there is refused, a call site that was never
resolved panics. -/
def jumpClass : Class := smallClass [⟨⟨1⟩, [0x6D], .method [] none, [.code ⟨0, 0, [.jump .always 5], [], []⟩]⟩] []

def siteClass : Class := smallClass [⟨⟨1⟩, [0x6D], .method [] none,
  [.code ⟨0, 0, [.invokeDynamic ⟨.pending 0, [0x66], .method [] none⟩], [], []⟩]⟩] []

example : jumpClass.write = .error .invalid := by
  have h : (match jumpClass.write with | .error .invalid => true | _ => false) = true := by decide +kernel
  split at h
  · assumption
  · cases h

example : siteClass.write = .error .panic := by
  have h : (match siteClass.write with | .error .panic => true | _ => false) = true := by decide +kernel
  split at h
  · assumption
  · cases h

end Verif.Props
