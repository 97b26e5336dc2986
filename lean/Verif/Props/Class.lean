import Verif.Props.Attr
import Verif.Props.Code
import Verif.Lemmas.Skeleton

/-! # Methods and classes: C45, C46, C47, C53 -/

namespace Verif.Props
open Spec

/-! ## C53 -/

/-- Reading a method, whoever wrote it, gives what the layout says, with the body of C52. -/
theorem C53_read (ord : Order) (hord : ∀ k n l, (ord k n l).Perm l) (c : Ctx) (hT : c.bsm.length ≤ 65536)
    (m : MethodOf PlacedBody) (bs : Bytes) (h : method placedBody c m bs) (hm : m.Readable fun _ => True)
    (cs : Option (List Catch)) (st : RSt) (rest : Bytes) :
    ∃ y q, Method.read ord ⟨c.pool, cs⟩ st (bs ++ rest) = .ok (y, ⟨q, st.labels⟩, rest) ∧
      Grown c.bsm st.pending q ∧ SameMethod (Reproduces c.bsm) m y :=
  reads_method (reads_placed c hT cs) ord hord h hm st rest

/-- Proved: what is written for a method has the layout of a method with these contents; for bodies of the sizes
of C37. -/
theorem C53_write_partial (m : Method) (hm : m.Writable fun b => CodeWritable b ∧ Compact b.code)
    (cp cp' : VecCp) (bs : Bytes) (h0 : Steps VecCp.new cp) (h : m.write cp = .ok (bs, cp')) (hl : bs.length < 2 ^ 32)
    (W : World) (hW : W.Fits cp') : method codeFile (WEnv.outside.ctx W) m bs :=
  (writes_method WEnv.outside hm cp bs cp' (steps_ok h0 VecCp.inv_new).1 h).2 W hW hl

/-- Proved: a method that was written is read as itself, up to names of labels; for bodies of the sizes of C37. -/
theorem C53_roundtrip_partial (ord : Order) (hord : ∀ k n l, (ord k n l).Perm l) (m : Method)
    (hm : m.Writable fun b => CodeWritable b ∧ Compact b.code) (hr : m.Readable CodeReadable)
    (cp cp' : VecCp) (bs : Bytes) (h0 : Steps VecCp.new cp) (h : m.write cp = .ok (bs, cp')) (hl : bs.length < 2 ^ 32)
    (W : World) (hW : W.Fits cp') (hT : W.bsm.length ≤ 65536) (cs : Option (List Catch)) (st : RSt) (rest : Bytes) :
    ∃ y q, Method.read ord ⟨W.pool, cs⟩ st (bs ++ rest) = .ok (y, ⟨q, st.labels⟩, rest) ∧
      Grown W.bsm st.pending q ∧ SameMethod (fun x y => ∃ ρ, SameBody W.bsm x y ρ) m y :=
  reads_method (c := WEnv.outside.ctx W) (reads_codeFile _ hT cs) ord hord
    (C53_write_partial m hm cp cp' bs h0 h hl W hW) hr st rest

/-! ## C45 -/

/-- Full claim: the counts and lengths in a class file that is written are right, so that its last attribute
ends with the file. -/
def C45_full : Prop := ∀ (x : Class) (bs : Bytes), AllClass Fitting x → x.write = .ok bs → bs.length < 2 ^ 32 →
  Delimited bs

/-- Proved: with fewer than 65536 interfaces, fields and methods this is so exactly if the number of
attributes of the class, cut to 16 bits, is the number of those that are written: those that are not
`BootstrapMethods`, and one more if there is any bootstrap method. -/
theorem C45_exact_partial (x : Class) (bs : Bytes) (hs : AllClass Fitting x) (h : x.write = .ok bs)
    (hl : bs.length < 2 ^ 32) (hi : x.interfaces.length < 65536) (hf : x.fields.length < 65536)
    (hm : x.methods.length < 65536) :
    Delimited bs ↔ x.attrs.length % 65536 =
      (x.attrs.filter fun a => !isBootstrap a).length + if (usedBsms x).isEmpty then 0 else 1 :=
  delimited_iff hs hi hf hm h hl

/-! ## C47 -/

/-- Reading a class file, whoever wrote it, gives what the layout says. -/
theorem C47_read (ord : Order) (hord : ∀ k n l, (ord k n l).Perm l) (x : ClassOf PlacedBody) (bs : Bytes)
    (h : classFile placedBody x bs) (hx : x.Readable fun _ => True) (rest : Bytes) :
    ∃ y, Class.read ord (bs ++ rest) = .ok (y, rest) ∧
      SameClass (bsmTable x.attrs) (Reproduces (bsmTable x.attrs)) x y :=
  class_read (R := Reproduces) (fun c hT => reads_placed c hT none) ord hord h hx rest

/-- Full claim: a class that was written is read as itself, with its bootstrap methods in one table. -/
def C47_full : Prop := ∀ (ord : Order) (_ : ∀ k n l, (ord k n l).Perm l) (x : Class) (bs : Bytes),
  AllClass Fitting x → x.write = .ok bs → bs.length < 2 ^ 32 → (withTable x).Readable CodeReadable →
  ∃ y, Class.read ord bs = .ok (y, []) ∧
    SameClass (writtenBsms x) (fun b b' => ∃ ρ, SameBody (writtenBsms x) b b' ρ) (withTable x) y

/-- Proved: what is written for a class is a class file with these contents. -/
theorem C47_write_partial (x : Class) (bs : Bytes) (hx : x.Writable) (hs : AllClass Fitting x)
    (h : x.write = .ok bs) (hl : bs.length < 2 ^ 32) : classFile codeFile (withTable x) bs :=
  class_write hx hs h hl

/-- Proved: it is read as itself. -/
theorem C47_roundtrip_partial (ord : Order) (hord : ∀ k n l, (ord k n l).Perm l) (x : Class) (bs : Bytes)
    (hx : x.Writable) (hs : AllClass Fitting x) (h : x.write = .ok bs) (hl : bs.length < 2 ^ 32)
    (hr : (withTable x).Readable CodeReadable) (rest : Bytes) :
    ∃ y, Class.read ord (bs ++ rest) = .ok (y, rest) ∧
      SameClass (writtenBsms x) (fun b b' => ∃ ρ, SameBody (writtenBsms x) b b' ρ) (withTable x) y := by
  have := class_read (R := fun T x y => ∃ ρ, SameBody T x y ρ) (fun c hT => reads_codeFile c hT none) ord hord
    (class_write hx hs h hl) hr rest
  rwa [bsmTable_withTable] at this

/-! ## C46 -/

/-- Full claim: if an argument of a bootstrap method of a class is dynamic itself, then after writing and
reading the argument refers to the table entry that is its own bootstrap method. -/
def C46_full : Prop := ∀ (ord : Order) (_ : ∀ k n l, (ord k n l).Perm l) (x : Class) (bs rest : Bytes) (y : Class),
  x.write = .ok bs → Class.read ord bs = .ok (y, rest) →
  ∀ (n k : Nat) (b : Bsm) (h : MethodHandle) (as : List Arg) (nm : Bytes) (t : JType),
    (usedBsms x)[n]? = some b → b.arguments[k]? = some (.dynamic (.filled h as) nm t) →
    ∃ (b' : Bsm) (a : Arg) (as' : List Arg), (bsmTable y.attrs)[n]? = some b' ∧ b'.arguments[k]? = some a ∧
      resolveArg (bsmTable y.attrs) a = .dynamic (.filled h as') nm t

/-- Proved: so it is for the classes of C47, where the bootstrap methods of arguments come first. -/
theorem C46_nested_partial (ord : Order) (hord : ∀ k n l, (ord k n l).Perm l) (x : Class) (bs : Bytes)
    (hx : x.Writable) (hs : AllClass Fitting x) (h : x.write = .ok bs) (hl : bs.length < 2 ^ 32)
    (hr : (withTable x).Readable CodeReadable) (rest rest' : Bytes) (y : Class)
    (hy : Class.read ord (bs ++ rest) = .ok (y, rest')) (n k : Nat) (b : Bsm) (hd : MethodHandle) (as : List Arg)
    (nm : Bytes) (t : JType) (hb : (usedBsms x)[n]? = some b)
    (ha : b.arguments[k]? = some (.dynamic (.filled hd as) nm t)) :
    ∃ (b' : Bsm) (a : Arg) (as' : List Arg), (bsmTable y.attrs)[n]? = some b' ∧ b'.arguments[k]? = some a ∧
      resolveArg (bsmTable y.attrs) a = .dynamic (.filled hd as') nm t := by
  obtain ⟨y', hy', hsame⟩ := C47_roundtrip_partial ord hord x bs hx hs h hl hr rest
  rw [hy] at hy'
  cases hy'
  have hT : (bsmTable y.attrs).map (resolveBsm (writtenBsms x)) = writtenBsms x := by
    have h1 := bootstrapTable_resolve (writtenBsms x) y.attrs
    have h2 := bsmTable_withTable x
    rw [hsame.attrs] at h1
    rw [bootstrapTable_eq, h1] at h2
    rw [bootstrapTable_eq]
    rcases hb : bootstrapTable y.attrs with _ | ms
    · rw [hb] at h2
      rw [← h2]
      rfl
    · rw [hb] at h2
      exact h2
  have hn : (writtenBsms x)[n]? = some b := by
    obtain ⟨t, ht⟩ := used_prefix x
    rw [← ht, List.getElem?_append_left (List.getElem?_eq_some_iff.mp hb).1]
    exact hb
  generalize writtenBsms x = T at hT hn
  have hn' := hn
  rw [← hT, List.getElem?_map] at hn'
  rcases e1 : (bsmTable y.attrs)[n]? with _ | b'
  · rw [e1] at hn'
    cases hn'
  rw [e1] at hn'
  cases hn'
  rw [show (resolveBsm T b').arguments = b'.arguments.map (resolveArg T) from rfl, List.getElem?_map] at ha
  rcases e2 : b'.arguments[k]? with _ | a
  · rw [e2] at ha
    cases ha
  rw [e2] at ha
  have ha : resolveArg T a = .dynamic (.filled hd as) nm t := by simpa using ha
  refine ⟨b', a, ?_⟩
  rcases a with ⟨c, n', t'⟩ | c
  · rcases c with i | ⟨h', as'⟩
    · rw [resolveArg] at ha
      rw [resolveArg]
      have h3 : (T[i.toNat]?) = ((bsmTable y.attrs)[i.toNat]?).map (resolveBsm T) := by
        rw [← List.getElem?_map, hT]
      rcases e3 : (bsmTable y.attrs)[i.toNat]? with _ | c'
      · rw [h3, e3] at ha
        cases ha
      · rw [h3, e3] at ha
        cases ha
        exact ⟨c'.arguments, rfl, e2, rfl⟩
    · cases ha
      exact ⟨as, rfl, e2, rfl⟩
  · cases ha

/-! ## Cases -/

/-- A call site with the bootstrap method `sampleHandle`. -/
def sampleSite : Dynamic := ⟨.filled sampleHandle [.static (.i32 7)], [0x66], .method [] none⟩

/-- A method with a call site. -/
def sampleCaller : Method :=
  ⟨⟨9⟩, [0x6E], .method [] none, [.code ⟨0, 0, [.invokeDynamic sampleSite, .return none], [], []⟩]⟩

/-- A class with a field, a method with a body and declared exceptions, a method with a call site, and a
bootstrap table. -/
def sampleClass : Class := ⟨⟨0, .j8⟩, ⟨0x21⟩, [0x41], some [0x42], [[0x43]], [sampleField],
  [⟨⟨1⟩, [0x6D], .method [] none, [.code sampleBody, .exceptions [[0x44]]]⟩, sampleCaller],
  [.sourceFile [0x41], .bootstrapMethods [⟨sampleHandle, [.static (.i32 8)]⟩], .deprecated]⟩

theorem written_of {x : Class} {n : Nat}
    (h : (match x.write with | .ok bs => bs.length == n | .error _ => false) = true) :
    ∃ bs, x.write = .ok bs ∧ bs.length = n := by
  rcases e : x.write with e2 | bs <;> rw [e] at h
  · cases h
  · exact ⟨bs, rfl, by simpa using h⟩

/-- A class with these methods and attributes. -/
def smallClass (ms : List Method) (as : List ClassAttr) : Class :=
  ⟨⟨0, .j8⟩, ⟨0x21⟩, [0x41], some [0x42], [], [], ms, as⟩

theorem fits {n : Bytes} (h : (n.all (fun b => 0 < b && b < 128) && decide (n.length < 65536)) = true) :
    Fitting n := by
  simp only [Bool.and_eq_true, decide_eq_true_eq] at h
  exact fitting_ascii h.1 h.2

theorem sampleHandle_fits : AllMember Fitting sampleHandle.member :=
  ⟨fits (by decide +kernel), fits (by decide +kernel), fits (by decide +kernel)⟩

theorem sampleCaller_fits : AllMethod Fitting sampleCaller := by
  refine ⟨fits (by decide +kernel), fits (by decide +kernel), fun a ha => ?_⟩
  rw [List.mem_singleton.mp ha]
  refine ⟨fun i hi => ?_, by simp, by simp⟩
  simp only [List.mem_cons, List.not_mem_nil, or_false] at hi
  rcases hi with rfl | rfl
  · exact ⟨fits (by decide +kernel), fits (by decide +kernel)⟩
  · trivial

theorem plain_fits (n : Int32) : AllBsm Fitting ⟨sampleHandle, [.static (.i32 n)]⟩ := by
  refine ⟨sampleHandle_fits, ?_⟩
  rw [AllArgs, AllArgs]
  exact ⟨trivial, trivial⟩

theorem small_fits {ms : List Method} {as : List ClassAttr} (hm : ∀ m ∈ ms, AllMethod Fitting m)
    (ha : ∀ a ∈ as, AllClassAttr Fitting a) (hb : ∀ b ∈ usedBsms (smallClass ms as), AllBsm Fitting b) :
    AllClass Fitting (smallClass ms as) := by
  have h1 : Fitting [0x41] := fits (by decide +kernel)
  refine ⟨h1, ?_, (fun s hs => nomatch hs), (fun f hf => nomatch hf), hm, ha, hb⟩
  intro s hs
  cases hs
  exact fits (by decide +kernel)

/-- Violated: a class with a call site and without an attribute `BootstrapMethods` gets a table that is not counted. -/
theorem C45_violated : ¬ C45_full := by
  intro h
  have hs : AllClass Fitting (smallClass [sampleCaller] []) := by
    refine small_fits (fun m hm => ?_) (by simp) (fun b hb => ?_)
    · rw [List.mem_singleton.mp hm]
      exact sampleCaller_fits
    · rw [show b = _ from List.mem_singleton.mp hb]
      exact plain_fits 7
  obtain ⟨bs, hw, hl⟩ := written_of (x := smallClass [sampleCaller] []) (n := 165) (by decide +kernel)
  have h1 := h _ bs hs hw (by omega)
  rw [C45_exact_partial _ bs hs hw (by omega) (by decide) (by decide) (by decide)] at h1
  exact absurd h1 (by decide)

/-- Also violated: an empty attribute of a class without call sites is counted but not written. -/
theorem C45_violated_empty : ∃ (x : Class) (bs : Bytes), AllClass Fitting x ∧ x.write = .ok bs ∧ bs.length < 2 ^ 32 ∧
    x.methods = [] ∧ x.attrs = [.bootstrapMethods []] ∧ ¬ Delimited bs := by
  have hs : AllClass Fitting (smallClass [] [.bootstrapMethods []]) := by
    refine small_fits (by simp) (fun a ha => ?_) (fun b hb => by cases hb)
    rw [List.mem_singleton.mp ha]
    trivial
  obtain ⟨bs, hw, hl⟩ := written_of (x := smallClass [] [.bootstrapMethods []]) (n := 38) (by decide +kernel)
  refine ⟨_, bs, hs, hw, by omega, rfl, rfl, ?_⟩
  rw [C45_exact_partial _ bs hs hw (by omega) (by decide) (by decide) (by decide)]
  decide

/-- Also violated: a second attribute is counted but not written. -/
theorem C45_violated_two : ∃ (x : Class) (bs : Bytes) (b b' : Bsm), AllClass Fitting x ∧ x.write = .ok bs ∧
    bs.length < 2 ^ 32 ∧ x.methods = [] ∧ x.attrs = [.bootstrapMethods [b], .bootstrapMethods [b']] ∧
    ¬ Delimited bs := by
  have hs : AllClass Fitting (smallClass [] [.bootstrapMethods [⟨sampleHandle, [.static (.i32 7)]⟩],
      .bootstrapMethods [⟨sampleHandle, [.static (.i32 8)]⟩]]) := by
    refine small_fits (by simp) (fun a ha => ?_) (fun b hb => ?_)
    · simp only [List.mem_cons, List.not_mem_nil, or_false] at ha
      rcases ha with rfl | rfl <;> trivial
    · have : b = ⟨sampleHandle, [.static (.i32 7)]⟩ ∨ b = ⟨sampleHandle, [.static (.i32 8)]⟩ := by
        simpa [usedBsms, smallClass, givenBsms, classDynamics] using hb
      rcases this with rfl | rfl
      · exact plain_fits 7
      · exact plain_fits 8
  obtain ⟨bs, hw, hl⟩ := written_of (n := 113) (x := smallClass [] [.bootstrapMethods [⟨sampleHandle, [.static (.i32 7)]⟩],
      .bootstrapMethods [⟨sampleHandle, [.static (.i32 8)]⟩]]) (by decide +kernel)
  refine ⟨_, bs, _, _, hs, hw, by omega, rfl, rfl, ?_⟩
  rw [C45_exact_partial _ bs hs hw (by omega) (by decide) (by decide) (by decide)]
  decide

/-! ### The round trip -/

theorem plain_ok (n : Int32) : BsmWritable ⟨sampleHandle, [.static (.i32 n)]⟩ := by
  refine ⟨sampleHandle_ok, by simp, fun a ha => ?_⟩
  rw [List.mem_singleton.mp ha]
  trivial

theorem sampleCaller_writable : sampleCaller.Writable fun b => CodeWritable b ∧ Compact b.code := by
  refine ⟨knownFlags_of (by decide), .void (by simp), fun a ha => ?_⟩
  rw [List.mem_singleton.mp ha]
  refine ⟨⟨fun i hi => ?_, by decide, by decide, by decide, by simp⟩, ?_⟩
  · simp only [List.mem_cons, List.not_mem_nil, or_false] at hi
    rcases hi with rfl | rfl
    · exact ⟨printable_ascii (.void (by simp)) (.void .nil) (by decide), _, _, rfl⟩
    · trivial
  · exact .inl (by decide)

theorem sampleCaller_readable : sampleCaller.Readable CodeReadable := by
  intro a ha
  rw [List.mem_singleton.mp ha]
  refine ⟨fun i hi => ?_, by simp, by simp⟩
  simp only [List.mem_cons, List.not_mem_nil, or_false] at hi
  rcases hi with rfl | rfl <;> trivial

theorem plain_readable (n : Int32) : (ClassAttr.bootstrapMethods [⟨sampleHandle, [.static (.i32 n)]⟩]).Readable := by
  intro b hb
  rw [List.mem_singleton.mp hb]
  refine ⟨rfl, fun a ha => ?_⟩
  rw [List.mem_singleton.mp ha]
  rfl

theorem read_of {bs : Bytes} {n : Nat}
    (h : (match Class.read (fun _ _ l => l) bs with | .ok (_, r) => r.length == n | .error _ => false) = true) :
    ∃ y r, Class.read (fun _ _ l => l) bs = .ok (y, r) ∧ r.length = n := by
  rcases e : Class.read (fun _ _ l => l) bs with e2 | ⟨y, r⟩ <;> rw [e] at h
  · cases h
  · exact ⟨y, r, rfl, by simpa using h⟩

/-- Violated: the table of the witness of C45 is not read. -/
theorem C47_violated : ¬ C47_full := by
  intro h
  have hs : AllClass Fitting (smallClass [sampleCaller] []) := by
    refine small_fits (fun m hm => ?_) (by simp) (fun b hb => ?_)
    · rw [List.mem_singleton.mp hm]
      exact sampleCaller_fits
    · rw [show b = _ from List.mem_singleton.mp hb]
      exact plain_fits 7
  have key : (match (smallClass [sampleCaller] []).write with
      | .ok bs => decide (bs.length < 2 ^ 32) && match Class.read (fun _ _ l => l) bs with
        | .ok (_, r) => r.length == 14
        | .error _ => false
      | .error _ => false) = true := by decide +kernel
  rcases hw : (smallClass [sampleCaller] []).write with e | bs
  · rw [hw] at key
    cases key
  · rw [hw] at key
    simp only [Bool.and_eq_true, decide_eq_true_eq] at key
    obtain ⟨y, r, h1, h2⟩ := read_of key.2
    have hx : (withTable (smallClass [sampleCaller] [])).Readable CodeReadable := by
      refine ⟨(fun f hf => nomatch hf), fun m hm => ?_, fun a ha => ?_⟩
      · rw [List.mem_singleton.mp hm]
        exact sampleCaller_readable
      · rw [show a = _ from List.mem_singleton.mp ha]
        exact plain_readable 7
    obtain ⟨y', h3, _⟩ := h (fun _ _ l => l) (fun _ _ _ => .refl _) _ bs hs hw key.1 hx
    rw [h1] at h3
    cases h3
    cases h2

theorem sampleField_writable : sampleField.Writable := by
  refine ⟨knownFlags_of (by decide), .field .int, ?_⟩
  intro a ha
  simp only [sampleField, List.mem_cons, List.not_mem_nil, or_false] at ha
  rcases ha with rfl | rfl | rfl <;> trivial

theorem sampleField_readable : ∀ a ∈ sampleField.attrs, a.Readable := by
  intro a ha
  simp only [sampleField, List.mem_cons, List.not_mem_nil, or_false] at ha
  rcases ha with rfl | rfl | rfl
  · rfl
  · trivial
  · show [0x58] ∉ fieldAttrNames
    decide

theorem sampleClass_used : usedBsms sampleClass =
    [⟨sampleHandle, [.static (.i32 8)]⟩, ⟨sampleHandle, [.static (.i32 7)]⟩] := rfl

theorem sampleClass_written : writtenBsms sampleClass = usedBsms sampleClass := rfl

theorem sampleClass_writable : sampleClass.Writable := by
  have hb : ∀ b ∈ writtenBsms sampleClass, BsmWritable b := by
    intro b hb
    rw [sampleClass_written, sampleClass_used] at hb
    simp only [List.mem_cons, List.not_mem_nil, or_false] at hb
    rcases hb with rfl | rfl
    · exact plain_ok 8
    · exact plain_ok 7
  refine ⟨knownFlags_of (by decide), by decide, ⟨by decide, ?_⟩, ⟨by decide, ?_⟩, ⟨by decide, ?_⟩, by decide,
    ⟨by decide, hb⟩, List.nil_prefix⟩
  · intro f hf
    rw [show f = _ from List.mem_singleton.mp hf]
    exact sampleField_writable
  · intro m hm
    simp only [sampleClass, List.mem_cons, List.not_mem_nil, or_false] at hm
    rcases hm with rfl | rfl
    · refine ⟨knownFlags_of (by decide), .void (by simp), fun a ha => ?_⟩
      simp only [List.mem_cons, List.not_mem_nil, or_false] at ha
      rcases ha with rfl | rfl
      · exact ⟨sampleBody_writable, .inl (by decide)⟩
      · trivial
    · exact sampleCaller_writable
  · intro a ha
    simp only [sampleClass, List.mem_cons, List.not_mem_nil, or_false] at ha
    rcases ha with rfl | rfl | rfl
    · trivial
    · intro b hb
      rw [List.mem_singleton.mp hb]
      exact plain_ok 8
    · trivial

theorem sampleClass_readable : (withTable sampleClass).Readable CodeReadable := by
  refine ⟨?_, ?_, ?_⟩
  · intro f hf
    rw [show f = _ from List.mem_singleton.mp hf]
    exact sampleField_readable
  · intro m hm
    have hm : m ∈ sampleClass.methods := hm
    simp only [sampleClass, List.mem_cons, List.not_mem_nil, or_false] at hm
    rcases hm with rfl | rfl
    · intro a ha
      simp only [List.mem_cons, List.not_mem_nil, or_false] at ha
      rcases ha with rfl | rfl
      · exact sampleBody_readable
      · trivial
    · exact sampleCaller_readable
  · have : (withTable sampleClass).attrs = [.sourceFile [0x41], .deprecated,
      .bootstrapMethods (usedBsms sampleClass)] := rfl
    rw [this, sampleClass_used]
    intro a ha
    simp only [List.mem_cons, List.not_mem_nil, or_false] at ha
    rcases ha with rfl | rfl | rfl
    · trivial
    · trivial
    · intro b hb
      simp only [List.mem_cons, List.not_mem_nil, or_false] at hb
      rcases hb with rfl | rfl
      · exact plain_readable 8 _ (by simp)
      · exact plain_readable 7 _ (by simp)

theorem sampleClass_fits : AllClass Fitting sampleClass := by
  have hc : ∀ n : UInt8, 0 < n → n < 128 → Fitting [n] := by
    intro n h1 h2
    exact fitting_ascii (by simp [h1, h2]) (by simp)
  refine ⟨hc _ (by decide) (by decide), ?_, ?_, ?_, ?_, ?_, ?_⟩
  · intro s hs
    cases hs
    exact hc _ (by decide) (by decide)
  · intro s hs
    rw [show s = _ from List.mem_singleton.mp hs]
    exact hc _ (by decide) (by decide)
  · intro f hf
    rw [show f = _ from List.mem_singleton.mp hf]
    refine ⟨hc _ (by decide) (by decide), fits (by decide +kernel), fun a ha => ?_⟩
    simp only [sampleField, List.mem_cons, List.not_mem_nil, or_false] at ha
    rcases ha with rfl | rfl | rfl
    · trivial
    · trivial
    · exact hc _ (by decide) (by decide)
  · intro m hm
    simp only [sampleClass, List.mem_cons, List.not_mem_nil, or_false] at hm
    rcases hm with rfl | rfl
    · refine ⟨hc _ (by decide) (by decide), fits (by decide +kernel), fun a ha => ?_⟩
      simp only [List.mem_cons, List.not_mem_nil, or_false] at ha
      rcases ha with rfl | rfl
      · refine ⟨fun i hi => ?_, fun k hk => ?_, fun a ha => ?_⟩
        · simp only [sampleBody, loop, List.mem_cons, List.not_mem_nil, or_false] at hi
          rcases hi with rfl | rfl | rfl | rfl | rfl | rfl | rfl | rfl | rfl <;> trivial
        · rw [show k = _ from List.mem_singleton.mp hk]
          intro s hs
          cases hs
        · rw [show a = _ from List.mem_singleton.mp ha]
          intro v hv
          rw [show v = _ from List.mem_singleton.mp hv]
          refine ⟨hc _ (by decide) (by decide), ?_, ?_⟩
          · intro t ht
            cases ht
            exact fits (by decide +kernel)
          · intro t ht
            cases ht
      · intro s hs
        rw [show s = _ from List.mem_singleton.mp hs]
        exact hc _ (by decide) (by decide)
    · exact sampleCaller_fits
  · intro a ha
    simp only [sampleClass, List.mem_cons, List.not_mem_nil, or_false] at ha
    rcases ha with rfl | rfl | rfl
    · exact hc _ (by decide) (by decide)
    · trivial
    · trivial
  · rw [sampleClass_used]
    intro b hb
    simp only [List.mem_cons, List.not_mem_nil, or_false] at hb
    rcases hb with rfl | rfl
    · exact plain_fits 8
    · exact plain_fits 7

/-- The class is written, its parts are delimited, and it is read back, together with what C47 says about
files of any origin. -/
example : ∃ bs, sampleClass.write = .ok bs ∧ bs.length = 426 ∧ Delimited bs ∧ classFile codeFile (withTable sampleClass) bs ∧
    ∃ y, Class.read (fun _ _ l => l) bs = .ok (y, []) ∧
      SameClass (writtenBsms sampleClass) (fun b b' => ∃ ρ, SameBody (writtenBsms sampleClass) b b' ρ)
        (withTable sampleClass) y := by
  obtain ⟨bs, hw, hl⟩ := written_of (x := sampleClass) (n := 426) (by decide +kernel)
  have h1 := C47_roundtrip_partial (fun _ _ l => l) (fun _ _ _ => .refl _) sampleClass bs sampleClass_writable
    sampleClass_fits hw (by omega) sampleClass_readable []
  rw [List.append_nil] at h1
  exact ⟨bs, hw, hl, (C45_exact_partial sampleClass bs sampleClass_fits hw (by omega) (by decide) (by decide)
    (by decide)).mpr (by decide), C47_write_partial sampleClass bs sampleClass_writable sampleClass_fits hw (by omega), h1⟩

/-! ### Nested bootstrap methods -/

/-- Another handle. -/
def innerHandle : MethodHandle := ⟨.invokeStatic, ⟨[0x41], [0x62], .method [.array 1 .int] none, true⟩⟩

def innerBsm : Bsm := ⟨innerHandle, [.static (.i32 7)]⟩

/-- A bootstrap method whose argument is a dynamic constant with another bootstrap method. -/
def outerBsm : Bsm := ⟨sampleHandle, [.dynamic (.filled innerHandle [.static (.i32 7)]) [0x6E] .int]⟩

/-- The number of the bootstrap method of an argument. -/
def argNumber : Arg → Option UInt16
  | .dynamic (.pending i) _ _ => some i
  | _ => none

/-- Violated: the argument is written with the number 0, that is, its own entry and not the one after it. -/
theorem C46_violated : ¬ C46_full := by
  intro h
  have key : (match (smallClass [] [.bootstrapMethods [outerBsm]]).write with
      | .ok bs => match Class.read (fun _ _ l => l) bs with
        | .ok (y, _) => (bsmTable y.attrs).map fun b => (b.handle.member.name, b.arguments.map argNumber)
        | .error _ => []
      | .error _ => []) = [([0x61], [some 0]), ([0x62], [none])] := by decide +kernel
  rcases hw : (smallClass [] [.bootstrapMethods [outerBsm]]).write with e | bs
  · rw [hw] at key
    cases key
  rw [hw] at key
  simp only at key
  rcases hr : Class.read (fun _ _ l => l) bs with e | ⟨y, r⟩
  · rw [hr] at key
    cases key
  rw [hr] at key
  simp only at key
  obtain ⟨b, a, as, h1, h2, h3⟩ := h (fun _ _ l => l) (fun _ _ _ => .refl _) _ bs r y hw hr 0 0 outerBsm
    innerHandle [.static (.i32 7)] [0x6E] .int rfl rfl
  generalize bsmTable y.attrs = T at key h1 h3
  rcases T with _ | ⟨b1, T⟩
  · cases key
  cases h1
  simp only [List.map_cons, List.cons.injEq, Prod.mk.injEq] at key
  obtain ⟨⟨k1, k2⟩, _⟩ := key
  rcases has : b.arguments with _ | ⟨a1, as1⟩
  · rw [has] at h2
    cases h2
  rw [has] at h2 k2
  cases h2
  simp only [List.map_cons, List.cons.injEq] at k2
  have k3 := k2.1
  rcases a with ⟨⟨i⟩ | ⟨h', as'⟩, n, t⟩ | c
  · cases k3
    rw [show resolveArg (b :: T) (.dynamic (.pending 0) n t) = .dynamic (.filled b.handle b.arguments) n t from rfl] at h3
    injection h3 with h3
    injection h3 with h3
    rw [h3] at k1
    cases k1
  · cases k3
  · cases k3

theorem innerHandle_ok : Printable innerHandle.member.descriptor := sampleHandle_ok

/-- With the inner bootstrap method in front, the argument finds it. -/
example : ∃ bs y, (smallClass [] [.bootstrapMethods [innerBsm, outerBsm]]).write = .ok bs ∧
    Class.read (fun _ _ l => l) bs = .ok (y, []) ∧
    ∃ b a as, (bsmTable y.attrs)[1]? = some b ∧ b.arguments[0]? = some a ∧
      resolveArg (bsmTable y.attrs) a = .dynamic (.filled innerHandle as) [0x6E] .int := by
  have hu : usedBsms (smallClass [] [.bootstrapMethods [innerBsm, outerBsm]]) = [innerBsm, outerBsm] := rfl
  have hw : writtenBsms (smallClass [] [.bootstrapMethods [innerBsm, outerBsm]]) = [innerBsm, outerBsm, innerBsm] := rfl
  have o1 : BsmWritable innerBsm := by
    refine ⟨innerHandle_ok, by simp [innerBsm], fun a ha => ?_⟩
    rw [List.mem_singleton.mp ha]
    trivial
  have o2 : BsmWritable outerBsm := by
    refine ⟨sampleHandle_ok, by simp [outerBsm], fun a ha => ?_⟩
    rw [List.mem_singleton.mp ha]
    exact ⟨printable_int, by simp, _, _, rfl⟩
  have hf : AllMember Fitting innerHandle.member :=
    ⟨fits (by decide +kernel), fits (by decide +kernel), fits (by decide +kernel)⟩
  have f1 : AllBsm Fitting innerBsm := by
    refine ⟨hf, ?_⟩
    rw [innerBsm, AllArgs, AllArgs]
    exact ⟨trivial, trivial⟩
  have f2 : AllBsm Fitting outerBsm := by
    refine ⟨sampleHandle_fits, ?_⟩
    rw [outerBsm, AllArgs, AllArgs, AllCell]
    exact ⟨⟨fits (by decide +kernel), fits (by decide +kernel), hf, f1.2⟩, trivial⟩
  have hx : (smallClass [] [.bootstrapMethods [innerBsm, outerBsm]]).Writable := by
    refine ⟨knownFlags_of (by decide), by decide, ⟨by decide, fun f hf => nomatch hf⟩, ⟨by decide, fun m hm => nomatch hm⟩,
      ⟨by decide, ?_⟩, by decide, ⟨by decide, ?_⟩, ?_⟩
    · intro a ha
      rw [show a = _ from List.mem_singleton.mp ha]
      intro b hb
      simp only [List.mem_cons, List.not_mem_nil, or_false] at hb
      rcases hb with rfl | rfl
      · exact o1
      · exact o2
    · rw [hw]
      intro b hb
      simp only [List.mem_cons, List.not_mem_nil, or_false] at hb
      rcases hb with rfl | rfl | rfl
      · exact o1
      · exact o2
      · exact o1
    · rw [hu]
      exact ⟨[outerBsm], rfl⟩
  have hs : AllClass Fitting (smallClass [] [.bootstrapMethods [innerBsm, outerBsm]]) := by
    refine small_fits (by simp) (fun a ha => ?_) (fun b hb => ?_)
    · rw [List.mem_singleton.mp ha]
      trivial
    · rw [hu] at hb
      simp only [List.mem_cons, List.not_mem_nil, or_false] at hb
      rcases hb with rfl | rfl
      · exact f1
      · exact f2
  have hr : (withTable (smallClass [] [.bootstrapMethods [innerBsm, outerBsm]])).Readable CodeReadable := by
    refine ⟨(fun f hf => nomatch hf), (fun m hm => nomatch hm), fun a ha => ?_⟩
    rw [show a = _ from List.mem_singleton.mp ha, hw]
    intro b hb
    simp only [List.mem_cons, List.not_mem_nil, or_false] at hb
    rcases hb with rfl | rfl | rfl <;> refine ⟨rfl, fun a ha => ?_⟩ <;> rw [List.mem_singleton.mp ha] <;>
      first | rfl | trivial
  obtain ⟨bs, h1, h2⟩ := written_of (x := smallClass [] [.bootstrapMethods [innerBsm, outerBsm]]) (n := 150)
    (by decide +kernel)
  obtain ⟨y, h3, _⟩ := C47_roundtrip_partial (fun _ _ l => l) (fun _ _ _ => .refl _) _ bs hx hs h1 (by omega) hr []
  refine ⟨bs, y, h1, by rw [List.append_nil] at h3; exact h3, ?_⟩
  exact C46_nested_partial (fun _ _ l => l) (fun _ _ _ => .refl _) _ bs hx hs h1 (by omega) hr [] [] y h3 1 0 outerBsm
    innerHandle [.static (.i32 7)] [0x6E] .int rfl rfl

/-- The method with a call site, read with the table of the class. -/
example : ∃ bs cp' P, sampleCaller.write VecCp.new = .ok (bs, cp') ∧
    ∃ y q, Method.read (fun _ _ l => l) ⟨P, none⟩ ⟨[], none⟩ bs = .ok (y, ⟨q, none⟩, []) ∧
      SameMethod (fun x y => ∃ ρ, SameBody [⟨sampleHandle, [.static (.i32 7)]⟩] x y ρ) sampleCaller y := by
  have e : ∃ bs cp', sampleCaller.write VecCp.new = .ok (bs, cp') ∧ bs.length < 2 ^ 32 ∧
      cp'.bsm = [⟨sampleHandle, [.static (.i32 7)]⟩] := ⟨_, _, rfl, by decide +kernel, rfl⟩
  obtain ⟨bs, cp', e, hl, hb⟩ := e
  obtain ⟨P, hP⟩ := agrees_exists cp'.entries
  obtain ⟨y, q, h1, _, h2⟩ := C53_roundtrip_partial (fun _ _ l => l) (fun _ _ _ => .refl _) sampleCaller
    sampleCaller_writable sampleCaller_readable VecCp.new cp' bs (.refl _) e hl ⟨P, [⟨sampleHandle, [.static (.i32 7)]⟩]⟩
    ⟨hP, hb ▸ List.prefix_refl _⟩ (by simp) none ⟨[], none⟩ []
  rw [List.append_nil] at h1
  exact ⟨bs, cp', P, e, y, q, h1, h2⟩

/-! ### A file of other origin -/

/-- A `goto` to itself on line 12. -/
def spin : PlacedBody where
  body := ⟨0, 0, [.label 3, .jump .always 3], [], [.lines [⟨0, 12⟩]]⟩
  pos := fun l => if l = 3 then some 0 else none
  handler := fun _ => none
  code := [0xA7, 0, 0]
  insns := [(0, .jump .always 3)]

theorem spin_placed {c : Ctx} (h1 : IsUtf8 c.pool 1 N.lineNumberTable) : placedBody c spin
    [0, 0, 0, 0, 0, 0, 0, 3, 0xA7, 0, 0, 0, 0, 0, 1, 0, 1, 0, 0, 0, 6, 0, 1, 0, 0, 0, 12] := by
  have hn : near 0 (spin.ctx c) 3 [0, 0] := ⟨0, ⟨0, rfl, rfl⟩, by decide, by decide, by decide⟩
  have hl : Enc (spin.ctx c) 0 (.label 3) [] := .label rfl
  have hj : Enc (spin.ctx c) 0 (.jump .always 3) [0xA7, 0, 0] := .jump hn
  refine ⟨⟨[0, 0], [0, 1, 0, 1, 0, 0, 0, 6, 0, 1, 0, 0, 0, 12],
      .cons (b := []) hl (.cons (b := [0xA7, 0, 0]) (bs := []) hj .nil),
      by decide, ⟨by decide, [], by decide, rfl⟩,
      ⟨by decide, [0, 1, 0, 0, 0, 6, 0, 1, 0, 0, 0, 12], by decide, _, [], (List.append_nil _).symm,
        ⟨1, [0, 1, 0, 0, 0, 12], h1, ⟨by decide, [0, 0, 0, 12], by decide, _, [], (List.append_nil _).symm,
          ⟨[0, 0], [0, 12], rfl, rfl, [0, 12], [], rfl, rfl, rfl⟩, rfl⟩, by decide, by decide⟩, rfl⟩, by decide⟩,
    .skip hl rfl (.keep (b := [0xA7, 0, 0]) (bs := []) hj rfl .nil),
    ⟨?_, ?_, by simp [lineEntries, spin], by simp [varInfos, spin], by simp [attrCatches, spin], ?_⟩⟩
  · intro i hi
    simp only [spin, List.mem_cons, List.not_mem_nil, or_false] at hi
    rcases hi with rfl | rfl <;> trivial
  · intro l p h
    simp only [PlacedBody.ctx, spin] at h
    split at h
    · rename_i e
      rw [e]
      exact List.mem_cons_self
    · cases h
  · intro a ha
    rw [show a = _ from List.mem_singleton.mp ha]
    trivial

/-- A class with this method. -/
def spinClass : ClassOf PlacedBody := ⟨⟨0, .j8⟩, ⟨0x21⟩, [0x41], none, [], [],
  [⟨⟨1⟩, [0x6D], .method [] none, [.code spin]⟩], []⟩

/-- The class file. -/
def spinFile : Bytes := U4 0xCAFEBABE ++ (U2 0 ++ U2 52) ++ (U2 7 ++ ((1 :: (U2 15 ++ N.lineNumberTable)) ++
  ((1 :: (U2 1 ++ [0x41])) ++ ([7, 0, 2] ++ ((1 :: (U2 1 ++ [0x6D])) ++ ((1 :: (U2 3 ++ [0x28, 0x29, 0x56])) ++
    (1 :: (U2 4 ++ N.code)))))))) ++
  ([0, 0x21] ++ ([0, 3] ++ ([0, 0] ++ ([0, 0] ++ ([0, 0] ++ ([0, 1, 0, 1, 0, 4, 0, 5, 0, 1, 0, 6, 0, 0, 0, 27,
    0, 0, 0, 0, 0, 0, 0, 3, 0xA7, 0, 0, 0, 0, 0, 1, 0, 1, 0, 0, 0, 6, 0, 1, 0, 0, 0, 12] ++ ([0, 0] ++ [])))))))

theorem spin_file : classFile placedBody spinClass spinFile := by
  have hok : ∀ e ∈ [Entry.utf8 N.lineNumberTable, .utf8 [0x41], .cls 2, .utf8 [0x6D], .utf8 [0x28, 0x29, 0x56],
      .utf8 N.code], EntryOk e := by
    intro e he
    simp only [List.mem_cons, List.not_mem_nil, or_false] at he
    rcases he with rfl | rfl | rfl | rfl | rfl | rfl <;> first | trivial | exact fits (by decide +kernel)
  obtain ⟨b, hb, h2⟩ := entries_write hok
  have e : writeAll Entry.write [Entry.utf8 N.lineNumberTable, .utf8 [0x41], .cls 2, .utf8 [0x6D], .utf8 [0x28, 0x29, 0x56],
      .utf8 N.code] = .ok ((1 :: (U2 15 ++ N.lineNumberTable)) ++
    ((1 :: (U2 1 ++ [0x41])) ++ ([7, 0, 2] ++ ((1 :: (U2 1 ++ [0x6D])) ++ ((1 :: (U2 3 ++ [0x28, 0x29, 0x56])) ++
      (1 :: (U2 4 ++ N.code))))))) := by decide +kernel
  rw [hb] at e
  have e := Except.ok.inj e
  have hp : PoolBytes _ (U2 7 ++ b) := ⟨b, h2, by decide, rfl⟩
  rw [e] at hp
  obtain ⟨m, h3, _⟩ := mapCp_read hp
  have g : ∀ (i : UInt16) (e : Entry), Spec.At _ i.toNat e → m.get i = some e := fun i e h => (h3 i e).mpr h
  have g1 : IsUtf8 m.get 1 N.lineNumberTable := g 1 _ ⟨[], _, rfl, by decide⟩
  have g2 : IsUtf8 m.get 2 [0x41] := g 2 _ ⟨[_], _, rfl, by decide⟩
  have g3 : m.get 3 = some (.cls 2) := g 3 _ ⟨[_, _], _, rfl, by decide⟩
  have g4 : IsUtf8 m.get 4 [0x6D] := g 4 _ ⟨[_, _, _], _, rfl, by decide⟩
  have g5 : IsUtf8 m.get 5 [0x28, 0x29, 0x56] := g 5 _ ⟨[_, _, _, _], _, rfl, by decide⟩
  have g6 : IsUtf8 m.get 6 N.code := g 6 _ ⟨[_, _, _, _, _], _, rfl, by decide⟩
  have hm : Fmt.all (method placedBody) ⟨m.get, [], fun _ => none, fun _ => none⟩ spinClass.methods
      [0, 1, 0, 4, 0, 5, 0, 1, 0, 6, 0, 0, 0, 27,
        0, 0, 0, 0, 0, 0, 0, 3, 0xA7, 0, 0, 0, 0, 0, 1, 0, 1, 0, 0, 0, 6, 0, 1, 0, 0, 0, 12] := by
    refine ⟨_, [], (List.append_nil _).symm, ⟨[0, 1], _, rfl, ⟨knownFlags_of (by decide), by decide⟩,
      [0, 4], _, rfl, ⟨4, g4, by decide⟩, [0, 5], _, rfl, ⟨5, ⟨.void (by simp), _, .void .nil, g5⟩, by decide⟩, _, [], (List.append_nil _).symm,
      ⟨by decide, _, rfl, _, [], (List.append_nil _).symm, ⟨6, _, g6, spin_placed g1, by decide, rfl⟩, rfl⟩, rfl⟩, rfl⟩
  refine ⟨_, m.get, _, _, hp, fun i e => h3 i e, ?_, rfl⟩
  refine ⟨_, _, rfl, ⟨knownFlags_of (by decide), by decide⟩, _, _, rfl, ⟨3, ⟨2, g3, g2⟩, by decide⟩,
    _, _, rfl, (show _ = _ by decide), _, _, rfl, ⟨by decide, [], by decide, rfl⟩, _, _, rfl, ⟨by decide, [], by decide, rfl⟩,
    _, _, rfl, ⟨by decide, _, rfl, hm⟩, _, _, rfl, ⟨by decide, [], by decide, rfl⟩, rfl⟩

theorem spin_readable : spinClass.Readable fun _ => True := ⟨(fun f hf => nomatch hf), by
    intro m hm
    rw [show m = _ from List.mem_singleton.mp hm]
    intro a ha
    rw [show a = _ from List.mem_singleton.mp ha]
    trivial, (fun a ha => nomatch ha)⟩

example : ∃ bs y, classFile placedBody spinClass bs ∧ Class.read (fun _ _ l => l) bs = .ok (y, []) ∧
    SameClass [] (Reproduces []) spinClass y := by
  obtain ⟨y, h4, h5⟩ := C47_read (fun _ _ l => l) (fun _ _ _ => .refl _) spinClass _ spin_file spin_readable []
  rw [List.append_nil] at h4
  exact ⟨_, y, spin_file, h4, h5⟩

end Verif.Props
