import Verif.Props.Shared
import Verif.Lemmas.Reread

/-! # Reading, writing and reading a class: C67 -/

namespace Verif.Props
open Spec Sig

/-! ## C67 -/

/-- `y` says what `x` says: names, flags, fields, methods and attributes are the same, bodies are the same up to the
names of labels (without their line numbers, C40), and the cells of `x` hold what those of `y` find in its table. The
table of `y` is that of `x` with one more copy for every use (C56). -/
def Restored (x y : Class) : Prop :=
  SameClass (writtenBsms (completed x)) (fun b b' => ∃ ρ, SameBody (writtenBsms (completed x)) b b' ρ)
    (withTable (completed x)) y

/-- Full claim: if a class file is read and what was read is written, then the new file is read as the same class. -/
def C67_full : Prop := ∀ (ord : Order) (_ : ∀ k n l, (ord k n l).Perm l) (input rest out : Bytes) (x : Class),
  Class.read ord input = .ok (x, rest) → x.rewrite 65538 = .ok out → input.length < 2 ^ 31 → out.length < 2 ^ 32 →
    ∃ y, Class.read ord out = .ok (y, []) ∧ Restored x y

/-- Proved, for classes without what C34, C37, C45 and C46 are about. Nothing more is asked of bodies, annotations,
tables of variables, names of attributes and flags than of the class that was read, because the reader does not
return what cannot be written. -/
theorem C67_roundtrip_partial (ord : Order) (hord : ∀ k n l, (ord k n l).Perm l) (input rest out : Bytes) (x : Class)
    (h : Class.read ord input = .ok (x, rest)) (hx : Regular x) (hw : x.rewrite 65538 = .ok out)
    (hl : input.length < 2 ^ 31) (ho : out.length < 2 ^ 32) (more : Bytes) :
    ∃ y, Class.read ord (out ++ more) = .ok (y, more) ∧ Restored x y := by
  have hs := read_shared (fun k n l v hv => (hord k n l).mem_iff.mp hv) h
  have hg := read_good hord h hl
  obtain ⟨h1, h2, h3⟩ := regular_fit hg hs hx
  rw [C66_written_partial ord hord input rest x h (acyclic_static (table_static (regular_static hx)))] at hw
  exact C47_roundtrip_partial ord hord _ out h1 h2 hw ho h3 more

/-- Proved: the new file is a class file of the JVM specification with these contents. -/
theorem C67_written_partial (ord : Order) (hord : ∀ k n l, (ord k n l).Perm l) (input rest out : Bytes) (x : Class)
    (h : Class.read ord input = .ok (x, rest)) (hx : Regular x) (hw : x.rewrite 65538 = .ok out)
    (hl : input.length < 2 ^ 31) (ho : out.length < 2 ^ 32) : classFile codeFile (withTable (completed x)) out := by
  have hs := read_shared (fun k n l v hv => (hord k n l).mem_iff.mp hv) h
  obtain ⟨h1, h2, _⟩ := regular_fit (read_good hord h hl) hs hx
  rw [C66_written_partial ord hord input rest x h (acyclic_static (table_static (regular_static hx)))] at hw
  exact C47_write_partial _ out h1 h2 hw ho

/-- Proved: names, flags, fields and the attributes other than `BootstrapMethods` are the same, and in the same order. -/
theorem C67_parts_partial (ord : Order) (hord : ∀ k n l, (ord k n l).Perm l) (input rest out : Bytes) (x : Class)
    (h : Class.read ord input = .ok (x, rest)) (hx : Regular x) (hw : x.rewrite 65538 = .ok out)
    (hl : input.length < 2 ^ 31) (ho : out.length < 2 ^ 32) :
    ∃ y, Class.read ord out = .ok (y, []) ∧ y.version = x.version ∧ y.access = x.access ∧ y.name = x.name ∧
      y.superName = x.superName ∧ y.interfaces = x.interfaces ∧ y.fields = x.fields ∧
      y.methods.map MethodOf.name = x.methods.map MethodOf.name ∧
      y.methods.map MethodOf.descriptor = x.methods.map MethodOf.descriptor ∧
      y.attrs.filter (fun a => !isBootstrap a) = x.attrs.filter (fun a => !isBootstrap a) := by
  obtain ⟨y, hy, hr⟩ := C67_roundtrip_partial ord hord input rest out x h hx hw hl ho []
  rw [List.append_nil] at hy
  have hm : ∀ {β : Type} (f : Method → β) (_ : ∀ a b, SameMethod (fun b b' => ∃ ρ, SameBody (writtenBsms (completed x)) b b' ρ) a b → f b = f a)
      {as bs : List Method}, Matched (SameMethod fun b b' => ∃ ρ, SameBody (writtenBsms (completed x)) b b' ρ) as bs →
      bs.map f = as.map f := by
    intro β f hf as bs h
    induction h with
    | nil => rfl
    | cons h _ ih => rw [List.map_cons, List.map_cons, ih, hf _ _ h]
  have hcm : ∀ {β : Type} (f : Method → β), (∀ (m : Method) as, f { m with attrs := as } = f m) →
      (completed x).methods.map f = x.methods.map f := by
    intro β f hf
    show (x.methods.map _).map f = _
    rw [List.map_map]
    exact List.map_congr_left fun m _ => hf m _
  refine ⟨y, hy, hr.version, hr.access, hr.name, hr.superName, hr.interfaces, hr.fields, ?_, ?_, ?_⟩
  · exact (hm MethodOf.name (fun _ _ h => h.name) hr.methods).trans (hcm MethodOf.name fun _ _ => rfl)
  · exact (hm MethodOf.descriptor (fun _ _ h => h.descriptor) hr.methods).trans (hcm MethodOf.descriptor fun _ _ => rfl)
  · have hf : ∀ (T : List Bsm) (as : List ClassAttr), (as.map (resolveClassAttr T)).filter (fun a => !isBootstrap a) =
        as.filter fun a => !isBootstrap a := by
      intro T as
      induction as with
      | nil => rfl
      | cons a as ih => cases a <;> first | exact ih | exact congrArg (_ :: ·) ih
    have hc : ∀ (T : List Bsm) n (as : List ClassAttr), (as.map (fillClassAttr T n)).filter (fun a => !isBootstrap a) =
        as.filter fun a => !isBootstrap a := by
      intro T n as
      induction as with
      | nil => rfl
      | cons a as ih => cases a <;> first | exact ih | exact congrArg (_ :: ·) ih
    rw [← hf (writtenBsms (completed x)), hr.attrs]
    unfold withTable
    simp only
    rw [List.filter_append, List.filter_filter]
    simp only [Bool.and_self]
    rw [show (completed x).attrs = x.attrs.map (fillClassAttr (bsmTable x.attrs) (bsmTable x.attrs).length) from rfl, hc]
    split <;> simp [isBootstrap]

/-! ### A class to which this applies -/

/-- A call site, two bootstrap methods, one of them with an argument. -/
def callSite : Class := ⟨⟨0, .j8⟩, ⟨0x21⟩, [0x41], none, [], [],
  [⟨⟨1⟩, [0x41], .method [] none, [.code ⟨0, 0, [.invokeDynamic ⟨.pending 0, [0x41], .method [] none⟩, .return none], [], []⟩]⟩],
  [.bootstrapMethods [⟨⟨.invokeStatic, ⟨[0x41], [0x41], .method [] none, false⟩⟩, [.static (.cls [0x41])]⟩,
    ⟨⟨.invokeStatic, ⟨[0x41], [0x41], .method [] none, false⟩⟩, []⟩]]⟩

set_option maxRecDepth 100000 in
theorem callSite_read : Class.read (fun _ _ l => l) (tableFile [0, 2] []) = .ok (callSite, []) := by
  with_unfolding_all rfl

theorem callSite_regular : Regular callSite := by
  have hd : IsDescriptor (.method [] none) := .void (by simp)
  have hp : Printable (.method [] none) := printable_ascii hd (.void .nil) (by decide)
  have f1 : Fitting [0x41] := fits (by decide +kernel)
  have f2 : Fitting (JType.display (.method [] none)) := fits (by decide +kernel)
  have f3 : Fitting (JType.toWtf8 (.method [] none)) := fits (by decide +kernel)
  refine ⟨nofun, fun m hm => ?_, fun a ha => ?_, by decide, by decide, ⟨f1, nofun, nofun, nofun, fun m hm => ?_, fun a ha => ?_, fun b hb => ?_⟩⟩
  · cases List.mem_singleton.mp hm
    refine ⟨hd, fun a ha => ?_⟩
    cases List.mem_singleton.mp ha
    refine ⟨fun i hi => ?_, nofun, .inl (by decide)⟩
    simp only [List.mem_cons, List.not_mem_nil, or_false] at hi
    rcases hi with rfl | rfl
    · exact ⟨hp, _, _, rfl⟩
    · trivial
  · cases List.mem_singleton.mp ha
    refine ⟨nofun, fun b hb => ?_⟩
    simp only [List.mem_cons, List.not_mem_nil, or_false] at hb
    rcases hb with rfl | rfl
    · refine ⟨⟨hp, rfl⟩, fun a ha => ?_⟩
      cases List.mem_singleton.mp ha
      exact ⟨_, rfl, trivial, rfl⟩
    · exact ⟨⟨hp, rfl⟩, nofun⟩
  · cases List.mem_singleton.mp hm
    refine ⟨f1, f3, fun a ha => ?_⟩
    cases List.mem_singleton.mp ha
    refine ⟨fun i hi => ?_, nofun, nofun⟩
    simp only [List.mem_cons, List.not_mem_nil, or_false] at hi
    rcases hi with rfl | rfl
    · exact ⟨f1, f2⟩
    · trivial
  · cases List.mem_singleton.mp ha
    trivial
  · have : b = ⟨⟨.invokeStatic, ⟨[0x41], [0x41], .method [] none, false⟩⟩, [.static (.cls [0x41])]⟩ ∨
        b = ⟨⟨.invokeStatic, ⟨[0x41], [0x41], .method [] none, false⟩⟩, []⟩ := by
      simpa [usedBsms, callSite, givenBsms, classDynamics, attrDynamics, insnDynamics, ownBsm] using hb
    rcases this with rfl | rfl
    · refine ⟨⟨f1, f1, f2⟩, ?_⟩
      rw [AllArgs, AllArgs]
      exact ⟨f1, trivial⟩
    · refine ⟨⟨f1, f1, f2⟩, ?_⟩
      rw [AllArgs]
      trivial

example : ∃ out y, callSite.rewrite 65538 = .ok out ∧ out.length = 138 ∧ Class.read (fun _ _ l => l) out = .ok (y, []) ∧
    Restored callSite y := by
  have hn := acyclic_static (table_static (regular_static callSite_regular))
  have hr := C66_written_partial _ (fun _ _ l => List.Perm.refl l) _ _ _ callSite_read hn
  obtain ⟨out, hw, hl⟩ := written_of (x := completed callSite) (n := 138) (by decide +kernel)
  rw [hw] at hr
  obtain ⟨y, hy, h⟩ := C67_roundtrip_partial _ (fun _ _ l => List.Perm.refl l) _ _ out _ callSite_read callSite_regular hr
    (by decide +kernel) (by omega) []
  rw [List.append_nil] at hy
  exact ⟨out, y, hr, hl, hy, h⟩

/-! ### What is lost otherwise -/

/-- A method that stores into a static field. -/
def storeFile : Bytes := tinyFile noArgs [utf8Bytes [0x49], [12, 0, 1, 0, 5], [9, 0, 2, 0, 6]] [0x03, 0xB3, 0, 7, 0xB1] []

def isPut : Insn → Bool
  | .field .put _ _ => true
  | _ => false

def codeOf : MethodAttr → List Insn
  | .code x => x.code
  | _ => []

/-- A method of the class stores into a field. -/
def hasStore (x : Class) : Bool := x.methods.any fun m => m.attrs.any fun a => (codeOf a).any isPut

theorem put_normal {i : Insn} (h : isPut i = true) : ∃ j, normal i = some j ∧ isPut j = true := by
  cases i with
  | field o t m =>
    cases o with
    | get => cases h
    | put => cases m <;> exact ⟨_, rfl, rfl⟩
  | _ => cases h

theorem put_ren {i : Insn} (ρ : Label → Label) (h : isPut i = true) : renI ρ i = i := by cases i <;> first | cases h | rfl

theorem put_resolve {i : Insn} {T : List Bsm} (h : isPut (resolveI T i) = true) : isPut i = true := by
  cases i with
  | field o t m =>
    cases o with
    | get => cases h
    | put => rfl
  | _ => cases h

theorem same_stores {T : List Bsm} {x y : Code} {ρ : Label → Label} (h : SameBody T x y ρ) (hx : x.code.any isPut = true) :
    y.code.any isPut = true := by
  obtain ⟨i, hi, hp⟩ := List.any_eq_true.mp hx
  obtain ⟨j, hj, hp'⟩ := put_normal hp
  have hm : j ∈ (x.code.filterMap normal).map (renI ρ) :=
    List.mem_map.mpr ⟨j, List.mem_filterMap.mpr ⟨i, hi, hj⟩, put_ren ρ hp'⟩
  rw [← h.insns] at hm
  obtain ⟨k, hk, rfl⟩ := List.mem_map.mp (List.mem_filter.mp hm).1
  exact List.any_eq_true.mpr ⟨k, hk, put_resolve hp'⟩

theorem restored_stores {x y : Class} (h : Restored x y) (hx : hasStore (completed x) = true) : hasStore y = true := by
  have hany : ∀ {α β : Type} {R : α → β → Prop} {f : α → Bool} {g : β → Bool} {as : List α} {bs : List β}, Matched R as bs →
      (∀ a b, R a b → f a = true → g b = true) → as.any f = true → bs.any g = true := by
    intro α β R f g as bs h hR ha
    induction h with
    | nil => cases ha
    | cons h _ ih =>
      rw [List.any_cons, Bool.or_eq_true] at ha ⊢
      exact ha.imp (hR _ _ h) ih
  refine hany h.methods (fun m m' hm => hany hm.attrs fun a a' ha hp => ?_) hx
  cases a with
  | code b =>
    cases a' with
    | code b' =>
      obtain ⟨ρ, hb⟩ := ha
      exact same_stores hb hp
    | _ => exact ha.elim
  | _ => cases hp

/-- Violated: what is written for an instruction that stores into a static field is one that loads from it (C34), so
after writing and reading the class the method does not store anything. -/
theorem C67_violated : ¬ C67_full := by
  intro h
  have key : (match Class.read (fun _ _ l => l) storeFile with
      | .ok (x, _) => (bootstrapTable x.attrs).isNone && (hasStore (completed x) && match (completed x).write with
        | .ok out => decide (out.length < 2 ^ 32) && match Class.read (fun _ _ l => l) out with
          | .ok (y, _) => !hasStore y
          | .error _ => false
        | .error _ => false)
      | .error _ => false) = true := by decide +kernel
  split at key
  · rename_i x rest hx
    simp only [Bool.and_eq_true] at key
    obtain ⟨hb, hs, key⟩ := key
    have hT : ¬ Circular (bsmTable x.attrs) := by
      rw [bootstrapTable_eq, Option.isNone_iff_eq_none.mp hb]
      exact acyclic_static nofun
    have hw := C66_written_partial _ (fun _ _ l => List.Perm.refl l) _ _ _ hx hT
    rcases ho : (completed x).write with e | out <;> rw [ho] at key hw
    · cases key
    · simp only [Bool.and_eq_true, decide_eq_true_eq] at key
      obtain ⟨y, hy, hr⟩ := h _ (fun _ _ l => List.Perm.refl l) _ _ out x hx hw (by decide +kernel) key.1
      have h2 := key.2
      rw [hy] at h2
      simp only [restored_stores hr hs] at h2
      cases h2
  · cases key

end Verif.Props
