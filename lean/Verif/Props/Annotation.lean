import Verif.Lemmas.Annotation
import Verif.Lemmas.Neat
import Verif.Props.Frame
import Verif.Props.Cp

/-! # Properties C43 and C50: annotations -/

namespace Verif.Props
open Verif Spec

/-! ## C43 -/

/-- Full claim: an element value whose types have descriptors and whose lists have at most 65535
entries reads back unchanged. -/
def C43_full : Prop := ∀ (v : AnnValue) (cp cp' : VecCp) (bs : Bytes) (P : Pool),
  Expressible false v → Distinct v → Steps VecCp.new cp → v.write cp = .ok (bs, cp') →
  Agrees P cp'.entries → ∀ (cs : Option (List Catch)) (st : RSt) (rest : Bytes),
    AnnValue.read ⟨P, cs⟩ st (bs ++ rest) = .ok (v, st, rest)

/-- Proved: a written value has the layout of the specification. Missing from the full claim:
`Class` values whose name holds a surrogate. -/
theorem C43_layout_partial (env : WEnv) (v : AnnValue) (hv : Expressible true v) (cp cp' : VecCp)
    (bs : Bytes) (W : World) (h0 : Steps VecCp.new cp) (h : v.write cp = .ok (bs, cp'))
    (hW : W.Fits cp') : value (env.ctx W) v bs :=
  ((writes_value env v hv) cp bs cp' (steps_ok h0 VecCp.inv_new).1 h).2 W hW

/-- Whatever tool wrote it, a value laid out as the specification says is read as that value. -/
theorem C43_read (c : Ctx) (v : AnnValue) (bs : Bytes) (h : value c v bs) (hd : Distinct v)
    (cs : Option (List Catch)) (st : RSt) (rest : Bytes) :
    AnnValue.read ⟨c.pool, cs⟩ st (bs ++ rest) = .ok (v, st, rest) :=
  reads_annValue cs h hd st rest

theorem C43_roundtrip_partial (v : AnnValue) (hv : Expressible true v) (hd : Distinct v)
    (cp cp' : VecCp) (bs : Bytes) (P : Pool) (h0 : Steps VecCp.new cp)
    (h : v.write cp = .ok (bs, cp')) (hP : Agrees P cp'.entries) (cs : Option (List Catch)) (st : RSt)
    (rest : Bytes) : AnnValue.read ⟨P, cs⟩ st (bs ++ rest) = .ok (v, st, rest) :=
  C43_read (WEnv.outside.ctx ⟨P, cp'.bsm⟩) v bs
    (C43_layout_partial WEnv.outside v hv cp cp' bs ⟨P, cp'.bsm⟩ h0 h ⟨hP, List.prefix_refl _⟩) hd cs st
    rest

/-- A file may give one name several values. The map that is read has each name once, and the value of
a name is the last one given. -/
theorem C43_repeated (c : Ctx) (a : Annotation) (bs : Bytes) (h : annotation c a bs)
    (hd : DistinctPairs a.vals) (cs : Option (List Catch)) (st : RSt) (rest : Bytes) :
    ∃ vals : Elems, Annotation.read ⟨c.pool, cs⟩ st (bs ++ rest) = .ok (⟨a.ty, vals⟩, st, rest) ∧
      (vals.map Prod.fst).Nodup ∧ ∀ k, vals.lookup k = a.vals.reverse.lookup k := by
  obtain ⟨b, b', rfl, h1, b1, b2, rfl, h2, rfl⟩ := h
  refine ⟨_, (PReads.ap (PReads.map (f := Annotation.mk) (reads_descr h1 cs))
    (reads_allElems cs h2 hd)).cast (by simp) st rest, ?_, fun k => ?_⟩
  · have hn : ∀ (ps : Elems) (m : Elems), (m.map Prod.fst).Nodup →
        ((ps.foldl (fun (m : Elems) p => m.put p.1 p.2) m).map Prod.fst).Nodup := by
      intro ps
      induction ps with
      | nil => exact fun m hm => hm
      | cons p ps ih => exact fun m hm => ih _ (put_nodup _ _ hm)
    exact hn _ [] (by simp)
  · rw [lookup_last]
    exact Option.or_none

/-- The name `v` twice, first 1 and then 2 of the pool, and `w` between them. -/
example : ∃ vals : Elems, Annotation.read ⟨fun i => [(1, .utf8 [0x4c, 0x41, 0x3b]), (2, .utf8 [0x76]),
      (3, .utf8 [0x77]), (4, .int 1), (5, .int 2)].lookup i, none⟩ ⟨[], none⟩
        [0, 1, 0, 3, 0, 2, 0x49, 0, 4, 0, 3, 0x49, 0, 4, 0, 2, 0x49, 0, 5] =
      .ok (⟨.ref [0x41], vals⟩, ⟨[], none⟩, []) ∧ vals.lookup [0x76] = some (.int 2) ∧
      vals.lookup [0x77] = some (.int 1) := by
  obtain ⟨vals, h, _, hl⟩ := C43_repeated
    ⟨fun i => [(1, .utf8 [0x4c, 0x41, 0x3b]), (2, .utf8 [0x76]), (3, .utf8 [0x77]), (4, .int 1),
      (5, .int 2)].lookup i, [], fun _ => none, fun _ => none⟩
    ⟨.ref (encodeCps [0x41]), [([0x76], .int 1), ([0x77], .int 1), ([0x76], .int 2)]⟩
    [0, 1, 0, 3, 0, 2, 0x49, 0, 4, 0, 3, 0x49, 0, 4, 0, 2, 0x49, 0, 5] (by
      refine ⟨[0, 1], [0, 3, 0, 2, 0x49, 0, 4, 0, 3, 0x49, 0, 4, 0, 2, 0x49, 0, 5], rfl,
        ⟨1, ⟨.field (.ref (ns := [0x41]) ⟨by decide, trivial⟩ (by decide)), _,
          .ref (ns := [0x41]) ⟨by decide, trivial⟩, rfl⟩, rfl⟩,
        [0, 3, 0, 2, 0x49, 0, 4, 0, 3, 0x49, 0, 4, 0, 2, 0x49, 0, 5], [], rfl, ⟨by decide,
        [0, 2, 0x49, 0, 4, 0, 3, 0x49, 0, 4, 0, 2, 0x49, 0, 5], rfl, ?_⟩, rfl⟩
      simp only [pairs, value]
      exact ⟨[0, 2], [0x49, 0, 4], _, rfl, ⟨2, rfl, rfl⟩, ⟨[0, 4], rfl, 4, ⟨1, rfl, rfl⟩, rfl⟩,
        [0, 3], [0x49, 0, 4], _, rfl, ⟨3, rfl, rfl⟩, ⟨[0, 4], rfl, 4, ⟨1, rfl, rfl⟩, rfl⟩,
        [0, 2], [0x49, 0, 5], _, rfl, ⟨2, rfl, rfl⟩, ⟨[0, 5], rfl, 5, ⟨2, rfl, rfl⟩, rfl⟩, rfl⟩)
    (by simp [DistinctPairs, Distinct]) none ⟨[], none⟩ []
  exact ⟨vals, h, by rw [hl]; rfl, by rw [hl]; rfl⟩

/-- Annotations and their element maps. -/
theorem C43_annotation_partial (a : Annotation) (ht : IsDescriptor a.ty) (hl : a.vals.length < 65536)
    (hv : ExpressiblePairs true a.vals) (hd : Keyed a.vals) (cp cp' : VecCp) (bs : Bytes) (P : Pool)
    (h0 : Steps VecCp.new cp) (h : a.write cp = .ok (bs, cp')) (hP : Agrees P cp'.entries)
    (cs : Option (List Catch)) (st : RSt) (rest : Bytes) :
    Annotation.read ⟨P, cs⟩ st (bs ++ rest) = .ok (a, st, rest) := by
  have hw := ((writes_annotation WEnv.outside ht hl hv) cp bs cp' (steps_ok h0 VecCp.inv_new).1 h).2
    ⟨P, cp'.bsm⟩ ⟨hP, List.prefix_refl _⟩
  exact reads_annotation cs hw hd st rest

theorem typeAnnotation_roundtrip {T : Type} {w : T → Ins Bytes} {r : Rd T} {f : Fmt T}
    (hw : ∀ env x, Writes env (w x) f x)
    (hr : ∀ (c : Ctx) cs x bs, f c x bs → PReads r ⟨c.pool, cs⟩ bs x)
    {a : TypeAnnotation T} (ha : TypeAnnOk a) (hd : Keyed a.vals) {cp cp' : VecCp} {bs : Bytes}
    {P : Pool} (h0 : Steps VecCp.new cp) (h : a.write w cp = .ok (bs, cp'))
    (hP : Agrees P cp'.entries) (cs : Option (List Catch)) (st : RSt) (rest : Bytes) :
    TypeAnnotation.read r ⟨P, cs⟩ st (bs ++ rest) = .ok (a, st, rest) := by
  have hl := ((writes_typeAnnotation (hw WEnv.outside a.target) ha) cp bs cp'
    (steps_ok h0 VecCp.inv_new).1 h).2 ⟨P, cp'.bsm⟩ ⟨hP, List.prefix_refl _⟩
  exact reads_typeAnnotation cs (hr (WEnv.outside.ctx ⟨P, cp'.bsm⟩) cs) hl hd st rest

/-- Type annotations of classes, methods and fields. -/
theorem C43_class_annotation_partial (a : TypeAnnotation ClassTarget) (ha : TypeAnnOk a)
    (hd : Keyed a.vals) (cp cp' : VecCp) (bs : Bytes) (P : Pool) (h0 : Steps VecCp.new cp)
    (h : a.write ClassTarget.write cp = .ok (bs, cp')) (hP : Agrees P cp'.entries)
    (cs : Option (List Catch)) (st : RSt) (rest : Bytes) :
    TypeAnnotation.read ClassTarget.read ⟨P, cs⟩ st (bs ++ rest) = .ok (a, st, rest) :=
  typeAnnotation_roundtrip writes_classTarget (fun _ cs _ _ h => reads_classTarget cs h) ha hd h0 h hP cs
    st rest

theorem C43_method_annotation_partial (a : TypeAnnotation MethodTarget) (ha : TypeAnnOk a)
    (hd : Keyed a.vals) (cp cp' : VecCp) (bs : Bytes) (P : Pool) (h0 : Steps VecCp.new cp)
    (h : a.write MethodTarget.write cp = .ok (bs, cp')) (hP : Agrees P cp'.entries)
    (cs : Option (List Catch)) (st : RSt) (rest : Bytes) :
    TypeAnnotation.read MethodTarget.read ⟨P, cs⟩ st (bs ++ rest) = .ok (a, st, rest) :=
  typeAnnotation_roundtrip writes_methodTarget (fun _ cs _ _ h => reads_methodTarget cs h) ha hd h0 h hP
    cs st rest

theorem C43_field_annotation_partial (a : TypeAnnotation FieldTarget) (ha : TypeAnnOk a)
    (hd : Keyed a.vals) (cp cp' : VecCp) (bs : Bytes) (P : Pool) (h0 : Steps VecCp.new cp)
    (h : a.write FieldTarget.write cp = .ok (bs, cp')) (hP : Agrees P cp'.entries)
    (cs : Option (List Catch)) (st : RSt) (rest : Bytes) :
    TypeAnnotation.read FieldTarget.read ⟨P, cs⟩ st (bs ++ rest) = .ok (a, st, rest) :=
  typeAnnotation_roundtrip writes_fieldTarget (fun _ cs _ _ h => reads_fieldTarget cs h) ha hd h0 h hP cs
    st rest

/-- What is written for them has the layout of the specification. -/
theorem C43_class_layout_partial (env : WEnv) (a : TypeAnnotation ClassTarget) (ha : TypeAnnOk a)
    (cp cp' : VecCp) (bs : Bytes) (W : World) (h0 : Steps VecCp.new cp)
    (h : a.write ClassTarget.write cp = .ok (bs, cp')) (hW : W.Fits cp') :
    typeAnnotation classTarget (env.ctx W) a bs :=
  ((writes_typeAnnotation (writes_classTarget env a.target) ha) cp bs cp'
    (steps_ok h0 VecCp.inv_new).1 h).2 W hW

theorem C43_method_layout_partial (env : WEnv) (a : TypeAnnotation MethodTarget) (ha : TypeAnnOk a)
    (cp cp' : VecCp) (bs : Bytes) (W : World) (h0 : Steps VecCp.new cp)
    (h : a.write MethodTarget.write cp = .ok (bs, cp')) (hW : W.Fits cp') :
    typeAnnotation methodTarget (env.ctx W) a bs :=
  ((writes_typeAnnotation (writes_methodTarget env a.target) ha) cp bs cp'
    (steps_ok h0 VecCp.inv_new).1 h).2 W hW

theorem C43_field_layout_partial (env : WEnv) (a : TypeAnnotation FieldTarget) (ha : TypeAnnOk a)
    (cp cp' : VecCp) (bs : Bytes) (W : World) (h0 : Steps VecCp.new cp)
    (h : a.write FieldTarget.write cp = .ok (bs, cp')) (hW : W.Fits cp') :
    typeAnnotation fieldTarget (env.ctx W) a bs :=
  ((writes_typeAnnotation (writes_fieldTarget env a.target) ha) cp bs cp'
    (steps_ok h0 VecCp.inv_new).1 h).2 W hW

/-- Reading does not depend on the fuel the model gives it: any amount above the number of remaining
bytes has the same result, for every input whatsoever. -/
theorem C43_fuel (n m : Nat) (env : REnv) (st : RSt) (bs : Bytes) (hn : bs.length < n)
    (hm : bs.length < m) : AnnValue.readF n env st bs = AnnValue.readF m env st bs :=
  readF_same n m env st bs (by omega)

theorem surrogate_desc : Desc (.ref (encodeCps [0xD800])) (0x4C :: ([0xD800] ++ [0x3B])) :=
  .ref ⟨by decide, trivial⟩

theorem replaced_desc : Desc (.ref (encodeCps [0xFFFD])) (0x4C :: ([0xFFFD] ++ [0x3B])) :=
  .ref ⟨by decide, trivial⟩

/-- A class whose name holds a surrogate reads back as another class. -/
theorem C43_violated : ¬ C43_full := by
  intro h
  let e : Entry := .utf8 (encodeCps [0x4C, 0xFFFD, 0x3B])
  have hw : (AnnValue.cls (some (.ref (encodeCps [0xD800])))).write VecCp.new =
      .ok ([0x63, 0, 1], ⟨[e], [(e, 1)], 2, []⟩) := by
    rw [AnnValue.write]
    show wSeq [wNum u8 0x63, wUtf8 (JType.display _)] VecCp.new = _
    rw [JType.display_desc surrogate_desc]
    rfl
  obtain ⟨P, hP⟩ := agrees_exists [e]
  have h1 : P 1 = some e := hP 1 e ⟨[], [], rfl, rfl⟩
  have h2 := h (.cls (some (.ref (encodeCps [0xD800])))) VecCp.new _ _ P (by
    rw [Expressible]
    exact ⟨.field (.ref ⟨by decide, trivial⟩ (by decide)), by simp⟩) (by simp [Distinct]) (.refl _) hw hP none ⟨[], none⟩ []
  have h3 := C43_read ⟨P, [], fun _ => none, fun _ => none⟩ (.cls (some (.ref (encodeCps [0xFFFD]))))
    [0x63, 0, 1] (by
      rw [value]
      exact ⟨[0, 1], rfl, 1, ⟨.field (.ref ⟨by decide, trivial⟩ (by decide)), _, replaced_desc, h1⟩, rfl⟩) (by simp [Distinct]) none ⟨[], none⟩ []
  have e := h2.symm.trans h3
  simp only [Except.ok.injEq, Prod.mk.injEq, AnnValue.cls.injEq, Option.some.injEq, JType.ref.injEq] at e
  exact absurd e.1 (by decide)

/-- A list of one value already in the pool. -/
theorem writeList_replicate {v : AnnValue} {cp : VecCp} {b : Bytes} (h : v.write cp = .ok (b, cp)) :
    ∀ n, AnnValue.writeList (List.replicate n v) cp = .ok ((List.replicate n b).flatten, cp)
  | 0 => by
    simp only [List.replicate_zero]
    rw [AnnValue.writeList]
    rfl
  | n + 1 => by
    rw [List.replicate_succ, List.replicate_succ, AnnValue.writeList]
    rw [wSeq_cons_ok h (wSeq_cons_ok (writeList_replicate h n) (b := []) (cp'' := cp) rfl)]
    simp

theorem write_array {v : AnnValue} {cp : VecCp} {b : Bytes} (h : v.write cp = .ok (b, cp)) (n : Nat) :
    (AnnValue.array (List.replicate n v)).write cp =
      .ok (U1 0x5b ++ U2 (n % 65536) ++ (List.replicate n b).flatten, cp) := by
  rw [AnnValue.write, List.length_replicate, wSeq_cons_ok (a := U1 0x5b) (cp' := cp) rfl
    (wSeq_cons_ok (a := U2 (n % 65536)) (cp' := cp) ?_
      (wSeq_cons_ok (writeList_replicate h n) (b := []) (cp'' := cp) rfl))]
  · simp
  · show Except.ok (u16.write (UInt16.ofNat n), cp) = _
    rw [u16_write, UInt16.toNat_ofNat']

theorem flatten_replicate_length (n : Nat) (b : Bytes) :
    (List.replicate n b).flatten.length = n * b.length := by
  simp [List.length_flatten]

/-- The pool holding the integer 0. -/
def zeroPool : VecCp := ⟨[.int 0], [(.int 0, 1)], 2, []⟩

theorem zeroPool_steps : Steps VecCp.new zeroPool := .raw (.refl _) (e := .int 0) (i := 1) rfl

/-- The bound on the lengths is needed: the number of entries is truncated without an error, and an
array of 65536 values reads back as an empty array followed by 196608 bytes of garbage. -/
theorem C43_truncated : ∃ (v : AnnValue) (bs : Bytes), v = .array (List.replicate 65536 (.int 0)) ∧
    v.write zeroPool = .ok (bs, zeroPool) ∧ ∀ env st rest, ∃ more, more.length = 196608 + rest.length ∧
      AnnValue.read env st (bs ++ rest) = .ok (.array [], st, more) := by
  refine ⟨_, _, rfl, write_array (b := [0x49, 0, 1]) (by rw [AnnValue.write]; rfl) 65536, ?_⟩
  intro env st rest
  refine ⟨(List.replicate 65536 ([0x49, 0, 1] : Bytes)).flatten ++ rest, ?_, ?_⟩
  · rw [List.length_append, flatten_replicate_length]
    rfl
  · generalize (List.replicate 65536 ([0x49, 0, 1] : Bytes)).flatten = l
    rw [List.append_assoc]
    have hv : value ⟨env.pool, [], fun _ => none, fun _ => none⟩ (.array []) (U1 0x5b ++ U2 0) := by
      rw [value]
      exact ⟨[], by simp, by simp, by simp [values]⟩
    exact C43_read ⟨env.pool, [], fun _ => none, fun _ => none⟩ (.array []) _ hv (by
      rw [Distinct, DistinctAll]
      trivial) env.catches st (l ++ rest)

/-- An annotation `@LA;(b = {1, class V, @LB;(c = E.x)})`. -/
def sampleAnnotation : AnnValue := .annotation (.ref (encodeCps [0x41]))
  [([0x62], .array [.int 1, .cls none, .annotation (.ref (encodeCps [0x42]))
    [([0x63], .enum (.ref (encodeCps [0x45])) [0x78])]])]

theorem sampleAnnotation_ok : Expressible true sampleAnnotation ∧ Distinct sampleAnnotation := by
  have h (n : Nat) (h : ValidCps [n] ∧ n ≠ 0x3B) : IsDescriptor (.ref (encodeCps [n])) :=
    .field (.ref h.1 (by simpa using h.2.symm))
  constructor
  · simp [sampleAnnotation, Expressible, ExpressibleAll, ExpressiblePairs]
    exact ⟨h _ ⟨⟨by decide, trivial⟩, by decide⟩, h _ ⟨⟨by decide, trivial⟩, by decide⟩,
      h _ ⟨⟨by decide, trivial⟩, by decide⟩⟩
  · simp [sampleAnnotation, Distinct, DistinctAll, DistinctPairs]

example : (match sampleAnnotation.write VecCp.new with
    | .ok (bs, cp) => (bs.length, cp.entries.length)
    | .error _ => (0, 0)) = (28, 8) := by
  unfold sampleAnnotation
  simp only [AnnValue.write, AnnValue.writeList, AnnValue.writeElems]
  decide +kernel

/-! ## C50 -/

/-- Full claim: what the writer accepts designates the target it was given. -/
def C50_full : Prop := ∀ (env : WEnv) (a : TypeAnnotation CodeTarget) (cp cp' : VecCp) (bs : Bytes)
  (W : World), TypeAnnOk a → Steps VecCp.new cp → a.write (CodeTarget.write env) cp = .ok (bs, cp') →
  W.Fits cp' → typeAnnotation codeTarget (env.ctx W) a bs

/-- Proved: the claim for targets other than the parameter of an unknown handler. -/
theorem C50_layout_partial (env : WEnv) (a : TypeAnnotation CodeTarget) (ha : TypeAnnOk a)
    (ht : CodeTargetOk env a.target) (cp cp' : VecCp) (bs : Bytes) (W : World)
    (h0 : Steps VecCp.new cp) (h : a.write (CodeTarget.write env) cp = .ok (bs, cp'))
    (hW : W.Fits cp') : typeAnnotation codeTarget (env.ctx W) a bs :=
  ((writes_typeAnnotation (writes_codeTarget env a.target ht) ha) cp bs cp'
    (steps_ok h0 VecCp.inv_new).1 h).2 W hW

/-- Reading: the target comes back with the labels of the same positions and the handler at the same
index. -/
theorem C50_read (c : Ctx) (cs : List Catch) (a : TypeAnnotation CodeTarget) (bs : Bytes)
    (h : typeAnnotation codeTarget c a bs) (hd : Keyed a.vals) (g : Catch → Catch)
    (hg : ∀ k n, a.target = .catchParam k → c.handler k = some n → cs[n]? = some (g k))
    (p : List UInt16) (m : LabelMap) (rest : Bytes) :
    ∃ (ρ : Label → Label) (m' : LabelMap), m <+: m' ∧
      TypeAnnotation.read CodeTarget.read ⟨c.pool, some cs⟩ ⟨p, some m⟩ (bs ++ rest) =
        .ok ({ a with target := renTarget ρ g a.target }, ⟨p, some m'⟩, rest) ∧
      ∀ l ∈ targetLabels a.target, ∃ o, c.pos l = some o ∧ m'.lookup (UInt32.ofNat o) = some (ρ l) := by
  have hg' : Handlers c cs g (targetCatches a.target) := by
    intro k hk n hn
    cases ht : a.target with
    | catchParam k' =>
      rw [ht] at hk
      simp only [targetCatches, List.mem_singleton] at hk
      subst hk
      exact hg k n ht hn
    | _ => rw [ht] at hk; cases hk
  have hr := reads_codeAnnotation hg' h hd
  let m' := LabelMap.addAll m (offsTarget c a.target)
  refine ⟨c.ren m'.num, m', LabelMap.prefix_addAll _ _, ?_, ?_⟩
  · have := hr ⟨p, some m⟩ rest (by simp) m' (by
      intro ls hls
      cases hls
      exact List.prefix_refl _)
    simp only [List.append_nil] at this
    exact this
  · intro l hl
    obtain ⟨o, ho⟩ : ∃ o, c.pos l = some o := by
      obtain ⟨b, b', rfl, h1, _⟩ := h
      have h1 : codeTarget c a.target b := h1
      have hloc : ∀ (ts : List LocalVarTarget) (b : Bytes), Fmt.all localTarget c ts b →
          ∀ t ∈ ts, (∃ o, c.pos t.start = some o) ∧ ∃ o, c.pos t.stop = some o := by
        intro ts
        induction ts with
        | nil => intro b _ t ht; cases ht
        | cons t ts ih =>
          rintro b ⟨b1, b2, rfl, ⟨s, e, h1, h2, _⟩, h3⟩ t' ht'
          rcases List.mem_cons.mp ht' with rfl | ht'
          · exact ⟨⟨s, h1⟩, e, h2⟩
          · exact ih b2 h3 t' ht'
      cases ht : a.target with
      | catchParam k => rw [ht] at hl; cases hl
      | localVar ts =>
        rw [ht] at hl h1
        obtain ⟨_, _, _, _, _, h1⟩ := h1
        simp only [targetLabels, List.mem_flatMap] at hl
        obtain ⟨t, h2, h3⟩ := hl
        have := hloc ts _ h1 t h2
        simp only [List.mem_cons, List.not_mem_nil, or_false] at h3
        rcases h3 with rfl | rfl
        · exact this.1
        · exact this.2
      | resourceVar ts =>
        rw [ht] at hl h1
        obtain ⟨_, _, _, _, _, h1⟩ := h1
        simp only [targetLabels, List.mem_flatMap] at hl
        obtain ⟨t, h2, h3⟩ := hl
        have := hloc ts _ h1 t h2
        simp only [List.mem_cons, List.not_mem_nil, or_false] at h3
        rcases h3 with rfl | rfl
        · exact this.1
        · exact this.2
      | instanceOf l' | new l' | newRef l' | methodRef l' =>
        rw [ht] at hl h1
        obtain ⟨_, _, n, h1, _⟩ := h1
        simp only [targetLabels, List.mem_singleton] at hl
        subst hl
        exact ⟨n, h1⟩
      | cast l' i | newArg l' i | methodArg l' i | newRefArg l' i | methodRefArg l' i =>
        rw [ht] at hl h1
        obtain ⟨_, _, _, _, _, ⟨n, h1, _⟩, _⟩ := h1
        simp only [targetLabels, List.mem_singleton] at hl
        subst hl
        exact ⟨n, h1⟩
    refine ⟨o, ho, ?_⟩
    have hmem : UInt32.ofNat o ∈ offsTarget c a.target := by
      simp only [offsTarget, List.mem_flatMap]
      exact ⟨l, hl, by simp [Ctx.offs, ho]⟩
    obtain ⟨k, hk⟩ := mem_addAll (m := m) hmem
    simp only [Ctx.ren, ho, LabelMap.num, m', hk, Option.getD_some]

/-- An environment without handlers, and an annotation of the parameter of a handler. -/
def lostEnv : WEnv := ⟨fun _ => .ok 0, fun _ => .ok none⟩
def lostParam : TypeAnnotation CodeTarget := ⟨.catchParam ⟨0, 0, 0, none⟩, [], .int, []⟩

theorem lostParam_write : lostParam.write (CodeTarget.write lostEnv) VecCp.new =
    .ok ([0x42, 0, 0, 1, 0, 0], ⟨[.utf8 [0x49]], [(.utf8 [0x49], 1)], 2, []⟩) := by
  rw [TypeAnnotation.write, Elems.write, show lostParam.vals = [] from rfl, AnnValue.writeElems, wType,
    show JType.toWtf8 lostParam.ty = [0x49] from C15_write_text .int,
    wSeq_cons_ok (a := [0x42]) (cp' := VecCp.new) rfl (wSeq_cons_ok (a := [0]) (cp' := VecCp.new) rfl
      (wSeq_cons_ok (a := [0, 1]) rfl (wSeq_cons_ok (a := [0, 0]) (b := []) rfl rfl)))]
  rfl

/-- The parameter of a handler that is not in the exception table: the index is left out without an
error, so that what follows is taken for it. -/
theorem C50_violated : ¬ C50_full := by
  intro h
  obtain ⟨P, hP⟩ := agrees_exists [.utf8 [0x49]]
  have := h lostEnv lostParam VecCp.new _ _ ⟨P, []⟩ ⟨.field .int, by decide, by
    show ExpressiblePairs true []
    rw [ExpressiblePairs]
    trivial⟩ (.refl _) lostParam_write ⟨hP, List.prefix_refl _⟩
  obtain ⟨b, b', _, ⟨b1, _, n, hn, _⟩, _⟩ := this
  cases hn

/-- A range that ends before it starts is neither written nor refused: the subtraction overflows. -/
theorem C50_backwards (env : WEnv) (t : LocalVarTarget) (s e : UInt16) (hs : env.label t.start = .ok s)
    (he : env.label t.stop = .ok e) (h : e < s) (cp : VecCp) : t.write env cp = .error .panic := by
  show Ins.bind _ _ cp = _
  simp only [Ins.bind, Ins.lift, hs]
  show Ins.bind _ _ cp = _
  simp only [Ins.bind, Ins.lift, he, if_pos h]
  rfl

/-- A range 2..7 of variable 3, and what is written for it. -/
example : LocalVarTarget.write ⟨fun l => .ok (if l = 1 then 2 else 7), fun _ => .ok none⟩ ⟨1, 2, 3⟩ VecCp.new =
      .ok ([0, 2, 0, 5, 0, 3], VecCp.new) := rfl

end Verif.Props
