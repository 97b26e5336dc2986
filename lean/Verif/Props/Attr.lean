import Verif.Lemmas.Local
import Verif.Props.Frame
import Verif.Props.Cp

/-! # Properties C42 and C44: attributes and fields -/

namespace Verif.Props
open Verif Spec Sig

/-! ## C42 -/

/-- Full claim about writing: an attribute is laid out as its name, the length of its payload and the
payload. -/
def C42_full : Prop :=
  (∀ (a : ClassAttr) (cp cp' : VecCp) (bs : Bytes) (W : World), a.Writable → Steps VecCp.new cp →
    a.write cp = .ok (bs, cp') → W.Fits cp' → classAttr (WEnv.outside.ctx W) a bs) ∧
  ∀ (a : FieldAttr) (cp cp' : VecCp) (bs : Bytes) (W : World), a.Writable → Steps VecCp.new cp →
    a.write cp = .ok (bs, cp') → W.Fits cp' → fieldAttr (WEnv.outside.ctx W) a bs

/-- Proved: the claim for attributes of fewer than 2^32 bytes. -/
theorem C42_class_layout_partial (a : ClassAttr) (ha : a.Writable) (cp cp' : VecCp) (bs : Bytes)
    (W : World) (h0 : Steps VecCp.new cp) (h : a.write cp = .ok (bs, cp')) (hW : W.Fits cp')
    (hl : bs.length < 4294967296) : classAttr (WEnv.outside.ctx W) a bs :=
  ((writes_classAttr WEnv.outside a ha) cp bs cp' (steps_ok h0 VecCp.inv_new).1 h).2 W hW hl

theorem C42_field_layout_partial (a : FieldAttr) (ha : a.Writable) (cp cp' : VecCp) (bs : Bytes)
    (W : World) (h0 : Steps VecCp.new cp) (h : a.write cp = .ok (bs, cp')) (hW : W.Fits cp')
    (hl : bs.length < 4294967296) : fieldAttr (WEnv.outside.ctx W) a bs :=
  ((writes_fieldAttr WEnv.outside a ha) cp bs cp' (steps_ok h0 VecCp.inv_new).1 h).2 W hW hl

/-- An attribute with a long payload is written with a wrong length, without an error. -/
theorem C42_violated : ¬ C42_full := by
  intro h
  have key : ∀ n : Nat, 4294967296 ≤ n → False := by
    intro n hn
    obtain ⟨P, hP⟩ := agrees_exists [.utf8 [0x58]]
    obtain ⟨i, body, _, hb, hl, _⟩ := h.2 (.raw ⟨[0x58], List.replicate n 0⟩) VecCp.new
      ⟨[.utf8 [0x58]], _, 2, []⟩ _ ⟨P, []⟩ trivial (.refl _) rfl ⟨hP, List.prefix_refl _⟩
    rw [show body = List.replicate n 0 from hb, List.length_replicate] at hl
    omega
  exact key 4294967296 (Nat.le_refl _)

/-- An attribute that the library does not know is read as its name and payload, whatever the payload
holds and whatever follows, ... -/
theorem C42_raw_class (P : Pool) (i : UInt16) (name body rest : Bytes) (hi : IsUtf8 P i name)
    (hn : name ∉ classAttrNames) (hl : body.length < 4294967296) (cs : Option (List Catch)) (st : RSt) :
    ClassAttr.read ⟨P, cs⟩ st (U2 i.toNat ++ U4 body.length ++ body ++ rest) =
      .ok (.raw ⟨name, body⟩, st, rest) :=
  PReads.rawAttr (c := ⟨P, [], fun _ => none, fun _ => none⟩) hi (classTable_none hn) hl st rest

theorem C42_raw_field (P : Pool) (i : UInt16) (name body rest : Bytes) (hi : IsUtf8 P i name)
    (hn : name ∉ fieldAttrNames) (hl : body.length < 4294967296) (cs : Option (List Catch)) (st : RSt) :
    FieldAttr.read ⟨P, cs⟩ st (U2 i.toNat ++ U4 body.length ++ body ++ rest) =
      .ok (.raw ⟨name, body⟩, st, rest) :=
  PReads.rawAttr (c := ⟨P, [], fun _ => none, fun _ => none⟩) hi (fieldTable_none hn) hl st rest

/-- ... and written back with the same name and payload. -/
theorem C42_raw_write (name body : Bytes) (hl : body.length < 4294967296) (cp cp' : VecCp) (bs : Bytes)
    (P : Pool) (h0 : Steps VecCp.new cp)
    (h : (ClassAttr.raw ⟨name, body⟩).write cp = .ok (bs, cp') ∨
      (FieldAttr.raw ⟨name, body⟩).write cp = .ok (bs, cp'))
    (hP : Agrees P cp'.entries) :
    ∃ i : UInt16, IsUtf8 P i name ∧ bs = U2 i.toNat ++ U4 body.length ++ body := by
  have h : wRaw ⟨name, body⟩ cp = .ok (bs, cp') := h.elim id id
  obtain ⟨i, cp1, h1, h2⟩ := Ins.bind_ok h
  cases h2
  refine ⟨i, (good_wtf8 name cp i cp' (steps_ok h0 VecCp.inv_new).1 h1).2 P hP, ?_⟩
  rw [u16_write, u32_write]
  simp only [UInt32.toNat_ofNat']
  rw [Nat.mod_eq_of_lt (by omega)]

/-- "X" with payload 1 2 3 survives between two other attributes. -/
example : ∃ P : Pool, FieldAttr.read ⟨P, none⟩ ⟨[], none⟩ [0, 1, 0, 0, 0, 3, 1, 2, 3, 0, 1, 0] =
    .ok (.raw ⟨[0x58], [1, 2, 3]⟩, ⟨[], none⟩, [0, 1, 0]) := by
  obtain ⟨P, hP⟩ := agrees_exists [.utf8 [0x58]]
  exact ⟨P, C42_raw_field P 1 [0x58] [1, 2, 3] [0, 1, 0] (hP 1 _ ⟨[], [], rfl, rfl⟩) (by decide) (by decide)
    none ⟨[], none⟩⟩

theorem fieldTable_some {n : Bytes} (h : n ∈ fieldAttrNames) : ∃ r, FieldAttr.table n = some r := by
  simp only [fieldAttrNames, List.mem_cons, List.not_mem_nil, or_false] at h
  rcases h with rfl | rfl | rfl | rfl | rfl | rfl | rfl | rfl <;> exact ⟨_, rfl⟩

theorem classTable_some {n : Bytes} (h : n ∈ classAttrNames) : ∃ r, ClassAttr.table n = some r := by
  simp only [classAttrNames, List.mem_cons, List.not_mem_nil, or_false] at h
  rcases h with rfl | rfl | rfl | rfl | rfl | rfl | rfl | rfl | rfl | rfl | rfl | rfl | rfl | rfl | rfl |
    rfl | rfl <;> exact ⟨_, rfl⟩

theorem payload_of_ok {α : Type} {table : Bytes → Option (Rd α)} {raw : RawAttribute → α} {P : Pool}
    {cs : Option (List Catch)} {name body : Bytes} {i : UInt16} {r : Rd α} {a : α} {st st' : RSt}
    (hi : IsUtf8 P i name) (ht : table name = some r) (hl : body.length < 4294967296)
    (h : rAttr table raw ⟨P, cs⟩ st (U2 i.toNat ++ U4 body.length ++ body) = .ok (a, st', [])) :
    r ⟨P, cs⟩ st body = .ok (a, st', []) := by
  have := rAttr_eq (rest := []) (cs := cs) table raw hi ht hl st
  rw [List.append_nil, h] at this
  rcases hr : r ⟨P, cs⟩ st body with e | ⟨x, st1, _ | ⟨y, ys⟩⟩
  · rw [hr] at this; cases this
  · rw [hr] at this; cases this; rfl
  · rw [hr] at this; cases this

/-- If a payload is accepted for a known attribute, then no longer and no shorter payload that agrees
with it is: bytes that the content does not account for and missing bytes are both refused, and
nothing beyond the stated length is looked at. -/
theorem C42_field_length (P : Pool) (cs : Option (List Catch)) (st st' : RSt) (i : UInt16)
    (name body : Bytes) (a : FieldAttr) (hi : IsUtf8 P i name) (hn : name ∈ fieldAttrNames)
    (hl : body.length < 4294967296)
    (h : FieldAttr.read ⟨P, cs⟩ st (U2 i.toNat ++ U4 body.length ++ body) = .ok (a, st', [])) :
    (∀ rest, FieldAttr.read ⟨P, cs⟩ st (U2 i.toNat ++ U4 body.length ++ body ++ rest) =
      .ok (a, st', rest)) ∧
    (∀ more rest, more ≠ [] → (body ++ more).length < 4294967296 →
      FieldAttr.read ⟨P, cs⟩ st (U2 i.toNat ++ U4 (body ++ more).length ++ (body ++ more) ++ rest) =
        .error (.attrLen (UInt32.ofNat (body ++ more).length) (UInt32.ofNat body.length) name)) ∧
    ∀ less more rest, body = less ++ more → more ≠ [] →
      ∃ e, FieldAttr.read ⟨P, cs⟩ st (U2 i.toNat ++ U4 less.length ++ less ++ rest) = .error e := by
  obtain ⟨r, ht⟩ := fieldTable_some hn
  have hr := Local.fieldTable r ht
  have hb := payload_of_ok hi ht hl h
  refine ⟨fun rest => ?_, fun more rest hm hml => attr_longer hi ht hr hb hm hml, ?_⟩
  · exact (rAttr_eq _ _ hi ht hl st).trans (by rw [hb])
  · rintro less more rest rfl hm
    simp only [List.length_append] at hl
    exact attr_shorter hi ht hr hb hm (by omega)

/-- The same for attributes of classes; the payload of `SourceDebugExtension` has no structure. -/
theorem C42_class_length (P : Pool) (cs : Option (List Catch)) (st st' : RSt) (i : UInt16)
    (name body : Bytes) (a : ClassAttr) (hi : IsUtf8 P i name) (hn : name ∈ classAttrNames)
    (hx : name ≠ N.sourceDebugExtension) (hl : body.length < 4294967296)
    (h : ClassAttr.read ⟨P, cs⟩ st (U2 i.toNat ++ U4 body.length ++ body) = .ok (a, st', [])) :
    (∀ rest, ClassAttr.read ⟨P, cs⟩ st (U2 i.toNat ++ U4 body.length ++ body ++ rest) =
      .ok (a, st', rest)) ∧
    (∀ more rest, more ≠ [] → (body ++ more).length < 4294967296 →
      ClassAttr.read ⟨P, cs⟩ st (U2 i.toNat ++ U4 (body ++ more).length ++ (body ++ more) ++ rest) =
        .error (.attrLen (UInt32.ofNat (body ++ more).length) (UInt32.ofNat body.length) name)) ∧
    ∀ less more rest, body = less ++ more → more ≠ [] →
      ∃ e, ClassAttr.read ⟨P, cs⟩ st (U2 i.toNat ++ U4 less.length ++ less ++ rest) = .error e := by
  obtain ⟨r, ht⟩ := classTable_some hn
  have hr := Local.classTable hx r ht
  have hb := payload_of_ok hi ht hl h
  refine ⟨fun rest => ?_, fun more rest hm hml => attr_longer hi ht hr hb hm hml, ?_⟩
  · exact (rAttr_eq _ _ hi ht hl st).trans (by rw [hb])
  · rintro less more rest rfl hm
    simp only [List.length_append] at hl
    exact attr_shorter hi ht hr hb hm (by omega)

/-- "SourceFile" with an index; a third byte is refused. -/
example : ∃ P : Pool,
    ClassAttr.read ⟨P, none⟩ ⟨[], none⟩ [0, 1, 0, 0, 0, 2, 0, 1] =
      .ok (.sourceFile N.sourceFile, ⟨[], none⟩, []) ∧
    ClassAttr.read ⟨P, none⟩ ⟨[], none⟩ [0, 1, 0, 0, 0, 3, 0, 1, 7] = .error (.attrLen 3 2 N.sourceFile) := by
  obtain ⟨P, hP⟩ := agrees_exists [.utf8 N.sourceFile]
  have h1 : IsUtf8 P 1 N.sourceFile := hP 1 _ ⟨[], [], rfl, rfl⟩
  have h2 : ClassAttr.read ⟨P, none⟩ ⟨[], none⟩ [0, 1, 0, 0, 0, 2, 0, 1] =
      .ok (.sourceFile N.sourceFile, ⟨[], none⟩, []) :=
    PReads.attr (c := ⟨P, [], fun _ => none, fun _ => none⟩) h1 rfl (PReads.map (f := ClassAttr.sourceFile)
      (reads_utf8 (bs := [0, 1]) ⟨1, h1, rfl⟩ none)) (by decide) ⟨[], none⟩ []
  exact ⟨P, h2, (C42_class_length P none _ _ 1 _ [0, 1] _ h1 (by decide) (by decide) (by decide) h2).2.1 [7] []
    (by simp) (by decide)⟩

/-! ## C44 -/

/-- Whatever tool wrote it, an attribute laid out as the JVMS says is read as that attribute; dynamic
bootstrap arguments come with the index of their bootstrap method. -/
theorem C44_class_read (c : Ctx) (a : ClassAttr) (bs : Bytes) (h : classAttr c a bs) (ha : a.Readable)
    (hT : c.bsm.length ≤ 65536) (cs : Option (List Catch)) (p : List UInt16) (rest : Bytes) :
    ∃ v q, ClassAttr.read ⟨c.pool, cs⟩ ⟨p, none⟩ (bs ++ rest) = .ok (v, ⟨p ++ q, none⟩, rest) ∧
      (∀ k ∈ q, k.toNat < c.bsm.length) ∧ resolveClassAttr c.bsm v = a := by
  obtain ⟨v, q, h1, hq, h2⟩ := reads_classAttr cs hT h ha
  exact ⟨v, q, h2 ⟨p, none⟩ rest (by simp) [] (by simp), hq, h1⟩

theorem C44_field_read (c : Ctx) (f : Field) (bs : Bytes) (h : field c f bs)
    (hf : ∀ a ∈ f.attrs, a.Readable) (cs : Option (List Catch)) (st : RSt) (rest : Bytes) :
    Field.read ⟨c.pool, cs⟩ st (bs ++ rest) = .ok (f, st, rest) :=
  reads_field cs h hf st rest

theorem C44_parameter_read (c : Ctx) (x : MethodParameter) (bs : Bytes) (h : methodParameter c x bs)
    (cs : Option (List Catch)) (st : RSt) (rest : Bytes) :
    MethodParameter.read ⟨c.pool, cs⟩ st (bs ++ rest) = .ok (x, st, rest) :=
  reads_methodParameter cs h st rest

/-- Full claim: attributes that can be expressed read back unchanged. -/
def C44_full : Prop := ∀ (a : ClassAttr) (cp cp' : VecCp) (bs : Bytes) (W : World), a.Writable →
  (∀ x, a = .raw x → x.name ∉ classAttrNames) → Steps VecCp.new cp → a.write cp = .ok (bs, cp') →
  W.Fits cp' → W.bsm.length ≤ 65536 → bs.length < 4294967296 → ∀ (cs : Option (List Catch)) rest,
    ∃ v q, ClassAttr.read ⟨W.pool, cs⟩ ⟨[], none⟩ (bs ++ rest) = .ok (v, ⟨q, none⟩, rest) ∧
      resolveClassAttr W.bsm v = a

/-- Proved: the claim for `Readable` attributes, on any later state of the pool. Missing: signatures
whose type parameters have several bounds (C19), field references flagged as interface members. -/
theorem C44_class_partial (a : ClassAttr) (ha : a.Writable) (hr : a.Readable) (cp cp' : VecCp)
    (bs : Bytes) (W : World) (h0 : Steps VecCp.new cp) (h : a.write cp = .ok (bs, cp'))
    (hW : W.Fits cp') (hT : W.bsm.length ≤ 65536) (hl : bs.length < 4294967296)
    (cs : Option (List Catch)) (p : List UInt16) (rest : Bytes) :
    ∃ v q, ClassAttr.read ⟨W.pool, cs⟩ ⟨p, none⟩ (bs ++ rest) = .ok (v, ⟨p ++ q, none⟩, rest) ∧
      (∀ k ∈ q, k.toNat < W.bsm.length) ∧ resolveClassAttr W.bsm v = a :=
  C44_class_read (WEnv.outside.ctx W) a bs (C42_class_layout_partial a ha cp cp' bs W h0 h hW hl) hr hT cs p
    rest

/-- Fields with their attributes. -/
theorem C44_field_partial (f : Field) (hf : f.Writable) (hr : ∀ a ∈ f.attrs, a.Readable)
    (cp cp' : VecCp) (bs : Bytes) (P : Pool) (h0 : Steps VecCp.new cp) (h : f.write cp = .ok (bs, cp'))
    (hP : Agrees P cp'.entries) (hl : bs.length < 4294967296) (cs : Option (List Catch)) (st : RSt)
    (rest : Bytes) : Field.read ⟨P, cs⟩ st (bs ++ rest) = .ok (f, st, rest) :=
  C44_field_read (WEnv.outside.ctx ⟨P, cp'.bsm⟩) f bs
    (((writes_field WEnv.outside hf) cp bs cp' (steps_ok h0 VecCp.inv_new).1 h).2 ⟨P, cp'.bsm⟩
      ⟨hP, List.prefix_refl _⟩ hl) hr cs st rest

/-- Parameters of methods. -/
theorem C44_parameter (x : MethodParameter) (hx : KnownFlags x.access) (cp cp' : VecCp) (bs : Bytes)
    (P : Pool) (h0 : Steps VecCp.new cp) (h : x.write cp = .ok (bs, cp')) (hP : Agrees P cp'.entries)
    (cs : Option (List Catch)) (st : RSt) (rest : Bytes) :
    MethodParameter.read ⟨P, cs⟩ st (bs ++ rest) = .ok (x, st, rest) :=
  C44_parameter_read (WEnv.outside.ctx ⟨P, cp'.bsm⟩) x bs
    (((writes_methodParameter WEnv.outside hx) cp bs cp' (steps_ok h0 VecCp.inv_new).1 h).2 ⟨P, cp'.bsm⟩
      ⟨hP, List.prefix_refl _⟩) cs st rest

/-- `<T:LA;:LA;>LA;` -/
def twoBounds : ClassSig := ⟨[⟨[0x54], some (.cls clsA), [.cls clsA]⟩], clsA, []⟩

def twoBoundsText : Str := [0x3C, 0x54, 0x3A, 0x4C, 0x41, 0x3B, 0x3A, 0x4C, 0x41, 0x3B, 0x3E, 0x4C, 0x41, 0x3B]

theorem twoBounds_text : ClassText twoBounds twoBoundsText :=
  .mk (.some (by simp) (.cons (.cls ident_T (.mk (.cls clsA_text)) (.cons (.mk (.cls clsA_text)) .nil)) .nil))
    clsA_text .nil

theorem C44_violated : ¬ C44_full := by
  intro h
  obtain ⟨P, hP⟩ := agrees_exists [.utf8 N.signature, .utf8 (encodeCps twoBoundsText)]
  obtain ⟨v, q, h1, h2⟩ := h (.signature twoBounds) VecCp.new
    ⟨[.utf8 N.signature, .utf8 (encodeCps twoBoundsText)], _, 3, []⟩ _ ⟨P, []⟩
    ⟨twoBoundsText, twoBounds_text, by decide⟩ (by intro x hx; cases hx) (.refl _) rfl
    ⟨hP, List.prefix_refl _⟩ (Nat.zero_le _) (by decide) none []
  have i1 : IsUtf8 P 1 N.signature := hP 1 _ ⟨[], [_], rfl, rfl⟩
  have i2 : IsUtf8 P 2 (encodeCps twoBoundsText) := hP 2 _ ⟨[_], [], rfl, rfl⟩
  have hr : PReads (rSig parseClass) ⟨P, none⟩ [0, 2]
      ⟨[⟨[0x54], some (.cls clsA), []⟩, ⟨[], some (.cls clsA), []⟩], clsA, []⟩ := by
    refine (PReads.bind (b2 := []) (PReads.idx (i := 2) (wtf8_of i2)) ?_).cast (List.append_nil _)
    have e : Wtf8.codepoints (Wtf8.toStringLossy (encodeCps twoBoundsText)) = some twoBoundsText := by
      rw [JType.toStringLossy_encode _ (by decide), Wtf8.map_repl_of_none _ (by decide),
        Wtf8.codepoints_encode _ (by decide)]
    rw [e]
    exact PReads.ofRes rfl
  have h3 := PReads.attr (c := ⟨P, [], fun _ => none, fun _ => none⟩) (table := ClassAttr.table)
    (raw := ClassAttr.raw) i1 rfl (PReads.map (f := ClassAttr.signature) hr) (by decide) ⟨[], none⟩ []
  have h1' : ClassAttr.read ⟨P, none⟩ ⟨[], none⟩ (U2 (1 : UInt16).toNat ++ U4 [0, 2].length ++ [0, 2] ++ []) =
    .ok (v, ⟨q, none⟩, []) := h1
  cases Eq.trans (Eq.symm h3) h1'
  simp only [resolveClassAttr, ClassAttr.signature.injEq, twoBounds] at h2
  cases h2

theorem knownFlags_of {t : FlagType} {f : Flags t} (h : f.bits &&& t.all = f.bits) : KnownFlags f := by
  intro k hk
  by_cases h16 : k < 16
  · rw [← h, UInt16.toNat_and, Nat.testBit_and, all_testBit t k h16] at hk
    simp at hk
    exact hk.2
  · have : f.bits.toNat.testBit k = false := Nat.testBit_lt_two_pow
      (Nat.lt_of_lt_of_le f.bits.toNat_lt (Nat.pow_le_pow_right (by omega) (by omega)))
    simp [this] at hk

/-- `open module M@1 { requires transitive B; exports P to B; uses C; provides C with D, E; }` -/
def sampleModule : Module where
  name := [0x4D]
  flags := ⟨0x20⟩
  version := some [0x31]
  requires := [⟨[0x42], ⟨0x20⟩, none⟩]
  exports := [⟨[0x50], ⟨0x1000⟩, [[0x42]]⟩]
  opens := []
  uses := [[0x43]]
  provides := [⟨[0x43], [[0x44], [0x45]]⟩]

example : (ClassAttr.module_ sampleModule).Writable ∧ (ClassAttr.module_ sampleModule).Readable ∧
    (match (ClassAttr.module_ sampleModule).write VecCp.new with
      | .ok (bs, cp) => (bs.length, cp.entries.length)
      | .error _ => (0, 0)) = (46, 14) := by
  refine ⟨⟨knownFlags_of (by decide), ?_, ?_, ?_⟩, trivial, by decide +kernel⟩
  · intro r hr
    cases List.mem_singleton.mp hr
    exact knownFlags_of (by decide)
  · intro r hr
    cases List.mem_singleton.mp hr
    exact knownFlags_of (by decide)
  · intro r hr
    cases hr

/-- A bootstrap method with a constant argument, and a nested one. -/
def sampleBsms : List Bsm := [⟨sampleHandle, [.static (.i32 7)]⟩,
  ⟨sampleHandle, [.dynamic (.filled sampleHandle [.static (.i32 7)]) [0x6E] .int, .static (.cls [0x41])]⟩]

theorem printable_int : Printable .int := printable_ascii (.field .int) .int (by decide)

example : (ClassAttr.bootstrapMethods sampleBsms).Writable ∧
    (ClassAttr.bootstrapMethods sampleBsms).Readable ∧
    (match (ClassAttr.bootstrapMethods sampleBsms).write VecCp.new with
      | .ok (bs, cp) => (bs.length, cp.entries.length, cp.bsm.length)
      | .error _ => (0, 0, 0)) = (22, 13, 1) := by
  have hs : ∀ b ∈ sampleBsms, b.handle = sampleHandle ∧ (b.arguments = [.static (.i32 7)] ∨
      b.arguments = [.dynamic (.filled sampleHandle [.static (.i32 7)]) [0x6E] .int, .static (.cls [0x41])]) := by
    intro b hb
    simp only [sampleBsms, List.mem_cons, List.not_mem_nil, or_false] at hb
    rcases hb with rfl | rfl
    · exact ⟨rfl, .inl rfl⟩
    · exact ⟨rfl, .inr rfl⟩
  refine ⟨fun b hb => ?_, fun b hb => ?_, by decide +kernel⟩
  · obtain ⟨h1, h2⟩ := hs b hb
    refine ⟨h1 ▸ sampleHandle_ok, ?_, ?_⟩
    · rcases h2 with h2 | h2 <;> rw [h2] <;> decide
    · intro a ha
      rcases h2 with h2 | h2 <;> rw [h2] at ha <;>
        simp only [List.mem_cons, List.not_mem_nil, or_false] at ha
      · subst ha; trivial
      · rcases ha with rfl | rfl
        · exact ⟨printable_int, by simp, _, _, rfl⟩
        · trivial
  · obtain ⟨h1, h2⟩ := hs b hb
    refine ⟨h1 ▸ rfl, ?_⟩
    intro a ha
    rcases h2 with h2 | h2 <;> rw [h2] at ha <;>
      simp only [List.mem_cons, List.not_mem_nil, or_false] at ha
    · subst ha; rfl
    · rcases ha with rfl | rfl
      · trivial
      · rfl

/-- `final int x = 7`, deprecated, with an attribute the library does not know. -/
def sampleField : Field :=
  ⟨⟨0x10⟩, [0x78], .int, [.constantValue (.i32 7), .deprecated, .raw ⟨[0x58], [1, 2]⟩]⟩

example : sampleField.Writable ∧ (∀ a ∈ sampleField.attrs, a.Readable) ∧
    (match sampleField.write VecCp.new with
      | .ok (bs, cp) => (bs.length, cp.entries.length)
      | .error _ => (0, 0)) = (30, 6) := by
  refine ⟨⟨knownFlags_of (by decide), .field .int, ?_⟩, ?_, by decide +kernel⟩
  · intro a ha
    simp only [sampleField, List.mem_cons, List.not_mem_nil, or_false] at ha
    rcases ha with rfl | rfl | rfl <;> trivial
  · intro a ha
    simp only [sampleField, List.mem_cons, List.not_mem_nil, or_false] at ha
    rcases ha with rfl | rfl | rfl
    · rfl
    · trivial
    · show [0x58] ∉ fieldAttrNames
      decide

/-! ### Names of attributes -/

/-- Proved: the names under which attributes are written and looked up are those of the JVM specification (JVMS 4.7). -/
theorem C44_names : ∀ p ∈ [
    (N.deprecated, "Deprecated"),
    (N.synthetic, "Synthetic"),
    (N.signature, "Signature"),
    (N.constantValue, "ConstantValue"),
    (N.runtimeVisibleAnnotations, "RuntimeVisibleAnnotations"),
    (N.runtimeInvisibleAnnotations, "RuntimeInvisibleAnnotations"),
    (N.runtimeVisibleTypeAnnotations, "RuntimeVisibleTypeAnnotations"),
    (N.runtimeInvisibleTypeAnnotations, "RuntimeInvisibleTypeAnnotations"),
    (N.code, "Code"),
    (N.runtimeVisibleParameterAnnotations, "RuntimeVisibleParameterAnnotations"),
    (N.runtimeInvisibleParameterAnnotations, "RuntimeInvisibleParameterAnnotations"),
    (N.exceptions, "Exceptions"),
    (N.annotationDefault, "AnnotationDefault"),
    (N.methodParameters, "MethodParameters"),
    (N.sourceFile, "SourceFile"),
    (N.innerClasses, "InnerClasses"),
    (N.enclosingMethod, "EnclosingMethod"),
    (N.sourceDebugExtension, "SourceDebugExtension"),
    (N.bootstrapMethods, "BootstrapMethods"),
    (N.module_, "Module"),
    (N.modulePackages, "ModulePackages"),
    (N.moduleMainClass, "ModuleMainClass"),
    (N.nestHost, "NestHost"),
    (N.nestMembers, "NestMembers"),
    (N.lineNumberTable, "LineNumberTable"),
    (N.localVariableTable, "LocalVariableTable"),
    (N.localVariableTypeTable, "LocalVariableTypeTable"),
    (N.stackMapTable, "StackMapTable")], p.1 = p.2.toList.map fun c => UInt8.ofNat c.toNat := by
  decide +kernel

end Verif.Props
