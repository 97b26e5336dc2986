import Verif.Lemmas.Instr
import Verif.Props.Frame
import Verif.Props.Cp

/-! # Property C34: symbolic instructions -/

namespace Verif.Props
open Verif Spec

/-- Instructions that are written at once. Branches and markers are the subject of C36 – C40. -/
def Straight : Insn → Prop
  | .jump _ _ | .jsr _ | .tableSwitch _ _ _ | .lookupSwitch _ _ | .label _ | .lineNumber _ => False
  | _ => True

/-- Full claim, writing: whatever is written for an instruction is an encoding of it. -/
def C34_full : Prop := ∀ (env : WEnv) (i : Insn) (cp cp' : VecCp) (bs : Bytes) (W : World),
  Straight i → Steps VecCp.new cp → i.encode cp = .ok (bs, cp') → W.Fits cp' →
  ∀ p, Enc (env.ctx W) p i bs

/-- Nothing is written for an instruction that makes an array. -/
theorem C34_violated : ¬ C34_full := by
  intro h
  obtain ⟨P, hP⟩ := agrees_exists VecCp.new.entries
  have := h WEnv.outside (.newArray (.static .int) 1) VecCp.new VecCp.new [] ⟨P, []⟩ trivial (.refl _) rfl
    ⟨hP, List.prefix_refl _⟩ 0
  cases this

/-- This holds for all arrays, in every pool. -/
theorem C34_violated_newArray (t : OrDynamic JType) (n : UInt8) (cp : VecCp) :
    (Insn.newArray t n).encode cp = .ok ([], cp) ∧ ∀ c p, ¬ Enc c p (.newArray t n) [] := by
  refine ⟨rfl, fun c p h => ?_⟩
  generalize hb : ([] : Bytes) = b at h
  cases h with
  | noArg h =>
    obtain ⟨r, _, _⟩ := plain_raw h
    cases hb
  | newarray => cases hb
  | anewarray => cases hb
  | multianewarray => cases hb

theorem field_head {c : Ctx} {p : Nat} {o : GetOrPut} {t : MemberType} {m : OrDynamic MemberRef} {bs : Bytes}
    (h : Enc c p (.field o t m) bs) : bs.head? = some (UInt8.ofNat (Spec.fieldOp o t).code) := by
  cases h with
  | @noArg o _ h => cases o <;> cases h
  | field _ => rfl

/-- A store to a static field is written as a load: the bytes are an encoding of the load and not of
the store. -/
theorem C34_violated_putStatic (env : WEnv) (m : MemberRef) (hm : Printable m.descriptor)
    (cp cp' : VecCp) (bs : Bytes) (W : World) (h0 : Steps VecCp.new cp)
    (h : (Insn.field .put .static (.static m)).encode cp = .ok (bs, cp')) (hW : W.Fits cp') (p : Nat) :
    Enc (env.ctx W) p (.field .get .static (.static m)) bs ∧
    ¬ Enc (env.ctx W) p (.field .put .static (.static m)) bs := by
  have h1 : (Insn.field .get .static (.static m)).encode cp = .ok (bs, cp') := h
  have h2 := ((encode_enc env (.field .get .static (.static m)) hm) cp bs cp'
    (steps_ok h0 VecCp.inv_new).1 h1).2 W hW p
  refine ⟨h2, fun h3 => ?_⟩
  have e1 := field_head h2
  have e2 := field_head h3
  rw [e1] at e2
  cases e2

/-- A dynamic constant can be written, but an instruction that pushes one is refused by the reader. -/
theorem C34_violated_dynamic (c : Ctx) (cs : Option (List Catch)) (i : UInt16) (d : Dynamic)
    (hd : IsOrDyn IsConstant c i (.dynamic d)) (p : Nat) (st : RSt) (rest : Bytes) :
    rInsn p ⟨c.pool, cs⟩ st (U1 Op.ldc_w.code ++ U2 i.toNat ++ rest) = .error .invalid := by
  obtain ⟨hm, k, b, h1, h2, h3⟩ := hd
  have hc : Pool.constant c.pool i = .ok none := by
    cases h1 with
    | constant nt h _ _ => simp only [Pool.constant, h, Pool.member, Option.map]
    | callSite nt ps r _ h _ => exact absurd h (hm ps r)
  have hr := C35_roundtrip (.LdcW i) trivial rest
  show rInsn p _ st (UInt8.ofNat 19 :: (U2 i.toNat ++ rest)) = _
  unfold rInsn
  simp only
  rw [if_neg (by decide)]
  have e : Rd.lift RInsn.read ⟨c.pool, cs⟩ st (UInt8.ofNat 19 :: (U2 i.toNat ++ rest)) =
      .ok (.LdcW i, st, rest) := by
    unfold Rd.lift
    have hr' : RInsn.read (UInt8.ofNat 19 :: (U2 i.toNat ++ rest)) = .ok (.LdcW i, rest) := hr
    rw [hr']
  unfold Rd.bind
  rw [e]
  simp only [convert, rPush, Rd.map, Rd.bind, rLookupR, hc]

/-- An array of the class `Dog` is read as an array of `double`. -/
theorem C34_violated_anewarray (c : Ctx) (cs : Option (List Catch)) (i : UInt16)
    (h : IsClass c.pool i [0x44, 0x6F, 0x67]) (p : Nat) (st : RSt) (rest : Bytes) :
    Enc c p (.newArray (.static (.ref [0x44, 0x6F, 0x67])) 1) (U1 Op.anewarray.code ++ U2 i.toNat) ∧
    rInsn p ⟨c.pool, cs⟩ st (U1 Op.anewarray.code ++ U2 i.toNat ++ rest) =
      .ok (.newArray (.static .double) 1, st, rest) := by
  refine ⟨.anewarray ⟨_, .ref (by decide), h⟩, ?_⟩
  have hr := C35_roundtrip (.ANewArray i) trivial rest
  have hp : arrayElem [0x44, 0x6F, 0x67] = .ok .double := by
    unfold arrayElem
    rw [show JType.parseType [0x44, 0x6F, 0x67] = .ok .double from
      parse_encode [0x44, 0x6F, 0x67] (by decide) (by rfl)]
    rfl
  have hcl : rClassOr i ⟨c.pool, cs⟩ st rest = .ok (.static [0x44, 0x6F, 0x67], st, rest) := by
    have hd : Pool.dynamic c.pool i st.pending = .ok (none, st.pending) := by
      obtain ⟨j, h1, _⟩ := h
      simp only [Pool.dynamic, h1]
    simp only [rClassOr, rOrDyn, rLookupD, Pool.orDynamic, hd, Pool.cls, class_of h, Option.map_some]
  show rInsn p _ st (UInt8.ofNat 189 :: (U2 i.toNat ++ rest)) = _
  unfold rInsn
  simp only
  rw [if_neg (by decide)]
  have e : Rd.lift RInsn.read ⟨c.pool, cs⟩ st (UInt8.ofNat 189 :: (U2 i.toNat ++ rest)) =
      .ok (.ANewArray i, st, rest) := by
    unfold Rd.lift
    have hr' : RInsn.read (UInt8.ofNat 189 :: (U2 i.toNat ++ rest)) = .ok (.ANewArray i, rest) := hr
    rw [hr']
  unfold Rd.bind
  rw [e]
  simp only [convert, rNewArray, Rd.bind, hcl, Rd.map, Rd.ofRes, hp, Rd.pure]

/-- An array of `int[]` and an array of `int` made with `multianewarray` are read as the same
instruction, although the arrays have different types. -/
theorem C34_violated_multianewarray (c : Ctx) (cs : Option (List Catch)) (i : UInt16)
    (h : IsClass c.pool i [0x5B, 0x49]) (p : Nat) :
    ∃ j b b', Makes c b (.array 2 .int) ∧ Makes c b' (.array 1 .int) ∧ ∀ st rest,
      rInsn p ⟨c.pool, cs⟩ st (b ++ rest) = .ok (j, st, rest) ∧
      rInsn p ⟨c.pool, cs⟩ st (b' ++ rest) = .ok (j, st, rest) := by
  have he : IsElem c.pool i (.array 1 .int) := by
    have hd : Desc (.array 1 .int) [0x5B, 0x49] := .array (d := 1) .int
    exact ⟨_, .array (.array (by decide) .int (by simp)) hd, h⟩
  have hcl : ∀ st rest, rClassOr i ⟨c.pool, cs⟩ st rest = .ok (.static [0x5B, 0x49], st, rest) := by
    intro st rest
    have hd : Pool.dynamic c.pool i st.pending = .ok (none, st.pending) := by
      obtain ⟨j, h1, _⟩ := h
      simp only [Pool.dynamic, h1]
    simp only [rClassOr, rOrDyn, rLookupD, Pool.orDynamic, hd, Pool.cls, class_of h, Option.map_some]
  have hp : arrayElem [0x5B, 0x49] = .ok (.array 1 .int) := by
    unfold arrayElem
    rw [show JType.parseType [0x5B, 0x49] = .ok (.array 1 .int) from
      parse_encode [0x5B, 0x49] (by decide) (by rfl)]
    rfl
  have hr : Reads (rNewArray i 1) ⟨c.pool, cs⟩ [] (fun _ => .newArray (.static (.array 1 .int)) 1) [] [] := by
    refine PReads.reads ?_
    intro st rest
    simp only [rNewArray, Rd.bind, hcl, Rd.map, Rd.ofRes, hp, Rd.pure, List.nil_append]
  have key : ∀ {b : Bytes}, Reads (rInsn p) ⟨c.pool, cs⟩ b (fun _ => .newArray (.static (.array 1 .int)) 1)
      [] [] → ∀ st rest, rInsn p ⟨c.pool, cs⟩ st (b ++ rest) =
        .ok (.newArray (.static (.array 1 .int)) 1, st, rest) := by
    intro b hb st rest
    rcases st with ⟨q, _ | m⟩
    · simpa using hb ⟨q, none⟩ rest (by simp) [] (by simp)
    · simpa [LabelMap.addAll] using hb ⟨q, some m⟩ rest (by simp) m (by simp [LabelMap.addAll])
  refine ⟨.newArray (.static (.array 1 .int)) 1, _, _, .ofArray he (by decide), .multi (n := 1) he (by decide) (by decide),
    fun st rest => ⟨?_, ?_⟩⟩
  · exact key (rInsn_raw (r := .ANewArray i) trivial (by simp [rawOp]) hr) st rest
  · refine key ((rInsn_raw (r := .MultiANewArray i 1) trivial (by simp [rawOp]) hr).cast ?_ rfl rfl rfl) st rest
    simp only [rawArgs, rawOp, List.append_assoc]

/-- Proved, writing: all instructions except array creation and static stores, as long as the types
in them can be printed without loss. -/
theorem C34_layout_partial (env : WEnv) (i : Insn) (hi : EncOk i) (cp cp' : VecCp) (bs : Bytes) (W : World)
    (h0 : Steps VecCp.new cp) (h : i.encode cp = .ok (bs, cp')) (hW : W.Fits cp') (p : Nat) :
    Enc (env.ctx W) p i bs :=
  ((encode_enc env i hi) cp bs cp' (steps_ok h0 VecCp.inv_new).1 h).2 W hW p

/-- Proved, reading: every encoding of an instruction (of any origin) is read as its canonical form,
followed by whatever follows it; labels come back as the labels of the same positions, bootstrap
methods as numbers of the table. Not read back are dynamic constants being pushed, and arrays of
classes whose names begin like a descriptor. -/
theorem C34_read_partial (c : Ctx) (cs : Option (List Catch)) (p : Nat) (i j : Insn) (bs : Bytes)
    (h : Enc c p i bs) (hn : normal i = some j) (hr : Readable i) (hT : c.bsm.length ≤ 65536)
    (q : List UInt16) (m : LabelMap) (rest : Bytes) :
    ∃ (k : Insn) (ρ : Label → Label) (q' : List UInt16) (m' : LabelMap),
      rInsn p ⟨c.pool, cs⟩ ⟨q, some m⟩ (bs ++ rest) = .ok (k, ⟨q', some m'⟩, rest) ∧
      resolveI c.bsm k = renI ρ j ∧ m <+: m' ∧
      ∀ l ∈ targets j, ∃ o, c.pos l = some o ∧ m'.lookup (UInt32.ofNat o) = some (ρ l) := by
  obtain ⟨v, pend, hv, _, hrd⟩ := enc_reads h hn hr hT cs
  let m' := LabelMap.addAll m ((targets j).flatMap c.offs)
  refine ⟨v m'.num, c.ren m'.num, q ++ pend, m', ?_, hv _, LabelMap.prefix_addAll _ _, ?_⟩
  · exact hrd ⟨q, some m⟩ rest (by simp) m' (by
      intro ls hls
      cases hls
      exact List.prefix_refl _)
  · intro l hl
    obtain ⟨o, ho⟩ := enc_targets h hn l hl
    have hm : UInt32.ofNat o ∈ (targets j).flatMap c.offs :=
      List.mem_flatMap.mpr ⟨l, hl, by simp [Ctx.offs, ho]⟩
    obtain ⟨l', hl'⟩ := mem_addAll (m := m) hm
    refine ⟨o, ho, ?_⟩
    show m'.lookup _ = some (c.ren m'.num l)
    simp only [Ctx.ren, ho, LabelMap.num]
    rw [hl']
    rfl

/-- Instructions without a canonical form (conversions between equal types) occupy no space. -/
theorem C34_nothing (c : Ctx) (p : Nat) (i : Insn) (bs : Bytes) (h : Enc c p i bs)
    (hn : normal i = none) : bs = [] := enc_nothing h hn

/-- Proved, round trip: what is written is read back in canonical form, at any position, in the final
pool and before any other code. -/
theorem C34_roundtrip_partial (i j : Insn) (hi : EncOk i) (hr : Readable i) (hn : normal i = some j)
    (cp cp' : VecCp) (bs : Bytes) (W : World) (h0 : Steps VecCp.new cp) (h : i.encode cp = .ok (bs, cp'))
    (hW : W.Fits cp') (hT : W.bsm.length ≤ 65536) (p : Nat) (cs : Option (List Catch)) (q : List UInt16)
    (m : LabelMap) (rest : Bytes) :
    ∃ k q', rInsn p ⟨W.pool, cs⟩ ⟨q, some m⟩ (bs ++ rest) = .ok (k, ⟨q', some m⟩, rest) ∧
      resolveI W.bsm k = j := by
  have he := C34_layout_partial WEnv.outside i hi cp cp' bs W h0 h hW p
  obtain ⟨v, pend, hv, _, hrd⟩ := enc_reads he hn hr hT cs
  have ht : targets j = [] ∧ ∀ f, renI f j = j := by
    cases i <;> first
      | exact hi.elim
      | (cases hn; exact ⟨rfl, fun _ => rfl⟩)
      | skip
    case conversion a b => cases a <;> cases b <;> cases hn <;> exact ⟨rfl, fun _ => rfl⟩
    case convertInt t => cases t <;> cases hn <;> exact ⟨rfl, fun _ => rfl⟩
    case push x => cases x <;> cases hn <;> exact ⟨rfl, fun _ => rfl⟩
    case field o t x => cases x <;> cases hn <;> exact ⟨rfl, fun _ => rfl⟩
    case invokeExact t x => cases x <;> cases hn <;> exact ⟨rfl, fun _ => rfl⟩
    case invokeSpecial x => cases x <;> cases hn <;> exact ⟨rfl, fun _ => rfl⟩
    case invokeInterface x n => cases x <;> cases hn <;> exact ⟨rfl, fun _ => rfl⟩
  refine ⟨v m.num, q ++ pend, ?_, ?_⟩
  · rw [ht.1] at hrd
    exact hrd ⟨q, some m⟩ rest (by simp) m (by
      intro ls hls
      cases hls
      exact List.prefix_refl _)
  · have := hv m.num
    rw [ht.2] at this
    exact this

/-- An integer constant that needs the pool; the bytes that are written; the instruction read back. -/
example : EncOk (.push (.static (.i32 70000))) ∧ Readable (.push (.static (.i32 70000))) ∧
    normal (.push (.static (.i32 70000))) = some (.push (.static (.i32 70000))) ∧
    ∃ cp', (Insn.push (.static (.i32 70000))).encode VecCp.new = .ok ([18, 1], cp') :=
  ⟨⟨trivial, trivial⟩, trivial, rfl, _, rfl⟩

/-- A variable beyond 255. -/
example : EncOk (.localVariable .store .double 300) ∧ Readable (.localVariable .store .double 300) ∧
    (Insn.localVariable .store .double 300).encode VecCp.new = .ok ([196, 57, 1, 44], VecCp.new) :=
  ⟨trivial, trivial, rfl⟩

/-- A field access through a dynamic constant. -/
example : EncOk (.field .get .virtual (.dynamic sampleDynamic)) ∧
    Readable (.field .get .virtual (.dynamic sampleDynamic)) ∧
    ∃ bs cp', (Insn.field .get .virtual (.dynamic sampleDynamic)).encode VecCp.new = .ok (bs, cp') :=
  ⟨⟨sampleDynamic_ok, fun _ _ h => by cases h⟩, trivial, _, _, rfl⟩

/-- A dynamic constant is written for `C34_violated_dynamic`: the layout holds, reading fails. -/
example : EncOk (.push (.dynamic sampleDynamic)) ∧
    ∃ bs cp', (Insn.push (.dynamic sampleDynamic)).encode VecCp.new = .ok (bs, cp') :=
  ⟨⟨⟨sampleDynamic_ok, fun _ _ h => by cases h⟩, trivial⟩, _, _, rfl⟩

/-- A switch with two cases at position 2: one byte of padding, distances from the opcode. -/
example : Enc ⟨fun _ => none, [], fun l => some (10 * l.toNat), fun _ => none⟩ 2
    (.lookupSwitch 3 [(-5, 1), (7, 2)])
    (U1 171 ++ [0] ++ S4 28 ++ U4 2 ++ (S4 (-5) ++ S4 8 ++ (S4 7 ++ S4 18 ++ []))) ∧
    normal (.lookupSwitch 3 [(-5, 1), (7, 2)]) = some (.lookupSwitch 3 [(-5, 1), (7, 2)]) := by
  refine ⟨?_, by simp [normal, List.mergeSort]⟩
  exact .lookupSwitch (es := [(-5, 1), (7, 2)]) (pad := [0]) (by decide) (by decide) (.refl _) (by decide)
    (by decide) ⟨28, ⟨30, rfl, rfl⟩, by decide, by decide, rfl⟩
    ⟨_, _, rfl, ⟨_, rfl, 8, ⟨10, rfl, rfl⟩, by decide, by decide, rfl⟩,
      _, _, rfl, ⟨_, rfl, 18, ⟨20, rfl, rfl⟩, by decide, by decide, rfl⟩, rfl⟩

/-- A two-dimensional array. -/
example (c : Ctx) (i : UInt16) (h : IsClass c.pool i [0x5B, 0x5B, 0x49]) :
    Enc c 0 (.newArray (.static (.array 2 .int)) 2) (U1 197 ++ U2 i.toNat ++ U1 2) :=
  .multianewarray (t := .static _) (n := 2) ⟨_, .array (.array (by decide) .int (by simp)) (.array (d := 2) .int), h⟩
    (by decide) (fun s hs => by cases hs; exact ⟨_, _, rfl, by decide⟩)

/-- A static store, for `C34_violated_putStatic`. -/
example : ∃ bs cp', (Insn.field .put .static (.static ⟨[0x41], [0x62], .int, false⟩)).encode VecCp.new =
    .ok (bs, cp') ∧ Printable (.int : JType) :=
  ⟨_, _, rfl, printable_ascii (.field .int) .int (by decide)⟩

example : Enc ⟨fun _ => none, [], fun _ => none, fun _ => none⟩ 0 (.conversion .long .long) [] ∧
    normal (.conversion .long .long) = none := ⟨.sameType, rfl⟩

end Verif.Props
