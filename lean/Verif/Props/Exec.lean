import Verif.Props.Reread
import Verif.Lemmas.ExecClass

/-! # What method bodies do when they are run: C69, C70 -/

namespace Verif.Props
open Spec Sig

/-! ## C69 -/

/-- A code array can be taken apart in one way only: no two instructions are at the same position. -/
theorem C69_unambiguous (P : Pool) (T : List Bsm) (hT : T.length ≤ 65536) (code : Bytes) (ks : List Catch)
    (p n m : Nat) (i j : Insn) (h : (binary P T code ks).insn p i n) (h' : (binary P T code ks).insn p j m) :
    i = j ∧ n = m := by
  obtain ⟨i', b, t, h1, h2, h3, rfl⟩ := h
  obtain ⟨j', b', t', h1', h2', h3', rfl⟩ := h'
  have e : b ++ t = b' ++ t' := (begins_drop h1).trans (begins_drop h1').symm
  obtain ⟨e1, rfl, _⟩ := enc_unique (c := absolute P T) hT (absolute_apart P T) h2 h2' (enc_some h2 h3) (enc_some h2' h3') e
  rw [h3, h3'] at e1
  cases e1
  exact ⟨rfl, rfl⟩

/-- The content of an attribute `Code` has one code array and one exception table. -/
theorem C69_one_program (P : Pool) (T : List Bsm) (bs code code' : Bytes) (ks ks' : List Catch)
    (h : HasCode P T bs code ks) (h' : HasCode P T bs code' ks') : code = code' ∧ ks = ks' := hasCode_unique h h'

/-- Full claim: running what is written for a body does what its instructions say. Positions and places of
instructions correspond by `φ`. -/
def C69_full : Prop := ∀ (x : Code) (cp cp' : VecCp) (bs : Bytes), Steps VecCp.new cp → x.write cp = .ok (bs, cp') →
  bs.length < 2 ^ 32 → ∀ W : World, W.Fits cp' → W.bsm.length ≤ 65536 →
  ∃ code ks φ, HasCode W.pool W.bsm bs code ks ∧ (∀ a b, a < b → φ a < φ b) ∧
    Alike (source x.code x.catches φ) (binary W.pool W.bsm code ks) φ

/-- Proved, for the instructions of C34 and the sizes of C37. -/
theorem C69_write_partial (x : Code) (cp cp' : VecCp) (bs : Bytes) (hx : CodeWritable x) (h0 : Steps VecCp.new cp)
    (h : x.write cp = .ok (bs, cp')) (hs : ∀ a cp1, writeCode x.code cp = .ok (a, cp1) → Sized x.code a)
    (hlen : bs.length < 2 ^ 32) (W : World) (hW : W.Fits cp') (hT : W.bsm.length ≤ 65536) :
    ∃ code ks φ, HasCode W.pool W.bsm bs code ks ∧ (∀ a b, a < b → φ a < φ b) ∧
      Alike (source x.code x.catches φ) (binary W.pool W.bsm code ks) φ :=
  codeFile_alike (c := WEnv.outside.ctx W) hT (C51_layout_partial x cp cp' bs hx h0 h hs hlen W hW)

/-- Proved: it returns what it should return after as many steps, throws what it should throw, and goes on as long as
it should. -/
theorem C69_results_partial (x : Code) (cp cp' : VecCp) (bs : Bytes) (hx : CodeWritable x) (h0 : Steps VecCp.new cp)
    (h : x.write cp = .ok (bs, cp')) (hs : ∀ a cp1, writeCode x.code cp = .ok (a, cp1) → Sized x.code a)
    (hlen : bs.length < 2 ^ 32) (W : World) (hW : W.Fits cp') (hT : W.bsm.length ≤ 65536) (code : Bytes)
    (ks : List Catch) (hc : HasCode W.pool W.bsm bs code ks) :
    ∃ τ, Equivalent (source x.code x.catches τ) (binary W.pool W.bsm code ks) := by
  obtain ⟨code', ks', φ, h1, _, h2⟩ := C69_write_partial x cp cp' bs hx h0 h hs hlen W hW hT
  obtain ⟨rfl, rfl⟩ := hasCode_unique hc h1
  exact ⟨φ, alike_equivalent h2⟩

/-- Proved: in a class file that is written all methods do what their instructions say, and everything else is as in
the class. -/
theorem C69_class_partial (x : Class) (bs : Bytes) (hx : x.Writable) (hs : AllClass Fitting x) (h : x.write = .ok bs)
    (hl : bs.length < 2 ^ 32) (hr : (withTable x).Readable CodeReadable) :
    ∃ X, classFile program X bs ∧ X.Readable (fun _ => True) ∧
      SameParts (fun b P => ∃ τ, Equivalent (source b.code b.catches τ) P) (withTable x) X := by
  obtain ⟨X, h1, h2⟩ := class_through (g := program) (R := fun b P => ∃ τ, Equivalent (source b.code b.catches τ) P)
    (fun m _ y _ P b hT hb => by
      obtain ⟨code, ks, φ, h1, _, h2⟩ := codeFile_alike hT hb
      exact ⟨_, ⟨code, ks, h1, rfl⟩, φ, alike_equivalent h2⟩) (C47_write_partial x bs hx hs h hl)
  exact ⟨X, h1, readable_through h2 hr, h2⟩

/-- Reading: the instructions that are read from a method body, whoever wrote it, do what the body does. -/
theorem C69_read (ord : Nat → List LocalVariable → List LocalVariable) (hord : ∀ n l, (ord n l).Perm l)
    (c : Ctx) (hT : c.bsm.length ≤ 65536) (x : PlacedBody) (bs : Bytes) (h : placedBody c x bs)
    (cs : Option (List Catch)) (st : RSt) (rest : Bytes) :
    ∃ y q ks φ, Code.read ord ⟨c.pool, cs⟩ st (bs ++ rest) = .ok (y, ⟨q, st.labels⟩, rest) ∧
      HasCode c.pool c.bsm bs x.code ks ∧ (∀ a b, a < b → φ a < φ b) ∧
      Alike (source (y.code.map (resolveI c.bsm)) y.catches φ) (binary c.pool c.bsm x.code ks) φ := by
  obtain ⟨y, q, e, _, hy⟩ := reads_placed c hT cs ord hord x bs h trivial st rest
  obtain ⟨ks, φ, h1, h2, _, h3⟩ := placed_alike hT h
  exact ⟨y, q, ks, φ, e, h1, h2, h3 y hy⟩

/-! ### A loop -/

/-- The loop of C37 with its handler, written: whatever the machine does with the instructions. -/
example : ∃ bs cp' P code ks φ, sampleBody.write VecCp.new = .ok (bs, cp') ∧ HasCode P [] bs code ks ∧
    Alike (source sampleBody.code sampleBody.catches φ) (binary P [] code ks) φ := by
  have e : ∃ bs cp', sampleBody.write VecCp.new = .ok (bs, cp') ∧ bs.length = 70 ∧ cp'.bsm = [] := ⟨_, _, rfl, by decide +kernel, rfl⟩
  obtain ⟨bs, cp', e, hl, hb⟩ := e
  obtain ⟨P, hP⟩ := agrees_exists cp'.entries
  obtain ⟨code, ks, φ, h1, _, h2⟩ := C69_write_partial sampleBody VecCp.new cp' bs sampleBody_writable (.refl _) e
    sampleBody_sized (by omega) ⟨P, []⟩ ⟨hP, hb ▸ List.prefix_refl _⟩ (Nat.zero_le _)
  exact ⟨bs, cp', P, code, ks, φ, e, h1, h2⟩

/-! ### A store -/

/-- A machine that can do nothing but store into static fields and remember it. -/
def storing : Machine Bool where
  plain i _ s' := s' = true ∧ isPut i = true
  fails _ _ _ := False
  leaves _ _ _ := False
  holds _ _ _ _ := False
  key _ _ _ := False
  save _ _ _ := False
  saved _ _ _ _ := False
  caught _ _ := False

def storeBody : Code := ⟨1, 0, [.field .put .static (.static ⟨[0x41], [0x62], .int, false⟩), .return none], [], []⟩

theorem put_of_normal {i j : Insn} (h : normal j = some i) (hi : isPut i = true) :
    ∃ t m, j = .field .put t m := by
  cases j
  case field o t m =>
    cases o with
    | put => exact ⟨t, m, rfl⟩
    | get => cases m <;> cases h <;> cases hi
  case conversion a b => cases a <;> cases b <;> cases h <;> cases hi
  case convertInt a => cases a <;> cases h <;> cases hi
  case push c => cases c <;> cases h <;> cases hi
  case invokeExact t c => cases c <;> cases h <;> cases hi
  case invokeSpecial c => cases c <;> cases h <;> cases hi
  case invokeInterface c n => cases c <;> cases h <;> cases hi
  all_goals first | (cases h; done) | (cases h; cases hi)

/-- A code array that begins with the opcode of a load does not store. -/
theorem no_store {P : Pool} {T : List Bsm} {t : Bytes} {ks : List Catch} {a : Nat}
    (h : Runs storing (binary P T (0xB2 :: t) ks) 1 (.at 0 false) (.at a true)) : False := by
  cases h with
  | more h1 h2 =>
    cases h1 with
    | zero =>
      cases h2 with
      | go h3 h4 =>
        cases h4 with
        | plain _ h8 =>
          obtain ⟨j, b, t', h5, h6, h7, _⟩ := h3
          obtain ⟨ty, m, rfl⟩ := put_of_normal h7 h8.2
          have e : b ++ t' = 0xB2 :: t := begins_drop h5
          have hh := field_head h6
          cases b with
          | nil => cases hh
          | cons x b =>
            cases e
            cases ty <;> cases hh
        | @taken k _ _ _ _ h8 h9 _ =>
          by_cases hk : k = .always
          · cases h8 hk
          · exact h9 hk
        | passed _ h8 => exact h8.elim
        | jsr h8 => exact h8.elim
        | ret h8 => exact h8.elim
        | table h8 => exact h8.elim
        | lookup h8 => exact h8.elim
      | handled _ _ h4 => exact h4.elim

theorem stores {ks : List Catch} {τ : Nat → Nat} :
    Runs storing (source storeBody.code ks τ) 1 (.at 0 false) (.at 1 true) :=
  .more .zero (.go (i := .field .put .static (.static ⟨[0x41], [0x62], .int, false⟩)) ⟨rfl, rfl⟩ (.plain trivial ⟨rfl, rfl⟩))

/-- Violated: what is written for a store into a static field is a load (C34). -/
theorem C69_violated : ¬ C69_full := by
  intro h
  have e : ∃ bs cp' t, storeBody.write VecCp.new = .ok (bs, cp') ∧ bs.length < 2 ^ 32 ∧ cp'.bsm = [] ∧
      bs = U2 1 ++ U2 0 ++ U4 4 ++ (0xB2 :: t) ++ U2 0 ++ U2 0 ∧ t.length = 3 :=
    ⟨_, _, [0, 6, 0xB1], rfl, by decide +kernel, rfl, by decide +kernel, rfl⟩
  obtain ⟨bs, cp', t, hw, hl, hb, hbs, ht⟩ := e
  obtain ⟨P, hP⟩ := agrees_exists cp'.entries
  obtain ⟨code, ks, φ, h1, _, h2⟩ := h storeBody VecCp.new cp' bs (.refl _) hw hl ⟨P, []⟩
    ⟨hP, hb ▸ List.prefix_refl _⟩ (Nat.zero_le _)
  have h3 : HasCode P [] bs (0xB2 :: t) [] :=
    ⟨1, 0, U2 0, U2 0, by simp [ht], by rw [hbs]; simp [ht], by decide, [], by simp, rfl⟩
  obtain ⟨rfl, rfl⟩ := hasCode_unique h1 h3
  exact no_store ((h2 Bool storing false 1).1 _ stores)

/-! ## C70 -/

/-- Full claim: if a method body is read, and what was read is written, then the new body does what the old one
does. (Cells are filled from the bootstrap table in between. Return addresses are visible to programs with
subroutines, and change.) -/
def C70_full : Prop := ∀ (ord : Nat → List LocalVariable → List LocalVariable) (_ : ∀ n l, (ord n l).Perm l) (c : Ctx)
  (x : PlacedBody) (bs : Bytes), c.bsm.length ≤ 65536 → placedBody c x bs → ∀ (y : Code) (st : RSt),
  Code.read ord ⟨c.pool, none⟩ ⟨[], none⟩ bs = .ok (y, st, []) → NoSubroutines y.code →
  ∀ (cp cp' : VecCp) (out : Bytes), Steps VecCp.new cp →
  Code.write { y with code := y.code.map (resolveI c.bsm) } cp = .ok (out, cp') → out.length < 2 ^ 32 →
  ∀ W : World, W.Fits cp' → W.bsm.length ≤ 65536 → ∀ (code code' : Bytes) (ks ks' : List Catch),
  HasCode c.pool c.bsm bs code ks → HasCode W.pool W.bsm out code' ks' →
  Equivalent (binary c.pool c.bsm code ks) (binary W.pool W.bsm code' ks')

theorem subroutines_resolve {T : List Bsm} {is : List Insn} (h : NoSubroutines is) :
    NoSubroutines (is.map (resolveI T)) := by
  intro i hi
  obtain ⟨j, hj, rfl⟩ := List.mem_map.mp hi
  obtain ⟨h1, h2⟩ := h j hj
  cases j
  case jsr l => exact absurd rfl (h1 l)
  case ret v => exact absurd rfl (h2 v)
  all_goals exact ⟨nofun, nofun⟩

/-- Proved, for the instructions of C34 and the sizes of C37. -/
theorem C70_body_partial (ord : Nat → List LocalVariable → List LocalVariable) (hord : ∀ n l, (ord n l).Perm l) (c : Ctx)
    (x : PlacedBody) (bs : Bytes) (hT : c.bsm.length ≤ 65536) (h : placedBody c x bs) (y : Code) (st : RSt)
    (hr : Code.read ord ⟨c.pool, none⟩ ⟨[], none⟩ bs = .ok (y, st, [])) (hn : NoSubroutines y.code)
    (hy : CodeWritable { y with code := y.code.map (resolveI c.bsm) }) (hs : Compact (y.code.map (resolveI c.bsm)))
    (cp cp' : VecCp) (out : Bytes) (h0 : Steps VecCp.new cp)
    (hw : Code.write { y with code := y.code.map (resolveI c.bsm) } cp = .ok (out, cp')) (hl : out.length < 2 ^ 32)
    (W : World) (hW : W.Fits cp') (hB : W.bsm.length ≤ 65536) (code code' : Bytes) (ks ks' : List Catch)
    (h1 : HasCode c.pool c.bsm bs code ks) (h2 : HasCode W.pool W.bsm out code' ks') :
    Equivalent (binary c.pool c.bsm code ks) (binary W.pool W.bsm code' ks') := by
  obtain ⟨y', q, k1, φ, e, g1, _, g2⟩ := C69_read ord hord c hT x bs h none ⟨[], none⟩ []
  rw [List.append_nil, hr] at e
  cases e
  obtain ⟨c2, k2, ψ, g3, _, g4⟩ := C69_write_partial _ cp cp' out hy h0 hw
    (fun a cp1 h => sized_of_compact hy.insns hs (steps_ok h0 VecCp.inv_new).1 h) hl W hW hB
  obtain ⟨rfl, rfl⟩ := hasCode_unique h1 g1
  obtain ⟨rfl, rfl⟩ := hasCode_unique h2 g3
  exact ((alike_equivalent g2).symm.trans (alike_equivalent (alike_token (subroutines_resolve hn)))).trans
    (alike_equivalent g4)

theorem bsmTable_resolve (T : List Bsm) (as : List ClassAttr) :
    bsmTable (as.map (resolveClassAttr T)) = (bsmTable as).map (resolveBsm T) := by
  induction as with
  | nil => rfl
  | cons a as ih =>
    cases a <;> first | exact ih | rfl

theorem resolveBsm_static (T : List Bsm) {b : Bsm} (h : StaticBsm b) : resolveBsm T b = b := by
  obtain ⟨hd, as⟩ := b
  unfold resolveBsm
  congr 1
  conv => rhs; rw [← List.map_id as]
  refine List.map_congr_left fun a ha => ?_
  obtain ⟨c, rfl⟩ := h a ha
  rfl

theorem matched_map {α β : Type} {R : α → β → Prop} {f : α → β} {xs : List α} (h : ∀ x ∈ xs, R x (f x)) :
    Matched R xs (xs.map f) := by
  induction xs with
  | nil => exact .nil
  | cons x xs ih => exact .cons (h x (by simp)) (ih fun y hy => h y (by simp [hy]))

/-- Proved: if a class file, whoever made it, is read, and the class is written, then the two class files have the same
methods, and each of them does in the new file what it does in the old one; for the classes of C67 without
subroutines. -/
theorem C70_class_partial (ord : Order) (hord : ∀ k n l, (ord k n l).Perm l) (X : ClassOf PlacedBody)
    (input : Bytes) (hf : classFile placedBody X input) (hX : X.Readable fun _ => True) (rest out : Bytes) (x : Class)
    (h : Class.read ord (input ++ rest) = .ok (x, rest)) (hx : Regular x)
    (hn : ∀ m ∈ x.methods, ∀ b, .code b ∈ m.attrs → NoSubroutines b.code) (hw : x.rewrite 65538 = .ok out)
    (hl : (input ++ rest).length < 2 ^ 31) (ho : out.length < 2 ^ 32) :
    ∃ P Q : ClassOf Prog, classFile program P input ∧ classFile program Q out ∧ P.Readable (fun _ => True) ∧
      Q.Readable (fun _ => True) ∧ Q.version = P.version ∧ Q.access = P.access ∧ Q.name = P.name ∧
      Q.superName = P.superName ∧ Q.interfaces = P.interfaces ∧ Q.fields = P.fields ∧
      Matched (SameMethod Equivalent) P.methods Q.methods := by
  obtain ⟨x', e, hs⟩ := C47_read ord hord X input hf hX rest
  rw [h] at e
  cases e
  have hst := regular_static hx
  have hT : bsmTable X.attrs = bsmTable x.attrs := by
    rw [← hs.attrs, bsmTable_resolve]
    conv => rhs; rw [← List.map_id (bsmTable x.attrs)]
    exact List.map_congr_left fun b hb => resolveBsm_static _ (table_static hst b hb)
  have hshared := read_shared (fun k n l v hv => (hord k n l).mem_iff.mp hv) h
  obtain ⟨_, _, hread⟩ := regular_fit (read_good hord h hl) hshared hx
  -- the old file
  obtain ⟨P, hP, sP⟩ := class_through (g := program)
    (R := fun b P => ∃ φ, ∀ y, Reproduces (bsmTable X.attrs) b y →
      Alike (source (y.code.map (resolveI (bsmTable X.attrs))) y.catches φ) P φ)
    (fun m _ b _ pool bs hT hb => by
      obtain ⟨ks, φ, h1, _, _, h3⟩ := placed_alike hT hb
      exact ⟨_, ⟨b.code, ks, h1, rfl⟩, φ, h3⟩) hf
  -- the new file
  obtain ⟨Q, hQ, sQ⟩ := class_through (g := program)
    (R := fun b P => ∃ φ, Alike (source b.code b.catches φ) P φ)
    (fun m _ y _ P b hT hb => by
      obtain ⟨code, ks, φ, h1, _, h2⟩ := codeFile_alike hT hb
      exact ⟨_, ⟨code, ks, h1, rfl⟩, φ, h2⟩) (C67_written_partial ord hord _ rest out x h hx hw hl ho)
  -- in between
  have m1 : Matched (SameMethod fun P (y : Code) => ∃ φ, Alike (source (y.code.map (resolveI (bsmTable X.attrs))) y.catches φ) P φ)
      P.methods x.methods :=
    matched_comp (sameMethod_comp fun P b y (h : ∃ φ, ∀ y, Reproduces (bsmTable X.attrs) b y →
        Alike (source (y.code.map (resolveI (bsmTable X.attrs))) y.catches φ) P φ) h' => ⟨h.choose, h.choose_spec y h'⟩)
      (matched_flip (sameMethod_flip fun _ _ h => h) sP.methods) hs.methods
  have m2 : Matched (SameMethod fun (y z : Code) => z.catches = y.catches ∧
      z.code = y.code.map (resolveI (bsmTable X.attrs)) ∧ NoSubroutines z.code) x.methods
      (withTable (completed x)).methods := by
    have : (withTable (completed x)).methods = x.methods.map (Method.look (bsmTable x.attrs)) := by
      rw [completed_static hst]
      rfl
    rw [this]
    refine matched_map fun m hm => ⟨rfl, rfl, rfl, matched_map fun a ha => ?_⟩
    cases a with
    | code b =>
      have e : b.code.map (Insn.look (bsmTable x.attrs)) = b.code.map (resolveI (bsmTable x.attrs)) :=
        List.map_congr_left fun i _ => (resolveI_look _ i).symm
      refine ⟨rfl, ?_, ?_⟩
      · rw [hT]
        exact e
      · show NoSubroutines (b.code.map (Insn.look (bsmTable x.attrs)))
        rw [e]
        exact subroutines_resolve (hn m hm b ha)
    | deprecated => trivial
    | synthetic => trivial
    | _ => rfl
  have m3 := matched_comp (sameMethod_comp (U := Equivalent) fun P y Q
      (h1 : ∃ z : Code, (∃ φ, Alike (source (z.code.map (resolveI (bsmTable X.attrs))) z.catches φ) P φ) ∧
        y.catches = z.catches ∧ y.code = z.code.map (resolveI (bsmTable X.attrs)) ∧ NoSubroutines y.code) h2 => by
      obtain ⟨z, ⟨φ, ha⟩, e1, e2, hz⟩ := h1
      obtain ⟨ψ, hb⟩ := h2
      rw [← e1, ← e2] at ha
      exact ((alike_equivalent ha).symm.trans (alike_equivalent (alike_token hz))).trans (alike_equivalent hb))
    (matched_comp (sameMethod_comp fun P z y h1 h2 => ⟨z, h1, h2⟩) m1 m2) sQ.methods
  have hc : (completed x).version = x.version ∧ (completed x).access = x.access ∧ (completed x).name = x.name ∧
      (completed x).superName = x.superName ∧ (completed x).interfaces = x.interfaces ∧
      (completed x).fields = x.fields := ⟨rfl, rfl, rfl, rfl, rfl, rfl⟩
  obtain ⟨c1, c2, c3, c4, c5, c6⟩ := hc
  exact ⟨P, Q, hP, hQ, readable_through sP hX, readable_through sQ hread,
    (sQ.version.trans (c1.trans hs.version)).trans sP.version.symm,
    (sQ.access.trans (c2.trans hs.access)).trans sP.access.symm,
    (sQ.name.trans (c3.trans hs.name)).trans sP.name.symm,
    (sQ.superName.trans (c4.trans hs.superName)).trans sP.superName.symm,
    (sQ.interfaces.trans (c5.trans hs.interfaces)).trans sP.interfaces.symm,
    (sQ.fields.trans (c6.trans hs.fields)).trans sP.fields.symm, m3⟩

/-! ### The store again -/

/-- A pool with the constants of `storeBody`. -/
def storePool : Pool := fun i =>
  [.utf8 [0x41], .cls 1, .utf8 [0x62], .utf8 [0x49], .nat 3 4, Entry.field 2 5][i.toNat - 1]?

def storeBytes : Bytes := [0, 1, 0, 0, 0, 0, 0, 4, 0xB3, 0, 6, 0xB1, 0, 0, 0, 0]

set_option maxRecDepth 100000 in
theorem storeBytes_read : Code.read (fun _ vs => vs) ⟨storePool, none⟩ ⟨[], none⟩ storeBytes =
    .ok (storeBody, ⟨[], none⟩, []) := by
  with_unfolding_all rfl

/-- The same in a class file. -/
def storePlaced : PlacedBody where
  body := ⟨1, 0, storeBody.code, [], []⟩
  pos := fun _ => none
  handler := fun _ => none
  code := [0xB3, 0, 6, 0xB1]
  insns := [(0, .field .put .static (.static ⟨[0x41], [0x62], .int, false⟩)), (3, .return none)]

theorem store_placed : placedBody ⟨storePool, [], fun _ => none, fun _ => none⟩ storePlaced storeBytes := by
  have hm : IsMember storePool 6 ⟨[0x41], [0x62], .int, false⟩ :=
    .field 2 5 rfl nofun ⟨1, rfl, rfl⟩ ⟨3, 4, rfl, rfl, .field .int, _, .int, rfl⟩
  have h1 : Enc (storePlaced.ctx ⟨storePool, [], fun _ => none, fun _ => none⟩) 0
      (.field .put .static (.static ⟨[0x41], [0x62], .int, false⟩)) [0xB3, 0, 6] :=
    .field (i := 6) (show IsOrDyn IsMember (storePlaced.ctx ⟨storePool, [], fun _ => none, fun _ => none⟩) 6
      (.static ⟨[0x41], [0x62], .int, false⟩) from hm)
  have h2 : Enc (storePlaced.ctx ⟨storePool, [], fun _ => none, fun _ => none⟩) 3 (.return none) [0xB1] :=
    .noArg (o := .return_) rfl
  refine ⟨⟨[0, 0], [0, 0], .cons (b := [0xB3, 0, 6]) (bs := [0xB1]) h1 (.cons (b := [0xB1]) (bs := []) h2 .nil),
      by decide, ⟨by decide, [], by decide, rfl⟩, ⟨by decide, [], by decide, rfl⟩, by decide⟩,
    .keep (b := [0xB3, 0, 6]) (bs := [0xB1]) h1 rfl (.keep (b := [0xB1]) (bs := []) h2 rfl .nil),
    ⟨?_, nofun, nofun, nofun, nofun, nofun⟩⟩
  intro i hi
  simp only [storePlaced, storeBody, List.mem_cons, List.not_mem_nil, or_false] at hi
  rcases hi with rfl | rfl <;> trivial

/-- Violated: a method that stores into a static field does not after it was read and written (C34). -/
theorem C70_violated : ¬ C70_full := by
  intro h
  have e : ∃ bs cp' t, storeBody.write VecCp.new = .ok (bs, cp') ∧ bs.length < 2 ^ 32 ∧ cp'.bsm = [] ∧
      bs = U2 1 ++ U2 0 ++ U4 4 ++ (0xB2 :: t) ++ U2 0 ++ U2 0 ∧ t.length = 3 :=
    ⟨_, _, [0, 6, 0xB1], rfl, by decide +kernel, rfl, by decide +kernel, rfl⟩
  obtain ⟨bs, cp', t, hw, hl, hb, hbs, ht⟩ := e
  obtain ⟨P, hP⟩ := agrees_exists cp'.entries
  have hn : NoSubroutines storeBody.code := by
    intro i hi
    simp only [storeBody, List.mem_cons, List.not_mem_nil, or_false] at hi
    rcases hi with rfl | rfl <;> exact ⟨nofun, nofun⟩
  obtain ⟨ks, φ, h1, _, h2, _⟩ := placed_alike (Nat.zero_le _) store_placed
  have h3 : HasCode P [] bs (0xB2 :: t) [] :=
    ⟨1, 0, U2 0, U2 0, by simp [ht], by rw [hbs]; simp [ht], by decide, [], by simp, rfl⟩
  have h4 := h (fun _ vs => vs) (fun _ _ => .refl _) _ _ _ (Nat.zero_le _) store_placed storeBody ⟨[], none⟩
    storeBytes_read hn VecCp.new cp' bs (.refl _) hw hl ⟨P, []⟩ ⟨hP, hb ▸ List.prefix_refl _⟩ (Nat.zero_le _)
    _ _ _ _ h1 h3
  obtain ⟨pc, h5⟩ := ((((alike_equivalent h2).trans h4) Bool storing false 1 true).2.2).mp ⟨1, stores⟩
  exact no_store h5

/-! ### A class to which this applies -/

/-- What is read from the file of C47 with a `goto` to itself. -/
def spinRead : Class := ⟨⟨0, .j8⟩, ⟨0x21⟩, [0x41], none, [], [],
  [⟨⟨1⟩, [0x6D], .method [] none, [.code ⟨0, 0, [.label 0, .lineNumber 12, .jump .always 0], [], []⟩]⟩], []⟩

set_option maxRecDepth 100000 in
theorem spinRead_read : Class.read (fun _ _ l => l) spinFile = .ok (spinRead, []) := by
  with_unfolding_all rfl

theorem spinRead_regular : Regular spinRead := by
  have hd : IsDescriptor (.method [] none) := .void (by simp)
  have f1 : Fitting [0x41] := fits (by decide +kernel)
  have f2 : Fitting [0x6D] := fits (by decide +kernel)
  have f3 : Fitting (JType.toWtf8 (.method [] none)) := fits (by decide +kernel)
  refine ⟨nofun, fun m hm => ?_, nofun, by decide, by decide, ⟨f1, nofun, nofun, nofun, fun m hm => ?_, nofun, fun b hb => ?_⟩⟩
  · cases List.mem_singleton.mp hm
    refine ⟨hd, fun a ha => ?_⟩
    cases List.mem_singleton.mp ha
    refine ⟨fun i hi => ?_, nofun, .inl (by decide)⟩
    simp only [List.mem_cons, List.not_mem_nil, or_false] at hi
    rcases hi with rfl | rfl | rfl <;> trivial
  · cases List.mem_singleton.mp hm
    refine ⟨f2, f3, fun a ha => ?_⟩
    cases List.mem_singleton.mp ha
    refine ⟨fun i hi => ?_, nofun, nofun⟩
    simp only [List.mem_cons, List.not_mem_nil, or_false] at hi
    rcases hi with rfl | rfl | rfl <;> trivial
  · cases hb

example : ∃ out, spinRead.rewrite 65538 = .ok out ∧ out.length = 77 ∧ ∃ P Q : ClassOf Prog,
    classFile program P spinFile ∧ classFile program Q out ∧ Matched (SameMethod Equivalent) P.methods Q.methods := by
  have hn := acyclic_static (table_static (regular_static spinRead_regular))
  have hr := C66_written_partial _ (fun _ _ l => List.Perm.refl l) _ _ _ spinRead_read hn
  obtain ⟨out, hw, hl⟩ := written_of (x := completed spinRead) (n := 77) (by decide +kernel)
  rw [hw] at hr
  obtain ⟨P, Q, h1, h2, _, _, _, _, _, _, _, _, h3⟩ := C70_class_partial _ (fun _ _ l => List.Perm.refl l) spinClass spinFile
    spin_file spin_readable [] out spinRead (by rw [List.append_nil]; exact spinRead_read) spinRead_regular (by
      intro m hm b hb
      cases List.mem_singleton.mp hm
      cases List.mem_singleton.mp hb
      intro i hi
      simp only [List.mem_cons, List.not_mem_nil, or_false] at hi
      rcases hi with rfl | rfl | rfl <;> exact ⟨nofun, nofun⟩) hr (by decide +kernel) (by omega)
  exact ⟨out, hr, hl, P, Q, h1, h2, h3⟩

end Verif.Props
