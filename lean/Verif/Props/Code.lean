import Verif.Lemmas.CodeRound
import Verif.Lemmas.SoundCode
import Verif.Props.Asm

/-! # Properties of method bodies (C38 – C41) -/

namespace Verif.Props
open Spec Sig

/-! ## C38 -/

/-- Whatever is read, it is code: the array is a sequence of instructions, of which the value has one each.
There is a name `ν p` for every position that is referred to, no two positions have the same name, only
beginnings of instructions and the end have one; the label stands before the instruction, followed by at most
a line number; every branch has the name of its target, every entry of the exception table those of its
positions. (For input below 2 GiB.) -/
theorem C38_sound (ord : Nat → List LocalVariable → List LocalVariable) (hord : ∀ n l, (ord n l).Perm l)
    (env : REnv) (st st' : RSt) (bs rest : Bytes) (y : Code) (h : Code.read ord env st bs = .ok (y, st', rest))
    (hlen : bs.length < 2 ^ 31) :
    st'.labels = st.labels ∧ ∃ body code prs ν, bs = body ++ rest ∧ Recovers env.pool body y code prs ν :=
  read_sound hord h hlen

/-- Every label that is used in what was read is placed exactly once. -/
theorem C38_once (ord : Nat → List LocalVariable → List LocalVariable) (hord : ∀ n l, (ord n l).Perm l)
    (env : REnv) (st st' : RSt) (bs rest : Bytes) (y : Code) (h : Code.read ord env st bs = .ok (y, st', rest))
    (hlen : bs.length < 2 ^ 31) :
    (placed y.code).Nodup ∧ ∀ l ∈ usedLabels y, l ∈ placed y.code := by
  obtain ⟨_, body, code, prs, ν, _, hr⟩ := read_sound hord h hlen
  obtain ⟨line, pis, hm, hc⟩ := hr.insns
  have hfst : pis.map Prod.fst = prs.map Prod.fst :=
    matched_fst (R := fun r i p => Refers (reach ν p) r i) hm
  have hpl : placed y.code = (prs.map Prod.fst ++ [code.length]).filterMap ν := by
    rw [hc, ← hfst]
    refine placed_rebuild fun e he l e' => ?_
    obtain ⟨_, _, _, h2⟩ := hm.right e he
    have := refers_solid h2
    rw [e'] at this
    cases this
  rw [hpl]
  refine ⟨?_, fun l hl => ?_⟩
  · have hnd := (decodes_pos hr.decodes).2
    rw [Nat.zero_add] at hnd
    rw [List.Nodup, List.pairwise_filterMap]
    refine hnd.imp fun {a b} hab l hl l' hl' e => ?_
    exact hab (hr.inj a b l hl (e ▸ hl'))
  · obtain ⟨p, hp⟩ := hr.used l hl
    exact List.mem_filterMap.mpr ⟨p, hr.range p l hp, hp⟩

theorem U4_inj {a b : Nat} (ha : a < 4294967296) (hb : b < 4294967296) (h : U4 a = U4 b) : a = b := by
  have h1 := readsU4' a ha []
  have h2 := readsU4' b hb []
  rw [h, h2] at h1
  injection h1 with h1
  injection h1 with h1
  have := congrArg UInt32.toNat h1
  rw [UInt32.toNat_ofNat', UInt32.toNat_ofNat', Nat.mod_eq_of_lt ha, Nat.mod_eq_of_lt hb] at this
  exact this.symm

/-- A branch to where no instruction begins is refused. -/
theorem C38_refused (ord : Nat → List LocalVariable → List LocalVariable) (hord : ∀ n l, (ord n l).Perm l)
    (env : REnv) (st : RSt) (ms ml : Nat) (code tail : Bytes) (prs : List (Nat × RInsn)) (hd : Decodes 0 code prs)
    (hlen : (U2 ms ++ U2 ml ++ U4 code.length ++ code ++ tail).length < 2 ^ 31)
    (p : Nat) (r : RInsn) (hp : (p, r) ∈ prs) (o : Int) (ho : o ∈ rawTargets r)
    (hout : ∀ q ∈ prs.map Prod.fst ++ [code.length], (p : Int) + o ≠ q) :
    ∀ v, Code.read ord env st (U2 ms ++ U2 ml ++ U4 code.length ++ code ++ tail) ≠ .ok v := by
  rintro ⟨y, st', rest⟩ h
  obtain ⟨_, body, code', prs', ν, hb, hr⟩ := read_sound hord h hlen
  obtain ⟨hs, tl, e, _⟩ := hr.bytes
  have hlb := congrArg List.length hb
  rw [List.length_append] at hlb
  rw [e] at hb
  have hc : code' = code := by
    simp only [List.append_assoc] at hb
    have h1 := (List.append_inj hb rfl).2
    have h2 := (List.append_inj h1 rfl).2
    obtain ⟨h3, h4⟩ := List.append_inj h2 rfl
    have l1 : code.length < 2 ^ 31 := by
      simp only [List.length_append] at hlen
      omega
    have l2 : code'.length < 2 ^ 31 := by
      rw [e] at hlb
      simp only [List.length_append] at hlb hlen
      omega
    have h5 : code.length = code'.length := U4_inj (by omega) (by omega) h3
    exact (List.append_inj h4 h5).1.symm
  subst hc
  have hd' := decodes_unique hr.decodes hd
  subst hd'
  obtain ⟨line, pis, hm, _⟩ := hr.insns
  obtain ⟨e', _, _, h2⟩ := hm.left _ hp
  obtain ⟨l, hl⟩ := Option.isSome_iff_exists.mp (refers_all h2 o ho)
  unfold reach at hl
  split at hl
  · rename_i h0
    refine hout _ (hr.range _ l hl) ?_
    omega
  · cases hl

/-- Every instruction takes at least one byte, so the loop of the reader ends. -/
theorem C38_progress (p : Nat) (env : REnv) (st st' : RSt) (bs rest : Bytes) (i : Insn)
    (h : rInsn p env st bs = .ok (i, st', rest)) (hl : st.labels.isSome) : rest.length < bs.length := by
  obtain ⟨ls, hl⟩ := Option.isSome_iff_exists.mp hl
  obtain ⟨r, b, offs, rfl, h1, _⟩ := rInsn_sound h hl
  have := rawAt_pos h1
  rw [List.length_append]
  omega

/-! ## C39 -/

/-- Proved: a body that was written is read as itself, up to names of labels, for code of the sizes of C37. -/
theorem C39_roundtrip_partial (ord : Nat → List LocalVariable → List LocalVariable) (hord : ∀ n l, (ord n l).Perm l)
    (x : Code) (hw : CodeWritable x) (hx : CodeReadable x) (cp cp' : VecCp) (bs : Bytes) (h0 : Steps VecCp.new cp)
    (h : x.write cp = .ok (bs, cp')) (hs : ∀ a cp1, writeCode x.code cp = .ok (a, cp1) → Sized x.code a)
    (hlen : bs.length < 2 ^ 32) (W : World) (hW : W.Fits cp') (hT : W.bsm.length ≤ 65536)
    (cs : Option (List Catch)) (st : RSt) (rest : Bytes) :
    ∃ y q ρ, Code.read ord ⟨W.pool, cs⟩ st (bs ++ rest) = .ok (y, ⟨q, st.labels⟩, rest) ∧
      Grown W.bsm st.pending q ∧ SameBody W.bsm x y ρ := by
  obtain ⟨_, a, ⟨cp1, h0⟩, _, h2⟩ := write_body hw (steps_ok h0 VecCp.inv_new).1 h hs
  exact codeBody_read (c := (Code.env a x.catches).ctx W) ord hord hT hx (fun l p h => (label_at h0 h).1)
    (fun l p h => (label_at h0 h).2) (fun k n hn => handler_at hw.catches hn) (h2 W hW hlen) cs st rest

/-! ## C40 -/

/-- Full claim: line numbers are found in the tables of the written body. -/
def C40_full : Prop := ∀ (x : Code) (cp cp' : VecCp) (bs : Bytes), Steps VecCp.new cp → x.write cp = .ok (bs, cp') →
  ∀ (W : World), W.Fits cp' → ∀ (c : Ctx), c.pool = W.pool → ∀ (b : Bytes) (y : Body), bodyWith b c y bs →
    ∀ n, .lineNumber n ∈ x.code → ∃ e ∈ y.attrs.flatMap lineEntries, e.line = n

/-- Without line numbers. -/
def unlined (is : List Insn) : List Insn := is.filter fun
  | .lineNumber _ => false
  | _ => true

/-- Violated by every body: the bytes are those of the body without line numbers. -/
theorem C40_violated_always (x : Code) : x.write = { x with code := unlined x.code }.write := by
  have h : ∀ (is : List Insn) (b : CodeBuf), writeInsns b (unlined is) = writeInsns b is := by
    intro is
    induction is with
    | nil => exact fun _ => rfl
    | cons i is ih =>
      intro b
      cases i with
      | lineNumber n => exact ih b
      | _ =>
        show (writeInsn b _ >>= fun b => writeInsns b (unlined is)) = _
        simp only [ih]
        rfl
  have h2 : writeCode (unlined x.code) = writeCode x.code := by
    unfold writeCode
    rw [h]
  unfold Code.write
  simp only [h2]

theorem C40_violated : ¬ C40_full := by
  intro h
  obtain ⟨P, hP⟩ := agrees_exists VecCp.new.entries
  obtain ⟨e, he, _⟩ := h ⟨0, 0, [.lineNumber 7, .return none], [], []⟩ VecCp.new VecCp.new _ (.refl _) rfl ⟨P, []⟩
    ⟨hP, List.prefix_refl _⟩ ⟨P, [], fun _ => none, fun _ => none⟩ rfl [0xB1] ⟨0, 0, [.return none], [], []⟩
    ⟨U2 0, U2 0, .cons (b := [0xB1]) (bs := []) (.noArg (o := .return_) rfl) .nil, by decide, ⟨by decide, [], rfl, rfl⟩,
      ⟨by decide, [], rfl, rfl⟩, rfl⟩ 7 (by simp)
  cases he

/-! ## C41 -/

/-- Full claim: the exception table is written with the positions that labels have in the code. -/
def C41_full : Prop := ∀ (x : Code) (cp cp' : VecCp) (bs : Bytes), Steps VecCp.new cp → x.write cp = .ok (bs, cp') →
  bs.length < 2 ^ 32 → (∀ i ∈ x.code, CodeOk i) → (marks x.code).Nodup →
  (∀ a cp1, writeCode x.code cp = .ok (a, cp1) → Sized x.code a) →
  ∀ (W : World), W.Fits cp' → ∃ (c : Ctx) (code hs tail : Bytes), c.pool = W.pool ∧ c.bsm = W.bsm ∧
    Layout c 0 x.code code ∧ Fmt.table2 handlerEntry c x.catches hs ∧
    bs = U2 x.maxStack.toNat ++ U2 x.maxLocals.toNat ++ U4 code.length ++ code ++ hs ++ tail

/-- Proved: for less than 65536 handlers and attributes that can be written. -/
theorem C41_layout_partial (x : Code) (cp cp' : VecCp) (bs : Bytes) (hx : CodeWritable x) (h0 : Steps VecCp.new cp)
    (h : x.write cp = .ok (bs, cp')) (hs : ∀ a cp1, writeCode x.code cp = .ok (a, cp1) → Sized x.code a)
    (hlen : bs.length < 2 ^ 32) (W : World) (hW : W.Fits cp') :
    ∃ (c : Ctx) (code hs tail : Bytes), c.pool = W.pool ∧ c.bsm = W.bsm ∧
      Layout c 0 x.code code ∧ Fmt.table2 handlerEntry c x.catches hs ∧
      bs = U2 x.maxStack.toNat ++ U2 x.maxLocals.toNat ++ U4 code.length ++ code ++ hs ++ tail := by
  obtain ⟨_, a, _, _, h2⟩ := write_body hx (steps_ok h0 VecCp.inv_new).1 h hs
  obtain ⟨lss, _, hs, as, h3, _, h5, _, e⟩ := h2 W hW hlen
  exact ⟨_, a.code, hs, as, rfl, rfl, h3, h5, e⟩

/-- A handler whose labels are not placed is never written. -/
theorem C41_missing (x : Code) (cp cp' : VecCp) (bs : Bytes) (h : x.write cp = .ok (bs, cp')) :
    ∀ k ∈ x.catches, ∀ l ∈ catchLabels k, .label l ∈ x.code := by
  obtain ⟨a, cp1, h1, h2⟩ := Ins.bind_ok h
  obtain ⟨hs, cp2, h3, h9⟩ := Ins.bind_ok h2
  clear h9
  have hl : ∀ {l : Label} {cp cp' : VecCp} {b : Bytes}, wLabel (Code.env a x.catches) l cp = .ok (b, cp') →
      .label l ∈ x.code := by
    intro l cp cp' b hl
    obtain ⟨o, cp3, h4, _⟩ := Ins.bind_ok hl
    obtain ⟨h4, _⟩ := Ins.lift_ok h4
    exact writeCode_label h1 h4
  clear h h1 h2
  generalize Code.env a x.catches = env at h3 hl
  generalize x.catches = ks at h3
  induction ks generalizing cp1 cp2 hs with
  | nil => simp
  | cons k ks ih =>
    obtain ⟨b, cp3, h4, h5⟩ := Ins.bind_ok h3
    obtain ⟨b', cp4, h6, _⟩ := Ins.bind_ok h5
    intro k' hk'
    rcases List.mem_cons.mp hk' with rfl | hk''
    · obtain ⟨_, _, g1, g2⟩ := Ins.bind_ok h4
      obtain ⟨_, _, g2, _⟩ := Ins.bind_ok g2
      obtain ⟨_, _, g3, g4⟩ := Ins.bind_ok g2
      obtain ⟨_, _, g4, _⟩ := Ins.bind_ok g4
      obtain ⟨_, _, g5, _⟩ := Ins.bind_ok g4
      intro l hm
      simp only [catchLabels, List.mem_cons, List.not_mem_nil, or_false] at hm
      rcases hm with rfl | rfl | rfl
      · exact hl g1
      · exact hl g3
      · exact hl g5
    · exact ih _ _ _ h6 k' hk''

theorem wAll_replicate {α : Type} {w : α → Ins Bytes} {k : α} {cp : VecCp} {b : Bytes} (h : w k cp = .ok (b, cp)) :
    ∀ n, wAll w (List.replicate n k) cp = .ok ((List.replicate n b).flatten, cp)
  | 0 => rfl
  | n + 1 => by
    have := wSeq_cons_ok h (wAll_replicate h n)
    rw [List.replicate_succ, List.replicate_succ]
    exact this

/-- Many handlers. -/
def besieged (n : Nat) : Code := ⟨0, 0, [.label 0, .return none], List.replicate n ⟨0, 0, 0, none⟩, []⟩

theorem besieged_write (n : Nat) : ∃ bs, (besieged n).write VecCp.new = .ok (bs, VecCp.new) ∧ bs.length = 13 + n * 8 := by
  have h1 : ∃ a, writeCode [.label 0, .return none] VecCp.new = .ok (a, VecCp.new) ∧ a.code = [0xB1] ∧
      ∀ ks, Catch.write (Code.env a ks) ⟨0, 0, 0, none⟩ VecCp.new = .ok (List.replicate 8 0, VecCp.new) :=
    ⟨_, rfl, rfl, fun _ => rfl⟩
  obtain ⟨a, h1, h2, h3⟩ := h1
  have step : ∀ {α : Type} {m : Ins α} {f : α → Ins Bytes} {x : α} {r : Res (Bytes × VecCp)}, m VecCp.new = .ok (x, VecCp.new) →
      f x VecCp.new = r → (m >>= f) VecCp.new = r := by
    intro α m f x r e1 e2
    show Ins.bind m f VecCp.new = r
    unfold Ins.bind
    rw [e1]
    exact e2
  have e : (besieged n).write VecCp.new = .ok (_, VecCp.new) :=
    step h1 (step (wAll_replicate (h3 _) n) (r := .ok (u16.write 0 ++ u16.write 0 ++ u32.write a.len ++ a.code ++
      u16.write (UInt16.ofNat (List.replicate n (⟨0, 0, 0, none⟩ : Catch)).length) ++ _ ++ u16.write 0 ++ [], VecCp.new)) rfl)
  refine ⟨_, e, ?_⟩
  simp only [List.length_append, h2, u16_write, u32_write, List.length_flatten, List.map_replicate,
    List.sum_replicate_nat, List.length_replicate]
  simp only [U2, U4, List.length_append, List.length_cons, List.length_nil]
  omega

/-- Violated: the number of handlers is cut to 16 bits. -/
theorem C41_violated : ¬ C41_full := by
  intro h
  obtain ⟨bs, h1, h2⟩ := besieged_write 65536
  obtain ⟨P, hP⟩ := agrees_exists VecCp.new.entries
  obtain ⟨c, code, hs, tail, _, _, _, h3, _⟩ := h (besieged 65536) VecCp.new VecCp.new bs (.refl _) h1 (by omega)
    (by
      intro i hi
      simp only [besieged, List.mem_cons, List.not_mem_nil, or_false] at hi
      rcases hi with rfl | rfl <;> trivial) (by decide) (by
      intro a cp1 ha
      have : a.code = [0xB1] := by
        have e : writeCode [.label 0, .return none] VecCp.new = .ok (_, VecCp.new) := rfl
        rw [show (besieged 65536).code = [.label 0, .return none] from rfl, e] at ha
        cases ha
        rfl
      exact .inl (by rw [this]; decide)) ⟨P, []⟩ ⟨hP, List.prefix_refl _⟩
  have h4 : (List.replicate 65536 (⟨0, 0, 0, none⟩ : Catch)).length < 65536 := h3.1
  rw [List.length_replicate] at h4
  omega

/-! ## C51 -/

/-- Proved: what is written for a body is the content of an attribute `Code` with its instructions, exception
table, tables of variables and annotations, at the positions that labels have in the code; for code of the
sizes of C37. -/
theorem C51_layout_partial (x : Code) (cp cp' : VecCp) (bs : Bytes) (hx : CodeWritable x) (h0 : Steps VecCp.new cp)
    (h : x.write cp = .ok (bs, cp')) (hs : ∀ a cp1, writeCode x.code cp = .ok (a, cp1) → Sized x.code a)
    (hlen : bs.length < 2 ^ 32) (W : World) (hW : W.Fits cp') :
    codeFile (WEnv.outside.ctx W) x bs := by
  obtain ⟨_, a, ⟨cp1, h0⟩, _, h2⟩ := write_body hx (steps_ok h0 VecCp.inv_new).1 h hs
  exact ⟨(Code.env a x.catches).ctx W, a.code, rfl, rfl, fun l p h => label_at h0 h, fun k n hn => handler_at hx.catches hn, h2 W hW hlen⟩

/-! ## C52 -/

/-- Reading the content of an attribute `Code`, whoever wrote it, gives its instructions with labels and line
numbers in their places, its handlers, its variables and annotations. -/
theorem C52_read (ord : Nat → List LocalVariable → List LocalVariable) (hord : ∀ n l, (ord n l).Perm l)
    (c : Ctx) (hT : c.bsm.length ≤ 65536) (x : Body) (b bs : Bytes) (pis : List (Nat × Insn))
    (h : bodyWith b c x bs) (hp : Positioned c 0 x.code b pis) (hx : x.Ok c b.length pis)
    (cs : Option (List Catch)) (st : RSt) (rest : Bytes) :
    ∃ y q ν ρ, Code.read ord ⟨c.pool, cs⟩ st (bs ++ rest) = .ok (y, ⟨q, st.labels⟩, rest) ∧
      Grown c.bsm st.pending q ∧ Describes c b.length x pis ν ρ y :=
  read_body ord hord hT h hp hx cs st rest

/-! ## Cases -/

/-- The loop of C37 with a handler of all exceptions and a variable that is named. -/
def sampleBody : Code :=
  ⟨1, 2, loop, [⟨7, 9, 9, none⟩], [.locals [⟨7, 9, [105], some .int, none, 1⟩]]⟩

theorem sampleBody_writable : CodeWritable sampleBody := by
  refine ⟨loop_ok.insns, loop_ok.labels, by decide, by decide, ?_⟩
  intro a ha
  rw [show a = _ from List.mem_singleton.mp ha]
  intro v hv
  rw [show v = _ from List.mem_singleton.mp hv]
  refine ⟨fun d hd => ?_, fun g hg => by cases hg⟩
  cases hd
  exact .field .int

theorem sampleBody_readable : CodeReadable sampleBody := by
  refine ⟨?_, ?_, by simp [sampleBody, attrVars]⟩
  · intro i hi
    simp only [sampleBody, loop, List.mem_cons, List.not_mem_nil, or_false] at hi
    rcases hi with rfl | rfl | rfl | rfl | rfl | rfl | rfl | rfl | rfl <;> trivial
  · intro a ha
    rw [show a = _ from List.mem_singleton.mp ha]
    intro v hv
    rw [show v = _ from List.mem_singleton.mp hv]
    exact .inl rfl

theorem sampleBody_sized (a : Assembled) (cp : VecCp) (h : writeCode sampleBody.code VecCp.new = .ok (a, cp)) :
    Sized sampleBody.code a := by
  have e : writeCode loop VecCp.new = .ok (_, VecCp.new) := rfl
  rw [show sampleBody.code = loop from rfl, e] at h
  cases h
  exact .inl (by decide)

/-- It is written and read back; what was read shows the content of C38, too. -/
example : ∃ bs cp' P, sampleBody.write VecCp.new = .ok (bs, cp') ∧ bs.length = 70 ∧ ∃ y q ρ,
    Code.read (fun _ vs => vs) ⟨P, none⟩ ⟨[], none⟩ bs = .ok (y, ⟨q, none⟩, []) ∧ SameBody [] sampleBody y ρ ∧
    ∃ body code prs ν, bs = body ++ [] ∧ Recovers P body y code prs ν := by
  have e : ∃ bs cp', sampleBody.write VecCp.new = .ok (bs, cp') ∧ bs.length = 70 ∧ cp'.bsm = [] := ⟨_, _, rfl, by decide +kernel, rfl⟩
  obtain ⟨bs, cp', e, hl, hb⟩ := e
  obtain ⟨P, hP⟩ := agrees_exists cp'.entries
  obtain ⟨y, q, ρ, h1, _, h2⟩ := C39_roundtrip_partial (fun _ vs => vs) (fun _ _ => .refl _) sampleBody
    sampleBody_writable sampleBody_readable VecCp.new cp' bs (.refl _) e sampleBody_sized (by omega) ⟨P, []⟩
    ⟨hP, hb ▸ List.prefix_refl _⟩ (Nat.zero_le _) none ⟨[], none⟩ []
  rw [List.append_nil] at h1
  exact ⟨bs, cp', P, e, hl, y, q, ρ, h1, h2,
    (C38_sound (fun _ vs => vs) (fun _ _ => .refl _) _ _ _ _ _ _ h1 (by omega)).2⟩

/-- A `goto` into itself is refused. -/
example (P : Pool) (tail : Bytes) (h : tail.length < 1000) : ∀ v, Code.read (fun _ vs => vs) ⟨P, none⟩ ⟨[], none⟩
    ([0, 0, 0, 0, 0, 0, 0, 3, 0xA7, 0, 1] ++ tail) ≠ .ok v :=
  C38_refused _ (fun _ _ => .refl _) _ _ 0 0 [0xA7, 0, 1] tail [(0, .Goto 1)]
    (.cons (b := [0xA7, 0, 1]) (bs := []) ⟨trivial, [], rfl, rfl⟩ .nil) (by simp [U2, U4]; omega) 0 (.Goto 1) (by simp) 1
    (by decide) (by decide)

/-- A `goto` to itself on line 12. -/
example : ∃ P y q ν ρ, Code.read (fun _ vs => vs) ⟨P, none⟩ ⟨[], none⟩
      [0, 0, 0, 0, 0, 0, 0, 3, 0xA7, 0, 0, 0, 0, 0, 1, 0, 1, 0, 0, 0, 6, 0, 1, 0, 0, 0, 12] = .ok (y, ⟨q, none⟩, []) ∧
    Describes ⟨P, [], fun l => if l = 3 then some 0 else none, fun _ => none⟩ 3
      ⟨0, 0, [.label 3, .jump .always 3], [], [.lines [⟨0, 12⟩]]⟩ [(0, .jump .always 3)] ν ρ y := by
  obtain ⟨P, hP⟩ := agrees_exists [.utf8 N.lineNumberTable]
  have h1 : IsUtf8 P 1 N.lineNumberTable := hP 1 _ ⟨[], [], rfl, rfl⟩
  let c : Ctx := ⟨P, [], fun l => if l = 3 then some 0 else none, fun _ => none⟩
  have hn : near 0 c 3 [0, 0] := ⟨0, ⟨0, rfl, rfl⟩, by decide, by decide, by decide⟩
  have hl : Enc c 0 (.label 3) [] := .label rfl
  have hj : Enc c 0 (.jump .always 3) [0xA7, 0, 0] := .jump hn
  have hw : bodyWith [0xA7, 0, 0] c ⟨0, 0, [.label 3, .jump .always 3], [], [.lines [⟨0, 12⟩]]⟩
      [0, 0, 0, 0, 0, 0, 0, 3, 0xA7, 0, 0, 0, 0, 0, 1, 0, 1, 0, 0, 0, 6, 0, 1, 0, 0, 0, 12] :=
    ⟨[0, 0], [0, 1, 0, 1, 0, 0, 0, 6, 0, 1, 0, 0, 0, 12], .cons (b := []) hl (.cons (b := [0xA7, 0, 0]) (bs := []) hj .nil),
      by decide, ⟨by decide, [], by decide, rfl⟩,
      ⟨by decide, [0, 1, 0, 0, 0, 6, 0, 1, 0, 0, 0, 12], by decide, _, [], (List.append_nil _).symm,
        ⟨1, [0, 1, 0, 0, 0, 12], h1, ⟨by decide, [0, 0, 0, 12], by decide, _, [], (List.append_nil _).symm,
          ⟨[0, 0], [0, 12], rfl, rfl, [0, 12], [], rfl, rfl, rfl⟩, rfl⟩, by decide, by decide⟩, rfl⟩, by decide⟩
  have hp : Positioned c 0 [.label 3, .jump .always 3] [0xA7, 0, 0] [(0, .jump .always 3)] :=
    .skip hl rfl (.keep (b := [0xA7, 0, 0]) (bs := []) hj rfl .nil)
  have ok : Body.Ok c 3 ⟨0, 0, [.label 3, .jump .always 3], [], [.lines [⟨0, 12⟩]]⟩ [(0, .jump .always 3)] := by
    refine ⟨?_, ?_, by simp [lineEntries], by simp [varInfos], by simp [attrCatches], ?_⟩
    · intro i hi
      simp only [List.mem_cons, List.not_mem_nil, or_false] at hi
      rcases hi with rfl | rfl <;> trivial
    · intro l p h
      simp only [c] at h
      split at h
      · rename_i e
        rw [e]
        exact List.mem_cons_self
      · cases h
    · intro a ha
      rw [List.mem_singleton.mp ha]
      trivial
  obtain ⟨y, q, ν, ρ, h2, _, h3⟩ := C52_read (fun _ vs => vs) (fun _ _ => .refl _) c (Nat.zero_le _) _ _ _ _ hw hp
    ok none ⟨[], none⟩ []
  exact ⟨P, y, q, ν, ρ, h2, h3⟩

end Verif.Props
