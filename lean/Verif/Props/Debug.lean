import Verif.Lemmas.Debug
import Verif.Props.Members
import Verif.Lemmas.Rename

/-! # C102: the attributes of a body do not change its code -/

namespace Verif.Props
open Verif Spec

theorem read_in {ord : Nat → List LocalVariable → List LocalVariable} {env : REnv} {st st' : RSt} {bs rest : Bytes} {k : Code} :
    Code.read ord env st bs = .ok (k, st', rest) ↔ ∃ st1, st' = ⟨st1.pending, st.labels⟩ ∧
      Code.readIn ord { env with catches := some [] } ⟨st.pending, some []⟩ bs = .ok (k, st1, rest) := by
  unfold Code.read
  constructor
  · intro h
    split at h
    · cases h
    rename_i h1
    cases h
    exact ⟨_, rfl, h1⟩
  · rintro ⟨st1, rfl, h⟩
    rw [h]

/-- Two bodies that differ in their attributes only are read as the same code: the same limits, the same handlers, and the
same instructions, in which the same labels stand in the same places. Only line numbers, and labels to which neither
instructions nor handlers refer, can differ. -/
theorem C102_same (f f' : List LocalVariable → List LocalVariable) (env : REnv) (st st1 st2 : RSt) (z : BodyParts)
    (as : List (UInt16 × Bytes)) (hz : z.Sized) (hz' : BodyParts.Sized { z with attrs := as }) (k k' : Code)
    (h : Code.read (fun _ => f) env st z.bytes = .ok (k, st1, []))
    (h' : Code.read (fun _ => f') env st { z with attrs := as }.bytes = .ok (k', st2, [])) : CodeAlike k k' := by
  obtain ⟨_, _, h⟩ := read_in.mp h
  obtain ⟨_, _, h'⟩ := read_in.mp h'
  exact bodies_same rfl hz hz' h h'

/-- A body that is accepted is accepted without its attributes, as the same code with no line numbers. -/
theorem C102_bare (f : List LocalVariable → List LocalVariable) (env : REnv) (st st1 : RSt) (z : BodyParts) (hz : z.Sized)
    (k : Code) (h : Code.read (fun _ => f) env st z.bytes = .ok (k, st1, [])) :
    ∃ k' st2, Code.read (fun _ => f) env st { z with attrs := [] }.bytes = .ok (k', st2, []) ∧ CodeAlike k k' ∧ k'.attrs = [] ∧
      ∀ n, .lineNumber n ∉ k'.code := by
  obtain ⟨s1, _, h⟩ := read_in.mp h
  obtain ⟨k', s2, h1, h2, h3, h4, _⟩ := body_bare rfl hz h
  refine ⟨k', _, read_in.mpr ⟨s2, rfl, h1⟩, h2, h3, fun n hn => ?_⟩
  rw [← h4] at hn
  exact absurd (List.mem_filter.mp hn).2 (by exact nofun)

/-- The line number tables can be removed from a body, and nothing changes but that the line numbers are gone. -/
theorem C102_lines (f : List LocalVariable → List LocalVariable) (env : REnv) (st st1 : RSt) (z : BodyParts) (hz : z.Sized)
    (as : List (UInt16 × Bytes)) (hc : LinesCut env.pool z.attrs as) (k : Code)
    (h : Code.read (fun _ => f) env st z.bytes = .ok (k, st1, [])) :
    Code.read (fun _ => f) env st { z with attrs := as }.bytes = .ok ({ k with code := withoutLines k.code }, st1, []) := by
  obtain ⟨s1, e, h1⟩ := read_in.mp h
  exact read_in.mpr ⟨s1, e, body_unlined rfl hz hc h1⟩

theorem open_solid (is : List Insn) : is.flatMap openI = (Spec.solid is).flatMap openI := by
  induction is with
  | nil => rfl
  | cons i is ih =>
    have h : Spec.solid (i :: is) = Spec.solid [i] ++ Spec.solid is := List.filter_append [i] is
    rw [List.flatMap_cons, ih, h, List.flatMap_append]
    congr 1
    cases i <;> simp [Spec.solid, openI]

theorem unlined_solid (is : List Insn) : Spec.solid (withoutLines is) = Spec.solid is := by
  unfold Spec.solid withoutLines
  rw [List.filter_filter]
  refine List.filter_congr fun i _ => ?_
  cases i <;> rfl

/-- Another body takes the place of a body. -/
theorem body_replaced {f : List LocalVariable → List LocalVariable} {x : Parts} {c : Class} {cp : MapCp} {j l : Nat}
    {y : MemberParts} {m : Method} {ic : UInt16} {b b' : Bytes} (hx : x.Gives f c)
    (hcp : MapCp.read x.pool = .ok (cp, [])) (hj : x.methods[j]? = some y.bytes) (hy : y.GivesMethod f cp.get m)
    (hl : y.attrs[l]? = some (attrBytes ic b)) (hic : IsUtf8 cp.get ic N.code) (hb : b.length < 2 ^ 32)
    (hb' : b'.length < 2 ^ 32) (rest : Bytes) : ∃ k st,
      (Code.readIn fun _ => f) ⟨cp.get, some []⟩ ⟨[], some []⟩ b = .ok (k, st, []) ∧
      c.methods[j]? = some m ∧ m.attrs[l]? = some (.code k) ∧ ∀ k' st',
        (Code.readIn fun _ => f) ⟨cp.get, some []⟩ ⟨[], some []⟩ b' = .ok (k', st', []) →
        Spec.solid k'.code = Spec.solid k.code →
        Class.read (fun _ _ => f)
          ({ x with methods := x.methods.set j { y with attrs := y.attrs.set l (attrBytes ic b') }.bytes }.bytes ++ rest) =
          .ok ({ c with methods := c.methods.set j { m with attrs := m.attrs.set l (.code k') } }, rest) := by
  have hy0 := hy
  obtain ⟨a1, a2, a3, a4⟩ := hy
  obtain ⟨a, h1, h2⟩ := matched_at a4.2 hl
  obtain ⟨k, st, rfl, h3⟩ := (code_attr hic hb a).mp h2
  refine ⟨k, st, h3, (method_changed hx hcp hj hy0 hy0 (fun _ h => h) rest).1, h1, fun k' st' h4 h5 => ?_⟩
  refine (method_changed (y' := { y with attrs := y.attrs.set l (attrBytes ic b') })
    (m' := { m with attrs := m.attrs.set l (.code k') }) hx hcp hj hy0
    ⟨a1, a2, a3, eachAlone_set ((code_attr hic hb' _).mpr ⟨k', st', rfl, h4⟩) a4 l⟩ (set_flatMap h1 ?_) rest).2
  intro z hz
  unfold openMethodAttr at hz ⊢
  simp only at hz ⊢
  rw [open_solid] at hz ⊢
  rwa [h5] at hz

theorem flat_sublist {as bs : List (UInt16 × Bytes)} (h : as.Sublist bs) : (flatAttrs as).length ≤ (flatAttrs bs).length := by
  induction h with
  | slnil => exact Nat.le_refl _
  | cons a _ ih =>
    refine Nat.le_trans ih ?_
    show _ ≤ (attrBytes a.1 a.2 ++ flatAttrs _).length
    rw [List.length_append]
    omega
  | cons_cons a _ ih =>
    show (attrBytes a.1 a.2 ++ flatAttrs _).length ≤ (attrBytes a.1 a.2 ++ flatAttrs _).length
    rw [List.length_append, List.length_append]
    omega

theorem front_length (z : BodyParts) (as : List (UInt16 × Bytes)) (h : as.Sublist z.attrs) :
    { z with attrs := as }.bytes.length ≤ z.bytes.length := by
  have := flat_sublist h
  simp only [body_bytes, BodyParts.front, List.length_append, U2, List.length_cons, List.length_nil]
  omega

/-- In a class file the attributes of one body are removed: this body loses its attributes and its line numbers, and
nothing else in the class is different. -/
theorem C102_class_bare (f : List LocalVariable → List LocalVariable) (x : Parts) (c : Class) (rest : Bytes) (cp : MapCp)
    (hx : x.Gives f c) (hcp : MapCp.read x.pool = .ok (cp, [])) (j l : Nat) (y : MemberParts) (m : Method)
    (hj : x.methods[j]? = some y.bytes) (hy : y.GivesMethod f cp.get m) (ic : UInt16) (hic : IsUtf8 cp.get ic N.code)
    (z : BodyParts) (hl : y.attrs[l]? = some (attrBytes ic z.bytes)) (hz : z.Sized) (hs : z.bytes.length < 2 ^ 32) :
    ∃ k k', c.methods[j]? = some m ∧ m.attrs[l]? = some (.code k) ∧ CodeAlike k k' ∧ k'.attrs = [] ∧
      (∀ n, .lineNumber n ∉ k'.code) ∧ Class.read (fun _ _ => f)
        ({ x with methods := x.methods.set j { y with attrs := y.attrs.set l (attrBytes ic { z with attrs := [] }.bytes) }.bytes }.bytes ++ rest) =
        .ok ({ c with methods := c.methods.set j { m with attrs := m.attrs.set l (.code k') } }, rest) := by
  obtain ⟨k, st, h1, h2, h3, h4⟩ := body_replaced (b' := { z with attrs := [] }.bytes) hx hcp hj hy hl hic hs
    (Nat.lt_of_le_of_lt (front_length z [] (List.nil_sublist _)) hs) rest
  obtain ⟨k', s2, e1, e2, e3, e4, e5⟩ := body_bare rfl hz h1
  refine ⟨k, k', h2, h3, e2, e3, fun n hn => ?_, h4 k' s2 e1 e5⟩
  rw [← e4] at hn
  exact absurd (List.mem_filter.mp hn).2 (by exact nofun)

/-- In a class file the line number tables of one body are removed: this body loses its line numbers, and nothing else in the
class is different. -/
theorem C102_class_lines (f : List LocalVariable → List LocalVariable) (x : Parts) (c : Class) (rest : Bytes) (cp : MapCp)
    (hx : x.Gives f c) (hcp : MapCp.read x.pool = .ok (cp, [])) (j l : Nat) (y : MemberParts) (m : Method)
    (hj : x.methods[j]? = some y.bytes) (hy : y.GivesMethod f cp.get m) (ic : UInt16) (hic : IsUtf8 cp.get ic N.code)
    (z : BodyParts) (hl : y.attrs[l]? = some (attrBytes ic z.bytes)) (hz : z.Sized) (hs : z.bytes.length < 2 ^ 32)
    (as : List (UInt16 × Bytes)) (hc : LinesCut cp.get z.attrs as) :
    ∃ k, c.methods[j]? = some m ∧ m.attrs[l]? = some (.code k) ∧ Class.read (fun _ _ => f)
        ({ x with methods := x.methods.set j { y with attrs := y.attrs.set l (attrBytes ic { z with attrs := as }.bytes) }.bytes }.bytes ++ rest) =
        .ok ({ c with methods := c.methods.set j { m with attrs := m.attrs.set l (.code { k with code := withoutLines k.code }) } }, rest) := by
  obtain ⟨k, st, h1, h2, h3, h4⟩ := body_replaced (b' := { z with attrs := as }.bytes) hx hcp hj hy hl hic hs
    (Nat.lt_of_le_of_lt (front_length z as hc.sub) hs) rest
  exact ⟨k, h2, h3, h4 _ _ (body_unlined rfl hz hc h1) (unlined_solid _)⟩

/-! ## Writing -/

theorem filter_last {g : Label → Bool} {l : Label} (hl : g l = true) : ∀ is : List Insn,
    lastPlace l (is.filter (keeps g)) = lastPlace l is := by
  intro is
  induction is with
  | nil => rfl
  | cons i is ih =>
    by_cases h : keeps g i = true
    · rw [List.filter_cons_of_pos h]
      by_cases hi : ∃ l', i = .label l'
      · obtain ⟨l', rfl⟩ := hi
        rw [lastPlace_label, lastPlace_label, ih]
      · rw [lastPlace_other fun l' e => hi ⟨l', e⟩, lastPlace_other fun l' e => hi ⟨l', e⟩, ih]
    · rw [List.filter_cons_of_neg h, ih]
      cases i with
      | label l' =>
        have hne : l' ≠ l := fun e => h (e ▸ hl)
        rw [lastPlace_label]
        cases lastPlace l is with
        | none => exact (if_neg hne).symm
        | some _ => rfl
      | lineNumber n =>
        rw [lastPlace_other (i := .lineNumber n) (fun _ h => nomatch h)]
        cases lastPlace l is <;> rfl
      | _ => exact absurd rfl h

theorem filter_normal (g : Label → Bool) (is : List Insn) : (is.filter (keeps g)).filterMap normal = is.filterMap normal := by
  induction is with
  | nil => rfl
  | cons i is ih =>
    by_cases h : keeps g i = true
    · rw [List.filter_cons_of_pos h, List.filterMap_cons, List.filterMap_cons, ih]
    · rw [List.filter_cons_of_neg h, ih]
      cases i with
      | label _ => rfl
      | lineNumber _ => rfl
      | _ => exact absurd rfl h

theorem normal_targets {i j : Insn} (h : normal i = some j) {l : Label} (hl : l ∈ targets j) : l ∈ targets i := by
  unfold normal at h
  split at h <;> cases h <;> try (exact hl)
  rcases List.mem_cons.mp hl with rfl | hl
  · exact List.mem_cons_self
  · obtain ⟨e, he, rfl⟩ := List.mem_map.mp hl
    exact List.mem_cons_of_mem _ (List.mem_map_of_mem (List.mem_mergeSort.mp he))

theorem essence_written (k : Code) : Code.write { k with code := essence k, attrs := [] } = Code.write { k with attrs := [] } := by
  refine same_places (unmarked_places (x := { k with attrs := [] }) (filter_normal _ _) fun l hl => filter_last ?_ _)
  refine decide_eq_true ?_
  unfold codeLabels at hl
  rw [List.flatMap_nil, List.append_nil] at hl
  rcases List.mem_append.mp hl with hl | hl
  · obtain ⟨j, hj, hl⟩ := List.mem_flatMap.mp hl
    obtain ⟨i, hi, e⟩ := List.mem_filterMap.mp hj
    exact List.mem_append_left _ (List.mem_flatMap.mpr ⟨i, hi, normal_targets e hl⟩)
  · exact List.mem_append_right _ hl

/-- Bodies with the same code are written alike, once their attributes are left out. -/
theorem C102_written (k k' : Code) (h : CodeAlike k k') (cp : VecCp) :
    Code.write { k' with attrs := [] } cp = Code.write { k with attrs := [] } cp := by
  obtain ⟨h1, h2, h3, h4⟩ := h
  rw [← essence_written k, ← essence_written k', h1, h2, h3, h4]

/-- A body that is written can be written without its attributes; the limits, the code array and the exception table are
the same bytes, and after them comes the number 0 instead of the attributes. -/
theorem C102_stripped (k : Code) (cp cp1 : VecCp) (b : Bytes) (h : k.write cp = .ok (b, cp1)) :
    ∃ d n as cp0, b = d ++ U2 n ++ as ∧ Code.write { k with attrs := [] } cp = .ok (d ++ U2 0, cp0) := by
  unfold Code.write at h
  obtain ⟨a, c1, h1, h⟩ := Ins.bind_ok h
  obtain ⟨hs, c2, h2, h⟩ := Ins.bind_ok h
  obtain ⟨⟨extra, as⟩, c3, h3, h⟩ := Ins.bind_ok h
  simp only at h
  split at h
  · cases h
    refine ⟨u16.write k.maxStack ++ u16.write k.maxLocals ++ u32.write a.len ++ a.code ++
      u16.write (UInt16.ofNat k.catches.length) ++ hs, (UInt16.ofNat k.attrs.length + UInt16.ofNat extra).toNat, as, c2, ?_, ?_⟩
    · rw [← u16_write]
    unfold Code.write
    show Ins.bind (writeCode k.code) _ cp = _
    unfold Ins.bind
    rw [h1]
    show Ins.bind (wAll (Catch.write (Code.env a k.catches)) k.catches) _ c1 = _
    unfold Ins.bind
    rw [h2]
    have z : U2 0 = u16.write (UInt16.ofNat 0 + UInt16.ofNat 0) := by decide
    rw [z]
    show _ = Except.ok (_ ++ u16.write (UInt16.ofNat 0 + UInt16.ofNat 0), c2)
    rw [← List.append_nil (_ ++ u16.write (UInt16.ofNat 0 + UInt16.ofNat 0))]
    rfl
  · cases h

/-- So whatever the debug information of two bodies with the same code is, they are written with the same limits, code array
and exception table. -/
theorem C102_both_written (k k' : Code) (h : CodeAlike k k') (cp c1 c2 : VecCp) (b b' : Bytes)
    (hb : k.write cp = .ok (b, c1)) (hb' : k'.write cp = .ok (b', c2)) :
    ∃ d n as n' as' cp0, b = d ++ U2 n ++ as ∧ b' = d ++ U2 n' ++ as' ∧ Code.write { k with attrs := [] } cp = .ok (d ++ U2 0, cp0) := by
  obtain ⟨d, n, as, c0, e1, e2⟩ := C102_stripped k cp c1 b hb
  obtain ⟨d', n', as', c0', e1', e2'⟩ := C102_stripped k' cp c2 b' hb'
  rw [C102_written k k' h, e2] at e2'
  injection e2' with e3
  injection e3 with e3 _
  have e4 : d = d' := List.append_cancel_right e3
  subst e4
  exact ⟨d, n, as, n', as', c0, e1, e1', e2⟩

/-! ### A loop with a line number and a variable -/

def tracedBody : BodyParts :=
  ⟨[0, 1, 0, 1], [0, 0xa7, 0xff, 0xff], [], [(5, [0, 1, 0, 0, 0, 9]), (6, [0, 1, 0, 0, 0, 4, 0, 1, 0, 7, 0, 0])]⟩
def tracedMethod : MemberParts := ⟨[0, 1], [0, 1], [0, 3], [attrBytes 4 tracedBody.bytes]⟩

def traced : Parts where
  version := [0, 0, 0, 52]
  pool := [0, 8, 1, 0, 1, 0x41, 7, 0, 1] ++ utf8Bytes noArgs ++ utf8Bytes N.code ++ utf8Bytes N.lineNumberTable ++
    utf8Bytes N.localVariableTable ++ [1, 0, 1, 0x49]
  access := [0, 0x21]
  name := [0, 2]
  super := [0, 0]
  interfaces := []
  fields := []
  methods := [tracedMethod.bytes]
  attrs := []

def tracedPool : Pool := match MapCp.read traced.pool with
  | .ok (cp, _) => cp.get
  | .error _ => fun _ => none

theorem tracedPool_read : ∃ cp, MapCp.read traced.pool = .ok (cp, []) ∧ cp.get = tracedPool := by
  have h : (match MapCp.read traced.pool with
    | .ok (_, rest) => rest.isEmpty
    | .error _ => false) = true := by decide +kernel
  unfold tracedPool
  split at h
  · rename_i hr
    rw [hr]
    exact ⟨_, by rw [List.isEmpty_iff.mp h], rfl⟩
  · cases h

theorem tracedBody_sized : tracedBody.Sized := by
  refine ⟨rfl, by decide, by decide, fun _ h => (nomatch h), by decide, ?_⟩
  intro a ha
  rcases List.mem_cons.mp ha with rfl | ha
  · decide
  · rw [List.mem_singleton.mp ha]
    decide

theorem tracedBody_read : Code.read (fun _ => id) ⟨tracedPool, none⟩ ⟨[], none⟩ tracedBody.bytes =
    .ok (⟨1, 1, [.label 0, .lineNumber 9, .noOp, .jump .always 0, .label 1], [], [.locals [⟨0, 1, [0x41], some .int, none, 0⟩]]⟩,
      ⟨[], none⟩, []) := by
  with_unfolding_all rfl

/-- Without the attributes: the line number and the label of the end are gone. -/
example : Code.read (fun _ => id) ⟨tracedPool, none⟩ ⟨[], none⟩ { tracedBody with attrs := [] }.bytes =
    .ok (⟨1, 1, [.label 0, .noOp, .jump .always 0], [], []⟩, ⟨[], none⟩, []) := by
  with_unfolding_all rfl

/-- The two are the same code. -/
example : CodeAlike ⟨1, 1, [.label 0, .lineNumber 9, .noOp, .jump .always 0, .label 1], [], [.locals [⟨0, 1, [0x41], some .int, none, 0⟩]]⟩
    ⟨1, 1, [.label 0, .noOp, .jump .always 0], [], []⟩ :=
  C102_same id id ⟨tracedPool, none⟩ ⟨[], none⟩ _ ⟨[], none⟩ tracedBody [] tracedBody_sized
    ⟨rfl, by decide, by decide, fun _ h => (nomatch h), by decide, fun _ h => (nomatch h)⟩ _ _ tracedBody_read
    (by with_unfolding_all rfl)

/-- Both can be written. -/
example : ∃ b c b' c', Code.write ⟨1, 1, [.label 0, .lineNumber 9, .noOp, .jump .always 0, .label 1], [],
      [.locals [⟨0, 1, [0x41], some .int, none, 0⟩]]⟩ VecCp.new = .ok (b, c) ∧
    Code.write ⟨1, 1, [.label 0, .noOp, .jump .always 0], [], []⟩ VecCp.new = .ok (b', c') :=
  ⟨_, _, _, _, by with_unfolding_all rfl, by with_unfolding_all rfl⟩

theorem traced_cut : LinesCut tracedPool tracedBody.attrs [(6, [0, 1, 0, 0, 0, 4, 0, 1, 0, 7, 0, 0])] :=
  .cut (by with_unfolding_all rfl) (.kept (by
    intro h
    have h1 : IsUtf8 tracedPool 6 N.localVariableTable := by with_unfolding_all rfl
    have h2 : some (Entry.utf8 N.lineNumberTable) = some (.utf8 N.localVariableTable) := Eq.trans (Eq.symm h) h1
    injection h2 with h2
    injection h2 with h2
    exact absurd h2 (by decide)) .nil)

/-- Without the line number table. -/
example : Code.read (fun _ => id) ⟨tracedPool, none⟩ ⟨[], none⟩
    { tracedBody with attrs := [(6, [0, 1, 0, 0, 0, 4, 0, 1, 0, 7, 0, 0])] }.bytes =
    .ok (⟨1, 1, [.label 0, .noOp, .jump .always 0, .label 1], [], [.locals [⟨0, 1, [0x41], some .int, none, 0⟩]]⟩, ⟨[], none⟩, []) :=
  C102_lines id _ _ _ tracedBody tracedBody_sized _ traced_cut _ tracedBody_read

theorem traced_gives : ∃ c m, traced.Gives id c ∧ tracedMethod.GivesMethod id tracedPool m := by
  obtain ⟨cp, h1, h2⟩ := tracedPool_read
  obtain ⟨acc, h3⟩ := alone_of (r := rFlags .cls) (P := tracedPool) (b := traced.access) (by decide +kernel)
  obtain ⟨nm, h4⟩ := alone_of (r := rStr 7) (P := tracedPool) (b := traced.name) (by decide +kernel)
  obtain ⟨sup, h5⟩ := alone_of (r := rClsOpt) (P := tracedPool) (b := traced.super) (by decide +kernel)
  obtain ⟨m, h7⟩ := alone_of (r := Method.read fun _ _ => id) (P := tracedPool) (b := tracedMethod.bytes) (by decide +kernel)
  obtain ⟨ma, k5⟩ := alone_of (r := rFlags .method) (P := tracedPool) (b := tracedMethod.access) (by decide +kernel)
  obtain ⟨n, k2⟩ := alone_of (r := rUtf8) (P := tracedPool) (b := tracedMethod.name) (by decide +kernel)
  obtain ⟨mt, k6⟩ := alone_of (r := rType) (P := tracedPool) (b := tracedMethod.type) (by decide +kernel)
  obtain ⟨bd, k7⟩ := alone_of (r := MethodAttr.read fun _ _ => id) (P := tracedPool) (b := attrBytes 4 tracedBody.bytes)
    (by decide +kernel)
  refine ⟨⟨⟨0, .j8⟩, acc, nm, sup, [], [], [m], []⟩, ⟨ma, n, mt, [bd]⟩, ⟨cp, by with_unfolding_all rfl, h1, ?_⟩,
    k5, k2, k6, by decide, .cons k7 .nil⟩
  rw [h2]
  refine ⟨h3, h4, h5, ⟨by decide, .nil⟩, ⟨by decide, .nil⟩, ⟨by decide, .cons h7 .nil⟩, ⟨by decide, .nil⟩, ?_⟩
  intro pre ms post e
  cases pre <;> cases e

/-- The class without the attributes of its body, and without its line numbers. -/
example : ∃ c, Class.read (fun _ _ => id) { traced with methods :=
      [{ tracedMethod with attrs := [attrBytes 4 { tracedBody with attrs := [] }.bytes] }.bytes] }.bytes = .ok (c, []) := by
  obtain ⟨c, m, hx, hm⟩ := traced_gives
  obtain ⟨cp, h1, h2⟩ := tracedPool_read
  obtain ⟨k, k', _, _, _, _, _, h⟩ := C102_class_bare id traced c [] cp hx h1 0 0 tracedMethod m rfl (h2 ▸ hm) 4
    (by rw [h2]; with_unfolding_all rfl) tracedBody rfl tracedBody_sized (by decide)
  rw [List.append_nil] at h
  exact ⟨_, h⟩

example : ∃ c, Class.read (fun _ _ => id) { traced with methods :=
      [{ tracedMethod with attrs := [attrBytes 4 { tracedBody with attrs := [(6, [0, 1, 0, 0, 0, 4, 0, 1, 0, 7, 0, 0])] }.bytes] }.bytes] }.bytes =
        .ok (c, []) := by
  obtain ⟨c, m, hx, hm⟩ := traced_gives
  obtain ⟨cp, h1, h2⟩ := tracedPool_read
  obtain ⟨k, _, _, h⟩ := C102_class_lines id traced c [] cp hx h1 0 0 tracedMethod m rfl (h2 ▸ hm) 4
    (by rw [h2]; with_unfolding_all rfl) tracedBody rfl tracedBody_sized (by decide) _ (h2 ▸ traced_cut)
  rw [List.append_nil] at h
  exact ⟨_, h⟩

end Verif.Props
