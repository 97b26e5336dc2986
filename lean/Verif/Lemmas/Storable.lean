import Verif.Lemmas.FitsCode
import Verif.Lemmas.Reread
import Verif.Lemmas.WrClass

/-! # What was read fits in what is written -/

namespace Verif
open Spec Sig

variable {α β : Type}

/-! ## Fields -/

theorem fits_fieldAttr : Gives FitsFieldAttr FieldAttr.read := by
  refine gives_attr' (fun name => ?_) fun s b hs => trivial
  unfold FieldAttr.table
  refine table_cons (gives_pure trivial) ?_
  refine table_cons (gives_pure trivial) ?_
  refine table_cons (gives_map (gives_all (fun _ => trivial) _)) ?_
  refine table_cons (gives_map (gives_all (fun _ => trivial) _)) ?_
  refine table_cons (gives_map gives_len) ?_
  refine table_cons (gives_map gives_len) ?_
  refine table_cons (gives_map fits_typeAnns) ?_
  refine table_cons (gives_map fits_typeAnns) ?_
  exact nofun

theorem fits_field : Gives FitsField Field.read :=
  gives_ap (gives_ap (gives_ap (gives_map ((gives_any _).mono fun _ _ _ _ _ _ _ h => h)) (gives_any _)) (gives_any _))
    (gives_list fits_fieldAttr)

/-! ## Methods -/

/-- What is asked of a method attribute, with the bodies as they are after the tables are read. -/
def MethodAttrFits : MethodAttr → Prop
  | .code x => BodyFits x
  | a => FitsMethodAttr a

theorem fits_methodAttr {ord : Order} (ho : ∀ k n l, (ord k n l).Perm l) :
    GivesUnder 2147483648 MethodAttrFits (MethodAttr.read ord) := by
  intro env st bs x st' rest hp hl hr
  have key : GivesUnder 2147483648 MethodAttrFits (rAttr (MethodAttr.table (ord bs.length)) .raw) := by
    refine under_attr (fun name => ?_) fun s b hs => trivial
    unfold MethodAttr.table
    refine under_table (under_map (fits_code (ho _))) ?_
    refine under_table (under_pure trivial) ?_
    refine under_table (under_pure trivial) ?_
    refine under_table (under_map (gives_all (fun _ => trivial) _).under) ?_
    refine under_table (under_map gives_len.under) ?_
    refine under_table (under_map gives_len.under) ?_
    refine under_table (under_map fits_typeAnns.under) ?_
    refine under_table (under_map fits_typeAnns.under) ?_
    refine under_table (under_map ((gives_and gives_len8 (gives_vec gives_len)).mono fun _ h => h).under) ?_
    refine under_table (under_map ((gives_and gives_len8 (gives_vec gives_len)).mono fun _ h => h).under) ?_
    refine under_table (under_map gives_len.under) ?_
    refine under_table (under_map (gives_all (fun _ => trivial) _).under) ?_
    refine under_table (under_map gives_len8.under) ?_
    exact nofun
  exact key _ _ _ _ _ _ hp hl hr

structure MethodFits (m : Method) : Prop where
  table : Table m.attrs
  attrs : ∀ a ∈ m.attrs, MethodAttrFits a

theorem fits_method {ord : Order} (ho : ∀ k n l, (ord k n l).Perm l) :
    GivesUnder 2147483648 MethodFits (Method.read ord) :=
  under_ap (under_ap (under_ap (under_map (gives_flags.mono fun _ _ _ _ _ _ _ h => ⟨h.1, h.2⟩).under)
    (Shrinks.map shrinks_flags) (gives_any _).under) (Shrinks.ap (Shrinks.map shrinks_flags) Shrinks.utf8) (gives_any _).under)
    (Shrinks.ap (Shrinks.ap (Shrinks.map shrinks_flags) Shrinks.utf8) Shrinks.type)
    (under_list (fits_methodAttr ho) shrinks_methodAttr)

/-! ## Classes -/

theorem fits_module : Gives FitsModule Module.read :=
  gives_ap (gives_ap (gives_ap (gives_ap (gives_ap (gives_ap (gives_ap (gives_map ((gives_any _).mono
    fun _ _ _ _ _ _ _ h3 _ h4 _ h5 _ h6 _ h7 => ⟨h3, h4.1, h5.1, h6, h7.1, h4.2, h5.2, h7.2⟩))
    (gives_any _)) (gives_any _)) gives_len)
    (gives_list (gives_ap (gives_ap (gives_map ((gives_any _).mono fun _ _ _ _ _ h => h)) (gives_any _)) gives_len)))
    (gives_list (gives_ap (gives_ap (gives_map ((gives_any _).mono fun _ _ _ _ _ h => h)) (gives_any _)) gives_len)))
    gives_len)
    (gives_list (gives_ap (gives_map ((gives_any _).mono fun _ _ _ h => h)) gives_len))

theorem fits_classAttr : Gives FitsClassAttr ClassAttr.read := by
  refine gives_attr' (fun name => ?_) fun s b hs => trivial
  unfold ClassAttr.table
  refine table_cons (gives_map (gives_all (fun _ => trivial) _)) ?_
  refine table_cons (gives_pure trivial) ?_
  refine table_cons (gives_pure trivial) ?_
  refine table_cons (gives_map (gives_all (fun _ => trivial) _)) ?_
  refine table_cons (gives_map gives_len) ?_
  refine table_cons (gives_ap (gives_map ((gives_any _).mono fun _ _ _ _ => trivial)) (gives_any _)) ?_
  refine table_cons (gives_map gives_debugExt) ?_
  refine table_cons (gives_map (gives_all (fun _ => trivial) _)) ?_
  refine table_cons (gives_map fits_module) ?_
  refine table_cons (gives_map gives_len) ?_
  refine table_cons (gives_map (gives_all (fun _ => trivial) _)) ?_
  refine table_cons (gives_map (gives_all (fun _ => trivial) _)) ?_
  refine table_cons (gives_map gives_len) ?_
  refine table_cons (gives_map gives_len) ?_
  refine table_cons (gives_map gives_len) ?_
  refine table_cons (gives_map fits_typeAnns) ?_
  refine table_cons (gives_map fits_typeAnns) ?_
  exact nofun

structure ClassFits (x : Class) : Prop where
  fields : ∀ f ∈ x.fields, FitsField f
  methods : ∀ m ∈ x.methods, MethodFits m
  attrs : ∀ a ∈ x.attrs, FitsClassAttr a

theorem fits_body {ord : Order} (ho : ∀ k n l, (ord k n l).Perm l) (v : Version) :
    GivesUnder 2147483648 ClassFits (Class.readBody ord v) := by
  have s1 : Shrinks (Rd.map (ClassOf.mk (C := Code) v) (rFlags .cls)) := Shrinks.map shrinks_flags
  have s2 := Shrinks.ap s1 (shrinks_str (tag := 7))
  have s3 := Shrinks.ap s2 shrinks_clsOpt
  have s4 := Shrinks.ap s3 (Shrinks.vec (l := u16) (shrinks_str (tag := 7)))
  have s5 := Shrinks.ap s4 (Shrinks.vec (l := u16) shrinks_field)
  have s6 := Shrinks.ap s5 (Shrinks.vec (l := u16) (shrinks_method (ord := ord)))
  exact under_ap (under_ap (under_ap (under_ap (under_ap (under_ap (under_map (gives_flags.mono
    fun _ _ _ _ _ _ _ _ _ h5 _ h6 _ h7 => ⟨h5, h6, h7⟩).under) s1 (gives_any _).under) s2 (gives_any _).under)
    s3 (gives_any _).under) s4 (gives_vec fits_field).under) s5 (under_vec (fits_method ho) shrinks_method)) s6
    (gives_vec fits_classAttr).under

theorem read_fits {ord : Order} (ho : ∀ k n l, (ord k n l).Perm l) {bs rest : Bytes} {x : Class}
    (h : Class.read ord bs = .ok (x, rest)) (hl : bs.length < 2147483648) : ClassFits x := by
  unfold Class.read at h
  split at h
  · cases h
  rename_i bs1 e1
  split at h
  · split at h
    · cases h
    rename_i bs2 e2
    split at h
    · cases h
    rename_i cp bs3 hcp
    split at h
    · cases h
    · rename_i hb
      split at h
      · cases h
      · cases h
        have h1 := read_pool (List.infix_refl bs2)
        rw [hcp] at h1
        have l1 := plain_num u32 bs
        rw [e1] at l1
        have l1 : bs1.length ≤ bs.length := List.IsSuffix.length_le l1
        have l2 := plain_version bs1
        rw [e2] at l2
        have l2 : bs2.length ≤ bs1.length := List.IsSuffix.length_le l2
        have l3 : bs3.length ≤ bs2.length := List.IsSuffix.length_le h1.1
        exact fits_body ho _ _ _ _ _ _ _ (fun i s hs => (pool_fine h1.2 i s hs).loose) (by omega) hb
  · cases h

/-! ## Cells -/

theorem table_found : ∀ {as : List ClassAttr}, (∃ a ∈ as, isBootstrap a = true) → bootstrapTable as = some (bsmTable as)
  | [], h => by obtain ⟨a, ha, _⟩ := h; cases ha
  | a :: as, h => by
    cases a with
    | bootstrapMethods ms => rfl
    | _ =>
      rw [bootstrapTable]
      · exact table_found (by
          obtain ⟨b, hb, hs⟩ := h
          rcases List.mem_cons.mp hb with rfl | hb
          · cases hs
          · exact ⟨b, hb, hs⟩)
      · nofun

theorem table_length {x : Class} (hg : ClassGood x) : (bsmTable x.attrs).length < 65536 := by
  have key : ∀ as : List ClassAttr, (∀ a ∈ as, ClassAttrGood a) → (bsmTable as).length < 65536 := by
    intro as
    induction as with
    | nil => exact fun _ => by decide
    | cons a as ih =>
      intro h
      cases a with
      | bootstrapMethods ms => exact ((h _ (by simp)).2 ms rfl).1
      | _ => exact ih fun b hb => h b (by simp [hb])
  exact key _ hg.attrs.2

/-- Where there is a table, every cell asks for an entry that is there. -/
theorem cells_found {x : Class} (hg : ClassGood x) (hr : resolveCells (openClass x) x.attrs = .ok ())
    (hb : ∃ a ∈ x.attrs, isBootstrap a = true) {k : UInt16} (hk : k ∈ openClass x) :
    ∃ b, (bsmTable x.attrs)[k.toNat]? = some b := by
  unfold resolveCells at hr
  rw [table_found hb] at hr
  simp only at hr
  have hlt : k.toNat < (bsmTable x.attrs).length := by
    refine Classical.byContradiction fun hn => ?_
    have hrefused : ∃ e, bootstrapMethods (bsmTable x.attrs) ((openClass x).mapIdx fun n k => (k, n)) = .error e := by
      generalize hf : fillLoop 0 (bsmTable x.attrs) ((openClass x).mapIdx fun n k => (k, n)) = r
      obtain ⟨set, left⟩ := r
      obtain ⟨_, h2, _⟩ := fillLoop_ok _ 0 _ set left hf (by have := table_length hg; omega)
      unfold bootstrapMethods
      rw [hf]
      cases left with
      | nil =>
        obtain ⟨n, hn', rfl⟩ := List.getElem_of_mem hk
        have : ((openClass x)[n], n) ∈ (openClass x).mapIdx fun n k => (k, n) := by
          rw [List.mem_mapIdx]
          exact ⟨n, hn', rfl⟩
        have := (h2 _ _).mpr ⟨this, .inr (by omega)⟩
        cases this
      | cons y left => exact ⟨_, rfl⟩
    obtain ⟨e, he⟩ := hrefused
    rw [he] at hr
    cases hr
  exact ⟨_, List.getElem?_eq_getElem hlt⟩

theorem open_or {o : OrDynamic α} {d : Dynamic} (hd : d ∈ orDynamics o) {k : UInt16} (hk : d.bsm = .pending k) :
    k ∈ openO o := by
  cases o with
  | static a => cases hd
  | dynamic d' =>
    cases List.mem_singleton.mp hd
    rw [openO, openD, hk]
    simp

theorem open_insn {i : Insn} {d : Dynamic} (hd : d ∈ insnDynamics i) {k : UInt16} (hk : d.bsm = .pending k) : k ∈ openI i := by
  cases i with
  | invokeDynamic d' =>
    cases List.mem_singleton.mp hd
    rw [openI, openD, hk]
    simp
  | push o => exact open_or hd hk
  | checkCast o => exact open_or hd hk
  | instanceOf o => exact open_or hd hk
  | new o => exact open_or hd hk
  | field _ _ o => exact open_or hd hk
  | invokeExact _ o => exact open_or hd hk
  | invokeSpecial o => exact open_or hd hk
  | invokeInterface o _ => exact open_or hd hk
  | _ => cases hd

theorem open_class {x : Class} {d : Dynamic} (hd : d ∈ classDynamics x) {k : UInt16} (hk : d.bsm = .pending k) :
    k ∈ openClass x := by
  obtain ⟨m, hm, hd⟩ := List.mem_flatMap.mp hd
  obtain ⟨a, ha, hd⟩ := List.mem_flatMap.mp hd
  refine List.mem_append_left _ (List.mem_flatMap.mpr ⟨m, hm, List.mem_flatMap.mpr ⟨a, ha, ?_⟩⟩)
  cases a with
  | code y =>
    obtain ⟨i, hi, hd⟩ := List.mem_flatMap.mp hd
    exact List.mem_flatMap.mpr ⟨i, hi, open_insn hd hk⟩
  | _ => cases hd

theorem open_given {x : Class} {b : Bsm} (hb : b ∈ givenBsms x.attrs) {k : UInt16} {n : Bytes} {t : JType}
    (ha : Arg.dynamic (.pending k) n t ∈ b.arguments) : k ∈ openClass x := by
  obtain ⟨a, haa, hb⟩ := List.mem_flatMap.mp hb
  refine List.mem_append_right _ (List.mem_flatMap.mpr ⟨a, haa, ?_⟩)
  cases a with
  | bootstrapMethods ms =>
    refine List.mem_flatMap.mpr ⟨b, hb, List.mem_flatMap.mpr ⟨_, ha, ?_⟩⟩
    rw [openArg]
    simp
  | _ => cases hb

theorem given_found {x : Class} {b : Bsm} (hb : b ∈ givenBsms x.attrs) : ∃ a ∈ x.attrs, isBootstrap a = true := by
  obtain ⟨a, haa, hb⟩ := List.mem_flatMap.mp hb
  cases a with
  | bootstrapMethods ms => exact ⟨_, haa, rfl⟩
  | _ => cases hb

/-! ## Classes with their cells filled -/

/-- The table with the cells filled. -/
def fullTable (x : Class) : List Bsm :=
  (bsmTable x.attrs).map (fillBsm (bsmTable x.attrs) (bsmTable x.attrs).length)

theorem completed_methods (x : Class) : (completed x).methods = x.methods.map (Method.look (fullTable x)) := by
  unfold completed filled
  dsimp only
  refine List.map_congr_left fun m _ => ?_
  unfold Method.look
  congr 1
  refine List.map_congr_left fun a _ => ?_
  cases a with
  | code y =>
    simp only [fillMethodAttr, MethodAttrOf.look]
    rw [show Insn.look (fullTable x) = resolveI (fullTable x) from funext fun i => (resolveI_look _ i).symm]
    rfl
  | _ => rfl

theorem completed_dynamics (x : Class) :
    classDynamics (completed x) = (classDynamics x).map (Dynamic.look (fullTable x)) := by
  rw [← looked_dynamics]
  unfold classDynamics
  rw [completed_methods]
  rfl

theorem completed_given (x : Class) : givenBsms (completed x).attrs =
    (givenBsms x.attrs).map (fillBsm (bsmTable x.attrs) (bsmTable x.attrs).length) := by
  show (x.attrs.map (fillClassAttr _ _)).flatMap _ = (x.attrs.flatMap _).map _
  rw [List.flatMap_map, List.map_flatMap]
  refine congrArg (x.attrs.flatMap ·) (funext fun a => ?_)
  cases a <;> rfl

/-- An entry of the table that was read, with its cells filled. -/
def FullBsm (x : Class) (b : Bsm) : Prop :=
  ∃ b' ∈ givenBsms x.attrs, b = fillBsm (bsmTable x.attrs) (bsmTable x.attrs).length b'

theorem full_table {x : Class} {b : Bsm} (hb : b ∈ fullTable x) : FullBsm x b := by
  obtain ⟨b', hb', rfl⟩ := List.mem_map.mp hb
  exact ⟨b', table_given _ _ hb', rfl⟩

/-- Every argument of such an entry is static or holds such an entry. -/
theorem full_arg {x : Class} (h : SharedClass x) (hg : ClassGood x) (hr : resolveCells (openClass x) x.attrs = .ok ())
    (hT : ¬ Circular (bsmTable x.attrs)) {b : Bsm} (hb : FullBsm x b) {a : Arg} (ha : a ∈ b.arguments) :
    (∃ c, a = .static c) ∨ ∃ b' n t, FullBsm x b' ∧ a = .dynamic (.filled b'.handle b'.arguments) n t := by
  obtain ⟨b0, hb0, rfl⟩ := hb
  obtain ⟨a0, ha0, rfl⟩ := List.mem_map.mp ha
  cases a0 with
  | static c => exact .inl ⟨c, by cases (bsmTable x.attrs).length <;> rfl⟩
  | dynamic c n t =>
    obtain ⟨k, rfl⟩ := (given_shared h b0 hb0).2 _ ha0 _ _ _ rfl
    obtain ⟨b', hk⟩ := cells_found hg hr (given_found hb0) (open_given hb0 ha0)
    refine .inr ⟨fillBsm (bsmTable x.attrs) (bsmTable x.attrs).length b', n, t,
      ⟨b', table_given _ _ (List.mem_of_getElem? hk), rfl⟩, ?_⟩
    obtain ⟨m, hm⟩ : ∃ m, (bsmTable x.attrs).length = m + 1 := by
      have := (List.getElem?_eq_some_iff.mp hk).1
      exact ⟨(bsmTable x.attrs).length - 1, by omega⟩
    show fillArg _ (bsmTable x.attrs).length _ = .dynamic (.filled b'.handle (b'.arguments.map (fillArg _ _))) n t
    rw [hm, fillArg, hk]
    simp only
    rw [List.map_congr_left fun a ha => fill_stable hT hk ha hm]

theorem full_dynamic {x : Class} (h : SharedClass x) (hg : ClassGood x) (hr : resolveCells (openClass x) x.attrs = .ok ())
    (hc : classDynamics x = [] ∨ ∃ a ∈ x.attrs, isBootstrap a = true) {d : Dynamic} (hd : d ∈ classDynamics x) :
    ∃ b, FullBsm x b ∧ (d.look (fullTable x)).bsm = .filled b.handle b.arguments := by
  obtain ⟨k, hk⟩ := h.cells d hd
  have hb : ∃ a ∈ x.attrs, isBootstrap a = true := by
    rcases hc with hc | hc
    · rw [hc] at hd
      cases hd
    · exact hc
  obtain ⟨b', hb'⟩ := cells_found hg hr hb (open_class hd hk)
  refine ⟨fillBsm (bsmTable x.attrs) (bsmTable x.attrs).length b', ⟨b', table_given _ _ (List.mem_of_getElem? hb'), rfl⟩, ?_⟩
  unfold Dynamic.look
  rw [hk]
  simp only [Cell.look, fullTable, List.getElem?_map, hb', Option.map_some]

theorem full_rounds {x : Class} (h : SharedClass x) (hg : ClassGood x) (hr : resolveCells (openClass x) x.attrs = .ok ())
    (hT : ¬ Circular (bsmTable x.attrs)) : ∀ (n : Nat) (ts : List Bsm), (∀ b ∈ ts, FullBsm x b) →
    ∀ b ∈ rounds n ts, FullBsm x b
  | 0, ts, _, b, hb => by cases hb
  | n + 1, ts, hts, b, hb => by
    rw [rounds] at hb
    rcases List.mem_append.mp hb with hb | hb
    · exact hts b hb
    · refine full_rounds h hg hr hT n _ (fun b' hb' => ?_) b hb
      obtain ⟨b0, hb0, hb'⟩ := List.mem_flatMap.mp hb'
      obtain ⟨a, ha, hb'⟩ := List.mem_flatMap.mp hb'
      rcases full_arg h hg hr hT (hts b0 hb0) ha with ⟨c, rfl⟩ | ⟨b1, n1, t1, h1, rfl⟩
      · cases hb'
      · rw [Arg.toOrDynamic, orDynamics, List.flatMap_cons, List.flatMap_nil, List.append_nil, ownBsm] at hb'
        cases List.mem_singleton.mp hb'
        exact h1

theorem full_written {x : Class} (h : SharedClass x) (hg : ClassGood x) (hr : resolveCells (openClass x) x.attrs = .ok ())
    (hT : ¬ Circular (bsmTable x.attrs)) (hc : classDynamics x = [] ∨ ∃ a ∈ x.attrs, isBootstrap a = true) :
    ∀ b ∈ writtenBsms (completed x), FullBsm x b := by
  refine full_rounds h hg hr hT _ _ fun b hb => ?_
  rcases List.mem_append.mp hb with hb | hb
  · rw [completed_given] at hb
    obtain ⟨b', hb', rfl⟩ := List.mem_map.mp hb
    exact ⟨b', hb', rfl⟩
  · rw [completed_dynamics] at hb
    obtain ⟨d, hd, hb⟩ := List.mem_flatMap.mp hb
    obtain ⟨d', hd', rfl⟩ := List.mem_map.mp hd
    obtain ⟨b', hb', e⟩ := full_dynamic h hg hr hc hd'
    rw [ownBsm, e] at hb
    cases List.mem_singleton.mp hb
    exact hb'

/-! ## Strings -/

theorem fillArg_all {T : List Bsm} (hT : ∀ b ∈ T, SharedBsm b) : ∀ (n : Nat) (a : Arg), AllArgs Legible [a] →
    AllArgs Legible [fillArg T n a]
  | 0, a, h => h
  | n + 1, .static c, h => h
  | n + 1, .dynamic (.filled _ _) _ _, h => h
  | n + 1, .dynamic (.pending k) nm t, h => by
    rw [fillArg]
    rcases e : T[k.toNat]? with _ | b
    · exact h
    · have hb := hT b (List.mem_of_getElem? e)
      rw [AllArgs] at h
      rw [AllArgs, AllCell]
      refine ⟨⟨h.1.1, h.1.2.1, hb.1.1, allArgs_iff.mpr fun a' ha' => ?_⟩, h.2⟩
      obtain ⟨a, ha, rfl⟩ := List.mem_map.mp ha'
      exact fillArg_all hT n a (allArgs_iff.mp hb.1.2 a ha)

theorem full_strings {x : Class} (h : SharedClass x) {b : Bsm} (hb : FullBsm x b) : AllBsm Legible b := by
  obtain ⟨b', hb', rfl⟩ := hb
  have := given_shared h b' hb'
  refine ⟨this.1.1, allArgs_iff.mpr fun a' ha' => ?_⟩
  obtain ⟨a, ha, rfl⟩ := List.mem_map.mp ha'
  exact fillArg_all (table_shared h) _ _ (allArgs_iff.mp this.1.2 a ha)

theorem completed_all {x : Class} (h : SharedClass x) (hu : ∀ b ∈ usedBsms (completed x), FullBsm x b) :
    AllClass Legible (completed x) where
  name := h.name
  superName := h.superName
  interfaces := h.interfaces
  fields := h.fields
  methods m hm := by
    rw [completed_methods] at hm
    obtain ⟨m', hm', rfl⟩ := List.mem_map.mp hm
    exact looked_method (h.methods m' hm')
  attrs a ha := by
    obtain ⟨a', ha', rfl⟩ := List.mem_map.mp ha
    have := (h.attrs a' ha').all
    cases a' <;> exact this
  table b hb := full_strings h (hu b hb)

/-! ## Writing -/

theorem storable_written {ord : Order} (ho : ∀ k n l, (ord k n l).Perm l) {bs rest : Bytes} {x : Class}
    (hread : Class.read ord bs = .ok (x, rest)) (hl : bs.length < 2147483648) (hx : Storable x) {L : List Sym}
    (hc : ∀ s ∈ consts (completed x), s ∈ L) (hL : symSize L + dynamicUses (completed x) ≤ 65534) :
    ∃ out, (completed x).write = .ok out := by
  have h := read_shared (fun k n l v hv => (ho k n l).mem_iff.mp hv) hread
  have hg := read_good ho hread hl
  have hf := read_fits ho hread hl
  have hr : resolveCells (openClass x) x.attrs = .ok () := by
    have := read_class ord bs
    rw [hread] at this
    exact this.2
  have hw := full_written h hg hr hx.acyclic hx.cells
  refine class_total_of hf.fields (fun m hm => ?_) (fun a ha => ?_) hx.table (fun b hb a ha d hd => ?_) hx.tableSize
    (fun buf cp e s hs => ?_) hc hL
  · rw [show (completed x).methods = _ from rfl] at hm
    obtain ⟨m', hm', rfl⟩ := List.mem_map.mp hm
    refine ⟨by
      show (m'.attrs.map _).length < 65536
      rw [List.length_map]
      exact (hf.methods m' hm').table, fun a ha => ?_⟩
    obtain ⟨a', ha', rfl⟩ := List.mem_map.mp ha
    have := (hf.methods m' hm').attrs a' ha'
    cases a' with
    | code y =>
      refine this (hx.bodies m' hm' y ha') _ fun i hi d hd => ?_
      have hd' : d ∈ classDynamics x :=
        List.mem_flatMap.mpr ⟨m', hm', List.mem_flatMap.mpr ⟨_, ha', List.mem_flatMap.mpr ⟨i, hi, hd⟩⟩⟩
      obtain ⟨b, _, e⟩ := full_dynamic h hg hr hx.cells hd'
      rw [resolveD_look]
      exact ⟨_, _, e⟩
    | _ => exact this
  · obtain ⟨a', ha', rfl⟩ := List.mem_map.mp ha
    have := hf.attrs a' ha'
    cases a' <;> exact this
  · rcases full_arg h hg hr hx.acyclic (hw b hb) ha with ⟨c, rfl⟩ | ⟨b1, n1, t1, h1, rfl⟩
    · cases hd
    · rw [Arg.toOrDynamic, orDynamics] at hd
      cases List.mem_singleton.mp hd
      exact ⟨_, _, rfl⟩
  · refine class_strings legible_names (completed_all h fun b hb => ?_) e s hs
    rcases List.mem_append.mp hb with hb | hb
    · rw [completed_given] at hb
      obtain ⟨b', hb', rfl⟩ := List.mem_map.mp hb
      exact ⟨b', hb', rfl⟩
    · rw [completed_dynamics] at hb
      obtain ⟨d, hd, hb⟩ := List.mem_flatMap.mp hb
      obtain ⟨d', hd', rfl⟩ := List.mem_map.mp hd
      obtain ⟨b', hb', e⟩ := full_dynamic h hg hr hx.cells hd'
      rw [ownBsm, e] at hb
      cases List.mem_singleton.mp hb
      exact hb'

end Verif
