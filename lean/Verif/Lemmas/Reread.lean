import Verif.Lemmas.NeatClass
import Verif.Lemmas.Rewritten

/-! Classes that were read and are regular can be written and read again. -/

namespace Verif
open Spec Sig

/-! ## Methods -/

/-- What an attribute of a method needs in order to be written and read again. -/
def MethodAttrGood (a : MethodAttr) : Prop := RegularMethodAttr a → ∀ T : List Bsm,
  (fillMethodAttr T a).Writable (fun b => CodeWritable b ∧ Compact b.code) ∧ (fillMethodAttr T a).Readable CodeReadable

theorem good_parameter : Gives (fun p => KnownFlags p.access) MethodParameter.read :=
  gives_ap (gives_map ((gives_any _).mono fun _ _ _ h => h)) gives_flags

theorem under_methodAttr {ord : Order} (ho : ∀ k n l, (ord k n l).Perm l) :
    GivesUnder 2147483648 MethodAttrGood (MethodAttr.read ord) := by
  intro env st bs x st' rest hp hl hr
  have key : GivesUnder 2147483648 MethodAttrGood (rAttr (MethodAttr.table (ord bs.length)) .raw) := by
    refine under_attr (fun name => ?_) fun s b hs => fun _ _ => ⟨trivial, ?_⟩
    · unfold MethodAttr.table
      refine under_table (under_map ((under_code (ho _)).mono fun _ h hr T => h hr T)) ?_
      refine under_table (under_pure fun _ _ => ⟨trivial, trivial⟩) ?_
      refine under_table (under_pure fun _ _ => ⟨trivial, trivial⟩) ?_
      refine under_table (under_map (single_methodSig.mono fun _ h hr _ => ⟨hr, h hr.1, hr.2⟩).under) ?_
      refine under_table (under_map (neat_annotations.mono fun _ h hr _ => anns_good h hr).under) ?_
      refine under_table (under_map (neat_annotations.mono fun _ h hr _ => anns_good h hr).under) ?_
      refine under_table (under_map (neat_typeAnns.mono fun _ h hr _ => typeAnns_good h hr).under) ?_
      refine under_table (under_map (neat_typeAnns.mono fun _ h hr _ => typeAnns_good h hr).under) ?_
      refine under_table (under_map ((gives_vec neat_annotations).mono fun _ h hr _ =>
        ⟨fun as ha => (anns_good (h as ha) (hr as ha)).1, fun as ha => (anns_good (h as ha) (hr as ha)).2⟩).under) ?_
      refine under_table (under_map ((gives_vec neat_annotations).mono fun _ h hr _ =>
        ⟨fun as ha => (anns_good (h as ha) (hr as ha)).1, fun as ha => (anns_good (h as ha) (hr as ha)).2⟩).under) ?_
      refine under_table (under_map (gives_all (fun _ _ _ => ⟨trivial, trivial⟩) _).under) ?_
      refine under_table (under_map (neat_value.mono fun v h hr _ => ⟨neat_expressible v h hr, neat_distinct v h⟩).under) ?_
      refine under_table (under_map ((gives_vec good_parameter).mono fun _ h _ _ => ⟨h, trivial⟩).under) ?_
      exact nofun
    · unfold MethodAttr.table at hs
      obtain ⟨h1, hs⟩ := table_none hs
      obtain ⟨h2, hs⟩ := table_none hs
      obtain ⟨h3, hs⟩ := table_none hs
      obtain ⟨h4, hs⟩ := table_none hs
      obtain ⟨h5, hs⟩ := table_none hs
      obtain ⟨h6, hs⟩ := table_none hs
      obtain ⟨h7, hs⟩ := table_none hs
      obtain ⟨h8, hs⟩ := table_none hs
      obtain ⟨h9, hs⟩ := table_none hs
      obtain ⟨h10, hs⟩ := table_none hs
      obtain ⟨h11, hs⟩ := table_none hs
      obtain ⟨h12, hs⟩ := table_none hs
      obtain ⟨h13, hs⟩ := table_none hs
      show s ∉ methodAttrNames
      simp only [methodAttrNames, List.mem_cons, List.not_mem_nil, or_false, not_or]
      exact ⟨h1, h2, h3, h4, h5, h6, h7, h8, h9, h10, h11, h12, h13⟩
  exact key _ _ _ _ _ _ hp hl hr

structure MethodGood (m : Method) : Prop where
  access : KnownFlags m.access
  attrs : ∀ a ∈ m.attrs, MethodAttrGood a

theorem under_method {ord : Order} (ho : ∀ k n l, (ord k n l).Perm l) :
    GivesUnder 2147483648 MethodGood (Method.read ord) :=
  under_ap (under_ap (under_ap (under_map (gives_flags.mono fun _ h1 _ _ _ _ _ h2 => ⟨h1, h2⟩).under)
    (Shrinks.map shrinks_flags) (gives_any _).under) (Shrinks.ap (Shrinks.map shrinks_flags) Shrinks.utf8) (gives_any _).under)
    (Shrinks.ap (Shrinks.ap (Shrinks.map shrinks_flags) Shrinks.utf8) Shrinks.type)
    (under_vec (under_methodAttr ho) shrinks_methodAttr)

/-! ## Classes -/

structure ClassGood (x : Class) : Prop where
  access : KnownFlags x.access
  interfaces : x.interfaces.length < 65536
  fields : x.fields.length < 65536 ∧ ∀ f ∈ x.fields, FieldGood f
  methods : x.methods.length < 65536 ∧ ∀ m ∈ x.methods, MethodGood m
  attrs : x.attrs.length < 65536 ∧ ∀ a ∈ x.attrs, ClassAttrGood a

theorem under_body {ord : Order} (ho : ∀ k n l, (ord k n l).Perm l) (v : Version) :
    GivesUnder 2147483648 ClassGood (Class.readBody ord v) := by
  have s1 : Shrinks (Rd.map (ClassOf.mk (C := Code) v) (rFlags .cls)) := Shrinks.map shrinks_flags
  have s2 := Shrinks.ap s1 (shrinks_str (tag := 7))
  have s3 := Shrinks.ap s2 shrinks_clsOpt
  have s4 := Shrinks.ap s3 (Shrinks.vec (l := u16) (shrinks_str (tag := 7)))
  have s5 := Shrinks.ap s4 (Shrinks.vec (l := u16) shrinks_field)
  have s6 := Shrinks.ap s5 (Shrinks.vec (l := u16) (shrinks_method (ord := ord)))
  exact under_ap (under_ap (under_ap (under_ap (under_ap (under_ap (under_map (gives_flags.mono
    fun _ h1 _ _ _ _ _ h4 _ h5 _ h6 _ h7 => ⟨h1, h4, h5, h6, h7⟩).under) s1 (gives_any _).under) s2 (gives_any _).under)
    s3 gives_len.under) s4 (gives_list good_field).under) s5 (under_list (under_method ho) shrinks_method)) s6
    (gives_list good_classAttr).under

theorem read_good {ord : Order} (ho : ∀ k n l, (ord k n l).Perm l) {bs rest : Bytes} {x : Class}
    (h : Class.read ord bs = .ok (x, rest)) (hl : bs.length < 2147483648) : ClassGood x := by
  unfold Class.read at h
  split at h
  · cases h
  rename_i bs1 e1
  split at h
  · split at h
    · cases h
    rename_i bs2 e2
    split at h
    · cases h
    rename_i cp bs3 hcp
    split at h
    · cases h
    · rename_i hb
      split at h
      · cases h
      · cases h
        have h1 := read_pool (List.infix_refl bs2)
        rw [hcp] at h1
        have l1 := plain_num u32 bs
        rw [e1] at l1
        have l1 : bs1.length ≤ bs.length := List.IsSuffix.length_le l1
        have l2 := plain_version bs1
        rw [e2] at l2
        have l2 : bs2.length ≤ bs1.length := List.IsSuffix.length_le l2
        have l3 : bs3.length ≤ bs2.length := List.IsSuffix.length_le h1.1
        exact under_body ho _ _ _ _ _ _ _ (fun i s hs => (pool_fine h1.2 i s hs).loose) (by omega) hb
  · cases h

/-! ## Tables without dynamic arguments -/

theorem resolveD_look (T : List Bsm) (d : Dynamic) : resolveD T d = d.look T := by
  obtain ⟨c, n, t⟩ := d
  cases c with
  | filled h as => rfl
  | pending k =>
    unfold resolveD Dynamic.look Cell.look
    simp only
    cases T[k.toNat]? <;> rfl

theorem resolveI_look (T : List Bsm) (i : Insn) : resolveI T i = i.look T := by
  have or : ∀ {α : Type} (x : OrDynamic α), resolveO T x = x.look T := by
    intro α x
    cases x with
    | dynamic d => exact congrArg OrDynamic.dynamic (resolveD_look T d)
    | static a => rfl
  cases i <;> first | rfl | simp only [resolveI, Insn.look, or, resolveD_look]

/-- Bootstrap methods whose arguments are all static. -/
def StaticBsm (b : Bsm) : Prop := ∀ a ∈ b.arguments, ∃ c, a = .static c

theorem fillBsm_static (T : List Bsm) (n : Nat) {b : Bsm} (h : StaticBsm b) : fillBsm T n b = b := by
  obtain ⟨hd, as⟩ := b
  show Bsm.mk hd (as.map (fillArg T n)) = Bsm.mk hd as
  congr 1
  rw [List.map_congr_left (g := id), List.map_id]
  intro a ha
  obtain ⟨c, rfl⟩ := h a ha
  cases n <;> rfl

theorem table_static {as : List ClassAttr} (h : ∀ b ∈ givenBsms as, StaticBsm b) : ∀ b ∈ bsmTable as, StaticBsm b :=
  fun b hb => h b (table_given as b hb)

theorem completed_static {x : Class} (h : ∀ b ∈ givenBsms x.attrs, StaticBsm b) :
    completed x = x.look (bsmTable x.attrs) := by
  unfold completed filled ClassOf.look
  have h1 : (bsmTable x.attrs).map (fillBsm (bsmTable x.attrs) (bsmTable x.attrs).length) = bsmTable x.attrs := by
    rw [List.map_congr_left (g := id), List.map_id]
    exact fun b hb => fillBsm_static _ _ (table_static h b hb)
  have h2 : x.attrs.map (fillClassAttr (bsmTable x.attrs) (bsmTable x.attrs).length) = x.attrs := by
    rw [List.map_congr_left (g := id), List.map_id]
    intro a ha
    cases a with
    | bootstrapMethods ms =>
      show ClassAttr.bootstrapMethods _ = ClassAttr.bootstrapMethods _
      congr 1
      rw [List.map_congr_left (g := id), List.map_id]
      exact fun b hb => fillBsm_static _ _ (h b (List.mem_flatMap.mpr ⟨_, ha, hb⟩))
    | _ => rfl
  rw [h1, h2]
  dsimp only
  congr 1
  refine List.map_congr_left fun m _ => ?_
  unfold Method.look
  congr 1
  refine List.map_congr_left fun a _ => ?_
  cases a with
  | code y =>
    simp only [fillMethodAttr, MethodAttrOf.look]
    rw [show resolveI (bsmTable x.attrs) = Insn.look (bsmTable x.attrs) from funext (resolveI_look _)]
  | _ => rfl

theorem acyclic_static {T : List Bsm} (h : ∀ b ∈ T, StaticBsm b) : ¬ Circular T := by
  have : ∀ i j, ¬ UsesEntry T i j := by
    rintro i j ⟨b, k, n, t, hb, ha, _⟩
    obtain ⟨c, hc⟩ := h b (List.mem_of_getElem? hb) _ ha
    cases hc
  rintro ⟨i, hi⟩
  cases hi with
  | one h => exact this _ _ h
  | step h _ => exact this _ _ h

theorem argBsms_static {b : Bsm} (h : StaticBsm b) : argBsms b = [] := by
  unfold argBsms
  rw [List.flatMap_eq_nil_iff]
  intro a ha
  obtain ⟨c, rfl⟩ := h a ha
  rfl

theorem rounds_static : ∀ (n : Nat) {ts : List Bsm}, (∀ b ∈ ts, StaticBsm b) → ts.length ≤ n * ts.length → rounds n ts = ts
  | 0, ts, _, hn => by
    rw [Nat.zero_mul, Nat.le_zero, List.length_eq_zero_iff] at hn
    rw [hn]; rfl
  | n + 1, ts, h, _ => by
    have h0 : ts.flatMap argBsms = [] := List.flatMap_eq_nil_iff.mpr fun b hb => argBsms_static (h b hb)
    have h1 : ∀ m, rounds m [] = [] := fun m => by
      induction m with
      | zero => rfl
      | succ m ih => rw [rounds]; simpa using ih
    rw [rounds, h0, h1, List.append_nil]

theorem bsmNodes_length (ts : List Bsm) : ts.length ≤ bsmNodes ts := by
  induction ts with
  | nil => simp
  | cons b ts ih =>
    unfold bsmNodes at ih ⊢
    rw [List.map_cons, List.sum_cons, List.length_cons]
    omega

theorem written_static {x : Class} (h : ∀ b ∈ usedBsms x, StaticBsm b) : writtenBsms x = usedBsms x := by
  unfold writtenBsms
  refine rounds_static _ h ?_
  have := bsmNodes_length (usedBsms x)
  rcases hu : usedBsms x with _ | ⟨b, bs⟩
  · simp
  · rw [hu] at this
    exact Nat.le_mul_of_pos_left _ (by rw [List.length_cons] at this; omega)

theorem ordered_static {ts : List Bsm} (h : ∀ b ∈ ts, StaticBsm b) : Ordered ts := by
  unfold Ordered
  rw [List.flatMap_eq_nil_iff.mpr fun b hb => argBsms_static (h b hb)]
  exact List.nil_prefix

/-! ## The class -/

theorem looked_bsms {x : Class} (hc : ∀ d ∈ classDynamics x, Shared d) {b : Bsm}
    (hb : b ∈ usedBsms (x.look (bsmTable x.attrs))) : b ∈ givenBsms x.attrs := by
  rcases List.mem_append.mp hb with hb | hb
  · exact hb
  · rw [looked_dynamics] at hb
    obtain ⟨d', hd', hb⟩ := List.mem_flatMap.mp hb
    obtain ⟨d, hd, rfl⟩ := List.mem_map.mp hd'
    exact table_given _ b (looked_own (hc d hd) hb)

theorem own_length (d : Dynamic) : (ownBsm d).length ≤ 1 := by
  unfold ownBsm
  split <;> simp

theorem owns_length (ds : List Dynamic) : (ds.flatMap ownBsm).length ≤ ds.length := by
  induction ds with
  | nil => simp
  | cons d ds ih =>
    have := own_length d
    rw [List.flatMap_cons, List.length_append, List.length_cons]
    omega

theorem given_one : ∀ {as : List ClassAttr}, (as.filter isBootstrap).length ≤ 1 → givenBsms as = bsmTable as
  | [], _ => rfl
  | a :: as, h => by
    have none : ∀ {as : List ClassAttr}, as.filter isBootstrap = [] → givenBsms as = [] := by
      intro as h
      refine List.flatMap_eq_nil_iff.mpr fun a ha => ?_
      have := (List.filter_eq_nil_iff.mp h) a ha
      cases a with
      | bootstrapMethods ms => exact absurd rfl this
      | _ => rfl
    cases a with
    | bootstrapMethods ms =>
      have h0 : as.filter isBootstrap = [] := by
        rw [List.filter_cons_of_pos rfl, List.length_cons] at h
        exact List.length_eq_zero_iff.mp (by omega)
      show ms ++ givenBsms as = ms
      rw [none h0, List.append_nil]
    | _ => exact given_one (as := as) h

theorem regular_static {x : Class} (h : Regular x) : ∀ b ∈ givenBsms x.attrs, StaticBsm b := by
  intro b hb a ha
  obtain ⟨at_, hat, hb⟩ := List.mem_flatMap.mp hb
  cases at_ with
  | bootstrapMethods ms =>
    obtain ⟨c, hc, _⟩ := ((h.attrs _ hat).2 b hb).arguments a ha
    exact ⟨c, hc⟩
  | _ => cases hb

theorem regular_bsm {x : Class} (hg : ClassGood x) (h : Regular x) : ∀ b ∈ givenBsms x.attrs, BsmWritable b ∧ BsmReadable b := by
  intro b hb
  obtain ⟨at_, hat, hb⟩ := List.mem_flatMap.mp hb
  cases at_ with
  | bootstrapMethods ms =>
    have hr := (h.attrs _ hat).2 b hb
    have hl := ((hg.attrs.2 _ hat).2 ms rfl).2 b hb
    refine ⟨⟨hr.handle.1, hl, fun a ha => ?_⟩, hr.handle.2, fun a ha => ?_⟩
    · obtain ⟨c, rfl, hc⟩ := hr.arguments a ha
      exact hc.1
    · obtain ⟨c, rfl, hc⟩ := hr.arguments a ha
      exact hc.2
  | _ => cases hb

theorem regular_attr {x : Class} (hg : ClassGood x) (h : Regular x) {a : ClassAttr} (ha : a ∈ x.attrs) : a.Writable ∧ a.Readable := by
  cases a with
  | bootstrapMethods ms =>
    have := regular_bsm hg h
    exact ⟨fun b hb => (this b (List.mem_flatMap.mpr ⟨_, ha, hb⟩)).1, fun b hb => (this b (List.mem_flatMap.mpr ⟨_, ha, hb⟩)).2⟩
  | _ => exact (hg.attrs.2 _ ha).1 nofun (h.attrs _ ha)

/-- The class with its cells filled can be written and read again. -/
theorem regular_fit {x : Class} (hg : ClassGood x) (hs : SharedClass x) (h : Regular x) :
    (completed x).Writable ∧ AllClass Fitting (completed x) ∧ (withTable (completed x)).Readable CodeReadable := by
  have hst := regular_static h
  have hbsm := regular_bsm hg h
  have hmeth : ∀ m ∈ (completed x).methods, KnownFlags m.access ∧ IsDescriptor m.descriptor ∧ ∀ a ∈ m.attrs,
      a.Writable (fun b => CodeWritable b ∧ Compact b.code) ∧ a.Readable CodeReadable := by
    intro m' hm'
    obtain ⟨m, hm, rfl⟩ := List.mem_map.mp hm'
    refine ⟨(hg.methods.2 m hm).access, (h.methods m hm).1, fun a' ha' => ?_⟩
    obtain ⟨a, ha, rfl⟩ := List.mem_map.mp ha'
    exact (hg.methods.2 m hm).attrs a ha ((h.methods m hm).2 a ha) _
  rw [completed_static hst] at hmeth ⊢
  have hused : ∀ b ∈ usedBsms (x.look (bsmTable x.attrs)), b ∈ givenBsms x.attrs := fun b hb => looked_bsms hs.cells hb
  have hwr := written_static fun b hb => hst b (hused b hb)
  have hcount : (x.attrs.filter isBootstrap).length = if (usedBsms (x.look (bsmTable x.attrs))).isEmpty then 0 else 1 := by
    rcases hf : x.attrs.filter isBootstrap with _ | ⟨a, as⟩
    · have : givenBsms x.attrs = [] := by
        refine List.flatMap_eq_nil_iff.mpr fun a ha => ?_
        have := (List.filter_eq_nil_iff.mp hf) a ha
        cases a with
        | bootstrapMethods ms => exact absurd rfl this
        | _ => rfl
      have hu : usedBsms (x.look (bsmTable x.attrs)) = [] := by
        refine List.eq_nil_iff_forall_not_mem.mpr fun b hb => ?_
        have := this ▸ hused b hb
        cases this
      rw [hu]; rfl
    · have hl := h.one
      rw [hf, List.length_cons] at hl
      have ha : a ∈ x.attrs.filter isBootstrap := by rw [hf]; exact List.mem_cons_self
      obtain ⟨ha, hb⟩ := List.mem_filter.mp ha
      cases a with
      | bootstrapMethods ms =>
        have hne := (h.attrs _ ha).1
        rcases ms with _ | ⟨b, ms⟩
        · exact absurd rfl hne
        have hm : b ∈ usedBsms (x.look (bsmTable x.attrs)) :=
          List.mem_append_left _ (List.mem_flatMap.mpr ⟨_, ha, List.mem_cons_self⟩)
        rw [List.length_cons, if_neg]
        · omega
        · rw [List.isEmpty_iff]
          intro hu
          rw [hu] at hm
          cases hm
      | _ => cases hb
  have hlen : (usedBsms (x.look (bsmTable x.attrs))).length < 65536 := by
    have h1 := h.room
    have h2 := owns_length (classDynamics (x.look (bsmTable x.attrs)))
    unfold usedBsms
    rw [List.length_append, show (x.look (bsmTable x.attrs)).attrs = x.attrs from rfl, given_one h.one]
    rw [looked_dynamics, List.length_map] at h2
    rw [looked_dynamics]
    omega
  refine ⟨⟨hg.access, hg.interfaces, ⟨hg.fields.1, fun f hf => ?_⟩, ⟨?_, fun m hm => ?_⟩, ⟨hg.attrs.1, fun a ha => ?_⟩, hcount, ?_, ?_⟩,
    ?_, ⟨fun f hf a ha => ?_, fun m hm a ha => ?_, fun a ha => ?_⟩⟩
  · have := h.fields f hf
    exact ⟨(hg.fields.2 f hf).access, this.1, fun a ha => ((hg.fields.2 f hf).attrs a ha (this.2 a ha)).1⟩
  · show (x.methods.map _).length < _
    rw [List.length_map]
    exact hg.methods.1
  · have := hmeth m hm
    exact ⟨this.1, this.2.1, fun a ha => (this.2.2 a ha).1⟩
  · exact (regular_attr hg h ha).1
  · rw [hwr]
    exact ⟨hlen, fun b hb => (hbsm b (hused b hb)).1⟩
  · exact ordered_static fun b hb => hst b (hused b hb)
  · refine ⟨h.strings.name, h.strings.superName, h.strings.interfaces, h.strings.fields, fun m' hm' => ?_, h.strings.attrs,
      fun b hb => h.strings.table b (List.mem_append_left _ (hused b hb))⟩
    obtain ⟨m, hm, rfl⟩ := List.mem_map.mp hm'
    exact looked_method (h.strings.methods m hm)
  · exact ((hg.fields.2 f hf).attrs a ha ((h.fields f hf).2 a ha)).2
  · exact ((hmeth m hm).2.2 a ha).2
  · rcases List.mem_append.mp ha with ha | ha
    · exact (regular_attr hg h (List.mem_filter.mp ha).1).2
    · split at ha
      · cases ha
      · cases List.mem_singleton.mp ha
        intro b hb
        rw [hwr] at hb
        exact (hbsm b (hused b hb)).2

end Verif
