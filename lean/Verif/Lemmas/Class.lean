import Verif.Lemmas.Effect
import Verif.Props.Misc
import Verif.Props.Cp

/-! # Lemmas about classes -/

namespace Verif
open Spec Sig

variable {C : Type}

/-! ## Reading -/

theorem reads_classBody {c : Ctx} {code : Fmt C} {ok : C → Prop} (hT : c.bsm.length ≤ 65536)
    {R : C → Code → Prop} (hc : ReadsBodies c none code ok R) (ord : Order) (hord : ∀ k n l, (ord k n l).Perm l)
    {x : ClassOf C} {bs : Bytes} (h : classBody code c x bs) (hr : x.Readable ok) :
    QReads c.bsm (Class.readBody ord x.version) ⟨c.pool, none⟩ bs (SameClass c.bsm R x) := by
  obtain ⟨b1, r1, rfl, h1, b2, r2, rfl, h2, b3, r3, rfl, h3, b4, r4, rfl, h4, b5, r5, rfl, h5,
    b6, r6, rfl, h6, b7, r7, rfl, h7, rfl⟩ := h
  refine (QReads.ap (G := fun f => ∃ ms, Matched (SameMethod R) x.methods ms ∧
      f = ClassOf.mk x.version x.access x.name x.superName x.interfaces x.fields ms)
    (QReads.ap (G := fun f => f = ClassOf.mk x.version x.access x.name x.superName x.interfaces x.fields)
      ((PReads.ap (PReads.ap (PReads.ap (PReads.ap (PReads.map (f := ClassOf.mk x.version) (reads_flags h1 none))
        (reads_cls h2 none)) (reads_clsOpt h3 none))
        (PReads.vec2M h4 (fun s _ _ h => reads_cls h none)))
        (PReads.vec2M h5 (fun f hf _ h => reads_field none h (hr.fields f hf)))).q rfl)
      (QReads.vec2 h6 (fun m hm _ h => reads_method hc ord hord h (hr.methods m hm))) ?_)
    (QReads.vec2 (R := fun a v => resolveClassAttr c.bsm v = a) h7
      (fun a ha _ h => (reads_classAttr none hT h (hr.attrs a ha)).q)) ?_).cast (by simp)
  · rintro f ms rfl hms
    exact ⟨ms, hms, rfl⟩
  · rintro f as ⟨ms, hms, rfl⟩ has
    exact ⟨rfl, rfl, rfl, rfl, rfl, rfl, hms, forall2_map has⟩

theorem bootstrapTable_eq (as : List ClassAttr) : bsmTable as = (bootstrapTable as).getD [] := by
  induction as with
  | nil => rfl
  | cons a as ih =>
    cases a <;> first | rfl | exact ih

theorem bootstrapTable_resolve (T : List Bsm) (as : List ClassAttr) :
    bootstrapTable (as.map (resolveClassAttr T)) = (bootstrapTable as).map (List.map (resolveBsm T)) := by
  induction as with
  | nil => rfl
  | cons a as ih =>
    cases a <;> first | rfl | exact ih

theorem resolveCells_ok {T : List Bsm} {q : List UInt16} {x : List ClassAttr} {y : List ClassAttr}
    (hT : T.length ≤ 65536) (hq : ∀ k ∈ q, k.toNat < T.length) (hx : bsmTable x = T)
    (hy : y.map (resolveClassAttr T) = x) : resolveCells q y = .ok () := by
  unfold resolveCells
  rw [bootstrapTable_eq, ← hy, bootstrapTable_resolve] at hx
  rcases hb : bootstrapTable y with _ | ms
  · rfl
  · rw [hb] at hx
    have hl : ms.length = T.length := by rw [← hx]; simp
    simp only
    rcases he : bootstrapMethods ms (q.mapIdx fun n k => (k, n)) with e | r
    · obtain ⟨i, k, hik, hle⟩ := (Props.C26_refused (by omega)).mp ⟨e, he⟩
      have : i ∈ q := by
        obtain ⟨n, hn, h⟩ := List.mem_mapIdx.mp hik
        cases h
        exact List.getElem_mem _
      have := hq i this
      omega
    · rfl

/-- The table of a class file is shorter than 65536. -/
theorem table_short {c : Ctx} {as : List ClassAttr} {bs : Bytes} (h : Fmt.all classAttr c as bs) :
    (bsmTable as).length < 65536 := by
  induction as generalizing bs with
  | nil => simp [bsmTable]
  | cons a as ih =>
    obtain ⟨b, b', rfl, h1, h2⟩ := h
    cases a with
    | bootstrapMethods ms =>
      obtain ⟨i, body, _, hb, _, _⟩ := h1
      exact hb.1
    | _ => exact ih h2

theorem class_read {code : Fmt C} {ok : C → Prop} {R : List Bsm → C → Code → Prop}
    (hc : ∀ c : Ctx, c.bsm.length ≤ 65536 → ReadsBodies c none code ok (R c.bsm)) (ord : Order)
    (hord : ∀ k n l, (ord k n l).Perm l) {x : ClassOf C} {bs : Bytes} (h : classFile code x bs)
    (hr : x.Readable ok) (rest : Bytes) :
    ∃ y, Class.read ord (bs ++ rest) = .ok (y, rest) ∧ SameClass (bsmTable x.attrs) (R (bsmTable x.attrs)) x y := by
  obtain ⟨es, P, pool, body, hp, hP, hb, rfl⟩ := h
  have hT : (bsmTable x.attrs).length ≤ 65536 := by
    obtain ⟨b1, r1, rfl, h1, b2, r2, rfl, h2, b3, r3, rfl, h3, b4, r4, rfl, h4, b5, r5, rfl, h5,
      b6, r6, rfl, h6, b7, r7, rfl, ⟨_, b, _, h7⟩, rfl⟩ := hb
    have := table_short h7
    omega
  obtain ⟨m, hm, hread⟩ := mapCp_read hp
  have e : m.get = P := by
    funext i
    apply Option.ext
    intro e
    exact (hm i e).trans (hP i e).symm
  obtain ⟨y, q, hy, ⟨t, ht, hg⟩, hs⟩ := reads_classBody hT (hc _ hT) ord hord hb hr ⟨[], none⟩ rest
  refine ⟨y, ?_, hs⟩
  unfold Class.read
  simp only [List.append_assoc]
  rw [readsU4' _ (by omega)]
  simp only
  rw [if_pos (by decide : UInt32.ofNat 0xCAFEBABE = jvmMagic)]
  have hv := (Props.C29_write x.version (pool ++ (body ++ rest))).2
  rw [(Props.C29_write x.version (pool ++ (body ++ rest))).1, List.append_assoc] at hv
  rw [hv]
  simp only
  rw [hread]
  simp only
  rw [e, hy]
  simp only
  rw [resolveCells_ok hT (by rw [ht]; simpa using hg) rfl hs.attrs]

/-! ## Writing -/

theorem writes_cut {α : Type} {env : WEnv} {w : α → Ins Bytes} {f : Fmt α} {xs : List α}
    (h : ∀ x ∈ xs, Writes env (w x) (Fmt.small f) x) (hl : xs.length < 65536) :
    Writes env (wCut w xs) (Fmt.small (Fmt.table2 f)) xs := by
  have h1 : Writes env (wNum u16 (UInt16.ofNat xs.length)) (Fmt.small fun _ _ bs => bs = U2 xs.length) xs := by
    refine GoodW.pure _ (fun _ _ => ?_)
    show u16.write _ = _
    rw [u16_write, UInt16.toNat_ofNat', Nat.mod_eq_of_lt (by omega)]
  refine Writes.weaken (Writes.scons h1 (Writes.scons (Writes.sall h) (Writes.snil env _))) ?_
  intro P bs h hs
  obtain ⟨b, b', rfl, rfl, b2, b3, rfl, h3, rfl⟩ := h hs
  exact ⟨hl, b2, by simp, h3⟩

/-- The attributes before the bootstrap table. -/
theorem writes_others {env : WEnv} {as : List ClassAttr} (h : ∀ a ∈ as, a.Writable) :
    Writes env (wAll ClassAttr.writeOther as) (fun c as bs => bs.length < 4294967296 →
      Fmt.all classAttr c (as.filter fun a => !isBootstrap a) bs) as := by
  induction as with
  | nil => exact GoodW.pure _ (fun _ _ => rfl)
  | cons a as ih =>
    have ih' := ih fun b hb => h b (by simp [hb])
    have ha : Writes env a.writeOther (fun c a bs => bs.length < 4294967296 →
        Fmt.all classAttr c ([a].filter fun a => !isBootstrap a) bs) a := by
      have hw := writes_classAttr env a (h a (by simp))
      clear h ih ih'
      cases a with
      | bootstrapMethods ms => exact GoodW.pure _ (fun _ _ => rfl)
      | _ => exact Writes.weaken hw (fun P bs hb hl => ⟨bs, [], by simp, hb hl, rfl⟩)
    refine GoodW.bind ha (fun b => GoodW.bind ih' (fun b' => GoodW.pure _ (post := fun _ bs => bs = b ++ b')
      fun _ => rfl) (post := fun W bs => ∃ b', bs = b ++ b' ∧ (b'.length < 4294967296 →
        Fmt.all classAttr (env.ctx W) (as.filter fun a => !isBootstrap a) b')) ?_) ?_
    · intro W b' bs h1 h2
      exact ⟨b', h2, h1⟩
    · rintro W b bs h1 ⟨b', rfl, h2⟩ hl
      rw [List.length_append] at hl
      have h1' := h1 (by omega)
      have h2' := h2 (by omega)
      by_cases hb : isBootstrap a = true
      · simp only [List.filter_cons, hb, Bool.not_true, Bool.false_eq_true, if_false, List.filter_nil] at h1' ⊢
        cases h1'
        exact h2'
      · simp only [List.filter_cons, hb, Bool.not_false, if_true, List.filter_nil] at h1' ⊢
        obtain ⟨b1, b2, rfl, h3, rfl⟩ := h1'
        exact ⟨b1, b', by simp, h3, h2'⟩

theorem ownBsms_eq (as : List ClassAttr) : ownBsms as = givenBsms as := by
  induction as with
  | nil => rfl
  | cons a as ih => cases a <;> simp only [ownBsms, ih, givenBsms, List.flatMap_cons, List.nil_append]

theorem noPair_ascii : ∀ cs : List Nat, (∀ c ∈ cs, c < 128) → NoPair cs
  | [], _ => trivial
  | [_], _ => trivial
  | a :: b :: cs, h => ⟨fun hh => by
      have := h a (by simp)
      have := hh.1
      unfold IsLead at this; omega, noPair_ascii (b :: cs) fun c hc => h c (by simp at hc ⊢; exact .inr hc)⟩

theorem fitting_ascii {n : Bytes} (h : n.all (fun b => 0 < b && b < 128) = true) (hl : n.length < 65536) :
    Fitting n := by
  have hb : ∀ b ∈ n, 0 < b.toNat ∧ b.toNat < 128 := by
    intro b hb
    have := List.all_eq_true.mp h b hb
    simp only [Bool.and_eq_true, decide_eq_true_eq, UInt8.lt_iff_toNat_lt] at this
    exact this
  clear h
  refine ⟨_, ⟨n.map UInt8.toNat, ⟨?_, noPair_ascii _ ?_⟩, ?_, rfl⟩, ?_⟩
  · intro c hc
    obtain ⟨b, hb', rfl⟩ := List.mem_map.mp hc
    have := hb b hb'
    unfold IsCodePoint; omega
  · intro c hc
    obtain ⟨b, hb', rfl⟩ := List.mem_map.mp hc
    exact (hb b hb').2
  · clear hl
    induction n with
    | nil => rfl
    | cons b n ih =>
      have h1 := hb b (by simp)
      have h2 := ih fun c hc => hb c (by simp [hc])
      unfold encodeCps at h2 ⊢
      rw [List.map_cons, List.flatMap_cons, h2, gutf8, if_pos h1.2, UInt8.ofNat_toNat]
      rfl
  · suffices h : (mutf8 (utf16All (n.map UInt8.toNat))).length = n.length by omega
    clear hl
    induction n with
    | nil => rfl
    | cons b n ih =>
      have h1 := hb b (by simp)
      have h2 := ih fun c hc => hb c (by simp [hc])
      unfold mutf8 utf16All at h2 ⊢
      rw [List.map_cons, List.flatMap_cons, utf16, if_pos (by omega), List.singleton_append, List.flatMap_cons,
        List.length_append, h2, mutf8Unit, UInt16.toNat_ofNat', Nat.mod_eq_of_lt (by omega), if_pos (by omega)]
      simp; omega

theorem names_fitting : ∀ n ∈ allNames, Fitting n := by
  have h : allNames.all (fun n => n.all (fun b => 0 < b && b < 128) && decide (n.length < 65536)) = true := by
    decide +kernel
  intro n hn
  have := List.all_eq_true.mp h n hn
  simp only [Bool.and_eq_true, decide_eq_true_eq] at this
  exact fitting_ascii this.1 this.2

theorem eff_classBody {S : Bytes → Prop} (hN : ∀ n ∈ allNames, S n) {x : Class} (h : AllClass S x) :
    Eff S x.writeBody ((classDynamics x).flatMap ownBsm) := by
  have hm := Eff.cut (f := fun m : Method => (m.attrs.flatMap attrDynamics).flatMap ownBsm)
    (fun m hm => eff_method hN (h.methods m hm))
  rw [← List.flatMap_assoc] at hm
  exact .cons0 .flags (.cons0 (.idx (.cls h.name)) (.cons0 (.opt h.superName fun _ => .cls)
    (.cons0 (.cut0 fun s hs => .idx (.cls (h.interfaces s hs)))
    (.cons0 (.cut0 fun f hf => eff_field hN (h.fields f hf))
    (.cons1 hm (.cons0 (.cut0 fun a ha => eff_classAttr hN (h.attrs a ha)) .nil))))))

theorem rounds_nil (n : Nat) : rounds n [] = [] := by
  cases n with
  | zero => rfl
  | succ n =>
    show [] ++ rounds n [] = []
    exact rounds_nil n

theorem bsmNodes_nil {ts : List Bsm} (h : bsmNodes ts = 0) : ts = [] := by
  cases ts with
  | nil => rfl
  | cons b ts => simp [bsmNodes] at h

/-- More rounds add nothing. -/
theorem rounds_enough {n m : Nat} {ts : List Bsm} (h : bsmNodes ts ≤ n) (hm : bsmNodes ts ≤ m) :
    rounds n ts = rounds m ts := by
  induction n generalizing m ts with
  | zero =>
    rw [bsmNodes_nil (ts := ts) (by omega), rounds_nil, rounds_nil]
  | succ n ih =>
    cases m with
    | zero => rw [bsmNodes_nil (ts := ts) (by omega), rounds_nil, rounds_nil]
    | succ m =>
      rcases ts with _ | ⟨b, ts⟩
      · rw [rounds_nil, rounds_nil]
      · have := bsmNodes_args (b :: ts)
        simp only [List.length_cons] at this
        show _ ++ rounds n _ = _ ++ rounds m _
        rw [ih (m := m) (by omega) (by omega)]

theorem rounds_step (ts : List Bsm) : rounds (bsmNodes ts) ts =
    ts ++ rounds (bsmNodes (ts.flatMap argBsms)) (ts.flatMap argBsms) := by
  rw [rounds_enough (m := bsmNodes ts + 1) (Nat.le_refl _) (by omega)]
  show ts ++ rounds (bsmNodes ts) _ = _
  have := bsmNodes_args ts
  rw [rounds_enough (by omega) (Nat.le_refl _)]

theorem flatMap_prefix {α β : Type} {f : α → List β} {xs ys : List α} (h : xs <+: ys) :
    xs.flatMap f <+: ys.flatMap f := by
  obtain ⟨t, rfl⟩ := h
  rw [List.flatMap_append]
  exact List.prefix_append _ _

theorem batches_fmt {i n : Nat} {cp cp' : VecCp} {bs : Bytes} (h : writeBatches i cp = .ok (n, bs, cp')) (hc : cp.Inv)
    (hi : i + (rounds (bsmNodes cp.bsm) cp.bsm).length < 65536)
    (hw : ∀ b ∈ rounds (bsmNodes cp.bsm) cp.bsm, BsmWritable b) (ho : Ordered cp.bsm) :
    n = i + (rounds (bsmNodes cp.bsm) cp.bsm).length ∧ cp'.Inv ∧ cp.entries <+: cp'.entries ∧ ∀ P T,
      Agrees P cp'.entries → cp.bsm.flatMap argBsms <+: T →
        Fmt.all bsm ⟨P, T, fun _ => none, fun _ => none⟩ (rounds (bsmNodes cp.bsm) cp.bsm) bs := by
  fun_induction writeBatches i cp generalizing n bs cp' with
  | case1 i cp h0 =>
    cases h
    rw [List.length_eq_zero_iff.mp h0, rounds_nil]
    exact ⟨rfl, hc, List.prefix_refl _, fun P T _ _ => rfl⟩
  | case2 => cases h
  | case3 => cases h
  | case4 i cp h0 h1 b cp1 e1 hn n' b' cp2 e2 ih =>
    cases h
    have hc0 : VecCp.Inv { cp with bsm := [] } := ⟨hc.len, hc.cache⟩
    have hb1 := (round_bsm e1).1
    rw [hb1] at ih
    have hr := rounds_step cp.bsm
    rw [hr] at hi hw ⊢
    rw [List.length_append] at hi
    have hm : cp.bsm.length % 65536 = cp.bsm.length := Nat.mod_eq_of_lt (by omega)
    rw [hm] at e2 ih
    have w1 := Writes.all (env := WEnv.outside) (fun b hb => writes_bsm _ (hw b (List.mem_append_left _ hb))) _ _ _ hc0 e1
    have i1 := steps_ok w1.1 hc0
    have h2 := ih e2 i1.1 (by omega) (fun b hb => hw b (List.mem_append_right _ hb)) (flatMap_prefix ho)
    refine ⟨by rw [h2.1, List.length_append]; omega, h2.2.1, i1.2.entries.trans h2.2.2.1, fun P T hP hT => ?_⟩
    refine Fmt.all_append (w1.2 ⟨P, T⟩ ⟨fun i e h => hP i e ?_, by rw [hb1]; exact hT⟩)
      (h2.2.2.2 P T hP ((flatMap_prefix ho).trans hT))
    obtain ⟨t, ht⟩ := h2.2.2.1
    obtain ⟨p, q, h1, h2⟩ := h
    exact ⟨p, q ++ t, by rw [← ht, h1]; simp, h2⟩
  | case5 => cases h
  | case6 => cases h

theorem bootstrap_ok {S : Bytes → Prop} (hN : S N.bootstrapMethods) {cp cp' : VecCp} {bs : Bytes} (hc : cp.Inv)
    (hT : (rounds (bsmNodes cp.bsm) cp.bsm).length < 65536) (hw : ∀ b ∈ rounds (bsmNodes cp.bsm) cp.bsm, BsmWritable b)
    (ho : Ordered cp.bsm) (hS : ∀ b ∈ cp.bsm, AllBsm S b)
    (h : wBootstrap cp = .ok (bs, cp')) (hl : bs.length < 4294967296) :
    cp'.Inv ∧ cp.entries <+: cp'.entries ∧ (∀ s, .utf8 s ∈ cp'.entries → .utf8 s ∈ cp.entries ∨ S s) ∧
      ∀ P T, Agrees P cp'.entries → cp.bsm.flatMap argBsms <+: T →
        Fmt.all classAttr ⟨P, T, fun _ => none, fun _ => none⟩
          (if cp.bsm.isEmpty then [] else [.bootstrapMethods (rounds (bsmNodes cp.bsm) cp.bsm)]) bs := by
  unfold wBootstrap at h
  split at h
  · rename_i he
    cases h
    refine ⟨hc, List.prefix_refl _, fun s h => .inl h, fun P T _ _ => ?_⟩
    rw [if_pos (by simpa using he)]
    rfl
  · rename_i he
    rcases e1 : writeBatches 0 cp with e | ⟨n, b, cp1⟩
    · rw [e1] at h
      cases h
    · rw [e1] at h
      simp only at h
      obtain ⟨hn, i1, x1, w1⟩ := batches_fmt e1 hc (by omega) hw ho
      have f1 := (batches_ok e1 hS hc).2.2
      rw [Nat.zero_add] at hn
      rcases e2 : wUtf8 N.bootstrapMethods cp1 with e | ⟨name, cp2⟩
      · rw [e2] at h
        cases h
      · rw [e2] at h
        have w2 := writes_utf8 WEnv.outside N.bootstrapMethods _ _ _ i1 e2
        have f2 := Eff.wutf8 hN _ _ _ e2
        have i2 := steps_ok w2.1 i1
        simp only at h
        split at h
        · cases h
          have hlb : b.length + 2 < 4294967296 := by
            simp only [List.length_append] at hl
            have : (u16.write (UInt16.ofNat n)).length = 2 := rfl
            omega
          refine ⟨i2.1, x1.trans i2.2.entries, ?_, ?_⟩
          · intro s hs
            rcases f2.2.1 s hs with hs | hs
            · exact f1 s hs
            · exact .inr hs
          · intro P T hP hpre
            rw [if_neg (by simpa using he)]
            obtain ⟨i, hi, rfl⟩ := w2.2 ⟨P, cp'.bsm⟩ ⟨hP, List.prefix_refl _⟩
            have ha := w1 P T (hP.mono i2.2) hpre
            generalize rounds (bsmNodes cp.bsm) cp.bsm = ts at *
            subst hn
            refine ⟨_, [], (List.append_nil _).symm, ⟨i, U2 ts.length ++ b, hi, ⟨hT, b, rfl, ha⟩, ?_, ?_⟩, rfl⟩
            · simp [U2]; omega
            · rw [Nat.mod_eq_of_lt (show b.length < 4294967296 by omega), u32_write, u16_write,
                UInt16.toNat_ofNat', UInt32.toNat_ofNat', Nat.mod_eq_of_lt (by omega), Nat.mod_eq_of_lt (by omega)]
              have : (U2 ts.length ++ b).length = b.length + 2 := by simp [U2]
              rw [this]
              simp
        · cases h

theorem bsmTable_append (as bs : List ClassAttr) (h : ∀ a ∈ as, isBootstrap a = false) :
    bsmTable (as ++ bs) = bsmTable bs := by
  induction as with
  | nil => rfl
  | cons a as ih =>
    have h1 := h a (by simp)
    have h2 := ih fun b hb => h b (by simp [hb])
    cases a with
    | bootstrapMethods ms => cases h1
    | _ => exact h2

theorem bsmTable_withTable (x : Class) : bsmTable (withTable x).attrs = writtenBsms x := by
  unfold withTable
  simp only
  rw [bsmTable_append _ _ (by intro a ha; simpa using (List.mem_filter.mp ha).2)]
  split
  · rename_i h
    unfold writtenBsms
    rw [List.isEmpty_iff.mp h]
    rfl
  · rfl

theorem used_prefix (x : Class) : usedBsms x <+: writtenBsms x := by
  unfold writtenBsms
  rw [rounds_step]
  exact List.prefix_append _ _

theorem length_filters {α : Type} (p : α → Bool) (xs : List α) :
    xs.length = (xs.filter p).length + (xs.filter fun a => !p a).length := by
  induction xs with
  | nil => rfl
  | cons x xs ih =>
    rcases h : p x <;> simp [List.filter_cons, h] <;> omega

theorem class_write {x : Class} (hx : x.Writable) (hs : AllClass Fitting x) {bs : Bytes}
    (h : x.write = .ok bs) (hl : bs.length < 4294967296) : classFile codeFile (withTable x) bs := by
  unfold Class.write at h
  rcases e : wSeq [x.writeBody, wBootstrap] { VecCp.new with bsm := ownBsms x.attrs } with e' | ⟨buf, cp⟩
  · rw [e] at h
    cases h
  rw [e] at h
  simp only at h
  rcases ep : cp.write with e' | pool
  · rw [ep] at h
    cases h
  rw [ep] at h
  cases h
  have hc0 : VecCp.Inv { VecCp.new with bsm := ownBsms x.attrs } := ⟨VecCp.inv_new.len, VecCp.inv_new.cache⟩
  obtain ⟨b1, cp1, e1, e⟩ := Ins.bind_ok e
  obtain ⟨b2', cp2, e2, e⟩ := Ins.bind_ok e
  cases e
  obtain ⟨b2, cp2', e2, e⟩ := Ins.bind_ok e2
  cases e
  -- the part before the bootstrap table
  have f1 := eff_classBody names_fitting hs _ _ _ e1
  have w1 : Writes WEnv.outside x.writeBody (Fmt.small (Fmt.struct [Fmt.on ClassOf.access (Fmt.flags .cls),
      Fmt.on ClassOf.name Fmt.cls, Fmt.on ClassOf.superName Fmt.clsOpt, Fmt.on ClassOf.interfaces (Fmt.table2 Fmt.cls),
      Fmt.on ClassOf.fields (Fmt.table2 field), Fmt.on ClassOf.methods (Fmt.table2 (method codeFile)),
      fun c x bs => ∃ b, bs = U2 x.attrs.length ++ b ∧
        Fmt.all classAttr c (x.attrs.filter fun a => !isBootstrap a) b])) x := by
    refine Writes.scons (Writes.on (f := Fmt.small _) (writes_flags _ hx.access).toSmall)
      (Writes.scons (Writes.on (f := Fmt.small _) (writes_idx ((good_cls0 _).weaken fun _ _ h => h.1)).toSmall)
      (Writes.scons (Writes.on (f := Fmt.small _) (writes_opt fun a _ => good_cls0 a).toSmall)
      (Writes.scons (Writes.on (f := Fmt.small _) (writes_cut (fun s _ =>
        (writes_idx ((good_cls0 s).weaken fun _ _ h => h.1)).toSmall) hx.interfaces))
      (Writes.scons (Writes.on (f := Fmt.small _) (writes_cut (fun f hf => writes_field _ (hx.fields.2 f hf)) hx.fields.1))
      (Writes.scons (Writes.on (f := Fmt.small _) (writes_cut (fun m hm => writes_method _ (hx.methods.2 m hm)) hx.methods.1))
      (Writes.scons ?_ (Writes.snil _ _)))))))
    have hn : Writes WEnv.outside (wNum u16 (UInt16.ofNat x.attrs.length))
        (fun _ _ bs => bs = U2 x.attrs.length) x.attrs := by
      refine GoodW.pure _ (fun _ => ?_)
      show u16.write _ = _
      have := hx.attrs.1
      rw [u16_write, UInt16.toNat_ofNat', Nat.mod_eq_of_lt (by omega)]
    refine Writes.weaken (Writes.cons hn (Writes.cons (writes_others hx.attrs.2) (Writes.nil _ _))) ?_
    rintro P bs ⟨b, b', rfl, rfl, b2, b3, rfl, h3, rfl⟩ hl
    refine ⟨b2, by simp, h3 ?_⟩
    simp only [List.length_append] at hl
    omega
  obtain ⟨s1, w1⟩ := w1 _ _ _ hc0 e1
  have i1 := steps_ok s1 hc0
  have hb1 : cp1.bsm = usedBsms x := by rw [f1.1, ownBsms_eq]; rfl
  -- the table
  simp only [List.length_append] at hl
  obtain ⟨i2, x2, f2, w2⟩ := bootstrap_ok (S := Fitting) (names_fitting _ (by decide)) i1.1 (by rw [hb1]; exact hx.table.1)
    (by rw [hb1]; exact hx.table.2) (by rw [hb1]; exact hx.ordered) (by rw [hb1]; exact hs.table) e2 (by omega)
  rw [hb1] at w2
  -- the pool
  have hok : ∀ e ∈ cp.entries, EntryOk e := by
    intro e he
    cases e with
    | utf8 s =>
      rcases f2 s he with h | h
      · rcases f1.2.1 s h with h | h
        · cases h
        · exact h
      · exact h
    | _ => trivial
  obtain ⟨body, h1, h2⟩ := entries_write hok
  have hlen := i2.len
  have hp : PoolBytes cp.entries (u16.write cp.len ++ body) :=
    ⟨body, h2, by have := cp.len.toNat_lt; omega, by rw [u16_write, hlen]⟩
  have hpool : pool = u16.write cp.len ++ body := by
    unfold VecCp.write at ep
    rw [h1] at ep
    cases ep
    rfl
  obtain ⟨m, h3, h4⟩ := mapCp_read hp
  have hA : Agrees m.get cp.entries := fun i e h => (h3 i e).mpr h
  have hA1 : Agrees m.get cp1.entries := fun i e h => hA i e (by
    obtain ⟨t, ht⟩ := x2
    obtain ⟨p, q, h1, h2⟩ := h
    exact ⟨p, q ++ t, by rw [← ht, h1]; simp, h2⟩)
  have w1' := w1 ⟨m.get, writtenBsms x⟩ ⟨hA1, by rw [hb1]; exact used_prefix x⟩ (by omega)
  have w2' := w2 m.get (writtenBsms x) hA (hx.ordered.trans (used_prefix x))
  refine ⟨cp.entries, m.get, pool, b1 ++ b2, by rw [hpool]; exact hp, fun i e => h3 i e, ?_, ?_⟩
  · rw [bsmTable_withTable]
    obtain ⟨c1, r1, rfl, g1, c2, r2, rfl, g2, c3, r3, rfl, g3, c4, r4, rfl, g4, c5, r5, rfl, g5,
      c6, r6, rfl, g6, c7, r7, rfl, ⟨c8, rfl, g7⟩, rfl⟩ := w1'
    refine ⟨c1, c2 ++ (c3 ++ (c4 ++ (c5 ++ (c6 ++ (U2 x.attrs.length ++ (c8 ++ b2)))))), by simp, g1,
      c2, _, rfl, g2, c3, _, rfl, g3, c4, _, rfl, g4, c5, _, rfl, g5, c6, _, rfl, g6, _, [], (List.append_nil _).symm, ?_, rfl⟩
    have hcount : (withTable x).attrs.length = x.attrs.length := by
      have := hx.count
      have h5 := length_filters isBootstrap x.attrs
      unfold withTable
      simp only [List.length_append]
      split
      · rename_i hh
        rw [if_pos hh] at this
        simp only [List.length_nil]
        omega
      · rename_i hh
        rw [if_neg hh] at this
        simp only [List.length_cons, List.length_nil]
        omega
    refine ⟨by rw [hcount]; exact hx.attrs.1, c8 ++ b2, by rw [hcount], ?_⟩
    exact Fmt.all_append g7 w2'
  · rw [(Props.C29_write x.version []).1]
    simp [u32_write]
    rfl

end Verif
