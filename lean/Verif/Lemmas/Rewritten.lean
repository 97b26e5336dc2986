import Verif.Lemmas.SharedEnds

/-! # Writing a class that was read -/

namespace Verif
open Spec Sig

/-! ## What is looked up -/

section
variable {T : List Bsm} {S : Bytes → Prop}

theorem looked_dyn {d : Dynamic} (h : AllDyn S d) : AllDyn S (d.look T) := h

theorem looked_or {α : Type} {Q : α → Prop} {x : OrDynamic α} (h : AllOr S Q x) : AllOr S Q (x.look T) := by
  cases x <;> exact h

theorem looked_insn {i : Insn} (h : AllInsn S i) : AllInsn S (i.look T) := by
  cases i <;> first | exact looked_or h | exact h

theorem looked_method {m : Method} (h : AllMethod S m) : AllMethod S (Method.look T m) := by
  refine ⟨h.1, h.2.1, fun a ha => ?_⟩
  obtain ⟨b, hb, rfl⟩ := List.mem_map.mp ha
  have := h.2.2 b hb
  cases b with
  | code x =>
    refine ⟨fun i hi => ?_, this.2⟩
    obtain ⟨j, hj, rfl⟩ := List.mem_map.mp hi
    exact looked_insn (this.1 j hj)
  | _ => exact this

theorem looked_orDynamics {α : Type} (x : OrDynamic α) : orDynamics (x.look T) = (orDynamics x).map (Dynamic.look T) := by
  cases x <;> rfl

theorem looked_insnDynamics (i : Insn) : insnDynamics (i.look T) = (insnDynamics i).map (Dynamic.look T) := by
  cases i <;> first | exact looked_orDynamics _ | rfl

theorem looked_attrDynamics (a : MethodAttr) :
    attrDynamics (MethodAttrOf.look T a) = (attrDynamics a).map (Dynamic.look T) := by
  cases a with
  | code x =>
    show (x.code.map (Insn.look T)).flatMap insnDynamics = (x.code.flatMap insnDynamics).map _
    rw [List.flatMap_map, List.map_flatMap]
    exact congrArg (x.code.flatMap ·) (funext looked_insnDynamics)
  | _ => rfl

theorem looked_dynamics (x : Class) : classDynamics (x.look T) = (classDynamics x).map (Dynamic.look T) := by
  show (x.methods.map (Method.look T)).flatMap _ = (x.methods.flatMap _).map _
  rw [List.flatMap_map, List.map_flatMap]
  refine congrArg (x.methods.flatMap ·) (funext fun m => ?_)
  show (m.attrs.map (MethodAttrOf.look T)).flatMap _ = (m.attrs.flatMap _).map _
  rw [List.flatMap_map, List.map_flatMap]
  exact congrArg (m.attrs.flatMap ·) (funext looked_attrDynamics)

theorem looked_own {d : Dynamic} (h : Shared d) {b : Bsm} (hb : b ∈ ownBsm (d.look T)) : b ∈ T := by
  obtain ⟨c, n, t⟩ := d
  obtain ⟨k, hk⟩ := h
  obtain rfl : c = .pending k := hk
  unfold Dynamic.look at hb
  simp only [Cell.look] at hb
  rcases e : T[k.toNat]? with _ | b' <;> rw [e] at hb
  · cases hb
  · cases List.mem_singleton.mp hb
    exact List.mem_of_getElem? e

/-- An entry of the table with its cells looked up. -/
theorem looked_bsm (hT : ∀ b ∈ T, SharedBsm b) {b : Bsm} (h : SharedBsm b) : AllBsm Legible (b.look T) := by
  refine ⟨h.1.1, allArgs_iff.mpr fun a' ha' => ?_⟩
  obtain ⟨a, ha, rfl⟩ := List.mem_map.mp ha'
  have := allArgs_iff.mp h.1.2 a ha
  cases a with
  | static c => exact this
  | dynamic c n t =>
    obtain ⟨k, rfl⟩ := h.2 _ ha _ _ _ rfl
    rw [Arg.look, Cell.look]
    rw [AllArgs] at this
    rcases e : T[k.toNat]? with _ | b'
    · rw [AllArgs]
      exact this
    · rw [AllArgs, AllCell]
      exact ⟨⟨this.1.1, this.1.2.1, (hT b' (List.mem_of_getElem? e)).1⟩, this.2⟩

end

theorem given_shared {x : Class} (h : SharedClass x) : ∀ b ∈ givenBsms x.attrs, SharedBsm b := by
  intro b hb
  obtain ⟨a, ha, hb⟩ := List.mem_flatMap.mp hb
  cases a with
  | bootstrapMethods ms => exact (h.attrs _ ha).table ms rfl b hb
  | _ => cases hb

theorem table_given : ∀ (as : List ClassAttr), ∀ b ∈ bsmTable as, b ∈ givenBsms as
  | [], b, hb => by cases hb
  | a :: as, b, hb => by
    rw [givenBsms, List.flatMap_cons]
    cases a with
    | bootstrapMethods ms => exact List.mem_append_left _ hb
    | _ => exact table_given as b hb

theorem table_shared {x : Class} (h : SharedClass x) : ∀ b ∈ bsmTable x.attrs, SharedBsm b :=
  fun b hb => given_shared h b (table_given _ b hb)

theorem looked_used {x : Class} (h : SharedClass x) : ∀ b ∈ usedBsms (x.look (bsmTable x.attrs)), SharedBsm b := by
  intro b hb
  rcases List.mem_append.mp hb with hb | hb
  · exact given_shared h b hb
  · rw [looked_dynamics] at hb
    obtain ⟨d', hd', hb⟩ := List.mem_flatMap.mp hb
    obtain ⟨d, hd, rfl⟩ := List.mem_map.mp hd'
    exact table_shared h b (looked_own (h.cells d hd) hb)

theorem looked_all {x : Class} (h : SharedClass x) : AllClass Legible (x.look (bsmTable x.attrs)) where
  name := h.name
  superName := h.superName
  interfaces := h.interfaces
  fields := h.fields
  methods m hm := by
    obtain ⟨m', hm', rfl⟩ := List.mem_map.mp hm
    exact looked_method (h.methods m' hm')
  attrs a ha := (h.attrs a ha).all
  table b hb := (looked_used h b hb).1

/-! ## The pool during the loop -/

/-- What holds of the pool before and after each round. -/
structure Between (cp : VecCp) : Prop where
  inv : cp.Inv
  strings : ∀ s, .utf8 s ∈ cp.entries → Legible s
  bsm : ∀ b ∈ cp.bsm, SharedBsm b

theorem legible_names : ∀ n ∈ allNames, Legible n := fun n hn => legible_fitting (names_fitting n hn)

theorem body_between {x : Class} (h : SharedClass x) {b1 : Bytes} {cp1 : VecCp}
    (e : (x.look (bsmTable x.attrs)).writeBody { VecCp.new with bsm := ownBsms x.attrs } = .ok (b1, cp1)) :
    Between cp1 ∧ ∀ b ∈ ownBsms x.attrs, b ∈ cp1.bsm := by
  have hc0 : VecCp.Inv { VecCp.new with bsm := ownBsms x.attrs } := ⟨VecCp.inv_new.len, VecCp.inv_new.cache⟩
  have f1 := eff_classBody legible_names (looked_all h) _ _ _ e
  have hb1 : cp1.bsm = usedBsms (x.look (bsmTable x.attrs)) := by rw [f1.1, ownBsms_eq]; rfl
  refine ⟨⟨(f1.2.2 hc0).1, fun s hs => ?_, ?_⟩, fun b hb => ?_⟩
  · rcases f1.2.1 s hs with h | h
    · cases h
    · exact h
  · rw [hb1]
    exact looked_used h
  · rw [f1.1]
    exact List.mem_append_left _ hb

theorem round_between {T : List Bsm} (hT : ∀ b ∈ T, SharedBsm b) {cp cp' : VecCp} {out : Bytes} (h : Between cp)
    (e : wAll (fun b => (b.look T).write) cp.bsm { cp with bsm := [] } = .ok (out, cp')) : Between cp' := by
  have he : ∀ b ∈ cp.bsm, Eff Legible (b.look T).write (argBsms (b.look T)) :=
    fun b hb => eff_bsm (looked_bsm hT (h.bsm b hb))
  have f := Eff.all he _ _ _ e
  refine ⟨(f.2.2 ⟨h.inv.len, h.inv.cache⟩).1, fun s hs => ?_, fun b hb => hT b ?_⟩
  · rcases f.2.1 s hs with h' | h'
    · exact h.strings s h'
    · exact h'
  · rw [round_look e] at hb
    exact next_table (fun b hb => (h.bsm b hb).2) hb

theorem batches_between {T : List Bsm} (hT : ∀ b ∈ T, SharedBsm b) : ∀ (fuel i : Nat) {cp cp' : VecCp} {n : Nat} {out : Bytes},
    Between cp → writeBatchesIn T fuel i cp = .ok (n, out, cp') → Between cp'
  | 0, _, _, _, _, _, _, e => by cases e
  | fuel + 1, i, cp, cp', n, out, h, e => by
    rw [writeBatchesIn] at e
    split at e
    · cases e
      exact h
    · split at e
      · split at e
        · cases e
        · rename_i hw
          split at e
          · cases e
          · rename_i hr
            cases e
            exact batches_between hT fuel _ (round_between hT h hw) hr
      · cases e

theorem bootstrap_between {T : List Bsm} (hT : ∀ b ∈ T, SharedBsm b) {fuel : Nat} {cp cp' : VecCp} {out : Bytes}
    (h : Between cp) (e : wBootstrapIn T fuel cp = .ok (out, cp')) : Between cp' := by
  unfold wBootstrapIn at e
  split at e
  · cases e
    exact h
  · split at e
    · cases e
    · rename_i hw
      have h2 := batches_between hT _ _ h hw
      split at e
      · cases e
      · rename_i hn
        have f := Eff.wutf8 (S := Legible) (legible_names N.bootstrapMethods (by decide)) _ _ _ hn
        split at e
        · cases e
          refine ⟨(f.2.2 h2.inv).1, fun s hs => ?_, ?_⟩
          · rcases f.2.1 s hs with h | h
            · exact h2.strings s h
            · exact h
          · rw [f.1, List.append_nil]
            exact h2.bsm
        · cases e

/-! ## How it fails -/

section
variable {U : Err → Prop} [Usual U]

theorem ends_batchesIn (hd : U .diverge) {T : List Bsm} : ∀ (fuel i : Nat) (cp : VecCp),
    REnds U (writeBatchesIn T fuel i cp)
  | 0, _, _ => REnds.error hd
  | fuel + 1, i, cp => by
    rw [writeBatchesIn]
    split
    · exact REnds.ok _
    · split
      · split
        · rename_i e he
          exact REnds.error (Ends.all (w := fun b => (Bsm.look T b).write) (fun _ _ => ends_bsm) _ _ he)
        · split
          · rename_i e he
            exact REnds.error (ends_batchesIn hd _ _ _ _ he)
          · exact REnds.ok _
      · exact REnds.error Usual.panic

theorem ends_bootstrapIn (hd : U .diverge) {T : List Bsm} {fuel : Nat} : Ends U (wBootstrapIn T fuel) := by
  intro cp
  unfold wBootstrapIn
  split
  · exact REnds.ok _
  · split
    · rename_i e he
      exact REnds.error (ends_batchesIn hd _ _ _ _ he)
    · split
      · rename_i e he
        exact REnds.error (Ends.wutf8 _ _ he)
      · split
        · exact REnds.ok _
        · exact REnds.error Usual.panic

end

theorem ends_rewrite {U : Err → Prop} [Usual U] (hd : U .diverge) {x : Class} (h : SharedClass x) (fuel : Nat) :
    REnds U (x.rewrite fuel) := by
  unfold ClassOf.rewrite ClassOf.writeIn
  rw [← bootstrapTable_eq]
  split
  · rename_i e he
    refine REnds.error (Ends.cons (ends_body fun s hs hc => ?_) (Ends.cons (ends_bootstrapIn hd) Ends.nil) _ _ he)
    exact absurd hc (legible_codepoints ((h.attrs _ hs).debug s rfl))
  · rename_i buf cp he
    obtain ⟨b1, cp1, e1, e⟩ := Ins.bind_ok he
    obtain ⟨b2', cp2, e2, e⟩ := Ins.bind_ok e
    cases e
    obtain ⟨b2, cp2', e2, e⟩ := Ins.bind_ok e2
    cases e
    have hb := bootstrap_between (table_shared h) (body_between h e1).1 e2
    split
    · rename_i e hp
      exact REnds.error (ends_pool (.inr hb.strings) _ hp)
    · exact REnds.ok _

/-! ## It comes to an end -/

theorem writeIn_eq {T : List Bsm} {x : Class} {f g : Nat}
    (h : ∀ b1 cp1, (x.look T).writeBody { VecCp.new with bsm := ownBsms x.attrs } = .ok (b1, cp1) →
      wBootstrapIn T f cp1 = wBootstrapIn T g cp1) : x.writeIn T f = x.writeIn T g := by
  have : wSeq [(x.look T).writeBody, wBootstrapIn T f] { VecCp.new with bsm := ownBsms x.attrs } =
      wSeq [(x.look T).writeBody, wBootstrapIn T g] { VecCp.new with bsm := ownBsms x.attrs } := by
    show Ins.bind _ _ _ = Ins.bind _ _ _
    unfold Ins.bind
    rcases e : (x.look T).writeBody { VecCp.new with bsm := ownBsms x.attrs } with e' | ⟨b1, cp1⟩
    · rfl
    · simp only
      show Ins.bind (Ins.bind _ _) _ _ = Ins.bind (Ins.bind _ _) _ _
      unfold Ins.bind
      rw [h b1 cp1 e]
  unfold ClassOf.writeIn
  rw [this]

theorem rewrite_stable {x : Class} (h : SharedClass x) {fuel : Nat} (hf : 65538 ≤ fuel) :
    x.rewrite fuel = x.rewrite 65538 := by
  unfold ClassOf.rewrite
  rw [← bootstrapTable_eq]
  exact writeIn_eq fun b1 cp1 e => (bootstrap_first (body_between h e).1.inv).2 fuel hf

theorem rewrite_ends {x : Class} (h : SharedClass x) : x.rewrite 65538 ≠ .error .diverge := by
  haveI : Usual (fun e => e ≠ Err.diverge) := ⟨nofun, nofun⟩
  intro hd
  unfold ClassOf.rewrite ClassOf.writeIn at hd
  rw [← bootstrapTable_eq] at hd
  split at hd
  · rename_i e he
    cases hd
    have he : Ins.bind _ _ _ = _ := he
    unfold Ins.bind at he
    split at he
    · rename_i b1 cp1 e1
      have he : Ins.bind (Ins.bind _ _) _ _ = _ := he
      unfold Ins.bind at he
      have hb := (bootstrap_first (T := bsmTable x.attrs) (body_between h e1).1.inv).1
      rcases e2 : wBootstrapIn (bsmTable x.attrs) 65538 cp1 with e' | ⟨b2, cp2⟩
      · rw [e2] at he hb
        cases he
        exact hb rfl
      · rw [e2] at he
        cases he
    · rename_i e1
      cases he
      refine ends_body (U := fun e => e ≠ Err.diverge) (fun s hs hc => nofun) _ _ e1 rfl
  · split at hd
    · rename_i e hp
      cases hd
      exact ends_pool (U := fun e => e ≠ Err.diverge) (.inl nofun) _ hp rfl
    · cases hd

/-! ## Circular tables -/

theorem circular_step {T : List Bsm} {i : Nat} (h : Reaches T i i) {b : Bsm} (hb : T[i]? = some b) :
    ∃ j b', Reaches T j j ∧ T[j]? = some b' ∧ ∃ k n t, Arg.dynamic (.pending k) n t ∈ b.arguments ∧ k.toNat = j := by
  obtain ⟨j, b2, k, n, t, h1, h2, h3, h4⟩ : ∃ j b2 k n t, T[i]? = some b2 ∧ Arg.dynamic (.pending k) n t ∈ b2.arguments ∧
      k.toNat = j ∧ Reaches T j j := by
    cases h with
    | one h =>
      obtain ⟨b2, k, n, t, h1, h2, h3⟩ := h
      exact ⟨i, b2, k, n, t, h1, h2, h3, .one ⟨b2, k, n, t, h1, h2, h3⟩⟩
    | @step _ j _ h hs =>
      obtain ⟨b2, k, n, t, h1, h2, h3⟩ := h
      exact ⟨j, b2, k, n, t, h1, h2, h3, hs.trans (.one ⟨b2, k, n, t, h1, h2, h3⟩)⟩
  rw [hb] at h1
  cases h1
  obtain ⟨b', h5⟩ : ∃ b', T[j]? = some b' := by
    cases h4 with
    | one h => exact ⟨_, h.choose_spec.choose_spec.choose_spec.choose_spec.1⟩
    | step h _ => exact ⟨_, h.choose_spec.choose_spec.choose_spec.choose_spec.1⟩
  exact ⟨j, b', h4, h5, k, n, t, h2, h3⟩

theorem circular_batches {T : List Bsm} (hT : ∀ b ∈ T, SharedBsm b) : ∀ (fuel i : Nat) {cp : VecCp}, Between cp →
    (∃ j b, Reaches T j j ∧ T[j]? = some b ∧ b ∈ cp.bsm) → ∀ r, writeBatchesIn T fuel i cp ≠ .ok r
  | 0, _, _, _, _, _, e => by cases e
  | fuel + 1, i, cp, hc, ⟨j, b, h1, h2, h3⟩, r, e => by
    rw [writeBatchesIn] at e
    split at e
    · rename_i h0
      rw [List.length_eq_zero_iff] at h0
      rw [h0] at h3
      cases h3
    · split at e
      · split at e
        · cases e
        · rename_i hw
          split at e
          · cases e
          · rename_i hr
            obtain ⟨j', b', h4, h5, k, n, t, h6, h7⟩ := circular_step h1 h2
            refine circular_batches hT fuel _ (round_between hT hc hw) ⟨j', b', h4, h5, ?_⟩ _ hr
            rw [round_look hw]
            exact (next_mem fun b hb => (hc.bsm b hb).2).mpr ⟨b, h3, k, n, t, h6, by rw [h7]; exact h5⟩
      · cases e

theorem rewrite_circular {x : Class} (h : SharedClass x) (hT : Circular (bsmTable x.attrs)) (fuel : Nat) (out : Bytes) :
    x.rewrite fuel ≠ .ok out := by
  intro e
  unfold ClassOf.rewrite ClassOf.writeIn at e
  rw [← bootstrapTable_eq] at e
  split at e
  · cases e
  · rename_i buf cp he
    obtain ⟨b1, cp1, e1, e⟩ := Ins.bind_ok he
    obtain ⟨b2', cp2, e2, e⟩ := Ins.bind_ok e
    cases e
    obtain ⟨b2, cp2', e2, e⟩ := Ins.bind_ok e2
    cases e
    obtain ⟨hb, hown⟩ := body_between h e1
    obtain ⟨i, hi⟩ := hT
    obtain ⟨b, hbi⟩ : ∃ b, (bsmTable x.attrs)[i]? = some b := by
      cases hi with
      | one h => exact ⟨_, h.choose_spec.choose_spec.choose_spec.choose_spec.1⟩
      | step h _ => exact ⟨_, h.choose_spec.choose_spec.choose_spec.choose_spec.1⟩
    have hm : b ∈ cp1.bsm := hown b (by rw [ownBsms_eq]; exact table_given _ _ (List.mem_of_getElem? hbi))
    unfold wBootstrapIn at e2
    split at e2
    · rename_i h0
      rw [List.length_eq_zero_iff] at h0
      rw [h0] at hm
      cases hm
    · split at e2
      · cases e2
      · rename_i hw
        exact circular_batches (table_shared h) _ _ hb ⟨i, b, hi, hbi, hm⟩ _ hw

/-! ## Tables that are not circular -/

theorem sim_bootstrap {T : List Bsm} (hT : ¬ Circular T) (hs : ∀ b ∈ T, ArgsShared b) {cp : VecCp}
    (hb : ∀ b ∈ cp.bsm, ArgsShared b) : ∃ n, ∀ fuel, n ≤ fuel →
      wBootstrap (cp.bmap (fillBsm T T.length)) = rmap (fillBsm T T.length) (wBootstrapIn T fuel cp) := by
  obtain ⟨n, hn⟩ := sim_batches hT hs (i := 0) hb
  refine ⟨n, fun fuel hf => ?_⟩
  have hl : (cp.bmap (fillBsm T T.length)).bsm.length = cp.bsm.length := List.length_map _
  unfold wBootstrap wBootstrapIn
  rw [hl, hn fuel hf]
  split
  · rfl
  · rcases writeBatchesIn T fuel 0 cp with e | ⟨n, bs, cp1⟩
    · rfl
    · simp only [bmapB]
      rw [Sim.wutf8 (F := fillBsm T T.length) (s := N.bootstrapMethods) cp1]
      rcases wUtf8 N.bootstrapMethods cp1 with e | ⟨name, cp2⟩
      · rfl
      · simp only [rmap]
        split <;> rfl

theorem rewrite_completed {x : Class} (h : SharedClass x) (hT : ¬ Circular (bsmTable x.attrs)) :
    ∃ n, ∀ fuel, n ≤ fuel → x.rewrite fuel = (completed x).write := by
  have hbody := sim_body h.cells (bsmTable x.attrs).length { VecCp.new with bsm := ownBsms x.attrs }
  have hown : VecCp.bmap (fillBsm (bsmTable x.attrs) (bsmTable x.attrs).length) { VecCp.new with bsm := ownBsms x.attrs } =
      { VecCp.new with bsm := ownBsms (completed x).attrs } := by
    show VecCp.mk _ _ _ _ = VecCp.mk _ _ _ _
    rw [show (completed x).attrs = x.attrs.map (fillClassAttr (bsmTable x.attrs) (bsmTable x.attrs).length) from rfl,
      ownBsms_fill]
  rw [hown] at hbody
  unfold ClassOf.rewrite ClassOf.writeIn Class.write
  rw [← bootstrapTable_eq]
  rcases e : (x.look (bsmTable x.attrs)).writeBody { VecCp.new with bsm := ownBsms x.attrs } with e' | ⟨b1, cp1⟩
  · refine ⟨0, fun fuel _ => ?_⟩
    rw [e] at hbody
    have h1 : wSeq [(completed x).writeBody, wBootstrap] { VecCp.new with bsm := ownBsms (completed x).attrs } = .error e' := by
      show Ins.bind _ _ _ = _
      unfold Ins.bind
      rw [show (completed x).writeBody _ = _ from hbody]
      rfl
    have h2 : wSeq [(x.look (bsmTable x.attrs)).writeBody, wBootstrapIn (bsmTable x.attrs) fuel]
        { VecCp.new with bsm := ownBsms x.attrs } = .error e' := by
      show Ins.bind _ _ _ = _
      unfold Ins.bind
      rw [e]
    rw [h1, h2]
  · rw [e] at hbody
    obtain ⟨hb, _⟩ := body_between h e
    obtain ⟨n, hn⟩ := sim_bootstrap hT (fun b hb => (table_shared h b hb).2) (fun b hb' => (hb.bsm b hb').2)
    refine ⟨n, fun fuel hf => ?_⟩
    have hsim := hn fuel hf
    have h1 : wSeq [(completed x).writeBody, wBootstrap] { VecCp.new with bsm := ownBsms (completed x).attrs } =
        rmap (fillBsm (bsmTable x.attrs) (bsmTable x.attrs).length)
          (wSeq [(x.look (bsmTable x.attrs)).writeBody, wBootstrapIn (bsmTable x.attrs) fuel]
            { VecCp.new with bsm := ownBsms x.attrs }) := by
      show Ins.bind _ _ _ = rmap _ (Ins.bind _ _ _)
      unfold Ins.bind
      rw [show (completed x).writeBody _ = _ from hbody, e]
      show Ins.bind (Ins.bind _ _) _ _ = rmap _ (Ins.bind (Ins.bind _ _) _ _)
      unfold Ins.bind
      rw [hsim]
      rcases wBootstrapIn (bsmTable x.attrs) fuel cp1 with e | ⟨b2, cp2⟩
      · rfl
      · rfl
    rw [h1]
    rcases wSeq [(x.look (bsmTable x.attrs)).writeBody, wBootstrapIn (bsmTable x.attrs) fuel]
        { VecCp.new with bsm := ownBsms x.attrs } with e | ⟨buf, cp⟩
    · rfl
    · rfl

end Verif
