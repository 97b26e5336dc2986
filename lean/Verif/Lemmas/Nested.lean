import Verif.Spec.Nested
import Verif.Lemmas.Class

/-! # Lemmas about dynamic bootstrap arguments -/

namespace Verif
open Spec Sig

/-! ## Writing -/

/-- The bootstrap method of an argument. -/
abbrev argOwn (a : Arg) : List Bsm := (orDynamics a.toOrDynamic).flatMap ownBsm

theorem numberArgs_cons (n : Nat) (a : Arg) (h : ArgWritable a) (as : List Arg) :
    numberArgs n (a :: as) = numberArgs n [a] ++ numberArgs (n + (argOwn a).length) as := by
  cases a with
  | static c => rfl
  | dynamic c nm t =>
    obtain ⟨hd, as', rfl⟩ := h.2.2
    rfl

theorem numberArgs_length (n : Nat) (as : List Arg) : (numberArgs n as).length = as.length := by
  induction as generalizing n with
  | nil => rfl
  | cons a as ih => cases a <;> simp [numberArgs, ih]

theorem arg_ref {a : Arg} (h : ArgWritable a) {cp cp' : VecCp} {bs : Bytes} (hi : cp.Inv)
    (e : wIdx (insertOrDynamic insertConstant a.toOrDynamic) cp = .ok (bs, cp')) :
    Steps cp cp' ∧ cp'.bsm = cp.bsm ++ argOwn a ∧
      ∀ P T, Agrees P cp'.entries → Fmt.all argRef ⟨P, T, fun _ => none, fun _ => none⟩ (numberArgs cp.bsm.length [a]) bs := by
  have g := good_arg WEnv.outside h _ _ _ hi e
  have f := (Eff.idx (S := fun _ => True) (Eff.orDynamic (f := insertConstant) (fun _ => Eff.const)
    (allArgs_mem (allArgs_true [a]) a (by simp))) _ _ _ e).1
  refine ⟨g.1, f, fun P T hP => ?_⟩
  obtain ⟨i, cp1, e1, e2⟩ := Ins.bind_ok e
  cases e2
  cases a with
  | static k =>
    obtain ⟨j, hj, hk⟩ := g.2 ⟨P, cp'.bsm⟩ ⟨hP, List.prefix_refl _⟩
    exact ⟨_, [], (List.append_nil _).symm, ⟨j, hj, hk⟩, rfl⟩
  | dynamic c nm t =>
    obtain ⟨b, _, _, _, h4⟩ := insertDynamic_ok (d := ⟨c, nm, t⟩) h.1 hi e1
    exact ⟨_, [], (List.append_nil _).symm, ⟨i, u16_write i, h.2.1, h4 P hP⟩, rfl⟩

theorem wAll_cons {α : Type} {w : α → Ins Bytes} {x : α} {xs : List α} {cp cp' : VecCp} {bs : Bytes}
    (e : wAll w (x :: xs) cp = .ok (bs, cp')) :
    ∃ b1 cp1 b2, w x cp = .ok (b1, cp1) ∧ wAll w xs cp1 = .ok (b2, cp') ∧ bs = b1 ++ b2 := by
  obtain ⟨b1, cp1, e1, e2⟩ := Ins.bind_ok e
  obtain ⟨b2, cp2, e3, e4⟩ := Ins.bind_ok e2
  cases e4
  exact ⟨b1, cp1, b2, e1, e3, rfl⟩

theorem args_ref {as : List Arg} (h : ∀ a ∈ as, ArgWritable a) {cp cp' : VecCp} {bs : Bytes} (hi : cp.Inv)
    (e : wAll (fun a => wIdx (insertOrDynamic insertConstant a.toOrDynamic)) as cp = .ok (bs, cp')) :
    Steps cp cp' ∧ cp'.bsm = cp.bsm ++ as.flatMap argOwn ∧
      ∀ P T, Agrees P cp'.entries → Fmt.all argRef ⟨P, T, fun _ => none, fun _ => none⟩ (numberArgs cp.bsm.length as) bs := by
  induction as generalizing cp cp' bs with
  | nil =>
    cases e
    exact ⟨.refl _, by simp, fun _ _ _ => rfl⟩
  | cons a as ih =>
    obtain ⟨b1, cp1, b2, e1, e2, rfl⟩ := wAll_cons e
    have h1 := arg_ref (h a (by simp)) hi e1
    have i1 := steps_ok h1.1 hi
    have h2 := ih (fun b hb => h b (by simp [hb])) i1.1 e2
    have i2 := steps_ok h2.1 i1.1
    refine ⟨h1.1.trans h2.1, by rw [h2.2.1, h1.2.1]; simp, fun P T hP => ?_⟩
    rw [numberArgs_cons _ _ (h a (by simp))]
    have h3 := h2.2.2 P T hP
    rw [h1.2.1, List.length_append] at h3
    exact Fmt.all_append (h1.2.2 P T (hP.mono i2.2)) h3

theorem bsm_ref {b : Bsm} (h : BsmWritable b) {cp cp' : VecCp} {bs : Bytes} (hi : cp.Inv)
    (e : b.write cp = .ok (bs, cp')) :
    Steps cp cp' ∧ cp'.bsm = cp.bsm ++ argBsms b ∧
      ∀ P T, Agrees P cp'.entries →
        bsmRef ⟨P, T, fun _ => none, fun _ => none⟩ ⟨b.handle, numberArgs cp.bsm.length b.arguments⟩ bs := by
  obtain ⟨b1, cp1, e1, q1⟩ := Ins.bind_ok e
  obtain ⟨r1, c1, q2, q3⟩ := Ins.bind_ok q1
  cases q3
  obtain ⟨b2, cp2, q4, q5⟩ := Ins.bind_ok q2
  obtain ⟨r2, c2, q6, q7⟩ := Ins.bind_ok q5
  cases q7
  cases q4
  obtain ⟨b3, cp3, e3, q8⟩ := Ins.bind_ok q6
  obtain ⟨r3, c3, q9, q10⟩ := Ins.bind_ok q8
  cases q10
  cases q9
  have g1 := writes_idx (env := WEnv.outside) (good_handle b.handle h.1) _ _ _ hi e1
  have f1 := (Eff.idx (S := fun _ => True) (Eff.handle (allBsm_true b).1) _ _ _ e1).1
  rw [List.append_nil] at f1
  have i1 := steps_ok g1.1 hi
  have g3 := args_ref h.2.2 i1.1 e3
  have i3 := steps_ok g3.1 i1.1
  refine ⟨g1.1.trans g3.1, by rw [g3.2.1, f1]; rfl, fun P T hP => ?_⟩
  have h3 := g3.2.2 P T hP
  rw [f1] at h3
  refine ⟨b1, _, rfl, g1.2 ⟨P, cp1.bsm⟩ ⟨hP.mono i3.2, List.prefix_refl _⟩, _, [], (List.append_nil _).symm,
    ⟨by rw [numberArgs_length]; exact h.2.1, b3, ?_, h3⟩, rfl⟩
  rw [numberArgs_length, List.append_nil]
  show u16.write _ ++ b3 = _
  rw [u16_write, UInt16.toNat_ofNat', Nat.mod_eq_of_lt (by have := h.2.1; omega)]

theorem bsms_ref {ts : List Bsm} (h : ∀ b ∈ ts, BsmWritable b) {cp cp' : VecCp} {bs : Bytes} (hi : cp.Inv)
    (e : wAll Bsm.write ts cp = .ok (bs, cp')) :
    Steps cp cp' ∧ ∀ P T, Agrees P cp'.entries →
      Fmt.all bsmRef ⟨P, T, fun _ => none, fun _ => none⟩ (numberBsms cp.bsm.length ts) bs := by
  induction ts generalizing cp cp' bs with
  | nil =>
    cases e
    exact ⟨.refl _, fun _ _ _ => rfl⟩
  | cons b ts ih =>
    obtain ⟨b1, cp1, b2, e1, e2, rfl⟩ := wAll_cons e
    have h1 := bsm_ref (h b (by simp)) hi e1
    have i1 := steps_ok h1.1 hi
    have h2 := ih (fun b hb => h b (by simp [hb])) i1.1 e2
    have i2 := steps_ok h2.1 i1.1
    refine ⟨h1.1.trans h2.1, fun P T hP => ?_⟩
    have h3 := h2.2 P T hP
    rw [h1.2.1, List.length_append] at h3
    exact ⟨b1, b2, rfl, h1.2.2 P T (hP.mono i2.2), h3⟩

theorem numberRounds_nil (n : Nat) : numberRounds n [] = [] := by
  induction n with
  | zero => rfl
  | succ n ih =>
    show [] ++ numberRounds n [] = []
    exact ih

theorem numberRounds_enough {n m : Nat} {ts : List Bsm} (h : bsmNodes ts ≤ n) (hm : bsmNodes ts ≤ m) :
    numberRounds n ts = numberRounds m ts := by
  induction n generalizing m ts with
  | zero =>
    rw [bsmNodes_nil (ts := ts) (by omega), numberRounds_nil, numberRounds_nil]
  | succ n ih =>
    cases m with
    | zero => rw [bsmNodes_nil (ts := ts) (by omega), numberRounds_nil, numberRounds_nil]
    | succ m =>
      rcases ts with _ | ⟨b, ts⟩
      · rw [numberRounds_nil, numberRounds_nil]
      · have := bsmNodes_args (b :: ts)
        simp only [List.length_cons] at this
        show _ ++ numberRounds n _ = _ ++ numberRounds m _
        rw [ih (m := m) (by omega) (by omega)]

theorem numberRounds_step (ts : List Bsm) : numberRounds (bsmNodes ts) ts =
    numberBsms 0 ts ++ numberRounds (bsmNodes (ts.flatMap argBsms)) (ts.flatMap argBsms) := by
  rw [numberRounds_enough (m := bsmNodes ts + 1) (Nat.le_refl _) (by omega)]
  show numberBsms 0 ts ++ numberRounds (bsmNodes ts) _ = _
  have := bsmNodes_args ts
  rw [numberRounds_enough (by omega) (Nat.le_refl _)]

theorem numberBsms_length (n : Nat) (ts : List Bsm) : (numberBsms n ts).length = ts.length := by
  induction ts generalizing n with
  | nil => rfl
  | cons b ts ih => simp [numberBsms, ih]

theorem numberRounds_length (n : Nat) (ts : List Bsm) : (numberRounds n ts).length = (rounds n ts).length := by
  induction n generalizing ts with
  | zero => rfl
  | succ n ih =>
    show (numberBsms 0 ts ++ numberRounds n _).length = (ts ++ rounds n _).length
    rw [List.length_append, List.length_append, numberBsms_length, ih]

theorem batches_ref {i n : Nat} {cp cp' : VecCp} {bs : Bytes} (h : writeBatches i cp = .ok (n, bs, cp')) (hc : cp.Inv)
    (hi : i + (rounds (bsmNodes cp.bsm) cp.bsm).length < 65536)
    (hw : ∀ b ∈ rounds (bsmNodes cp.bsm) cp.bsm, BsmWritable b) :
    n = i + (rounds (bsmNodes cp.bsm) cp.bsm).length ∧ cp'.Inv ∧ cp.entries <+: cp'.entries ∧ ∀ P T,
      Agrees P cp'.entries →
        Fmt.all bsmRef ⟨P, T, fun _ => none, fun _ => none⟩ (numberRounds (bsmNodes cp.bsm) cp.bsm) bs := by
  fun_induction writeBatches i cp generalizing n bs cp' with
  | case1 i cp h0 =>
    cases h
    rw [List.length_eq_zero_iff.mp h0, rounds_nil, numberRounds_nil]
    exact ⟨rfl, hc, List.prefix_refl _, fun P T _ => rfl⟩
  | case2 => cases h
  | case3 => cases h
  | case4 i cp h0 h1 b cp1 e1 hn n' b' cp2 e2 ih =>
    cases h
    have hc0 : VecCp.Inv { cp with bsm := [] } := ⟨hc.len, hc.cache⟩
    have hb1 := (round_bsm e1).1
    rw [hb1] at ih
    have hr := rounds_step cp.bsm
    rw [hr] at hi hw ⊢
    rw [numberRounds_step]
    rw [List.length_append] at hi
    have hm : cp.bsm.length % 65536 = cp.bsm.length := Nat.mod_eq_of_lt (by omega)
    rw [hm] at e2 ih
    have w1 := bsms_ref (fun b hb => hw b (List.mem_append_left _ hb)) hc0 e1
    have i1 := steps_ok w1.1 hc0
    have h2 := ih e2 i1.1 (by omega) (fun b hb => hw b (List.mem_append_right _ hb))
    refine ⟨by rw [h2.1, List.length_append]; omega, h2.2.1, i1.2.entries.trans h2.2.2.1, fun P T hP => ?_⟩
    refine Fmt.all_append (w1.2 P T fun i e h => hP i e ?_) (h2.2.2.2 P T hP)
    obtain ⟨t, ht⟩ := h2.2.2.1
    obtain ⟨p, q, h1, h2⟩ := h
    exact ⟨p, q ++ t, by rw [← ht, h1]; simp, h2⟩
  | case5 => cases h
  | case6 => cases h

/-- The bootstrap attribute with references as numbers; other attributes as before. -/
def attrRef : Fmt ClassAttr
  | c, .bootstrapMethods ms, bs => Fmt.attr N.bootstrapMethods (Fmt.table2 bsmRef) c ms bs
  | c, a, bs => classAttr c a bs

theorem bootstrap_ref {S : Bytes → Prop} (hN : S N.bootstrapMethods) {cp cp' : VecCp} {bs : Bytes} (hc : cp.Inv)
    (hT : (rounds (bsmNodes cp.bsm) cp.bsm).length < 65536) (hw : ∀ b ∈ rounds (bsmNodes cp.bsm) cp.bsm, BsmWritable b)
    (hS : ∀ b ∈ cp.bsm, AllBsm S b)
    (h : wBootstrap cp = .ok (bs, cp')) (hl : bs.length < 4294967296) :
    cp'.Inv ∧ cp.entries <+: cp'.entries ∧ (∀ s, .utf8 s ∈ cp'.entries → .utf8 s ∈ cp.entries ∨ S s) ∧
      ∀ P T, Agrees P cp'.entries →
        Fmt.all attrRef ⟨P, T, fun _ => none, fun _ => none⟩
          (if cp.bsm.isEmpty then [] else [.bootstrapMethods (numberRounds (bsmNodes cp.bsm) cp.bsm)]) bs := by
  unfold wBootstrap at h
  split at h
  · rename_i he
    cases h
    refine ⟨hc, List.prefix_refl _, fun s h => .inl h, fun P T _ => ?_⟩
    rw [if_pos (by simpa using he)]
    rfl
  · rename_i he
    rcases e1 : writeBatches 0 cp with e | ⟨n, b, cp1⟩
    · rw [e1] at h
      cases h
    · rw [e1] at h
      simp only at h
      obtain ⟨hn, i1, x1, w1⟩ := batches_ref e1 hc (by omega) hw
      have f1 := (batches_ok e1 hS hc).2.2
      rw [Nat.zero_add, ← numberRounds_length] at hn
      rw [← numberRounds_length] at hT
      rcases e2 : wUtf8 N.bootstrapMethods cp1 with e | ⟨name, cp2⟩
      · rw [e2] at h
        cases h
      · rw [e2] at h
        have w2 := writes_utf8 WEnv.outside N.bootstrapMethods _ _ _ i1 e2
        have f2 := Eff.wutf8 hN _ _ _ e2
        have i2 := steps_ok w2.1 i1
        simp only at h
        split at h
        · cases h
          have hlb : b.length + 2 < 4294967296 := by
            simp only [List.length_append] at hl
            have : (u16.write (UInt16.ofNat n)).length = 2 := rfl
            omega
          refine ⟨i2.1, x1.trans i2.2.entries, ?_, ?_⟩
          · intro s hs
            rcases f2.2.1 s hs with hs | hs
            · exact f1 s hs
            · exact .inr hs
          · intro P T hP
            rw [if_neg (by simpa using he)]
            obtain ⟨i, hi, rfl⟩ := w2.2 ⟨P, cp'.bsm⟩ ⟨hP, List.prefix_refl _⟩
            have ha := w1 P T (hP.mono i2.2)
            generalize numberRounds (bsmNodes cp.bsm) cp.bsm = ts at *
            subst hn
            refine ⟨_, [], (List.append_nil _).symm, ⟨i, U2 ts.length ++ b, hi, ⟨hT, b, rfl, ha⟩, ?_, ?_⟩, rfl⟩
            · simp [U2]; omega
            · rw [Nat.mod_eq_of_lt (show b.length < 4294967296 by omega), u32_write, u16_write,
                UInt16.toNat_ofNat', UInt32.toNat_ofNat', Nat.mod_eq_of_lt (by omega), Nat.mod_eq_of_lt (by omega)]
              have : (U2 ts.length ++ b).length = b.length + 2 := by simp [U2]
              rw [this]
              simp
        · cases h

/-- A class file whose bootstrap table has references as numbers. -/
def classRef {C : Type} (code : Fmt C) (T : List Bsm) (x : ClassOf C) (bs : Bytes) : Prop :=
  ∃ (es : List Entry) (P : Pool) (pool body : Bytes), PoolBytes es pool ∧
    (∀ i e, P i = some e ↔ At es i.toNat e) ∧
    Fmt.struct [Fmt.on ClassOf.access (Fmt.flags .cls),
      Fmt.on ClassOf.name Fmt.cls, Fmt.on ClassOf.superName Fmt.clsOpt, Fmt.on ClassOf.interfaces (Fmt.table2 Fmt.cls),
      Fmt.on ClassOf.fields (Fmt.table2 field), Fmt.on ClassOf.methods (Fmt.table2 (method code)),
      Fmt.on ClassOf.attrs (Fmt.table2 attrRef)] ⟨P, T, fun _ => none, fun _ => none⟩ x body ∧
    bs = U4 0xCAFEBABE ++ (U2 x.version.minor.toNat ++ U2 (majorNumber x.version.major)) ++ pool ++ body

theorem attrs_ref {c : Ctx} {as : List ClassAttr} {bs : Bytes} (hn : ∀ a ∈ as, isBootstrap a = false)
    (h : Fmt.all classAttr c as bs) : Fmt.all attrRef c as bs := by
  induction as generalizing bs with
  | nil => exact h
  | cons a as ih =>
    obtain ⟨b, b', rfl, h1, h2⟩ := h
    refine ⟨b, b', rfl, ?_, ih (fun a ha => hn a (by simp [ha])) h2⟩
    have := hn a (by simp)
    cases a with
    | bootstrapMethods ms => cases this
    | _ => exact h1

theorem class_numbers {x : Class} (hx : x.Unordered) (hs : AllClass Fitting x) {bs : Bytes}
    (h : x.write = .ok bs) (hl : bs.length < 4294967296) : classRef codeFile (writtenBsms x) (withNumbers x) bs := by
  unfold Class.write at h
  rcases e : wSeq [x.writeBody, wBootstrap] { VecCp.new with bsm := ownBsms x.attrs } with e' | ⟨buf, cp⟩
  · rw [e] at h
    cases h
  rw [e] at h
  simp only at h
  rcases ep : cp.write with e' | pool
  · rw [ep] at h
    cases h
  rw [ep] at h
  cases h
  have hc0 : VecCp.Inv { VecCp.new with bsm := ownBsms x.attrs } := ⟨VecCp.inv_new.len, VecCp.inv_new.cache⟩
  obtain ⟨b1, cp1, e1, e⟩ := Ins.bind_ok e
  obtain ⟨b2', cp2, e2, e⟩ := Ins.bind_ok e
  cases e
  obtain ⟨b2, cp2', e2, e⟩ := Ins.bind_ok e2
  cases e
  have f1 := eff_classBody names_fitting hs _ _ _ e1
  have w1 : Writes WEnv.outside x.writeBody (Fmt.small (Fmt.struct [Fmt.on ClassOf.access (Fmt.flags .cls),
      Fmt.on ClassOf.name Fmt.cls, Fmt.on ClassOf.superName Fmt.clsOpt, Fmt.on ClassOf.interfaces (Fmt.table2 Fmt.cls),
      Fmt.on ClassOf.fields (Fmt.table2 field), Fmt.on ClassOf.methods (Fmt.table2 (method codeFile)),
      fun c x bs => ∃ b, bs = U2 x.attrs.length ++ b ∧
        Fmt.all classAttr c (x.attrs.filter fun a => !isBootstrap a) b])) x := by
    refine Writes.scons (Writes.on (f := Fmt.small _) (writes_flags _ hx.access).toSmall)
      (Writes.scons (Writes.on (f := Fmt.small _) (writes_idx ((good_cls0 _).weaken fun _ _ h => h.1)).toSmall)
      (Writes.scons (Writes.on (f := Fmt.small _) (writes_opt fun a _ => good_cls0 a).toSmall)
      (Writes.scons (Writes.on (f := Fmt.small _) (writes_cut (fun s _ =>
        (writes_idx ((good_cls0 s).weaken fun _ _ h => h.1)).toSmall) hx.interfaces))
      (Writes.scons (Writes.on (f := Fmt.small _) (writes_cut (fun f hf => writes_field _ (hx.fields.2 f hf)) hx.fields.1))
      (Writes.scons (Writes.on (f := Fmt.small _) (writes_cut (fun m hm => writes_method _ (hx.methods.2 m hm)) hx.methods.1))
      (Writes.scons ?_ (Writes.snil _ _)))))))
    have hn : Writes WEnv.outside (wNum u16 (UInt16.ofNat x.attrs.length))
        (fun _ _ bs => bs = U2 x.attrs.length) x.attrs := by
      refine GoodW.pure _ (fun _ => ?_)
      show u16.write _ = _
      have := hx.attrs.1
      rw [u16_write, UInt16.toNat_ofNat', Nat.mod_eq_of_lt (by omega)]
    refine Writes.weaken (Writes.cons hn (Writes.cons (writes_others hx.attrs.2) (Writes.nil _ _))) ?_
    rintro P bs ⟨b, b', rfl, rfl, b2, b3, rfl, h3, rfl⟩ hl
    refine ⟨b2, by simp, h3 ?_⟩
    simp only [List.length_append] at hl
    omega
  obtain ⟨s1, w1⟩ := w1 _ _ _ hc0 e1
  have i1 := steps_ok s1 hc0
  have hb1 : cp1.bsm = usedBsms x := by rw [f1.1, ownBsms_eq]; rfl
  simp only [List.length_append] at hl
  obtain ⟨i2, x2, f2, w2⟩ := bootstrap_ref (S := Fitting) (names_fitting _ (by decide)) i1.1 (by rw [hb1]; exact hx.table.1)
    (by rw [hb1]; exact hx.table.2) (by rw [hb1]; exact hs.table) e2 (by omega)
  rw [hb1] at w2
  have hok : ∀ e ∈ cp.entries, EntryOk e := by
    intro e he
    cases e with
    | utf8 s =>
      rcases f2 s he with h | h
      · rcases f1.2.1 s h with h | h
        · cases h
        · exact h
      · exact h
    | _ => trivial
  obtain ⟨body, h1, h2⟩ := entries_write hok
  have hlen := i2.len
  have hp : PoolBytes cp.entries (u16.write cp.len ++ body) :=
    ⟨body, h2, by have := cp.len.toNat_lt; omega, by rw [u16_write, hlen]⟩
  have hpool : pool = u16.write cp.len ++ body := by
    unfold VecCp.write at ep
    rw [h1] at ep
    cases ep
    rfl
  obtain ⟨m, h3, h4⟩ := mapCp_read hp
  have hA : Agrees m.get cp.entries := fun i e h => (h3 i e).mpr h
  have hA1 : Agrees m.get cp1.entries := fun i e h => hA i e (by
    obtain ⟨t, ht⟩ := x2
    obtain ⟨p, q, h1, h2⟩ := h
    exact ⟨p, q ++ t, by rw [← ht, h1]; simp, h2⟩)
  have w1' := w1 ⟨m.get, writtenBsms x⟩ ⟨hA1, by rw [hb1]; exact used_prefix x⟩ (by omega)
  have w2' := w2 m.get (writtenBsms x) hA
  refine ⟨cp.entries, m.get, pool, b1 ++ b2, by rw [hpool]; exact hp, fun i e => h3 i e, ?_, ?_⟩
  · obtain ⟨c1, r1, rfl, g1, c2, r2, rfl, g2, c3, r3, rfl, g3, c4, r4, rfl, g4, c5, r5, rfl, g5,
      c6, r6, rfl, g6, c7, r7, rfl, ⟨c8, rfl, g7⟩, rfl⟩ := w1'
    refine ⟨c1, c2 ++ (c3 ++ (c4 ++ (c5 ++ (c6 ++ (U2 x.attrs.length ++ (c8 ++ b2)))))), by simp, g1,
      c2, _, rfl, g2, c3, _, rfl, g3, c4, _, rfl, g4, c5, _, rfl, g5, c6, _, rfl, g6, _, [], (List.append_nil _).symm, ?_, rfl⟩
    have hcount : (withNumbers x).attrs.length = x.attrs.length := by
      have := hx.count
      have h5 := length_filters isBootstrap x.attrs
      unfold withNumbers
      simp only [List.length_append]
      split
      · rename_i hh
        rw [if_pos hh] at this
        simp only [List.length_nil]
        omega
      · rename_i hh
        rw [if_neg hh] at this
        simp only [List.length_cons, List.length_nil]
        omega
    refine ⟨by rw [hcount]; exact hx.attrs.1, c8 ++ b2, by rw [hcount], ?_⟩
    exact Fmt.all_append (attrs_ref (fun a ha => by simpa using (List.mem_filter.mp ha).2) g7) w2'
  · rw [(Props.C29_write x.version []).1]
    simp [u32_write]
    rfl

/-! ## Reading -/

theorem reads_argRef {c : Ctx} (cs : Option (List Catch)) {a : Arg} {bs : Bytes} {T : List Bsm}
    (h : argRef c a bs) (hs : StaticArg a) (hT : ∀ k n t, a = .dynamic (.pending k) n t → k.toNat < T.length) :
    RReads T rArg ⟨c.pool, cs⟩ bs (fun v => v = a) := by
  obtain ⟨i, rfl, h⟩ := h
  cases a with
  | static k =>
    obtain ⟨v, pend, h1, hq, h2⟩ := reads_orDyn cs (f := Pool.constant) (g := Constant.norm) (c := ⟨c.pool, [], c.pos, c.handler⟩)
      (is := IsConstant) (x := .static k)
      (fun _ h => constant_of h) (fun _ h => isConst_not_dyn h) (Nat.zero_le _) h
    have hp : pend = [] := by
      cases pend with
      | nil => rfl
      | cons k _ => exact absurd (hq k (by simp)) (Nat.not_lt_zero _)
    subst hp
    refine ⟨.static k, [], rfl, by simp, ?_⟩
    have hv : v = .static k := by
      cases v with
      | static k' =>
        simp only [resolveO, OrDynamic.map, OrDynamic.static.injEq] at h1
        rw [hs] at h1
        rw [h1]
      | dynamic d => simp [resolveO, OrDynamic.map] at h1
    subst hv
    exact (PReads.bindR (reads_u2 _ i) (Reads.map (f := OrDynamic.toArg) h2)).cast (List.append_nil _) rfl rfl rfl
  | dynamic cell n t =>
    cases cell with
    | filled hd as => exact absurd h id
    | pending k =>
      refine ⟨.dynamic (.pending k) n t, [k], rfl, by simpa using hT k n t rfl, ?_⟩
      have h2 : Reads (rOrDyn Pool.constant i) ⟨c.pool, cs⟩ [] (fun _ => .dynamic ⟨.pending k, n, t⟩) [] [k] := by
        intro st rest _ m _
        simp only [rOrDyn, rLookupD, Pool.orDynamic, lookup_dyn h.2 h.1,
          LabelMap.addAll, Option.map_id', List.nil_append]
      exact (PReads.bindR (reads_u2 _ i) (Reads.map (f := OrDynamic.toArg) h2)).cast (List.append_nil _) rfl rfl rfl

/-- The references in a table are to entries of `T`. -/
def RefsIn (T : List Bsm) (b : Bsm) : Prop :=
  ∀ k n t, .dynamic (.pending k) n t ∈ b.arguments → k.toNat < T.length

theorem matched_eq {α : Type} {xs ys : List α} (h : Matched (fun x y => y = x) xs ys) : ys = xs := by
  have := forall2_map (g := id) h
  simpa using this

theorem reads_bsmRef {c : Ctx} (cs : Option (List Catch)) {b : Bsm} {bs : Bytes} {T : List Bsm}
    (h : bsmRef c b bs) (hs : BsmReadable b) (hT : RefsIn T b) :
    RReads T Bsm.read ⟨c.pool, cs⟩ bs (fun v => v = b) := by
  obtain ⟨b1, b2, rfl, ⟨i, h1, rfl⟩, b3, b4, rfl, h2, rfl⟩ := h
  have hh := handle_of h1
  rw [hs.1] at hh
  refine (RReads.ap (G := fun f => f = Bsm.mk b.handle)
    ((PReads.map (f := Bsm.mk) (PReads.idxR (env := ⟨c.pool, cs⟩) (f := Pool.methodHandle) hh)).r rfl)
    (RReads.vec2 (R := fun x v => v = x) h2
      (fun a ha bs h => reads_argRef cs h (hs.2 a ha) fun k n t e => hT k n t (e ▸ ha))) ?_).cast (by simp)
  rintro f as rfl has
  rw [matched_eq has]

theorem attrRef_other {c : Ctx} {a : ClassAttr} {bs : Bytes} (ha : isBootstrap a = false) (h : attrRef c a bs) :
    classAttr c a bs := by
  cases a with
  | bootstrapMethods ms => cases ha
  | _ => exact h

theorem reads_attrRef {c : Ctx} (cs : Option (List Catch)) (hT : c.bsm.length ≤ 65536) {a : ClassAttr}
    {bs : Bytes} (h : attrRef c a bs) (hr : a.Readable)
    (hR : ∀ ms, a = .bootstrapMethods ms → ∀ b ∈ ms, RefsIn c.bsm b) :
    RReads c.bsm ClassAttr.read ⟨c.pool, cs⟩ bs (fun v => v = a) := by
  cases a with
  | bootstrapMethods ms =>
    obtain ⟨i, body, hi, hb, hl, rfl⟩ := h
    refine RReads.attr hi rfl (RReads.map (f := ClassAttr.bootstrapMethods)
      (RReads.vec2 (R := fun x v => v = x) hb
        (fun b hb' bs h => reads_bsmRef cs h (hr b hb') (hR ms rfl b hb'))) ?_) hl
    intro x hx
    rw [matched_eq hx]
  | _ =>
    refine (reads_classAttr cs hT (attrRef_other rfl h) hr).mono fun v hv => ?_
    cases v <;> first | exact hv | cases hv

theorem reads_classRef {C : Type} {c : Ctx} {code : Fmt C} {ok : C → Prop} (hT : c.bsm.length ≤ 65536)
    {R : C → Code → Prop} (hc : ReadsBodies c none code ok R) (ord : Order) (hord : ∀ k n l, (ord k n l).Perm l)
    {x : ClassOf C} {bs : Bytes} (h : Fmt.struct [Fmt.on ClassOf.access (Fmt.flags .cls),
      Fmt.on ClassOf.name Fmt.cls, Fmt.on ClassOf.superName Fmt.clsOpt, Fmt.on ClassOf.interfaces (Fmt.table2 Fmt.cls),
      Fmt.on ClassOf.fields (Fmt.table2 field), Fmt.on ClassOf.methods (Fmt.table2 (method code)),
      Fmt.on ClassOf.attrs (Fmt.table2 attrRef)] c x bs) (hr : x.Readable ok)
    (hR : ∀ ms, .bootstrapMethods ms ∈ x.attrs → ∀ b ∈ ms, RefsIn c.bsm b) :
    QReads c.bsm (Class.readBody ord x.version) ⟨c.pool, none⟩ bs (fun y => ∃ ms, Matched (SameMethod R) x.methods ms ∧
      y = ⟨x.version, x.access, x.name, x.superName, x.interfaces, x.fields, ms, x.attrs⟩) := by
  obtain ⟨b1, r1, rfl, h1, b2, r2, rfl, h2, b3, r3, rfl, h3, b4, r4, rfl, h4, b5, r5, rfl, h5,
    b6, r6, rfl, h6, b7, r7, rfl, h7, rfl⟩ := h
  refine (QReads.ap (G := fun f => ∃ ms, Matched (SameMethod R) x.methods ms ∧
      f = ClassOf.mk x.version x.access x.name x.superName x.interfaces x.fields ms)
    (QReads.ap (G := fun f => f = ClassOf.mk x.version x.access x.name x.superName x.interfaces x.fields)
      ((PReads.ap (PReads.ap (PReads.ap (PReads.ap (PReads.map (f := ClassOf.mk x.version) (reads_flags h1 none))
        (reads_cls h2 none)) (reads_clsOpt h3 none))
        (PReads.vec2M h4 (fun s _ _ h => reads_cls h none)))
        (PReads.vec2M h5 (fun f hf _ h => reads_field none h (hr.fields f hf)))).q rfl)
      (QReads.vec2 h6 (fun m hm _ h => reads_method hc ord hord h (hr.methods m hm))) ?_)
    (QReads.vec2 (R := fun a v => v = a) h7
      (fun a ha _ h => (reads_attrRef none hT h (hr.attrs a ha) fun ms e => hR ms (e ▸ ha)).q)) ?_).cast (by simp)
  · rintro f ms rfl hms
    exact ⟨ms, hms, rfl⟩
  · rintro f as ⟨ms, hms, rfl⟩ has
    exact ⟨ms, hms, by rw [matched_eq has]⟩

theorem numberArgs_refs {n : Nat} {as : List Arg} (h : ∀ a ∈ as, ArgWritable a) {k : UInt16} {nm : Bytes} {t : JType}
    (hk : .dynamic (.pending k) nm t ∈ numberArgs n as) :
    ∃ j, k = UInt16.ofNat j ∧ n ≤ j ∧ j < n + (as.flatMap argOwn).length := by
  induction as generalizing n with
  | nil => cases hk
  | cons a as ih =>
    rw [numberArgs_cons _ _ (h a (by simp))] at hk
    rw [List.flatMap_cons, List.length_append]
    rcases List.mem_append.mp hk with hk | hk
    · cases a with
      | static c => simp [numberArgs] at hk
      | dynamic c nm' t' =>
        obtain ⟨hd, as', rfl⟩ := (h (.dynamic c nm' t') (by simp)).2.2
        simp only [numberArgs, List.mem_singleton, Arg.dynamic.injEq, Cell.pending.injEq] at hk
        refine ⟨n, hk.1, Nat.le_refl _, ?_⟩
        have : (argOwn (.dynamic (.filled hd as') nm' t')).length = 1 := rfl
        omega
    · obtain ⟨j, h1, h2, h3⟩ := ih (fun b hb => h b (by simp [hb])) hk
      exact ⟨j, h1, by omega, by omega⟩

theorem numberBsms_refs {n : Nat} {ts : List Bsm} (h : ∀ b ∈ ts, BsmWritable b) {b : Bsm} (hb : b ∈ numberBsms n ts)
    {k : UInt16} {nm : Bytes} {t : JType} (hk : .dynamic (.pending k) nm t ∈ b.arguments) :
    ∃ j, k = UInt16.ofNat j ∧ n ≤ j ∧ j < n + (ts.flatMap argBsms).length := by
  induction ts generalizing n with
  | nil => cases hb
  | cons c ts ih =>
    rw [List.flatMap_cons, List.length_append]
    rcases List.mem_cons.mp hb with rfl | hb
    · obtain ⟨j, h1, h2, h3⟩ := numberArgs_refs (h c (by simp)).2.2 hk
      exact ⟨j, h1, h2, Nat.lt_of_lt_of_le h3 (by show n + (argBsms c).length ≤ _; omega)⟩
    · obtain ⟨j, h1, h2, h3⟩ := ih (fun b hb => h b (by simp [hb])) hb
      exact ⟨j, h1, by omega, by omega⟩

theorem numberRounds_refs {n : Nat} {ts : List Bsm} (h : ∀ b ∈ rounds n ts, BsmWritable b) (hn : bsmNodes ts ≤ n) {b : Bsm}
    (hb : b ∈ numberRounds n ts) {k : UInt16} {nm : Bytes} {t : JType}
    (hk : .dynamic (.pending k) nm t ∈ b.arguments) :
    ∃ j, k = UInt16.ofNat j ∧ j < (rounds n ts).length := by
  induction n generalizing ts with
  | zero => cases hb
  | succ n ih =>
    have h' : ∀ b ∈ ts ++ rounds n (ts.flatMap argBsms), BsmWritable b := h
    show ∃ j, k = UInt16.ofNat j ∧ j < (ts ++ rounds n (ts.flatMap argBsms)).length
    rw [List.length_append]
    have hargs := bsmNodes_args ts
    have hn' : ts = [] ∨ bsmNodes (ts.flatMap argBsms) ≤ n := by
      cases ts with
      | nil => exact .inl rfl
      | cons b ts => simp only [List.length_cons] at hargs; right; omega
    rcases hn' with rfl | hn'
    · rw [numberRounds_nil] at hb
      cases hb
    rcases List.mem_append.mp (show b ∈ numberBsms 0 ts ++ numberRounds n (ts.flatMap argBsms) from hb) with hb | hb
    · obtain ⟨j, h1, _, h3⟩ := numberBsms_refs (fun b hb => h' b (List.mem_append_left _ hb)) hb hk
      refine ⟨j, h1, ?_⟩
      have : (ts.flatMap argBsms).length ≤ (rounds n (ts.flatMap argBsms)).length := by
        rw [rounds_enough hn' (Nat.le_refl _), rounds_step, List.length_append]
        omega
      omega
    · obtain ⟨j, h1, h2⟩ := ih (fun b hb => h' b (List.mem_append_right _ hb)) hn' hb
      exact ⟨j, h1, by omega⟩

theorem numbered_readable {n : Nat} {ts : List Bsm} (h : ∀ b ∈ rounds n ts, BsmReadable b) :
    ∀ b ∈ numberRounds n ts, BsmReadable b := by
  have ha : ∀ (as : List Arg) n, (∀ a ∈ as, StaticArg a) → ∀ a ∈ numberArgs n as, StaticArg a := by
    intro as
    induction as with
    | nil => intro _ _ a ha; cases ha
    | cons a as ih =>
      intro n h b hb
      cases a with
      | static c =>
        rcases List.mem_cons.mp hb with rfl | hb
        · exact h _ (by simp)
        · exact ih n (fun a ha => h a (by simp [ha])) b hb
      | dynamic c nm t =>
        rcases List.mem_cons.mp hb with rfl | hb
        · trivial
        · exact ih (n + 1) (fun a ha => h a (by simp [ha])) b hb
  have hb : ∀ (ts : List Bsm) n, (∀ b ∈ ts, BsmReadable b) → ∀ b ∈ numberBsms n ts, BsmReadable b := by
    intro ts
    induction ts with
    | nil => intro _ _ b hb; cases hb
    | cons t ts ih =>
      intro n h b hb
      rcases List.mem_cons.mp hb with rfl | hb
      · exact ⟨(h t (by simp)).1, ha _ _ (h t (by simp)).2⟩
      · exact ih _ (fun a ha => h a (by simp [ha])) b hb
  induction n generalizing ts with
  | zero => intro b hb; cases hb
  | succ n ih =>
    intro b hb'
    rcases List.mem_append.mp (show b ∈ numberBsms 0 ts ++ numberRounds n (ts.flatMap argBsms) from hb') with hb' | hb'
    · exact hb ts 0 (fun b hb => h b (List.mem_append_left _ hb)) b hb'
    · exact ih (fun b hb => h b (List.mem_append_right _ hb)) b hb'

theorem withNumbers_readable {x : Class} (hr : (withTable x).Readable CodeReadable) :
    (withNumbers x).Readable CodeReadable := by
  refine ⟨hr.fields, hr.methods, fun a ha => ?_⟩
  rcases List.mem_append.mp ha with ha | ha
  · exact hr.attrs a (List.mem_append_left _ ha)
  · split at ha
    · cases ha
    · rename_i he
      have ht := hr.attrs (.bootstrapMethods (writtenBsms x)) (List.mem_append_right _ (by rw [if_neg he]; simp))
      rw [List.mem_singleton] at ha
      subst ha
      exact numbered_readable ht

theorem withNumbers_refs {x : Class} (hx : x.Unordered) :
    ∀ ms, .bootstrapMethods ms ∈ (withNumbers x).attrs → ∀ b ∈ ms, RefsIn (writtenBsms x) b := by
  intro ms hms
  rcases List.mem_append.mp hms with hms | hms
  · have := (List.mem_filter.mp hms).2
    cases this
  · split at hms
    · cases hms
    · rw [List.mem_singleton] at hms
      cases hms
      intro b hb k n t hk
      obtain ⟨j, rfl, hj⟩ := numberRounds_refs hx.table.2 (Nat.le_refl _) hb hk
      have := hx.table.1
      unfold writtenBsms at this ⊢
      rw [UInt16.toNat_ofNat', Nat.mod_eq_of_lt (by omega)]
      exact hj

theorem bsmTable_withNumbers (x : Class) : bsmTable (withNumbers x).attrs = numberedBsms x := by
  unfold withNumbers
  simp only
  rw [bsmTable_append _ _ (by intro a ha; simpa using (List.mem_filter.mp ha).2)]
  split
  · rename_i h
    unfold numberedBsms
    rw [List.isEmpty_iff.mp h]
    rfl
  · rfl

theorem resolve_nil (as : List ClassAttr) : as.map (resolveClassAttr []) = as := by
  have ha : ∀ a : Arg, resolveArg [] a = a := by
    intro a
    cases a with
    | static c => rfl
    | dynamic c n t => cases c <;> rfl
  have hb : ∀ b : Bsm, resolveBsm [] b = b := by
    intro b
    unfold resolveBsm
    rw [List.map_congr_left (fun a _ => ha a), List.map_id']
  have hc : ∀ a : ClassAttr, resolveClassAttr [] a = a := by
    intro a
    cases a with
    | bootstrapMethods ms =>
      show ClassAttr.bootstrapMethods (ms.map (resolveBsm [])) = _
      rw [List.map_congr_left (fun a _ => hb a), List.map_id']
    | _ => rfl
  rw [List.map_congr_left (fun a _ => hc a), List.map_id']

theorem class_reread_numbers {x : Class} (hx : x.Unordered) (hs : AllClass Fitting x) {bs : Bytes}
    (h : x.write = .ok bs) (hl : bs.length < 4294967296) (hr : (withTable x).Readable CodeReadable)
    (ord : Order) (hord : ∀ k n l, (ord k n l).Perm l) (rest : Bytes) :
    ∃ y, Class.read ord (bs ++ rest) = .ok (y, rest) ∧ y.attrs = (withNumbers x).attrs ∧
      SameClass [] (fun b b' => ∃ ρ, SameBody (writtenBsms x) b b' ρ) (withNumbers x) y := by
  obtain ⟨es, P, pool, body, hp, hP, hb, rfl⟩ := class_numbers hx hs h hl
  have hT : (writtenBsms x).length ≤ 65536 := by have := hx.table.1; omega
  obtain ⟨m, hm, hread⟩ := mapCp_read hp
  have e : m.get = P := by
    funext i
    apply Option.ext
    intro e
    exact (hm i e).trans (hP i e).symm
  obtain ⟨y, q, hy, ⟨t, ht, hg⟩, ms, hms, hs⟩ := reads_classRef (c := ⟨P, writtenBsms x, fun _ => none, fun _ => none⟩) hT
    (reads_codeFile _ hT none) ord hord hb (withNumbers_readable hr) (withNumbers_refs hx) ⟨[], none⟩ rest
  subst hs
  refine ⟨⟨(withNumbers x).version, (withNumbers x).access, (withNumbers x).name, (withNumbers x).superName,
    (withNumbers x).interfaces, (withNumbers x).fields, ms, (withNumbers x).attrs⟩, ?_, rfl,
    ⟨rfl, rfl, rfl, rfl, rfl, rfl, hms, resolve_nil _⟩⟩
  unfold Class.read
  simp only [List.append_assoc]
  rw [readsU4' _ (by omega)]
  simp only
  rw [if_pos (by decide : UInt32.ofNat 0xCAFEBABE = jvmMagic)]
  have hv := (Props.C29_write (withNumbers x).version (pool ++ (body ++ rest))).2
  rw [(Props.C29_write (withNumbers x).version (pool ++ (body ++ rest))).1, List.append_assoc] at hv
  rw [hv]
  simp only
  rw [hread]
  simp only
  rw [e, hy]
  simp only
  have hc : resolveCells q (withNumbers x).attrs = .ok () := by
    have hlen : (numberedBsms x).length = (writtenBsms x).length := numberRounds_length _ _
    have hb := bsmTable_withNumbers x
    rw [bootstrapTable_eq] at hb
    unfold resolveCells
    rcases hms : bootstrapTable (withNumbers x).attrs with _ | ms
    · rfl
    · rw [hms] at hb
      have hb : ms = numberedBsms x := hb
      simp only
      rcases he : bootstrapMethods ms (q.mapIdx fun n k => (k, n)) with e | r
      · obtain ⟨i, k, hik, hle⟩ := (Props.C26_refused (by rw [hb]; omega)).mp ⟨e, he⟩
        have hi : i ∈ q := by
          obtain ⟨n, hn, h⟩ := List.mem_mapIdx.mp hik
          cases h
          exact List.getElem_mem _
        rw [ht] at hi
        have hi := hg i (by simpa using hi)
        rw [hb, hlen] at hle
        have hi : i.toNat < (writtenBsms x).length := hi
        omega
      · rfl
  rw [hc]

/-! ## Where the numbers are right -/

theorem args_right {W : List Bsm} {n : Nat} {as : List Arg} (h : ∀ a ∈ as, ArgWritable a)
    (hn : n + (as.flatMap argOwn).length ≤ 65536) (he : (numberArgs n as).map (resolveArg W) = as) :
    ∀ j, j < (as.flatMap argOwn).length → W[n + j]? = (as.flatMap argOwn)[j]? := by
  induction as generalizing n with
  | nil => intro j hj; cases hj
  | cons a as ih =>
    have h' : ∀ b ∈ as, ArgWritable b := fun b hb => h b (by simp [hb])
    cases a with
    | static c =>
      have he' : (numberArgs n as).map (resolveArg W) = as := (List.cons.inj he).2
      exact ih h' hn he'
    | dynamic c nm t =>
      obtain ⟨hd, as', hc⟩ := (h (.dynamic c nm t) (by simp)).2.2
      cases hc
      have hown : (Arg.dynamic (.filled hd as') nm t :: as).flatMap argOwn = ⟨hd, as'⟩ :: as.flatMap argOwn := rfl
      rw [hown] at hn ⊢
      simp only [List.length_cons] at hn
      obtain ⟨e1, e2⟩ := List.cons.inj he
      intro j hj
      cases j with
      | zero =>
        have hk : (UInt16.ofNat n).toNat = n := by rw [UInt16.toNat_ofNat', Nat.mod_eq_of_lt (by omega)]
        rw [resolveArg, hk] at e1
        rcases hw : W[n]? with _ | b
        · rw [hw] at e1
          cases e1
        · rw [hw] at e1
          obtain ⟨bh, ba⟩ := b
          cases e1
          rfl
      | succ j =>
        have := ih (n := n + 1) h' (by omega) e2 j (by simpa using hj)
        rw [List.getElem?_cons_succ, ← this]
        congr 1
        omega

theorem bsms_right {W : List Bsm} {n : Nat} {ts : List Bsm} (h : ∀ b ∈ ts, BsmWritable b)
    (hn : n + (ts.flatMap argBsms).length ≤ 65536) (he : (numberBsms n ts).map (resolveBsm W) = ts) :
    ∀ j, j < (ts.flatMap argBsms).length → W[n + j]? = (ts.flatMap argBsms)[j]? := by
  induction ts generalizing n with
  | nil => intro j hj; cases hj
  | cons b ts ih =>
    obtain ⟨e1, e2⟩ := List.cons.inj he
    rw [List.flatMap_cons] at hn ⊢
    rw [List.length_append] at hn
    have ha : (numberArgs n b.arguments).map (resolveArg W) = b.arguments := congrArg Bsm.arguments e1
    have h1 := args_right (h b (by simp)).2.2 (by show n + (argBsms b).length ≤ _; omega) ha
    have h2 := ih (n := n + (argBsms b).length) (fun b hb => h b (by simp [hb])) (by omega) e2
    intro j hj
    rw [List.length_append] at hj
    by_cases hlt : j < (argBsms b).length
    · rw [List.getElem?_append_left hlt]
      exact h1 j hlt
    · rw [List.getElem?_append_right (by omega), ← h2 (j - (argBsms b).length) (by omega)]
      congr 1
      omega

theorem prefix_of_get {α : Type} {xs ys : List α} (h : ∀ j, j < xs.length → ys[j]? = xs[j]?) : xs <+: ys := by
  rw [List.prefix_iff_eq_take]
  apply List.ext_getElem?
  intro j
  rw [List.getElem?_take]
  split
  · rename_i hj
    exact (h j hj).symm
  · rename_i hj
    exact List.getElem?_eq_none (by omega)

theorem bsmNodes_prefix {ts us : List Bsm} (h : ts <+: us) : bsmNodes ts ≤ bsmNodes us := by
  obtain ⟨t, rfl⟩ := h
  unfold bsmNodes
  rw [List.map_append, List.sum_append]
  omega

theorem ordered_of_right {x : Class} (hx : x.Unordered)
    (h : (numberedBsms x).map (resolveBsm (writtenBsms x)) = writtenBsms x) : Ordered (usedBsms x) := by
  have hlen := hx.table.1
  have hw := hx.table.2
  unfold writtenBsms at hlen hw h
  unfold numberedBsms at h
  rw [numberRounds_step] at h
  generalize usedBsms x = ts at *
  generalize hW : rounds (bsmNodes ts) ts = W at h
  have hW' := hW
  rw [rounds_step] at hW
  rw [hW'] at hlen hw
  have hlen' := hlen
  rw [← hW, List.length_append] at hlen
  have h1 : (numberBsms 0 ts).map (resolveBsm W) = ts := by
    have := congrArg (List.take ts.length) h
    rw [List.map_append, List.take_left' (by rw [List.length_map, numberBsms_length]), ← hW, List.take_left' rfl] at this
    rw [hW] at this
    exact this
  have hle : (ts.flatMap argBsms).length ≤ (rounds (bsmNodes (ts.flatMap argBsms)) (ts.flatMap argBsms)).length := by
    rw [rounds_step, List.length_append]
    omega
  have h2 := bsms_right (fun b hb => hw b (by rw [← hW]; exact List.mem_append_left _ hb)) (by omega) h1
  have h3 : ts.flatMap argBsms <+: W := prefix_of_get fun j hj => by
    have := h2 j hj
    rwa [Nat.zero_add] at this
  have h4 : ts <+: W := by rw [← hW]; exact List.prefix_append _ _
  by_cases hc : (ts.flatMap argBsms).length ≤ ts.length
  · exact List.prefix_of_prefix_length_le h3 h4 hc
  · have := bsmNodes_prefix (List.prefix_of_prefix_length_le h4 h3 (by omega))
    have h5 := bsmNodes_args ts
    have : ts = [] := List.length_eq_zero_iff.mp (by omega)
    subst this
    exact List.prefix_refl _

end Verif
