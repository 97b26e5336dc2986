import Verif.Lemmas.WrBody
import Verif.Lemmas.Ends

/-! # Success of writing: classes -/

namespace Verif
open Spec Sig

section
open Wr
variable {p : Prop}

/-! ## The table of bootstrap methods -/

/-- The arguments have their bootstrap methods. -/
def ArgsFilled (b : Bsm) : Prop := ∀ a ∈ b.arguments, ∀ d ∈ orDynamics a.toOrDynamic, Filled d

theorem wr_bsm {b : Bsm} (h : p → ArgsFilled b) : Wr p b.write (constsBsm b) (argBsms b) :=
  cons (idx (handle _)) (skip num (last (allB fun a ha => idx (orDynamic const fun hp => h hp a ha))))

theorem args_length {as : List Arg} {cp cp' : VecCp} {bs : Bytes}
    (h : wAll (fun a => wIdx (insertOrDynamic insertConstant a.toOrDynamic)) as cp = .ok (bs, cp')) :
    bs.length = 2 * as.length := by
  induction as generalizing cp bs with
  | nil =>
    cases h
    rfl
  | cons a as ih =>
    obtain ⟨b1, cp1, e1, h⟩ := Ins.bind_ok h
    obtain ⟨b2, cp2, e2, h⟩ := Ins.bind_ok h
    cases h
    obtain ⟨i, cp3, _, e⟩ := Ins.bind_ok e1
    cases e
    have := ih e2
    rw [List.length_append, this, List.length_cons]
    show 2 + _ = _
    omega

theorem bsm_length {b : Bsm} {cp cp' : VecCp} {bs : Bytes} (h : b.write cp = .ok (bs, cp')) :
    bs.length = 4 + 2 * b.arguments.length := by
  obtain ⟨b1, cp1, e1, h⟩ := Ins.bind_ok h
  obtain ⟨r1, cp2, h1, h⟩ := Ins.bind_ok h
  cases h
  obtain ⟨b2, cp3, e2, h⟩ := Ins.bind_ok h1
  obtain ⟨r2, cp4, h2, h⟩ := Ins.bind_ok h
  cases h
  obtain ⟨b3, cp5, e3, h⟩ := Ins.bind_ok h2
  obtain ⟨r3, cp6, h3, h⟩ := Ins.bind_ok h
  cases h
  cases h3
  have := args_length e3
  obtain ⟨i, cp7, _, e⟩ := Ins.bind_ok e1
  cases e
  cases e2
  simp only [List.length_append, this, List.length_nil]
  show 2 + (2 + _) = _
  omega

theorem bsms_length {bsms : List Bsm} {cp cp' : VecCp} {bs : Bytes} (h : wAll Bsm.write bsms cp = .ok (bs, cp')) :
    bs.length = (bsms.map fun b => 4 + 2 * b.arguments.length).sum := by
  induction bsms generalizing cp bs with
  | nil =>
    cases h
    rfl
  | cons b bsms ih =>
    obtain ⟨b1, cp1, e1, h⟩ := Ins.bind_ok h
    obtain ⟨b2, cp2, e2, h⟩ := Ins.bind_ok h
    cases h
    rw [List.length_append, bsm_length e1, ih e2, List.map_cons, List.sum_cons]

theorem Holds.noBsm {N : List Sym} {cp : VecCp} {d : Nat} (h : Holds N cp d) (bsms : List Bsm) :
    Holds N { cp with bsm := bsms } d := ⟨⟨h.inv.len, h.inv.cache⟩, h.nodup, h.has, h.only, h.len, h.dyns⟩

/-- The rounds of a table. -/
def allRounds (ts : List Bsm) : List Bsm := rounds (bsmNodes ts) ts

theorem allRounds_nil : allRounds [] = [] := rounds_nil _
theorem allRounds_step (ts : List Bsm) : allRounds ts = ts ++ allRounds (ts.flatMap argBsms) := rounds_step ts

theorem batches_holds {i n : Nat} {cp cp' : VecCp} {bs : Bytes} {N : List Sym} {d : Nat} (H : Holds N cp d)
    (h : writeBatches i cp = .ok (n, bs, cp')) : ∃ N' d', Holds N' cp' d' ∧
      (∀ s, s ∈ N' ↔ s ∈ N ∨ s ∈ (allRounds cp.bsm).flatMap constsBsm) ∧ d ≤ d' ∧
      d' ≤ d + ((allRounds cp.bsm).flatMap argBsms).length ∧
      bs.length = ((allRounds cp.bsm).map fun b => 4 + 2 * b.arguments.length).sum := by
  fun_induction writeBatches i cp generalizing n bs cp' N d with
  | case1 i cp h0 =>
    cases h
    rw [List.length_eq_zero_iff.mp h0, allRounds_nil]
    exact ⟨N, d, H, by simp, Nat.le_refl _, Nat.le_refl _, rfl⟩
  | case2 => cases h
  | case3 => cases h
  | case4 i cp h0 h1 b cp1 e1 hn n' b' cp2 e2 ih =>
    cases h
    have hr := (round_bsm e1).1
    obtain ⟨N1, d1, H1, m1, x1, y1, z1⟩ :=
      (allB (p := False) (fun b _ => wr_bsm (b := b) (nomatch ·)) _ N d (H.noBsm [])).1 _ _ e1
    obtain ⟨N2, d2, H2, m2, x2, y2, z2⟩ := ih H1 e2
    rw [hr] at m2 y2 z2
    rw [allRounds_step cp.bsm]
    refine ⟨N2, d2, H2, fun s => ?_, by omega, ?_, ?_⟩
    · rw [m2, m1, List.flatMap_append, List.mem_append, or_assoc]
    · rw [List.flatMap_append, List.length_append]
      omega
    · rw [List.length_append, bsms_length e1, z2, List.map_append, List.sum_append]
  | case5 => cases h
  | case6 => cases h

theorem batches_total {i : Nat} {cp : VecCp} {N : List Sym} {d : Nat} (H : Holds N cp d)
    (hi : i + (allRounds cp.bsm).length < 65536) (hf : ∀ b ∈ allRounds cp.bsm, ArgsFilled b) {L : List Sym}
    (hN : ∀ s ∈ N, s ∈ L) (hc : ∀ s ∈ (allRounds cp.bsm).flatMap constsBsm, s ∈ L)
    (hL : symSize L + d + ((allRounds cp.bsm).flatMap argBsms).length ≤ 65534) :
    ∃ r, writeBatches i cp = .ok r := by
  fun_induction writeBatches i cp generalizing N d with
  | case1 i cp h0 => exact ⟨_, rfl⟩
  | case2 i cp h0 h1 e e1 =>
    exfalso
    rw [allRounds_step] at hf hc hL
    rw [List.flatMap_append] at hc hL
    rw [List.length_append] at hL
    obtain ⟨r, hr⟩ := (allB (p := True) (fun b hb => wr_bsm (b := b) fun _ => hf b (by simp [hb])) _ N d
      (H.noBsm [])).2 trivial L hN (fun s hs => hc s (List.mem_append_left _ hs)) (by omega)
    rw [hr] at e1
    cases e1
  | case3 i cp h0 h1 b cp1 e1 hn e e2 ih =>
    exfalso
    have hr := (round_bsm e1).1
    rw [allRounds_step, ← hr] at hf hc hL hi
    rw [List.flatMap_append] at hc hL
    rw [List.length_append] at hL hi
    obtain ⟨N1, d1, H1, m1, x1, y1, z1⟩ :=
      (allB (p := False) (fun b _ => wr_bsm (b := b) (nomatch ·)) _ N d (H.noBsm [])).1 _ _ e1
    have hle : (cp.bsm.flatMap argBsms).length = (cp.bsm.flatMap fun b => argBsms b).length := rfl
    obtain ⟨r, hr'⟩ := ih H1 (by have := Nat.mod_le cp.bsm.length 65536; omega)
      (fun b hb => hf b (List.mem_append_right _ hb)) (fun s hs => by
        rcases (m1 s).mp hs with h | h
        · exact hN s h
        · exact hc s (List.mem_append_left _ h)) (fun s hs => hc s (List.mem_append_right _ hs)) (by omega)
    rw [hr'] at e2
    cases e2
  | case4 => exact ⟨_, rfl⟩
  | case5 i cp h0 h1 b cp1 e1 hn =>
    exact absurd ((round_bsm e1).2 fun h => h0 (by rw [h]; rfl)) hn
  | case6 i cp h0 h1 =>
    rw [allRounds_step, List.length_append] at hi
    have := Nat.mod_le cp.bsm.length 65536
    omega

/-- What the table asks of a class. -/
structure FitsTable (ts : List Bsm) : Prop where
  count : Table (allRounds ts)
  filled : ∀ b ∈ allRounds ts, ArgsFilled b
  size : ((allRounds ts).map fun b => 4 + 2 * b.arguments.length).sum + 2 < 2 ^ 32

/-- The constants of the table. -/
def constsTable (ts : List Bsm) : List Sym :=
  (allRounds ts).flatMap constsBsm ++ if ts.isEmpty then [] else [.utf8 N.bootstrapMethods]

theorem bootstrap_holds {cp cp' : VecCp} {bs : Bytes} {N : List Sym} {d : Nat} (H : Holds N cp d)
    (h : wBootstrap cp = .ok (bs, cp')) : ∃ N' d', Holds N' cp' d' ∧
      (∀ s, s ∈ N' ↔ s ∈ N ∨ s ∈ constsTable cp.bsm) ∧ d ≤ d' ∧
      d' ≤ d + ((allRounds cp.bsm).flatMap argBsms).length := by
  unfold wBootstrap at h
  split at h
  · rename_i he
    cases h
    rw [List.length_eq_zero_iff.mp he, constsTable, allRounds_nil]
    exact ⟨N, d, H, by simp, Nat.le_refl _, Nat.le_refl _⟩
  · rename_i he
    rcases e1 : writeBatches 0 cp with e | ⟨n, b, cp1⟩
    · rw [e1] at h
      cases h
    · rw [e1] at h
      simp only at h
      obtain ⟨N1, d1, H1, m1, x1, y1, -⟩ := batches_holds H e1
      rcases e2 : wUtf8 Verif.N.bootstrapMethods cp1 with e | ⟨name, cp2⟩
      · rw [e2] at h
        cases h
      · rw [e2] at h
        simp only at h
        split at h
        · cases h
          obtain ⟨N2, d2, H2, m2, x2, y2, -⟩ := (wutf8 (p := False) _ N1 d1 H1).1 _ _ e2
          simp only [List.length_nil, Nat.add_zero] at y2
          refine ⟨N2, d2, H2, fun s => ?_, by omega, by omega⟩
          have hne : cp.bsm.isEmpty = false := by
            cases hb : cp.bsm with
            | nil => rw [hb] at he; exact absurd rfl he
            | cons _ _ => rfl
          rw [m2, m1, constsTable, hne, List.mem_append, or_assoc]
          exact Iff.rfl
        · cases h

theorem bootstrap_total {cp : VecCp} {N : List Sym} {d : Nat} (H : Holds N cp d) (hf : FitsTable cp.bsm)
    {L : List Sym} (hN : ∀ s ∈ N, s ∈ L) (hc : ∀ s ∈ constsTable cp.bsm, s ∈ L)
    (hL : symSize L + d + ((allRounds cp.bsm).flatMap argBsms).length ≤ 65534) : ∃ r, wBootstrap cp = .ok r := by
  unfold wBootstrap
  split
  · exact ⟨_, rfl⟩
  · rename_i he
    have hne : cp.bsm.isEmpty = false := by
      cases hb : cp.bsm with
      | nil => rw [hb] at he; exact absurd rfl he
      | cons _ _ => rfl
    rw [constsTable, hne] at hc
    obtain ⟨⟨n, b, cp1⟩, e1⟩ := batches_total (i := 0) H (by have := hf.count; unfold Table at this; omega) hf.filled hN
      (fun s hs => hc s (List.mem_append_left _ hs)) hL
    obtain ⟨N1, d1, H1, m1, x1, y1, z1⟩ := batches_holds H e1
    obtain ⟨⟨name, cp2⟩, e2⟩ := (wutf8 (p := True) (s := Verif.N.bootstrapMethods) _ N1 d1 H1).2 trivial L (fun s hs => by
      rcases (m1 s).mp hs with h | h
      · exact hN s h
      · exact hc s (List.mem_append_left _ h)) (fun s hs => hc s (List.mem_append_right _ hs)) (by
        simp only [List.length_nil]
        omega)
    rw [e1]
    simp only
    rw [e2]
    simp only
    have := hf.size
    rw [if_pos (by omega)]
    exact ⟨_, rfl⟩

/-! ## Classes -/

theorem Holds.at_mem {N : List Sym} {cp : VecCp} {d : Nat} (H : Holds N cp d) {e : Entry} (h : e ∈ cp.entries) :
    ∃ i : UInt16, At cp.entries i.toNat e := by
  obtain ⟨pre, suf, he⟩ := List.append_of_mem h
  have hl := H.inv.len
  have := cp.len.toNat_lt
  rw [he, slotsAll_append] at hl
  refine ⟨UInt16.ofNat (1 + slotsAll pre), pre, suf, he, ?_⟩
  rw [UInt16.toNat_ofNat', Nat.mod_eq_of_lt (by omega)]

theorem Holds.text {N : List Sym} {cp : VecCp} {d : Nat} (H : Holds N cp d) {s : Bytes} (h : .utf8 s ∈ cp.entries) :
    .utf8 s ∈ N := by
  obtain ⟨i, hi⟩ := H.at_mem h
  rcases H.only i _ hi with h | ⟨t, ht, hs⟩
  · cases h
  · obtain ⟨e, h1, h2⟩ := sym_entry hs
    cases At.functional h1 hi
    cases t <;> simp only [Holder] at h2 <;> try (first | cases h2; done | (obtain ⟨_, h2⟩ := h2; cases h2; done) | (obtain ⟨_, _, h2⟩ := h2; cases h2; done))
    cases h2
    exact ht

/-- The constants of a class apart from the table. -/
def constsBody (x : Class) : List Sym :=
  (Sym.cls x.name).all ++ (constsOpt (fun s => (Sym.cls s).all) x.superName ++
    (x.interfaces.flatMap (fun s => (Sym.cls s).all) ++ (x.fields.flatMap constsField ++
    (x.methods.flatMap constsMethod ++ x.attrs.flatMap constsClassAttr))))

theorem wr_classBody {x : Class} (hf : p → ∀ f ∈ x.fields, FitsField f) (hm : p → ∀ m ∈ x.methods, FitsMethod m)
    (ha : p → ∀ a ∈ x.attrs, FitsClassAttr a) :
    Wr p x.writeBody (constsBody x) ((classDynamics x).flatMap ownBsm) := by
  have hms := cutB (p := p) (g := constsMethod) (f := fun m : Method => (m.attrs.flatMap attrDynamics).flatMap ownBsm)
    (fun m h => wr_method fun hp => hm hp m h)
  rw [← List.flatMap_assoc] at hms
  have hlast : Wr p (wSeq [wCut Method.write x.methods, wCut ClassAttr.writeOther x.attrs])
      (x.methods.flatMap constsMethod ++ x.attrs.flatMap constsClassAttr) ((classDynamics x).flatMap ownBsm) := by
    have := consB hms (last (cut (p := p) fun a h => wr_classAttr fun hp => ha hp a h))
    rw [List.append_nil] at this
    exact this
  exact skip flags (cons (idx (cls _)) (cons (opt fun s => cls s) (cons (cut fun s _ => idx (cls s))
    (cons (cut fun f h => wr_field fun hp => hf hp f h) hlast))))

theorem consts_eq (x : Class) (s : Sym) : s ∈ consts x ↔ s ∈ constsBody x ∨ s ∈ constsTable (usedBsms x) := by
  show s ∈ _ ++ (_ ++ (_ ++ (_ ++ (_ ++ (_ ++ (_ ++ _)))))) ↔ s ∈ _ ++ (_ ++ (_ ++ (_ ++ (_ ++ _)))) ∨
    s ∈ _ ++ _
  simp only [List.mem_append, or_assoc]
  exact Iff.rfl

theorem ownBsm_length (ds : List Dynamic) : (ds.flatMap ownBsm).length ≤ ds.length := by
  induction ds with
  | nil => exact Nat.le_refl _
  | cons d ds ih =>
    have : (ownBsm d).length ≤ 1 := by unfold ownBsm; split <;> simp
    rw [List.flatMap_cons, List.length_append, List.length_cons]
    omega

theorem argBsms_length (ts : List Bsm) : (ts.flatMap argBsms).length ≤
    (ts.flatMap fun b => b.arguments.flatMap fun a => orDynamics a.toOrDynamic).length := by
  have : ts.flatMap argBsms = (ts.flatMap fun b => b.arguments.flatMap fun a => orDynamics a.toOrDynamic).flatMap ownBsm := by
    rw [List.flatMap_assoc]
    congr 1
    funext b
    rw [argBsms, List.flatMap_assoc]
  rw [this]
  exact ownBsm_length _

theorem holds_new (bsms : List Bsm) : Holds [] { VecCp.new with bsm := bsms } 0 :=
  ⟨⟨VecCp.inv_new.len, VecCp.inv_new.cache⟩, List.nodup_nil, by simp,
    fun i e h => absurd h (At.not_nil), rfl, rfl⟩

/-- The constants in the pool of a class that has been written. -/
theorem class_holds {x : Class} {bs : Bytes} (h : x.write = .ok bs) : ∃ cp N d pool body, Holds N cp d ∧
    (∀ s, s ∈ N ↔ s ∈ consts x) ∧ d ≤ dynamicUses x ∧ cp.write = .ok pool ∧
    bs = u32.write jvmMagic ++ x.version.write ++ pool ++ body ∧
    wSeq [x.writeBody, wBootstrap] { VecCp.new with bsm := ownBsms x.attrs } = .ok (body, cp) := by
  unfold Class.write at h
  rcases e1 : wSeq [x.writeBody, wBootstrap] { VecCp.new with bsm := ownBsms x.attrs } with e | ⟨buf, cp⟩
  · rw [e1] at h
    cases h
  · rw [e1] at h
    simp only at h
    rcases e2 : cp.write with e | pool
    · rw [e2] at h
      cases h
    · rw [e2] at h
      cases h
      obtain ⟨b1, cp1, f1, h⟩ := Ins.bind_ok e1
      obtain ⟨b2, cp2, f2, h⟩ := Ins.bind_ok h
      cases h
      obtain ⟨b3, cp3, f3, h⟩ := Ins.bind_ok f2
      obtain ⟨b4, cp4, f4, h⟩ := Ins.bind_ok h
      cases h
      cases f4
      obtain ⟨N1, d1, H1, m1, x1, y1, z1⟩ := (wr_classBody (p := False) (nomatch ·) (nomatch ·) (nomatch ·) _ [] 0
        (holds_new _)).1 _ _ f1
      obtain ⟨N2, d2, H2, m2, x2, y2⟩ := bootstrap_holds H1 f3
      have hb : cp1.bsm = usedBsms x := by rw [z1, ownBsms_eq]; rfl
      rw [hb] at m2 y2
      refine ⟨_, N2, d2, pool, _, H2, fun s => ?_, ?_, e2, rfl, rfl⟩
      · rw [m2, m1, consts_eq]
        simp
      · have a1 := ownBsm_length (classDynamics x)
        have a2 := argBsms_length (writtenBsms x)
        have : allRounds (usedBsms x) = writtenBsms x := rfl
        rw [this] at y2
        unfold dynamicUses
        omega

theorem class_total_of {x : Class} (hf : ∀ f ∈ x.fields, FitsField f) (hm : ∀ m ∈ x.methods, FitsMethod m)
    (ha : ∀ a ∈ x.attrs, FitsClassAttr a) (ht : Table (writtenBsms x))
    (hd : ∀ b ∈ writtenBsms x, ∀ a ∈ b.arguments, ∀ d ∈ orDynamics a.toOrDynamic, Filled d)
    (hz : ((writtenBsms x).map fun b => 4 + 2 * b.arguments.length).sum + 2 < 2 ^ 32)
    (hs : ∀ buf cp, wSeq [x.writeBody, wBootstrap] { VecCp.new with bsm := ownBsms x.attrs } = .ok (buf, cp) →
      ∀ s, .utf8 s ∈ cp.entries → Legible s) {L : List Sym} (hc : ∀ s ∈ consts x, s ∈ L)
    (hL : symSize L + dynamicUses x ≤ 65534) : ∃ bs, x.write = .ok bs := by
  have a1 := ownBsm_length (classDynamics x)
  have a2 := argBsms_length (writtenBsms x)
  unfold dynamicUses at hL
  have hbody := wr_classBody (p := True) (fun _ => hf) (fun _ => hm) (fun _ => ha)
    { VecCp.new with bsm := ownBsms x.attrs } [] 0 (holds_new _)
  have hc' := fun s => (consts_eq x s)
  obtain ⟨⟨b1, cp1⟩, e1⟩ := hbody.2 trivial L (by simp) (fun s hs => hc s ((hc' s).mpr (.inl hs))) (by omega)
  obtain ⟨N1, d1, H1, m1, x1, y1, z1⟩ := hbody.1 _ _ e1
  have hb : cp1.bsm = usedBsms x := by rw [z1, ownBsms_eq]; rfl
  obtain ⟨⟨b2, cp2⟩, e2⟩ := bootstrap_total H1 (by rw [hb]; exact ⟨ht, hd, hz⟩) (L := L)
    (fun s hs => by
      rcases (m1 s).mp hs with h | h
      · cases h
      · exact hc s ((hc' s).mpr (.inl h)))
    (fun s hs => by rw [hb] at hs; exact hc s ((hc' s).mpr (.inr hs))) (by
      rw [hb]
      have : allRounds (usedBsms x) = writtenBsms x := rfl
      rw [this]
      omega)
  have hseq : wSeq [x.writeBody, wBootstrap] { VecCp.new with bsm := ownBsms x.attrs } = .ok (b1 ++ (b2 ++ []), cp2) := by
    simp only [wSeq, Bind.bind, Ins.bind, e1, e2]
    rfl
  have hpool : ∃ pool, cp2.write = .ok pool := by
    rcases hw : cp2.write with e | pool
    · exact (ends_pool (U := fun _ => False) (cp := cp2) (.inr (hs _ _ hseq)) e hw).elim
    · exact ⟨_, rfl⟩
  obtain ⟨pool, hpool⟩ := hpool
  refine ⟨u32.write jvmMagic ++ x.version.write ++ pool ++ (b1 ++ (b2 ++ [])), ?_⟩
  unfold Class.write
  rw [hseq]
  simp only
  rw [hpool]

theorem class_total {x : Class} (hx : FitsClass x) {L : List Sym} (hc : ∀ s ∈ consts x, s ∈ L)
    (hL : symSize L + dynamicUses x ≤ 65534) : ∃ bs, x.write = .ok bs := by
  refine class_total_of hx.fields hx.methods hx.attrs hx.table hx.arguments hx.tableSize (fun buf cp h s hs => ?_) hc hL
  obtain ⟨b1, cp1, f1, h⟩ := Ins.bind_ok h
  obtain ⟨b2, cp2, f2, h⟩ := Ins.bind_ok h
  cases h
  obtain ⟨b3, cp3, f3, h⟩ := Ins.bind_ok f2
  obtain ⟨b4, cp4, f4, h⟩ := Ins.bind_ok h
  cases h
  cases f4
  obtain ⟨N1, d1, H1, m1, x1, y1, z1⟩ := (wr_classBody (p := False) (nomatch ·) (nomatch ·) (nomatch ·) _ [] 0
    (holds_new _)).1 _ _ f1
  obtain ⟨N2, d2, H2, m2, x2, y2⟩ := bootstrap_holds H1 f3
  have hb : cp1.bsm = usedBsms x := by rw [z1, ownBsms_eq]; rfl
  rw [hb] at m2
  refine hx.strings s ((consts_eq x _).mpr ?_)
  rcases (m2 _).mp (H2.text hs) with h | h
  · rcases (m1 _).mp h with h | h
    · cases h
    · exact .inl h
  · exact .inr h

end
end Verif
