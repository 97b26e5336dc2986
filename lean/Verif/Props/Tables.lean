import Verif.Lemmas.Tables
import Verif.Props.Consts

/-! # Tables that are too long: C88 -/

namespace Verif.Props
open Spec

/-- Full claim: a class is not written if one of its tables has more entries than can be stored. -/
def C88_full : Prop := ∀ (x : Class) (bs : Bytes), MapsOnly x → x.write = .ok bs →
  ∀ p ∈ parts x, p.count ≤ p.kind.limit

/-- Proved: for the kinds of tables that are checked. -/
theorem C88_checked_partial (x : Class) (bs : Bytes) (hx : MapsOnly x) (h : x.write = .ok bs) (p : Part) (hp : p ∈ parts x)
    (hk : p.kind.checked = true) : p.count ≤ p.kind.limit := by
  by_cases he : p.kind = .elements
  · obtain ⟨h1, h2⟩ := named_class x p hp
    rw [he]
    show p.count ≤ 65535
    refine Classical.byContradiction fun hn => ?_
    refine C58_limit x bs (p.keys.map Sym.utf8) ?_ ?_ ?_ h
    · rw [List.Nodup, List.pairwise_map]
      exact (hx p hp).imp fun h e => h (Sym.utf8.inj e)
    · intro s hs
      obtain ⟨k, hk, rfl⟩ := List.mem_map.mp hs
      exact h2 k hk
    · have : ∀ l : List Bytes, symSize (l.map Sym.utf8) = l.length := by
        intro l
        induction l with
        | nil => rfl
        | cons a l ih =>
          show Sym.slots (.utf8 a) + symSize (l.map Sym.utf8) = _
          rw [ih, List.length_cons]
          show 1 + l.length = _
          omega
      rw [this, ← h1 he]
      omega
  · unfold Class.write at h
    split at h
    · cases h
    · rename_i buf cp e
      obtain ⟨b1, cp1, e1, _⟩ := Ins.bind_ok e
      have hb := heeds_body x _ _ _ e1
      unfold parts at hp
      simp only [List.mem_cons, List.mem_append] at hp hb
      rcases hp with rfl | rfl | rfl | rfl | rfl | hp | hp | hp | hp
      · cases hk
      · cases hk
      · cases hk
      · cases hk
      · cases hk
      · exact hb p (.inl hp) hk he
      · exact hb p (.inr (.inl hp)) hk he
      · exact hb p (.inr (.inr hp)) hk he
      · obtain ⟨b, _, rfl⟩ := List.mem_map.mp hp
        cases hk

/-! ## Witnesses -/

/-- A class with the name `A`. -/
def named (is : List Bytes) (fs : List Field) (ms : List Method) (as : List ClassAttr) : Class :=
  ⟨⟨0, .j8⟩, ⟨0x21⟩, [0x41], none, is, fs, ms, as⟩

/-- A method `A` with this attribute. -/
def withAttr (a : MethodAttr) : Method := ⟨⟨1⟩, [0x41], .method [] none, [a]⟩

/-- A bootstrap method with these arguments. -/
def withArgs (as : List Arg) : Bsm := ⟨⟨.invokeStatic, ⟨[0x41], [0x41], .method [] none, false⟩⟩, as⟩

def manyInterfaces (n : Nat) : Class := named (List.replicate n [0x41]) [] [] []
def manyFields (n : Nat) : Class := named [] (List.replicate n ⟨⟨1⟩, [0x41], .int, []⟩) [] []
def manyMethods (n : Nat) : Class := named [] [] (List.replicate n ⟨⟨1⟩, [0x41], .method [] none, []⟩) []
def manyAttributes (n : Nat) : Class := named [] [] [] (List.replicate n .deprecated)
def manyHandlers (n : Nat) : Class := named [] [] [withAttr (.code (besieged n))] []
def manyValues (n : Nat) : Class := named [] [] [withAttr (.annotationDefault (.array (List.replicate n (.int 0))))] []
def manyArguments (n : Nat) : Class := named [] [] [] [.bootstrapMethods [withArgs (List.replicate n (.static (.i32 0)))]]
def manyBodyAttributes (n : Nat) : Class :=
  named [] [] [withAttr (.code ⟨0, 0, [.return none], [], List.replicate n (.raw ⟨[0x41], []⟩)⟩)] []
def manyBsms (n : Nat) : Class := named [] [] [] [.bootstrapMethods (List.replicate n (withArgs []))]

/-- The constants of these classes. -/
def fewConsts : List Sym := [.utf8 [0x41], .cls [0x41], .utf8 [0x49], .utf8 [0x28, 0x29, 0x56], .utf8 N.deprecated, .utf8 N.code,
  .utf8 N.annotationDefault, .int 0, .nat [0x41] [0x28, 0x29, 0x56], .method [0x41] [0x41] [0x28, 0x29, 0x56],
  .handle 6 (.method [0x41] [0x41] [0x28, 0x29, 0x56]), .utf8 N.bootstrapMethods]

theorem few_legible {s : Bytes} (h : Sym.utf8 s ∈ fewConsts) : Legible s :=
  legible_fitting (texts_fit (by decide +kernel) s h)

theorem few_success {is : List Bytes} {fs : List Field} {ms : List Method} {as : List ClassAttr} (ts : List Bsm)
    (hi : ∀ i ∈ is, i = [0x41]) (hf : ∀ f ∈ fs, (∀ s ∈ constsField f, s ∈ fewConsts) ∧ FitsField f)
    (hm : ∀ m ∈ ms, (∀ s ∈ constsMethod m, s ∈ fewConsts) ∧ FitsMethod m ∧ m.attrs.flatMap attrDynamics = [])
    (ha : ∀ a ∈ as, (∀ s ∈ constsClassAttr a, s ∈ fewConsts) ∧ FitsClassAttr a) (hg : givenBsms as = ts)
    (hb : ∀ b ∈ ts, (∀ s ∈ constsBsm b, s ∈ fewConsts) ∧ ∀ a ∈ b.arguments, orDynamics a.toOrDynamic = [])
    (ht : Table ts) (hs : (ts.map fun b => 4 + 2 * b.arguments.length).sum + 2 < 2 ^ 32) :
    ∃ bs, (named is fs ms as).write = .ok bs := by
  have h1 : classDynamics (named is fs ms as) = [] :=
    List.flatMap_eq_nil_iff.mpr fun m h => (hm m h).2.2
  have h2 : usedBsms (named is fs ms as) = ts := by
    unfold usedBsms
    rw [h1]
    show givenBsms as ++ [] = ts
    rw [hg, List.append_nil]
  have h3 : writtenBsms (named is fs ms as) = ts := by
    unfold writtenBsms
    rw [h2]
    have h0 : ts.flatMap argBsms = [] := List.flatMap_eq_nil_iff.mpr fun b h =>
      List.flatMap_eq_nil_iff.mpr fun a h' => by rw [(hb b h).2 a h']; rfl
    have := allRounds_step ts
    rw [h0, allRounds_nil, List.append_nil] at this
    exact this
  have h4 : dynamicUses (named is fs ms as) = 0 := by
    unfold dynamicUses
    rw [h1, h3]
    have h0 : (ts.flatMap fun b => b.arguments.flatMap fun a => orDynamics a.toOrDynamic) = [] :=
      List.flatMap_eq_nil_iff.mpr fun b h => List.flatMap_eq_nil_iff.mpr fun a h' => (hb b h).2 a h'
    rw [h0]
    rfl
  have hc : ∀ s ∈ consts (named is fs ms as), s ∈ fewConsts := by
    intro s hs
    unfold consts at hs
    rw [h2, h3] at hs
    simp only [List.mem_append, List.mem_flatMap, named] at hs
    rcases hs with hs | hs | ⟨i, h, hs⟩ | ⟨f, h, hs⟩ | ⟨m, h, hs⟩ | ⟨a, h, hs⟩ | ⟨b, h, hs⟩ | hs
    · revert s; decide
    · cases hs
    · rw [hi i h] at hs; revert s; decide
    · exact (hf f h).1 s hs
    · exact (hm m h).1 s hs
    · exact (ha a h).1 s hs
    · exact (hb b h).1 s hs
    · split at hs
      · cases hs
      · rw [List.mem_singleton.mp hs]; decide
  refine C58_success _ ⟨fun f h => (hf f h).2, fun m h => (hm m h).2.1, fun a h => (ha a h).2, ?_, ?_, ?_,
    fun s h => few_legible (hc _ h)⟩ fewConsts hc (by rw [h4]; decide)
  · rw [h3]; exact ht
  · rw [h3]
    intro b h a h' d hd
    rw [(hb b h).2 a h'] at hd
    cases hd
  · rw [h3]; exact hs

theorem interfaces_written (n : Nat) : ∃ bs, (manyInterfaces n).write = .ok bs :=
  few_success [] (fun i h => (List.mem_replicate.mp h).2) (fun _ h => nomatch h) (fun _ h => nomatch h)
    (fun _ h => nomatch h) rfl (fun _ h => nomatch h) (by decide) (by decide)

theorem fields_written (n : Nat) : ∃ bs, (manyFields n).write = .ok bs :=
  few_success [] (fun _ h => nomatch h) (fun f h => by
      rw [(List.mem_replicate.mp h).2]
      exact ⟨by decide +kernel, by decide, fun _ h => nomatch h⟩) (fun _ h => nomatch h)
    (fun _ h => nomatch h) rfl (fun _ h => nomatch h) (by decide) (by decide)

theorem methods_written (n : Nat) : ∃ bs, (manyMethods n).write = .ok bs :=
  few_success [] (fun _ h => nomatch h) (fun _ h => nomatch h) (fun m h => by
      rw [(List.mem_replicate.mp h).2]
      exact ⟨by decide +kernel, ⟨by decide, fun _ h => nomatch h⟩, rfl⟩)
    (fun _ h => nomatch h) rfl (fun _ h => nomatch h) (by decide) (by decide)

theorem attributes_written (n : Nat) : ∃ bs, (manyAttributes n).write = .ok bs :=
  few_success [] (fun _ h => nomatch h) (fun _ h => nomatch h) (fun _ h => nomatch h) (fun a h => by
      rw [(List.mem_replicate.mp h).2]
      exact ⟨by decide +kernel, trivial⟩) (List.flatMap_eq_nil_iff.mpr fun a h => by
      rw [(List.mem_replicate.mp h).2]) (fun _ h => nomatch h) (by decide) (by decide)

theorem handlers_written (n : Nat) : ∃ bs, (manyHandlers n).write = .ok bs :=
  few_success [] (fun _ h => nomatch h) (fun _ h => nomatch h) (fun m h => by
      rw [List.mem_singleton.mp h]
      refine ⟨?_, ⟨by show 1 < 65536; decide, fun a h => ?_⟩, rfl⟩
      · have : constsMethod (withAttr (.code (besieged n))) = [.utf8 [0x41], .utf8 [0x28, 0x29, 0x56], .utf8 N.code] := by
          have h0 : ((List.replicate n (⟨0, 0, 0, none⟩ : Catch)).flatMap
              (fun k => constsOpt (fun s => (Sym.cls s).all) k.ty)) = [] := List.flatMap_eq_nil_iff.mpr fun k h => by
            rw [(List.mem_replicate.mp h).2]; rfl
          show Sym.utf8 [0x41] :: _ :: ((Sym.utf8 N.code :: ([] ++ (_ ++ []))) ++ []) = _
          rw [show (besieged n).catches = List.replicate n (⟨0, 0, 0, none⟩ : Catch) from rfl, h0]
          rfl
        rw [this]
        decide
      · rw [List.mem_singleton.mp h]
        have hi : ∀ i, i ∈ (besieged n).code → i = .label 0 ∨ i = .return none := by
          intro i hi
          have hi : i ∈ [Insn.label 0, .return none] := hi
          simpa using hi
        refine ⟨?_, ?_, ?_, ?_, ?_, ?_, (fun _ h => nomatch h), ?_⟩
        · intro i h d hd
          rcases hi i h with rfl | rfl <;> cases hd
        · show [(0 : Label)].Nodup
          decide
        · intro i h l hl
          rcases hi i h with rfl | rfl <;> cases hl
        · show ([Insn.label 0, .return none].map room).sum < 65536
          decide
        · intro d low ls h
          rcases hi _ h with h | h <;> cases h
        · intro k hk l hl
          rw [(List.mem_replicate.mp hk).2] at hl
          simp only [catchLabels, List.mem_cons, List.not_mem_nil, or_false, or_self] at hl
          rw [hl]
          exact .head _
        · show 0 < 65536
          decide)
    (fun _ h => nomatch h) rfl (fun _ h => nomatch h) (by decide) (by decide)

theorem values_written (n : Nat) : ∃ bs, (manyValues n).write = .ok bs :=
  few_success [] (fun _ h => nomatch h) (fun _ h => nomatch h) (fun m h => by
      rw [List.mem_singleton.mp h]
      refine ⟨?_, ⟨by show 1 < 65536; decide, fun a h => ?_⟩, rfl⟩
      · have : ∀ n, ∀ s ∈ constsValues (List.replicate n (.int 0)), s = Sym.int 0 := by
          intro n
          induction n with
          | zero => exact fun _ h => nomatch h
          | succ n ih =>
            intro s hs
            rw [List.replicate_succ, constsValues, constsValue] at hs
            rcases List.mem_append.mp hs with hs | hs
            · exact List.mem_singleton.mp hs
            · exact ih s hs
        intro s hs
        have hs : s ∈ Sym.utf8 [0x41] :: Sym.utf8 [0x28, 0x29, 0x56] ::
          ((Sym.utf8 N.annotationDefault :: constsValue (.array (List.replicate n (.int 0)))) ++ []) := hs
        simp only [List.mem_cons, List.append_nil, constsValue] at hs
        rcases hs with rfl | rfl | rfl | hs
        · decide
        · decide
        · decide
        · rw [this n s hs]; decide
      · rw [List.mem_singleton.mp h]
        trivial)
    (fun _ h => nomatch h) rfl (fun _ h => nomatch h) (by decide) (by decide)

theorem arguments_written (n : Nat) (hn : n ≤ 65536) : ∃ bs, (manyArguments n).write = .ok bs :=
  few_success [withArgs (List.replicate n (.static (.i32 0)))] (fun _ h => nomatch h) (fun _ h => nomatch h) (fun _ h => nomatch h)
    (fun a h => by
      rw [List.mem_singleton.mp h]
      exact ⟨(fun _ h => nomatch h), trivial⟩) rfl (fun b h => by
      rw [List.mem_singleton.mp h]
      refine ⟨fun s hs => ?_, fun a h => ?_⟩
      · rcases List.mem_append.mp hs with hs | hs
        · have h0 : ∀ s ∈ (handleSym (withArgs []).handle).all, s ∈ fewConsts := by decide +kernel
          exact h0 s hs
        · obtain ⟨a, h, hs⟩ := List.mem_flatMap.mp hs
          rw [(List.mem_replicate.mp h).2] at hs
          have h0 : ∀ s ∈ constsArg (.static (.i32 0)), s ∈ fewConsts := by decide +kernel
          exact h0 s hs
      · rw [(List.mem_replicate.mp h).2]
        rfl) (by show 1 < 65536; decide) (by
      show 4 + 2 * (List.replicate n (Arg.static (.i32 0))).length + 0 + 2 < 2 ^ 32
      rw [List.length_replicate]
      omega)

theorem body_attributes (env : WEnv) (cp : VecCp) (b : Bytes) (a : RawAttribute) (h : wRaw a cp = .ok (b, cp)) :
    ∀ n, ∃ bs, writeCodeAttrs env 0 (List.replicate n (.raw a)) cp = .ok ((0, bs), cp)
  | 0 => ⟨[], rfl⟩
  | n + 1 => by
    obtain ⟨bs, e⟩ := body_attributes env cp b a h n
    have h1 : wAll (CodeAttr.write env) [.raw a] cp = .ok (b ++ [], cp) := wSeq_cons_ok h rfl
    refine ⟨b ++ [] ++ bs, ?_⟩
    rw [List.replicate_succ, writeCodeAttrs]
    show (do
      let b ← wAll (CodeAttr.write env) [.raw a]
      let (n, bs) ← writeCodeAttrs env 0 (List.replicate n (.raw a))
      pure (n, b ++ bs) : Ins (Nat × Bytes)) cp = _
    simp only [Bind.bind, Ins.bind, h1, e]
    rfl

theorem ok_of {α : Type} {r : Res α} (h : (match r with | .ok _ => true | .error _ => false) = true) : ∃ a, r = .ok a := by
  cases r with
  | ok a => exact ⟨a, rfl⟩
  | error e => cases h

theorem bodyAttributes_written (n : Nat) : ∃ bs, (manyBodyAttributes n).write = .ok bs := by
  have hA : ∃ c1 c2, wFlags (⟨0x21⟩ : Flags .cls) VecCp.new = .ok ([0, 0x21], VecCp.new) ∧
      wIdx (insertClass [0x41]) VecCp.new = .ok ([0, 2], c1) ∧ wOpt insertClass none c1 = .ok ([0, 0], c1) ∧
      wFlags (⟨1⟩ : Flags .method) c1 = .ok ([0, 1], c1) ∧ wUtf8 [0x41] c1 = .ok ([0, 1], c1) ∧
      (∃ c3, wType (.method [] none) c1 = .ok ([0, 3], c3) ∧ insertWtf8 N.code c3 = .ok (4, c2)) ∧
      wRaw ⟨[0x41], []⟩ c2 = .ok ([0, 1, 0, 0, 0, 0], c2) ∧
      (∃ a, writeCode [.return none] c2 = .ok (a, c2)) ∧ c2.bsm = [] ∧ ∃ pool, c2.write = .ok pool :=
    ⟨_, _, rfl, rfl, rfl, rfl, rfl, ⟨_, rfl, rfl⟩, rfl, ⟨_, rfl⟩, rfl, ok_of (by decide +kernel)⟩
  obtain ⟨c1, c2, h1, h2, h3, h4, h5, ⟨c3, h6, h7⟩, h8, ⟨a, h9⟩, h10, pool, h11⟩ := hA
  obtain ⟨ab, hb⟩ := body_attributes (Code.env a []) c2 _ _ h8 n
  have hc : ∃ bs, Code.write ⟨0, 0, [.return none], [], List.replicate n (.raw ⟨[0x41], []⟩)⟩ c2 = .ok (bs, c2) := by
    refine ⟨?_, ?_⟩
    rotate_left
    · unfold Code.write
      have : wAll (Catch.write (Code.env a [])) [] c2 = .ok ([], c2) := rfl
      simp only [Bind.bind, Ins.bind, h9, this, hb]
      rw [if_pos (show (UInt16.ofNat _).toNat + 0 < 65536 from UInt16.toNat_lt _)]
      rfl
  obtain ⟨cb, hc⟩ := hc
  have hm : ∃ bs, Method.write (withAttr (.code ⟨0, 0, [.return none], [], List.replicate n (.raw ⟨[0x41], []⟩)⟩)) c1 =
      .ok (bs, c2) := by
    refine ⟨_, wSeq_cons_ok h4 (wSeq_cons_ok h5 (wSeq_cons_ok h6 (wSeq_cons_ok (cp' := c2) (a := ?_) ?_ rfl)))⟩
    rotate_left
    · have : MethodAttr.write (.code ⟨0, 0, [.return none], [], List.replicate n (.raw ⟨[0x41], []⟩)⟩) c3 =
          .ok (u16.write 4 ++ u32.write (UInt32.ofNat cb.length) ++ cb, c2) := by
        show wAttr N.code _ c3 = _
        unfold wAttr
        simp only [Bind.bind, Ins.bind, h7, hc]
        rfl
      have := wSeq_cons_ok (ws := []) this rfl
      show wVec u16 MethodAttr.write [_] c3 = _
      unfold wVec
      rw [if_pos (by show 1 < 256 ^ 2; decide)]
      simp only [Bind.bind, Ins.bind, wAll, List.map, this]
      rfl
  obtain ⟨mb, hm⟩ := hm
  have hw : ∃ bs, (manyBodyAttributes n).writeBody VecCp.new = .ok (bs, c2) :=
    ⟨_, wSeq_cons_ok h1 (wSeq_cons_ok h2 (wSeq_cons_ok h3 (wSeq_cons_ok rfl (wSeq_cons_ok rfl
      (wSeq_cons_ok (wSeq_cons_ok rfl (wSeq_cons_ok (wSeq_cons_ok hm rfl) rfl)) (wSeq_cons_ok rfl rfl))))))⟩
  obtain ⟨wb, hw⟩ := hw
  have ht : wBootstrap c2 = .ok ([], c2) := by
    unfold wBootstrap
    rw [h10]
    rfl
  unfold Class.write
  have ho : wSeq [(manyBodyAttributes n).writeBody, wBootstrap] { VecCp.new with bsm := ownBsms (manyBodyAttributes n).attrs } =
    .ok (_, c2) := wSeq_cons_ok hw (wSeq_cons_ok ht rfl)
  rw [ho]
  simp only [h11]
  exact ⟨_, rfl⟩

theorem bsms_written {m k : Nat} (hm : m + 1 = k) (hk : k = 65536) : ∃ bs, (manyBsms k).write = .ok bs := by
  have hA : ∃ (c1 : VecCp) (c2 : VecCp), (∀ (L : List Bsm), ∃ bs,
      (named [] [] [] [.bootstrapMethods L]).writeBody { VecCp.new with bsm := L } = .ok (bs, { c1 with bsm := L })) ∧ (withArgs []).write { c1 with bsm := [] } = .ok ([0, 6, 0, 0], c2) ∧
      (withArgs []).write c2 = .ok ([0, 6, 0, 0], c2) ∧ c2.bsm = [] ∧ ∃ c3 n, wUtf8 N.bootstrapMethods c2 = .ok (n, c3) ∧
      ∃ pool, c3.write = .ok pool := by
    refine ⟨match insertClass [0x41] VecCp.new with | .ok (_, c) => c | .error _ => VecCp.new, ?_⟩
    refine ⟨_, fun L => ⟨_, wSeq_cons_ok (cp' := { VecCp.new with bsm := L }) rfl (wSeq_cons_ok
      (cp' := ⟨(match insertClass [0x41] VecCp.new with | .ok (_, c) => c | .error _ => VecCp.new).entries,
        (match insertClass [0x41] VecCp.new with | .ok (_, c) => c | .error _ => VecCp.new).cache,
        (match insertClass [0x41] VecCp.new with | .ok (_, c) => c | .error _ => VecCp.new).len, L⟩) rfl (wSeq_cons_ok rfl
      (wSeq_cons_ok rfl (wSeq_cons_ok rfl (wSeq_cons_ok rfl (wSeq_cons_ok rfl rfl))))))⟩, rfl, rfl, rfl, _, _, rfl, ok_of (by decide +kernel)⟩
  obtain ⟨c1, c2, h1, h2, h3, h4, c3, n, h5, pool, h6⟩ := hA
  have hl : (List.replicate k (withArgs [])).length = k := List.length_replicate
  have hw : wAll Bsm.write (List.replicate k (withArgs [])) { c1 with bsm := [] } =
      .ok ([0, 6, 0, 0] ++ (List.replicate m ([0, 6, 0, 0] : Bytes)).flatten, c2) := by
    rw [← hm]
    exact wSeq_cons_ok h2 (wAll_replicate h3 m)
  have hn : bsmNodes c2.bsm < bsmNodes (List.replicate k (withArgs [])) := by
    rw [h4, bsmNodes, bsmNodes, List.map_replicate, List.sum_replicate_nat]
    show 0 < k * 1
    omega
  have hb : writeBatches 0 { c1 with bsm := List.replicate k (withArgs []) } =
      .ok (0 + k % 65536, ([0, 6, 0, 0] ++ (List.replicate m ([0, 6, 0, 0] : Bytes)).flatten) ++ [], c2) := by
    rw [writeBatches]
    simp only [hl, hw]
    rw [if_neg (by omega), if_pos (by omega), dif_pos hn, writeBatches, h4]
    rw [if_pos (by rfl)]
  have ht : ∃ bs, wBootstrap { c1 with bsm := List.replicate k (withArgs []) } = .ok (bs, c3) := by
    unfold wBootstrap
    simp only [hl, hb, h5]
    rw [if_neg (by omega), if_pos (by
      simp only [List.length_append, List.length_flatten, List.map_replicate, List.sum_replicate_nat, List.length_cons,
        List.length_nil]
      omega)]
    exact ⟨_, rfl⟩
  obtain ⟨tb, ht⟩ := ht
  obtain ⟨hb', h1⟩ := h1 (List.replicate k (withArgs []))
  unfold Class.write
  have ho : wSeq [(manyBsms k).writeBody, wBootstrap] { VecCp.new with bsm := ownBsms (manyBsms k).attrs } =
      .ok (hb' ++ (tb ++ []), c3) := by
    have : ownBsms (manyBsms k).attrs = List.replicate k (withArgs []) := List.append_nil _
    rw [this]
    exact wSeq_cons_ok h1 (wSeq_cons_ok ht rfl)
  rw [ho]
  simp only [h6]
  exact ⟨_, rfl⟩

theorem few_maps {is : List Bytes} {fs : List Field} {ms : List Method} {as : List ClassAttr}
    (hf : ∀ f ∈ fs, f.attrs = []) (hm : ∀ m ∈ ms, ∀ p ∈ partsMethod m, p.keys = []) (ha : ∀ a ∈ as, partsClassAttr a = []) :
    MapsOnly (named is fs ms as) := by
  intro p hp
  have : p.keys = [] := by
    unfold parts at hp
    simp only [List.mem_cons, List.mem_append, List.mem_flatMap, List.mem_map, named] at hp
    rcases hp with rfl | rfl | rfl | rfl | rfl | ⟨f, h, hp⟩ | ⟨m, h, hp⟩ | ⟨a, h, hp⟩ | ⟨b, _, rfl⟩
    · rfl
    · rfl
    · rfl
    · rfl
    · rfl
    · rw [partsField, hf f h] at hp
      rw [List.mem_singleton.mp hp]
    · exact hm m h p hp
    · rw [ha a h] at hp
      cases hp
    · rfl
  rw [this]
  exact .nil

theorem mem_body {is : List Bytes} {fs : List Field} {a : MethodAttr} {as : List ClassAttr} {p : Part}
    (h : p ∈ partsMethodAttr a) : p ∈ parts (named is fs [withAttr a] as) := by
  unfold parts
  simp only [List.mem_cons, List.mem_append, List.mem_flatMap, named]
  refine .inr (.inr (.inr (.inr (.inr (.inr (.inl ⟨withAttr a, .inl rfl, ?_⟩))))))
  exact .tail _ (List.mem_flatMap.mpr ⟨a, .head _, h⟩)

theorem few_written {as : List ClassAttr} {ts : List Bsm} (hg : givenBsms as = ts)
    (hb : ∀ b ∈ ts, ∀ a ∈ b.arguments, orDynamics a.toOrDynamic = []) : writtenBsms (named [] [] [] as) = ts := by
  have h2 : usedBsms (named [] [] [] as) = ts := by
    show givenBsms as ++ [] = ts
    rw [hg, List.append_nil]
  unfold writtenBsms
  rw [h2]
  have h0 : ts.flatMap argBsms = [] := List.flatMap_eq_nil_iff.mpr fun b h =>
    List.flatMap_eq_nil_iff.mpr fun a h' => by rw [hb b h a h']; rfl
  have := allRounds_step ts
  rw [h0, allRounds_nil, List.append_nil] at this
  exact this

/-- Of every kind that is not checked there is a class that is written although it has 65536 entries of that kind. -/
theorem C88_unchecked (k : TableKind) (hk : k.checked = false) : ∃ x bs, MapsOnly x ∧ x.write = .ok bs ∧
    ∃ p ∈ parts x, p.kind = k ∧ k.limit < p.count := by
  obtain ⟨n, hn⟩ : ∃ n, n = 65536 := ⟨_, rfl⟩
  have hr : ∀ {α : Type} (a : α), 65535 < (List.replicate n a).length := by
    intro α a
    rw [List.length_replicate]
    omega
  cases k <;> first | cases hk | skip
  case interfaces =>
    obtain ⟨bs, h⟩ := interfaces_written n
    exact ⟨manyInterfaces n, bs, few_maps (fun _ h => nomatch h) (fun _ h => nomatch h) (fun _ h => nomatch h), h, _, .head _, rfl, hr _⟩
  case fields =>
    obtain ⟨bs, h⟩ := fields_written n
    exact ⟨manyFields n, bs, few_maps (fun f h => by rw [(List.mem_replicate.mp h).2]) (fun _ h => nomatch h) (fun _ h => nomatch h), h,
      _, .tail _ (.head _), rfl, hr _⟩
  case methods =>
    obtain ⟨bs, h⟩ := methods_written n
    exact ⟨manyMethods n, bs, few_maps (fun _ h => nomatch h) (fun m h p hp => by
      rw [(List.mem_replicate.mp h).2] at hp
      rw [List.mem_singleton.mp hp]) (fun _ h => nomatch h), h, _, .tail _ (.tail _ (.head _)), rfl, hr _⟩
  case classAttributes =>
    obtain ⟨bs, h⟩ := attributes_written n
    refine ⟨manyAttributes n, bs, few_maps (fun _ h => nomatch h) (fun _ h => nomatch h) (fun a h => by
      rw [(List.mem_replicate.mp h).2]
      rfl), h, _, .tail _ (.tail _ (.tail _ (.head _))), rfl, ?_⟩
    show 65535 < (((List.replicate n ClassAttr.deprecated).filter fun a => !isBootstrap a) ++ _).length
    rw [List.filter_eq_self.mpr fun a h => by rw [(List.mem_replicate.mp h).2]; rfl, List.length_append]
    have := hr ClassAttr.deprecated
    omega
  case codeAttributes =>
    obtain ⟨bs, h⟩ := bodyAttributes_written n
    refine ⟨manyBodyAttributes n, bs, few_maps (fun _ h => nomatch h) (fun m h p hp => ?_) (fun _ h => nomatch h), h, _, mem_body (.tail _ (.head _)), rfl, ?_⟩
    · rw [List.mem_singleton.mp h] at hp
      simp only [partsMethod, withAttr, List.mem_cons, List.flatMap_cons, List.flatMap_nil, List.append_nil, partsMethodAttr,
        partsCode, List.mem_flatMap] at hp
      rcases hp with rfl | rfl | rfl | ⟨a, ha, hp⟩
      · rfl
      · rfl
      · rfl
      · rw [(List.mem_replicate.mp ha).2] at hp
        cases hp
    · show 65535 < ((List.replicate n (CodeAttribute.raw ⟨[0x41], []⟩)).map attrCount).sum
      rw [List.map_replicate, List.sum_replicate_nat]
      show 65535 < n * 1
      omega
  case handlers =>
    obtain ⟨bs, h⟩ := handlers_written n
    refine ⟨manyHandlers n, bs, few_maps (fun _ h => nomatch h) (fun m h p hp => ?_) (fun _ h => nomatch h), h, _, mem_body (.head _), rfl, hr _⟩
    rw [List.mem_singleton.mp h] at hp
    simp only [partsMethod, withAttr, List.mem_cons, List.flatMap_cons, List.flatMap_nil, List.append_nil, partsMethodAttr,
      partsCode, besieged, List.not_mem_nil, or_false] at hp
    rcases hp with rfl | rfl | rfl <;> rfl
  case array =>
    obtain ⟨bs, h⟩ := values_written n
    refine ⟨manyValues n, bs, few_maps (fun _ h => nomatch h) (fun m h p hp => ?_) (fun _ h => nomatch h), h, _, mem_body (.head _), rfl, hr _⟩
    rw [List.mem_singleton.mp h] at hp
    have : ∀ n, partsValues (List.replicate n (.int 0)) = [] := by
      intro n
      induction n with
      | zero => rfl
      | succ n ih => rw [List.replicate_succ, partsValues, ih]; rfl
    simp only [partsMethod, withAttr, List.mem_cons, List.flatMap_cons, List.flatMap_nil, List.append_nil, partsMethodAttr,
      partsValue, this, List.not_mem_nil, or_false] at hp
    rcases hp with rfl | rfl <;> rfl
  case bootstrapMethods =>
    obtain ⟨bs, h⟩ := bsms_written (show 65535 + 1 = n by omega) hn
    refine ⟨manyBsms n, bs, few_maps (fun _ h => nomatch h) (fun _ h => nomatch h) (fun a h => by
      rw [List.mem_singleton.mp h]
      rfl), h, _, .tail _ (.tail _ (.tail _ (.tail _ (.head _)))), rfl, ?_⟩
    show 65535 < (writtenBsms (manyBsms n)).length
    rw [show manyBsms n = named [] [] [] [.bootstrapMethods (List.replicate n (withArgs []))] from rfl,
      few_written (as := [.bootstrapMethods (List.replicate n (withArgs []))]) (ts := List.replicate n (withArgs []))
        (List.append_nil (List.replicate n (withArgs []))) fun b h => by
      rw [(List.mem_replicate.mp h).2]
      exact fun _ h => nomatch h]
    exact hr _
  case bootstrapArguments =>
    obtain ⟨bs, h⟩ := arguments_written n (by omega)
    refine ⟨manyArguments n, bs, few_maps (fun _ h => nomatch h) (fun _ h => nomatch h) (fun a h => by
      rw [List.mem_singleton.mp h]
      rfl), h, ⟨.bootstrapArguments, n, []⟩, ?_, rfl, by show 65535 < n; omega⟩
    unfold parts
    simp only [List.mem_cons, List.mem_append, List.mem_map]
    refine .inr (.inr (.inr (.inr (.inr (.inr (.inr (.inr ⟨withArgs (List.replicate n (.static (.i32 0))), ?_, ?_⟩)))))))
    · rw [show manyArguments n = named [] [] [] _ from rfl,
        few_written (ts := [withArgs (List.replicate n (.static (.i32 0)))]) rfl fun b h => by
          rw [List.mem_singleton.mp h]
          intro a ha
          rw [(List.mem_replicate.mp ha).2]
          rfl]
      exact .head _
    · show (⟨.bootstrapArguments, (List.replicate n _).length, []⟩ : Part) = _
      rw [List.length_replicate]

/-- Violated: the counts of nine kinds of tables are cut to 16 bits. -/
theorem C88_violated : ¬ C88_full := by
  intro h
  obtain ⟨x, bs, h1, h2, p, h3, h4, h5⟩ := C88_unchecked .interfaces rfl
  have := h x bs h1 h2 p h3
  rw [h4] at this
  omega

/-- Exactly these kinds are checked. -/
theorem C88_exact (k : TableKind) : k.checked = true ↔
    ∀ x bs, MapsOnly x → x.write = .ok bs → ∀ p ∈ parts x, p.kind = k → p.count ≤ k.limit := by
  refine ⟨fun hk x bs h1 h2 p h3 h4 => ?_, fun h => ?_⟩
  · have := C88_checked_partial x bs h1 h2 p h3 (by rw [h4]; exact hk)
    rw [h4] at this
    exact this
  · cases hk : k.checked with
    | true => rfl
    | false =>
      obtain ⟨x, bs, h1, h2, p, h3, h4, h5⟩ := C88_unchecked k hk
      have := h x bs h1 h2 p h3 h4
      omega

/-- A class whose method has checked tables with entries. -/
def tabled : Class := named [] [] [withAttr (.exceptions [[0x41], [0x41]]),
  withAttr (.visibleParams [[⟨.int, [([0x41], .int 0)]⟩], []])] []

example : (∃ bs, tabled.write = .ok bs) ∧ MapsOnly tabled ∧ (⟨.exceptions, 2, []⟩ : Part) ∈ parts tabled ∧
    (⟨.parameterAnnotations, 2, []⟩ : Part) ∈ parts tabled ∧ (⟨.elements, 1, [[0x41]]⟩ : Part) ∈ parts tabled := by
  have hp : parts tabled = [⟨.interfaces, 0, []⟩, ⟨.fields, 0, []⟩, ⟨.methods, 2, []⟩, ⟨.classAttributes, 0, []⟩,
      ⟨.bootstrapMethods, 0, []⟩, ⟨.methodAttributes, 1, []⟩, ⟨.exceptions, 2, []⟩, ⟨.methodAttributes, 1, []⟩,
      ⟨.parameterAnnotations, 2, []⟩, ⟨.annotations, 1, []⟩, ⟨.elements, 1, [[0x41]]⟩, ⟨.annotations, 0, []⟩] := by
    with_unfolding_all rfl
  refine ⟨C58_success tabled ⟨?_, ?_, ?_, by decide, ?_, by decide, ?_⟩ (consts tabled) (fun _ h => h) (by decide +kernel), ?_, ?_, ?_, ?_⟩
  · exact fun _ h => nomatch h
  · intro m hm
    simp only [tabled, named, List.mem_cons, List.not_mem_nil, or_false] at hm
    rcases hm with rfl | rfl
    · refine ⟨by decide, fun a ha => ?_⟩
      rw [List.mem_singleton.mp ha]
      show (2 : Nat) < 65536
      decide
    · refine ⟨by decide, fun a ha => ?_⟩
      rw [List.mem_singleton.mp ha]
      refine ⟨by decide, fun as h => ?_⟩
      simp only [List.mem_cons, List.not_mem_nil, or_false] at h
      rcases h with rfl | rfl
      · show (1 : Nat) < 65536
        decide
      · show (0 : Nat) < 65536
        decide
  · exact fun _ h => nomatch h
  · exact fun _ h => nomatch h
  · exact fun s h => legible_fitting (texts_fit (c := consts tabled) (by decide +kernel) s h)
  · rw [MapsOnly, hp]
    decide
  all_goals (rw [hp]; decide)

end Verif.Props
