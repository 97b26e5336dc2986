import Verif.Props.Exec
import Verif.Lemmas.Frames

/-! # Stack map frames: C82 -/

namespace Verif.Props
open Spec Sig

/-! ## C82 -/

/-- Full claim: if a class file has the frames that verification asks for, then so does the file that is written for
the class that is read from it. -/
def C82_full : Prop := ∀ (ord : Order) (_ : ∀ k n l, (ord k n l).Perm l) (X : ClassOf PlacedBody) (input out : Bytes)
  (x : Class), classFile placedBody X input → X.Readable (fun _ => True) → Framed X →
    Class.read ord input = .ok (x, []) → x.rewrite 65538 = .ok out → input.length < 2 ^ 31 → out.length < 2 ^ 32 →
    ∃ Y, classFile placedBody Y out ∧ Y.Readable (fun _ => True) ∧ Framed Y

/-- Code of a value without branches, handlers and instructions after the end of a path, apart from what is not encoded. -/
def Unbranched (b : Code) : Prop := Spec.Straight (b.code.filterMap normal) b.catches

theorem framed_iff {Y : ClassOf PlacedBody} (h : ∀ m ∈ Y.methods, ∀ b, .code b ∈ m.attrs → framesAt b.body.attrs = []) :
    Framed Y ↔ (51 ≤ majorNumber Y.version.major → ∀ m ∈ Y.methods, ∀ b, .code b ∈ m.attrs → ∀ q, ¬ NeedsFrame b q) := by
  constructor
  · intro hf hv m hm b hb q hq
    have := hf hv m hm b hb q hq
    rw [h m hm b hb] at this
    cases this
  · intro hf hv m hm b hb q hq
    exact absurd hq (hf hv m hm b hb q)

/-- Proved: no body in a file that is written has a frame, however the bytes are taken apart, and the file has the
frames it needs exactly if all bodies of the class are unbranched or the version does not ask for frames; for the
classes of C47. -/
theorem C82_written_partial (x : Class) (bs : Bytes) (hx : x.Writable) (hs : AllClass Fitting x)
    (h : x.write = .ok bs) (hl : bs.length < 2 ^ 32) (hr : (withTable x).Readable CodeReadable) :
    (∃ Y, classFile placedBody Y bs ∧ Y.Readable fun _ => True) ∧
    ∀ Y, classFile placedBody Y bs → Y.Readable (fun _ => True) →
      (∀ m ∈ Y.methods, ∀ b, .code b ∈ m.attrs → framesAt b.body.attrs = []) ∧
      (Framed Y ↔ (51 ≤ majorNumber x.version.major → ∀ m ∈ x.methods, ∀ b, .code b ∈ m.attrs → Unbranched b)) := by
  have hf := C47_write_partial x bs hx hs h hl
  constructor
  · obtain ⟨Y, h1, h2⟩ := class_through (g := placedBody) (R := fun _ _ => True) (fun m hm y hy P b _ hb => by
      obtain ⟨z, hz, _⟩ := codeFile_placed (hr.methods m hm _ hy) hb
      exact ⟨z, hz, trivial⟩) hf
    exact ⟨Y, h1, readable_through h2 hr⟩
  · intro Y hY hYr
    obtain ⟨hv, h1, h2⟩ := class_frames hf hr hY hYr
    refine ⟨h1, ?_⟩
    rw [framed_iff h1, hv]
    exact imp_congr_right fun _ => h2.symm

/-- Proved: a class file that is read and written has the frames it needs exactly if no method of it needed any, or if
its version does not ask for them; for the classes of C67. -/
theorem C82_exact_partial (ord : Order) (hord : ∀ k n l, (ord k n l).Perm l) (X : ClassOf PlacedBody)
    (input : Bytes) (hf : classFile placedBody X input) (hX : X.Readable fun _ => True) (rest out : Bytes) (x : Class)
    (h : Class.read ord (input ++ rest) = .ok (x, rest)) (hx : Regular x) (hw : x.rewrite 65538 = .ok out)
    (hl : (input ++ rest).length < 2 ^ 31) (ho : out.length < 2 ^ 32) :
    (∃ Y, classFile placedBody Y out ∧ Y.Readable fun _ => True) ∧
    ∀ Y, classFile placedBody Y out → Y.Readable (fun _ => True) →
      (∀ m ∈ Y.methods, ∀ b, .code b ∈ m.attrs → framesAt b.body.attrs = []) ∧
      (Framed Y ↔ (51 ≤ majorNumber X.version.major →
        ∀ m ∈ X.methods, ∀ b, .code b ∈ m.attrs → ∀ q, ¬ NeedsFrame b q)) := by
  have hshared := read_shared (fun k n l v hv => (hord k n l).mem_iff.mp hv) h
  obtain ⟨g1, g2, g3⟩ := regular_fit (read_good hord h hl) hshared hx
  rw [C66_written_partial ord hord _ rest x h (acyclic_static (table_static (regular_static hx)))] at hw
  obtain ⟨h1, h2⟩ := C82_written_partial _ out g1 g2 hw ho g3
  refine ⟨h1, fun Y hY hYr => ?_⟩
  obtain ⟨h3, h4⟩ := h2 Y hY hYr
  refine ⟨h3, h4.trans ?_⟩
  obtain ⟨x', e, hs⟩ := class_read (R := fun _ x y => (∀ q, ¬ NeedsFrame x q) ↔ StraightCode y)
    (fun c hT => reads_needs c hT none) ord hord hf hX rest
  rw [h] at e
  cases e
  have hst := regular_static hx
  have e1 : (completed x).version = X.version := hs.version
  have m2 : Matched (SameMethod fun (y z : Code) => StraightCode y ↔ StraightCode z) x.methods (completed x).methods := by
    have : (completed x).methods = x.methods.map (Method.look (bsmTable x.attrs)) := by
      rw [completed_static hst]
      rfl
    rw [this]
    refine matched_map fun m hm => ⟨rfl, rfl, rfl, matched_map fun a ha => ?_⟩
    cases a with
    | code b =>
      have e : b.code.map (Insn.look (bsmTable x.attrs)) = b.code.map (resolveI (bsmTable x.attrs)) :=
        List.map_congr_left fun i _ => (resolveI_look _ i).symm
      show StraightCode b ↔ Spec.Straight ((b.code.map (Insn.look (bsmTable x.attrs))).filterMap normal) b.catches
      rw [e, straightCode_resolve]
      exact Iff.rfl
    | deprecated => trivial
    | synthetic => trivial
    | _ => rfl
  rw [e1]
  refine imp_congr_right fun _ => ?_
  rw [codes_matched (fun _ _ h => h) (matched_weaken (fun _ _ h => SameMethod.code h) hs.methods)]
  exact (codes_matched (fun _ _ h => h) (matched_weaken (fun _ _ h => SameMethod.code h) m2)).symm

/-! ### Two classes to which this applies -/

/-- A class with one method. -/
def framedClass (b : PlacedBody) : ClassOf PlacedBody := ⟨⟨0, .j8⟩, ⟨0x21⟩, [0x41], none, [], [],
  [⟨⟨1⟩, [0x6D], .method [] none, [.code b]⟩], []⟩

/-- Its file; the first entry of the pool is the name of the attribute with the frames. -/
def framedFile (n : UInt8) (b : Bytes) : Bytes :=
  U4 0xCAFEBABE ++ (U2 0 ++ U2 52) ++ (U2 7 ++ ((1 :: (U2 13 ++ N.stackMapTable)) ++
  ((1 :: (U2 1 ++ [0x41])) ++ ([7, 0, 2] ++ ((1 :: (U2 1 ++ [0x6D])) ++ ((1 :: (U2 3 ++ [0x28, 0x29, 0x56])) ++
    (1 :: (U2 4 ++ N.code)))))))) ++
  ([0, 0x21] ++ ([0, 3] ++ ([0, 0] ++ ([0, 0] ++ ([0, 0] ++ (([0, 1, 0, 1, 0, 4, 0, 5, 0, 1, 0, 6, 0, 0, 0, n] ++ b) ++
    ([0, 0] ++ [])))))))

theorem framed_file {b : PlacedBody} {n : UInt8} {bs : Bytes} (hl : bs.length = n.toNat)
    (hb : ∀ c : Ctx, IsUtf8 c.pool 1 N.stackMapTable → placedBody c b bs) :
    classFile placedBody (framedClass b) (framedFile n bs) := by
  have hok : ∀ e ∈ [Entry.utf8 N.stackMapTable, .utf8 [0x41], .cls 2, .utf8 [0x6D], .utf8 [0x28, 0x29, 0x56],
      .utf8 N.code], EntryOk e := by
    intro e he
    simp only [List.mem_cons, List.not_mem_nil, or_false] at he
    rcases he with rfl | rfl | rfl | rfl | rfl | rfl <;> first | trivial | exact fits (by decide +kernel)
  obtain ⟨p, hb', h2⟩ := entries_write hok
  have e : writeAll Entry.write [Entry.utf8 N.stackMapTable, .utf8 [0x41], .cls 2, .utf8 [0x6D], .utf8 [0x28, 0x29, 0x56],
      .utf8 N.code] = .ok ((1 :: (U2 13 ++ N.stackMapTable)) ++
    ((1 :: (U2 1 ++ [0x41])) ++ ([7, 0, 2] ++ ((1 :: (U2 1 ++ [0x6D])) ++ ((1 :: (U2 3 ++ [0x28, 0x29, 0x56])) ++
      (1 :: (U2 4 ++ N.code))))))) := by decide +kernel
  rw [hb'] at e
  have e := Except.ok.inj e
  have hp : PoolBytes _ (U2 7 ++ p) := ⟨p, h2, by decide, rfl⟩
  rw [e] at hp
  obtain ⟨m, h3, _⟩ := mapCp_read hp
  have g : ∀ (i : UInt16) (e : Entry), Spec.At _ i.toNat e → m.get i = some e := fun i e h => (h3 i e).mpr h
  have g1 : IsUtf8 m.get 1 N.stackMapTable := g 1 _ ⟨[], _, rfl, by decide⟩
  have g2 : IsUtf8 m.get 2 [0x41] := g 2 _ ⟨[_], _, rfl, by decide⟩
  have g3 : m.get 3 = some (.cls 2) := g 3 _ ⟨[_, _], _, rfl, by decide⟩
  have g4 : IsUtf8 m.get 4 [0x6D] := g 4 _ ⟨[_, _, _], _, rfl, by decide⟩
  have g5 : IsUtf8 m.get 5 [0x28, 0x29, 0x56] := g 5 _ ⟨[_, _, _, _], _, rfl, by decide⟩
  have g6 : IsUtf8 m.get 6 N.code := g 6 _ ⟨[_, _, _, _, _], _, rfl, by decide⟩
  have hlen : U4 bs.length = [0, 0, 0, n] := by
    have : n.toNat < 256 := n.toNat_lt
    have e1 : n.toNat / 65536 = 0 := by omega
    have e2 : n.toNat / 256 = 0 := by omega
    rw [hl]
    simp [U4, U2, e1, e2]
  have u0 : U2 0 = [0, 0] := by decide
  have u1 : U2 1 = [0, 1] := by decide
  have hm : Fmt.all (method placedBody) ⟨m.get, [], fun _ => none, fun _ => none⟩ (framedClass b).methods
      ([0, 1, 0, 4, 0, 5, 0, 1, 0, 6, 0, 0, 0, n] ++ bs) := by
    refine ⟨_, [], (List.append_nil _).symm, ⟨[0, 1], _, rfl,
      ⟨knownFlags_of (show (1 : UInt16) &&& FlagType.method.all = 1 by decide), u1.symm⟩,
      [0, 4], _, rfl, ⟨4, g4, by decide⟩, [0, 5], _, rfl, ⟨5, ⟨.void (by simp), _, .void .nil, g5⟩, by decide⟩,
      [0, 1, 0, 6, 0, 0, 0, n] ++ bs, [], (List.append_nil _).symm,
      ⟨(show 1 < 65536 by decide), [0, 6, 0, 0, 0, n] ++ bs, ?_, _, [], (List.append_nil _).symm,
        ⟨6, bs, g6, hb _ g1, ?_, ?_⟩, rfl⟩, rfl⟩, rfl⟩
    · show _ = U2 1 ++ _
      rw [u1]
      rfl
    · have := n.toNat_lt
      omega
    · rw [hlen]
      rfl
  refine ⟨_, m.get, _, _, hp, fun i e => h3 i e, ?_, rfl⟩
  have z : (0 : Nat) < 65536 := by decide
  refine ⟨_, _, rfl, ⟨knownFlags_of (show (0x21 : UInt16) &&& FlagType.cls.all = 0x21 by decide),
      (show [0, 0x21] = U2 (0x21 : UInt16).toNat by decide)⟩, _, _, rfl, ⟨3, ⟨2, g3, g2⟩, by decide⟩,
    _, _, rfl, (show _ = _ by decide), _, _, rfl, ⟨z, [], u0.symm, rfl⟩, _, _, rfl, ⟨z, [], u0.symm, rfl⟩,
    _, _, rfl, ⟨(show 1 < 65536 by decide), _, ?_, hm⟩, _, _, rfl, ⟨z, [], u0.symm, rfl⟩, rfl⟩
  show _ = U2 1 ++ _
  rw [u1]
  rfl

theorem framed_readable (b : PlacedBody) : (framedClass b).Readable fun _ => True := ⟨(fun f hf => nomatch hf), by
    intro m hm
    rw [show m = _ from List.mem_singleton.mp hm]
    intro a ha
    rw [show a = _ from List.mem_singleton.mp ha]
    trivial, (fun a ha => nomatch ha)⟩

/-- A `goto` to itself, with a frame. -/
def looping : PlacedBody where
  body := ⟨0, 0, [.label 3, .jump .always 3], [], [.frames [.same 0]]⟩
  pos := fun l => if l = 3 then some 0 else none
  handler := fun _ => none
  code := [0xA7, 0, 0]
  insns := [(0, .jump .always 3)]

def loopBytes : Bytes := [0, 0, 0, 0, 0, 0, 0, 3, 0xA7, 0, 0, 0, 0, 0, 1, 0, 1, 0, 0, 0, 3, 0, 1, 0]

theorem looping_placed {c : Ctx} (h1 : IsUtf8 c.pool 1 N.stackMapTable) : placedBody c looping loopBytes := by
  have hn : near 0 (looping.ctx c) 3 [0, 0] := ⟨0, ⟨0, rfl, rfl⟩, by decide, by decide, by decide⟩
  have hl : Enc (looping.ctx c) 0 (.label 3) [] := .label rfl
  have hj : Enc (looping.ctx c) 0 (.jump .always 3) [0xA7, 0, 0] := .jump hn
  refine ⟨⟨[0, 0], [0, 1, 0, 1, 0, 0, 0, 3, 0, 1, 0],
      .cons (b := []) hl (.cons (b := [0xA7, 0, 0]) (bs := []) hj .nil),
      by decide, ⟨by decide, [], by decide, rfl⟩,
      ⟨by decide, [0, 1, 0, 0, 0, 3, 0, 1, 0], by decide, _, [], (List.append_nil _).symm,
        ⟨1, [0, 1, 0], h1, ⟨by decide, [0], by decide, _, [], (List.append_nil _).symm,
          .same (n := 0) (by decide), rfl⟩, by decide, by decide⟩, rfl⟩, by decide⟩,
    .skip hl rfl (.keep (b := [0xA7, 0, 0]) (bs := []) hj rfl .nil),
    ⟨?_, ?_, by simp [lineEntries, looping], by simp [varInfos, looping], by simp [attrCatches, looping], ?_⟩⟩
  · intro i hi
    simp only [looping, List.mem_cons, List.not_mem_nil, or_false] at hi
    rcases hi with rfl | rfl <;> trivial
  · intro l p h
    simp only [PlacedBody.ctx, looping] at h
    split at h
    · rename_i e
      rw [e]
      exact List.mem_cons_self
    · cases h
  · intro a ha
    rw [show a = _ from List.mem_singleton.mp ha]
    trivial

/-- It needs a frame at 0, and has it. -/
theorem looping_needs : NeedsFrame looping 0 := .target (l := 3) (List.mem_singleton.mpr rfl) (by decide) rfl

theorem looping_covered : Covered looping := by
  intro q hq
  have : q = 0 := by
    cases hq with
    | target h1 h2 h3 =>
      cases List.mem_singleton.mp h1
      cases List.mem_singleton.mp h2
      cases h3
      rfl
    | handler h => cases h
    | @after pre post p q i j h1 =>
      have := congrArg List.length h1
      simp [looping] at this
      omega
  rw [this]
  decide

/-- What is read from it. -/
def loopRead : Class := ⟨⟨0, .j8⟩, ⟨0x21⟩, [0x41], none, [], [],
  [⟨⟨1⟩, [0x6D], .method [] none, [.code ⟨0, 0, [.label 0, .jump .always 0], [], []⟩]⟩], []⟩

set_option maxRecDepth 100000 in
theorem loop_read : Class.read (fun _ _ l => l) (framedFile 24 loopBytes) = .ok (loopRead, []) := by
  with_unfolding_all rfl

/-- A method that returns. -/
def returning : PlacedBody where
  body := ⟨0, 0, [.noOp, .return none], [], []⟩
  pos := fun _ => none
  handler := fun _ => none
  code := [0, 0xB1]
  insns := [(0, .noOp), (1, .return none)]

def returnBytes : Bytes := [0, 0, 0, 0, 0, 0, 0, 2, 0, 0xB1, 0, 0, 0, 0]

theorem returning_placed {c : Ctx} : placedBody c returning returnBytes := by
  have h1 : Enc (returning.ctx c) 0 .noOp [0] := .noArg (o := .nop) rfl
  have h2 : Enc (returning.ctx c) 1 (.return none) [0xB1] := .noArg (o := .return_) rfl
  refine ⟨⟨[0, 0], [0, 0], .cons (b := [0]) (bs := [0xB1]) h1 (.cons (b := [0xB1]) (bs := []) h2 .nil),
      by decide, ⟨by decide, [], by decide, rfl⟩, ⟨by decide, [], by decide, rfl⟩, by decide⟩,
    .keep (b := [0]) (bs := [0xB1]) h1 rfl (.keep (b := [0xB1]) (bs := []) h2 rfl .nil),
    ⟨?_, nofun, nofun, nofun, nofun, nofun⟩⟩
  intro i hi
  simp only [returning, List.mem_cons, List.not_mem_nil, or_false] at hi
  rcases hi with rfl | rfl <;> trivial

theorem returning_needs (q : Nat) : ¬ NeedsFrame returning q := by
  refine (needs_iff (c := ⟨fun _ => none, [], fun _ => none, fun _ => none⟩) returning_placed).mpr ⟨?_, rfl, ?_⟩ q
  · intro i hi
    simp only [returning, List.map_cons, List.map_nil, List.mem_cons, List.not_mem_nil, or_false] at hi
    rcases hi with rfl | rfl <;> rfl
  · intro pre i j post e
    match pre with
    | [] => cases e; exact fun h => h
    | [a] => simp [returning] at e
    | a :: b :: r =>
      have := congrArg List.length e
      simp [returning] at this


def returnRead : Class := ⟨⟨0, .j8⟩, ⟨0x21⟩, [0x41], none, [], [],
  [⟨⟨1⟩, [0x6D], .method [] none, [.code ⟨0, 0, [.noOp, .return none], [], []⟩]⟩], []⟩

set_option maxRecDepth 100000 in
theorem return_read : Class.read (fun _ _ l => l) (framedFile 14 returnBytes) = .ok (returnRead, []) := by
  with_unfolding_all rfl

theorem framed_regular {is : List Insn} (hi : ∀ i ∈ is, RegularInsn i) (hs : ∀ i ∈ is, AllInsn Fitting i)
    (hd : is.flatMap insnDynamics = []) (hr : (is.map room).sum ≤ 24575) :
    Regular ⟨⟨0, .j8⟩, ⟨0x21⟩, [0x41], none, [], [],
      [⟨⟨1⟩, [0x6D], .method [] none, [.code ⟨0, 0, is, [], []⟩]⟩], []⟩ := by
  have hdc : IsDescriptor (.method [] none) := .void (by simp)
  have f1 : Fitting [0x41] := fits (by decide +kernel)
  have f2 : Fitting [0x6D] := fits (by decide +kernel)
  have f3 : Fitting (JType.toWtf8 (.method [] none)) := fits (by decide +kernel)
  refine ⟨nofun, fun m hm => ?_, nofun, by simp, ?_, ⟨f1, nofun, nofun, nofun, fun m hm => ?_, nofun, fun b hb => ?_⟩⟩
  · cases List.mem_singleton.mp hm
    refine ⟨hdc, fun a ha => ?_⟩
    cases List.mem_singleton.mp ha
    exact ⟨hi, nofun, .inl hr⟩
  · simp [classDynamics, attrDynamics, bsmTable, hd]
  · cases List.mem_singleton.mp hm
    refine ⟨f2, f3, fun a ha => ?_⟩
    cases List.mem_singleton.mp ha
    exact ⟨hs, nofun, nofun⟩
  · simp [usedBsms, classDynamics, attrDynamics, hd] at hb
    cases hb

theorem loop_regular : Regular loopRead := by
  refine framed_regular (fun i hi => ?_) (fun i hi => ?_) rfl (by decide)
  all_goals
    simp only [List.mem_cons, List.not_mem_nil, or_false] at hi
    rcases hi with rfl | rfl <;> trivial

theorem return_regular : Regular returnRead := by
  refine framed_regular (fun i hi => ?_) (fun i hi => ?_) rfl (by decide)
  all_goals
    simp only [List.mem_cons, List.not_mem_nil, or_false] at hi
    rcases hi with rfl | rfl <;> trivial

/-- Violated: a method with a loop has a frame for its target in the file that is read, and none in the file that is
written. -/
theorem C82_violated : ¬ C82_full := by
  intro h
  have hf := framed_file (b := looping) (n := 24) (bs := loopBytes) rfl fun c hc => looping_placed hc
  have hr := C66_written_partial _ (fun _ _ l => List.Perm.refl l) _ _ _ loop_read
    (acyclic_static (table_static (regular_static loop_regular)))
  obtain ⟨out, hw, hl⟩ := written_of (x := completed loopRead) (n := 77) (by decide +kernel)
  rw [hw] at hr
  have hF : Framed (framedClass looping) := by
    intro _ m hm b hb
    cases List.mem_singleton.mp hm
    cases List.mem_singleton.mp hb
    exact looping_covered
  obtain ⟨Y, h1, h2, h3⟩ := h _ (fun _ _ l => List.Perm.refl l) _ _ out _ hf (framed_readable _) hF loop_read hr
    (by decide +kernel) (by omega)
  have := (C82_exact_partial _ (fun _ _ l => List.Perm.refl l) _ _ hf (framed_readable _) [] out loopRead
    (by rw [List.append_nil]; exact loop_read) loop_regular hr (by decide +kernel) (by omega)).2 Y h1 h2
  exact this.2.mp h3 (by decide) _ List.mem_cons_self _ List.mem_cons_self 0 looping_needs

/-- The class without a branch keeps what it needs. -/
example : ∃ out Y, returnRead.rewrite 65538 = .ok out ∧ classFile placedBody Y out ∧ Framed Y := by
  have hf := framed_file (b := returning) (n := 14) (bs := returnBytes) rfl fun c _ => returning_placed
  have hr := C66_written_partial _ (fun _ _ l => List.Perm.refl l) _ _ _ return_read
    (acyclic_static (table_static (regular_static return_regular)))
  obtain ⟨out, hw, hl⟩ := written_of (x := completed returnRead) (n := 76) (by decide +kernel)
  rw [hw] at hr
  obtain ⟨⟨Y, h1, h2⟩, h3⟩ := C82_exact_partial _ (fun _ _ l => List.Perm.refl l) _ _ hf (framed_readable _) [] out returnRead
    (by rw [List.append_nil]; exact return_read) return_regular hr (by decide +kernel) (by omega)
  refine ⟨out, Y, hr, h1, (h3 Y h1 h2).2.mpr fun _ m hm b hb q => ?_⟩
  cases List.mem_singleton.mp hm
  cases List.mem_singleton.mp hb
  exact returning_needs q

end Verif.Props
