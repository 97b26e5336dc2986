import Verif.Lemmas.ReleaseEnds
import Verif.Props.ReleaseRead
import Verif.Lemmas.Legible
import Verif.Props.Consts
import Verif.Props.Write

/-! # Property C104: writing a class with and without overflow checks -/

namespace Verif.Props
open Spec Sig

/-- C104, full statement: a class is written in the same way in a build without overflow checks. -/
def C104_full : Prop := ∀ x : Class, Class.writeW x = Class.write x

/-- Proved: it is, unless the build with checks panics. -/
theorem C104_agree_partial (x : Class) (h : Class.write x ≠ .error .panic) : Class.writeW x = Class.write x :=
  Class.writeW_agrees x h

/-- A class that is written with checks is written without, with the same bytes. -/
theorem C104_written_partial (x : Class) (bs : Bytes) (h : Class.write x = .ok bs) : Class.writeW x = .ok bs := by
  rw [C104_agree_partial x (by rw [h]; exact nofun), h]

/-- A class that is refused with checks is refused without, with the same error. -/
theorem C104_refused_partial (x : Class) (h : Class.write x = .error .invalid) : Class.writeW x = .error .invalid := by
  rw [C104_agree_partial x (by rw [h]; exact nofun), h]

/-- A build without checks panics on fewer classes. -/
theorem C104_panics (x : Class) (h : Class.writeW x = .error .panic) : Class.write x = .error .panic := by
  rcases Agrees.cases (Class.writeW_agrees x) with h1 | ⟨e, h1, h2⟩ | ⟨a, h1, h2⟩
  · exact h1
  · rw [h1, ← h2, h]
  · rw [h2] at h
    cases h

/-- Without checks, too, writing a class ends: with a class file, with an error for the caller, with a panic, or (see
`C104_no_ub`) in undefined behaviour. It neither runs forever nor gives any other error. -/
theorem C104_ends (x : Class) : (∃ bs, Class.writeW x = .ok bs) ∨ Class.writeW x = .error .invalid ∨
    Class.writeW x = .error .panic ∨ Class.writeW x = .error .ub := by
  rcases h : Class.writeW x with e | bs
  · haveI : Usual fun e => e = .invalid ∨ e = .panic ∨ e = .ub := ⟨.inr (.inl rfl), .inl rfl⟩
    have := ends_classW (U := fun e => e = .invalid ∨ e = .panic ∨ e = .ub) (x := x) (.inl (.inr (.inr rfl))) e h
    rcases this with rfl | rfl | rfl
    · exact .inr (.inl rfl)
    · exact .inr (.inr (.inl rfl))
    · exact .inr (.inr (.inr rfl))
  · exact .inl ⟨bs, rfl⟩

/-- If the strings of the class have code points, then there is no undefined behaviour. -/
theorem C104_no_ub (x : Class) (h : LegibleClass x) : Class.writeW x ≠ .error .ub := by
  intro hw
  haveI : Usual fun e => e ≠ .ub := ⟨(fun h => nomatch h), (fun h => nomatch h)⟩
  exact ends_classW (U := fun e => e ≠ .ub) (x := x) (.inr h) .ub hw rfl

/-- A class within the limits of the format (C58) is written and read back without checks, and the bytes are those that
a build with checks writes. -/
theorem C104_roundtrip_partial (ord : Order) (hord : ∀ k n l, (ord k n l).Perm l) (x : Class) (hx : FitsClass x)
    (N : List Sym) (hN : ∀ s ∈ consts x, s ∈ N) (hl : symSize N + dynamicUses x ≤ 65534) (hw : x.Writable)
    (hs : AllClass Fitting x) (hr : (withTable x).Readable CodeReadable) :
    ∃ bs, Class.writeW x = .ok bs ∧ Class.write x = .ok bs ∧
      (bs.length < 2 ^ 32 → ∀ rest, ∃ y, Class.readW ord (bs ++ rest) = .ok (y, rest) ∧
        SameClass (writtenBsms x) (fun b b' => ∃ ρ, SameBody (writtenBsms x) b b' ρ) (withTable x) y) := by
  obtain ⟨bs, h, h2⟩ := C58_roundtrip ord hord x hx N hN hl hw hs hr
  refine ⟨bs, C104_written_partial x bs h, h, fun hb rest => ?_⟩
  obtain ⟨y, h3, h4⟩ := h2 hb rest
  exact ⟨y, C103_accepted_partial ord _ _ _ h3, h4⟩

/-! ## What is written where the checks panic -/

/-- The length of the range of a local variable is taken modulo 2^16. So without checks a variable that ends before it
begins is written, and reading it gives the labels of the same positions. -/
theorem C104_range (env : WEnv) (start stop : Label) (a b : UInt16) (ha : env.label start = .ok a)
    (hb : env.label stop = .ok b) :
    ∃ len, rangeOfW env start stop = .ok (a, len) ∧ ∀ (renv : REnv) (m : LabelMap) (p : List UInt16) (bs : Bytes) (s e : Label),
      m.lookup a.toUInt32 = some s → m.lookup b.toUInt32 = some e →
        rangeLabelsW a len renv ⟨p, some m⟩ bs = .ok ((s, e), ⟨p, some m⟩, bs) := by
  refine ⟨b - a, by rw [rangeOfW, ha, hb], fun renv m p bs s e hs he => C103_range _ _ _ _ _ _ _ _ hs ?_⟩
  rw [show a + (b - a) = b by rw [UInt16.add_comm, UInt16.sub_add_cancel], he]

/-- With checks the same range makes the writer panic. -/
theorem C104_range_checked (env : WEnv) (start stop : Label) (a b : UInt16) (ha : env.label start = .ok a)
    (hb : env.label stop = .ok b) (h : b < a) : rangeOf env start stop = .error .panic := by
  simp only [rangeOf, ha, hb]
  rw [if_pos h]

/-- A table switch without offsets is written without checks, with a greatest key one below the least, and is read
back without checks as a table without offsets. -/
theorem C104_switch (labels : List (Label × (Nat × Nat))) (ix : List Nat) (size idx : Nat) (d : Label) (low o : Int32)
    (h : resolveLabelW labels ix size idx d = .ok o) :
    ∃ high, (Branch.table d low []).emitW labels ix size idx = .ok (u8.write opc.TABLESWITCH ++
        List.replicate (padding (idx - size + 1)) 0 ++ i32.write o ++ i32.write low ++ i32.write high) ∧
      ∀ rest, TblSwitch.readW (i32.write low ++ (i32.write high ++ rest)) = .ok (⟨low, high, []⟩, rest) := by
  refine ⟨low + -1, ?_, fun rest => ?_⟩
  · rw [Branch.emitW, h]
    show Except.ok (_ ++ []) = _
    rw [List.append_nil]
    rfl
  · refine C103_switch low (low + -1) [] rest ?_
    rw [Int32.toInt_add]
    have h1 := Int32.le_toInt low
    have h2 := Int32.toInt_lt low
    have h3 : (-1 : Int32).toInt = -1 := by decide
    rw [h3]
    simp only [List.length_nil, Int.bmod_def]
    split <;> split <;> omega

/-- In a type annotation the position of the end is not taken modulo 2^16 by the reader. So a variable there that ends
before it begins is written without checks, and read with an end 65536 bytes too far. -/
theorem C104_target (env : WEnv) (t : LocalVarTarget) (a b : UInt16) (ha : env.label t.start = .ok a)
    (hb : env.label t.stop = .ok b) (h : b < a) (cp : VecCp) :
    ∃ bs, LocalVarTarget.writeW env t cp = .ok (bs, cp) ∧
      ∀ (renv : REnv) (m : LabelMap) (p : List UInt16) (rest : Bytes) (s e : Label),
        m.lookup a.toUInt32 = some s → m.lookup (b.toUInt32 + 65536) = some e →
          LocalVarTarget.read renv ⟨p, some m⟩ (bs ++ rest) = .ok (⟨s, e, t.idx⟩, ⟨p, some m⟩, rest) := by
  refine ⟨u16.write a ++ u16.write (b - a) ++ u16.write t.idx, ?_, fun renv m p rest s e hs he => ?_⟩
  · simp only [LocalVarTarget.writeW, ha, hb]
    rfl
  · have hr : ∀ (n : UInt16) (st : RSt) (bs : Bytes), rNum u16 renv st (u16.write n ++ bs) = .ok (n, st, bs) := by
      intro n st bs
      unfold rNum Rd.lift
      rw [NumCodec.reads u16_lawful _ _]
    have hk : a.toUInt32 + (b - a).toUInt32 = b.toUInt32 + 65536 := by
      have h1 := a.toNat_lt
      have h2 := b.toNat_lt
      have h3 := UInt16.lt_iff_toNat_lt.mp h
      have h4 : (b - a).toNat = b.toNat + 65536 - a.toNat := by
        rw [UInt16.toNat_sub]
        omega
      apply UInt32.toNat_inj.mp
      rw [UInt32.toNat_add, UInt32.toNat_add, UInt16.toNat_toUInt32, UInt16.toNat_toUInt32, UInt16.toNat_toUInt32, h4]
      show _ % _ = (b.toNat + 65536) % _
      omega
    rw [List.append_assoc, List.append_assoc]
    simp only [LocalVarTarget.read, Rd.bind, Rd.map, hr, getLabel, hs, hk, he]
    rfl

/-! ## Too many constants -/

theorem clsW_total (s : Bytes) : Ends (fun _ => False) (insertClassW s) :=
  Ends.bind (fun _ => REnds.ok _) fun _ => fun _ => REnds.ok _

/-- Without checks a class with only a name, a superclass and interfaces is always written, however many there are. -/
theorem C104_always (x : Class) (hf : x.fields = []) (hm : x.methods = []) (ha : x.attrs = []) (hs : LegibleClass x) :
    ∃ bs, Class.writeW x = .ok bs := by
  have hb : Ends (fun _ => False) (Class.writeBodyW x) := by
    rw [Class.writeBodyW, hf, hm, ha]
    exact .cons .flags (.cons (.idx (clsW_total _)) (.cons (.opt fun _ => clsW_total _) (.cons (.cut fun _ _ => .idx (clsW_total _))
      (.cons (.cut nofun) (.cons (.cut nofun) (.cons (.cut nofun) .nil))))))
  have hd : classDynamics x = [] := by rw [classDynamics, hm]; rfl
  have ho : ownBsms x.attrs = [] := by rw [ha]; rfl
  have hw : REnds (fun _ => False) (wSeq [Class.writeBodyW x, wBootstrapW] { VecCp.new with bsm := ownBsms x.attrs }) := by
    intro e he
    have he : Ins.bind (Class.writeBodyW x) (fun a => Ins.bind (wSeq [wBootstrapW]) fun b => Pure.pure (a ++ b))
      { VecCp.new with bsm := ownBsms x.attrs } = .error e := he
    rcases h1 : Class.writeBodyW x { VecCp.new with bsm := ownBsms x.attrs } with e1 | ⟨a, cp1⟩
    · exact hb _ _ h1
    · have f := (eff_classBodyW (fun n hn => legible_fitting (names_fitting n hn)) hs.all _ _ _ h1).1
      rw [hd, ho] at f
      have hc : wBootstrapW cp1 = .ok ([], cp1) := by rw [wBootstrapW, f]; rfl
      have hq : wSeq [wBootstrapW] cp1 = .ok ([], cp1) := by
        show Ins.bind wBootstrapW _ cp1 = _
        simp only [Ins.bind, hc]
        rfl
      simp only [Ins.bind, h1, hq] at he
      cases he
  rcases h : Class.writeW x with e | bs
  · exfalso
    unfold Class.writeW at h
    rcases h1 : wSeq [Class.writeBodyW x, wBootstrapW] { VecCp.new with bsm := ownBsms x.attrs } with e1 | ⟨buf, cp⟩
    · exact hw _ h1
    · have hp := ends_pool (U := fun _ => False) (cp := cp)
        (.inr (class_stringsW (fun n hn => legible_fitting (names_fitting n hn)) hs.all h1))
      simp only [h1] at h
      rcases h2 : cp.write with e2 | pool
      · exact hp _ h2
      · rw [h2] at h
        cases h
  · exact ⟨bs, rfl⟩

/-- A class that implements `n` different interfaces. -/
def manyDistinct (n : Nat) : Class :=
  ⟨⟨0, .j8⟩, ⟨0x21⟩, [0x41], some [0x42], (List.range n).map (List.replicate · 0x43), [], [], []⟩

theorem manyDistinct_legible (n : Nat) : LegibleClass (manyDistinct n) := by
  have hr : ∀ k, Legible (List.replicate k 0x43) := by
    intro k
    rw [show List.replicate k (0x43 : UInt8) = encodeCps (List.replicate k 0x43) by
      rw [Verif.JType.encodeCps_replicate _ _ (by omega)]; rfl]
    refine Verif.JType.legible_enc fun c hc => ?_
    rw [(List.mem_replicate.mp hc).2]
    decide
  refine ⟨⟨Verif.JType.legible_enc (cs := [0x41]) (by decide), ?_, fun s hs => ?_, nofun, nofun, nofun,
    nofun⟩, nofun⟩
  · intro a ha
    rw [← show [0x42] = a from Option.some.inj ha]
    exact Verif.JType.legible_enc (cs := [0x42]) (by decide)
  · obtain ⟨k, _, rfl⟩ := List.mem_map.mp hs
    exact hr k

/-- So more constants than a pool can have are written without an error, where a build with checks refuses or panics.
Some of them then have the same index (`C89_shared_index`). -/
theorem C104_violated_constants (n : Nat) (hn : 65534 < n) :
    (∃ bs, Class.writeW (manyDistinct n) = .ok bs) ∧ ∀ bs, Class.write (manyDistinct n) ≠ .ok bs := by
  refine ⟨C104_always _ rfl rfl rfl (manyDistinct_legible n), fun bs => ?_⟩
  refine C58_limit _ bs ((List.range n).map fun k => .cls (List.replicate k 0x43)) ?_ (fun s hs => ?_) ?_
  · refine (List.pairwise_map.mpr (List.nodup_range.imp fun hab h => hab ?_))
    have := congrArg List.length (Sym.cls.inj h)
    simpa using this
  · obtain ⟨k, hk, rfl⟩ := List.mem_map.mp hs
    have h1 : Sym.cls (List.replicate k 0x43) ∈
        ((List.range n).map (List.replicate · (0x43 : UInt8))).flatMap fun s => (Sym.cls s).all :=
      List.mem_flatMap.mpr ⟨_, List.mem_map.mpr ⟨k, hk, rfl⟩, by simp [Sym.all]⟩
    exact List.mem_append_right _ (List.mem_append_right _ (List.mem_append_left _ h1))
  · have : ∀ l : List Nat, symSize (l.map fun k => .cls (List.replicate k 0x43)) = l.length := by
      intro l
      induction l with
      | nil => rfl
      | cons a l ih =>
        rw [List.map_cons, symSize_cons, ih, List.length_cons]
        exact Nat.add_comm 1 _
    rw [this, List.length_range]
    exact hn

/-! ## Classes on which the two differ -/

/-- A class with one method with this body. -/
def bodyClass (c : Code) : Class :=
  ⟨⟨0, .j8⟩, ⟨0x21⟩, [0x41], none, [], [], [⟨⟨9⟩, [0x6E], .method [] none, [.code c]⟩], []⟩

/-- Labels at 0 and 1, and a variable that is declared from 1 to 0. -/
def backwardsVar : Class :=
  bodyClass ⟨1, 2, [.label 7, .noOp, .label 9, .return none], [], [.locals [⟨9, 7, [0x69], some .int, none, 1⟩]]⟩

/-- A table switch without offsets. -/
def emptySwitch : Class := bodyClass ⟨1, 2, [.label 7, .tableSwitch 7 3 []], [], []⟩

/-- The same variable as in `backwardsVar`, with a type annotation. -/
def backwardsTarget : Class :=
  bodyClass ⟨1, 2, [.label 7, .noOp, .label 9, .return none], [], [.visibleType [⟨.localVar [⟨9, 7, 1⟩], [], .int, []⟩]]⟩

/-- What comes of writing a class with checks, of writing it without, and of reading that without checks. -/
def fates (x : Class) : Option Err × Option Nat × Option Err :=
  (match Class.write x with | .error e => some e | .ok _ => none,
   match Class.writeW x with | .error _ => none | .ok bs => some bs.length,
   match Class.writeW x with
   | .error _ => none
   | .ok bs => match Class.readW (fun _ _ l => l) bs with | .error e => some e | .ok _ => none)

theorem fates_iff {x : Class} {e : Err} {n : Nat} {r : Option Err} (h : fates x = (some e, some n, r)) :
    Class.write x = .error e ∧ ∃ bs, Class.writeW x = .ok bs ∧ bs.length = n ∧
      match r with
      | none => ∃ y, Class.readW (fun _ _ l => l) bs = .ok y
      | some e' => Class.readW (fun _ _ l => l) bs = .error e' := by
  unfold fates at h
  rcases h1 : Class.write x with e1 | b1
  · rcases h2 : Class.writeW x with e2 | bs
    · rw [h1, h2] at h
      cases h
    · rcases h3 : Class.readW (fun _ _ l => l) bs with e3 | y
      · simp only [h1, h2, h3] at h
        cases h
        exact ⟨rfl, bs, rfl, rfl, h3⟩
      · simp only [h1, h2, h3] at h
        cases h
        exact ⟨rfl, bs, rfl, rfl, y, h3⟩
  · rw [h1] at h
    cases h

/-- Written and read back, where the build with checks panics. -/
theorem C104_violated_range : Class.write backwardsVar = .error .panic ∧
    ∃ bs, Class.writeW backwardsVar = .ok bs ∧ bs.length = 123 ∧ ∃ y, Class.readW (fun _ _ l => l) bs = .ok y :=
  fates_iff (r := none) (by decide +kernel)

theorem C104_violated_switch : Class.write emptySwitch = .error .panic ∧
    ∃ bs, Class.writeW emptySwitch = .ok bs ∧ bs.length = 90 ∧ ∃ y, Class.readW (fun _ _ l => l) bs = .ok y :=
  fates_iff (r := none) (by decide +kernel)

/-- Written without an error, as a file that the same build refuses to read. -/
theorem C104_violated_target : Class.write backwardsTarget = .error .panic ∧
    ∃ bs, Class.writeW backwardsTarget = .ok bs ∧ bs.length = 134 ∧ Class.readW (fun _ _ l => l) bs = .error .invalid :=
  fates_iff (r := some .invalid) (by decide +kernel)

theorem C104_violated : ¬ C104_full := by
  intro h
  obtain ⟨h1, bs, h2, _⟩ := C104_violated_target
  have := h backwardsTarget
  rw [h1, h2] at this
  cases this

/-! ## Cases -/

/-- 65535 interfaces with names of up to 65534 letters: each of them fits in a pool, but not all. -/
example : ∃ bs, Class.writeW (manyDistinct 65535) = .ok bs := (C104_violated_constants 65535 (by decide)).1

/-- The class of `C58_roundtrip` (the hypotheses of `C104_roundtrip_partial`). -/
example : ∃ bs, Class.writeW sampleClass = .ok bs ∧
    (bs.length < 2 ^ 32 → ∃ y, Class.readW (fun _ _ l => l) (bs ++ []) = .ok (y, [])) := by
  obtain ⟨bs, h, _, h2⟩ := C104_roundtrip_partial (fun _ _ l => l) (fun _ _ _ => .refl _) sampleClass sampleClass_within _
    (fun _ h => List.mem_eraseDups.mpr h) (by decide +kernel) sampleClass_writable sampleClass_fits sampleClass_readable
  refine ⟨bs, h, fun hl => ?_⟩
  obtain ⟨y, hy, _⟩ := h2 hl []
  exact ⟨y, hy⟩

/-- A class with a call site, a body and a bootstrap table (the hypothesis of `C104_written_partial`). -/
example : ∃ bs, Class.writeW sampleClass = .ok bs ∧ bs.length = 426 := by
  obtain ⟨bs, h, hl⟩ := written_of (x := sampleClass) (n := 426) (by decide +kernel)
  exact ⟨bs, C104_written_partial _ _ h, hl⟩

def failsWith (r : Res Bytes) : Option Err :=
  match r with
  | .error e => some e
  | .ok _ => none

theorem failsWith_iff {r : Res Bytes} {e : Err} (h : failsWith r = some e) : r = .error e := by
  unfold failsWith at h
  split at h
  · cases h
    rfl
  · cases h

/-- A jump to a label that is nowhere (the hypothesis of `C104_refused_partial`). -/
example : Class.writeW (bodyClass ⟨1, 2, [.jump .always 3], [], []⟩) = .error .invalid :=
  C104_refused_partial _ (failsWith_iff (by decide +kernel))

/-- A variable with labels that are nowhere (the hypothesis of `C104_panics`). -/
example : Class.write (bodyClass ⟨1, 2, [.return none], [], [.locals [⟨9, 7, [0x69], some .int, none, 1⟩]]⟩) =
    .error .panic := C104_panics _ (failsWith_iff (by decide +kernel))

/-- The range of `C104_range` and `C104_target`. -/
example : ∃ len, rangeOfW ⟨fun l => .ok (if l = 9 then 1 else 0), fun _ => .ok none⟩ 9 7 = .ok (1, len) :=
  let ⟨len, h, _⟩ := C104_range ⟨fun l => .ok (if l = 9 then 1 else 0), fun _ => .ok none⟩ 9 7 1 0 rfl rfl
  ⟨len, h⟩

end Verif.Props
