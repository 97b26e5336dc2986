import Verif.Props.Class
import Verif.Lemmas.WrClass

/-! # Which classes can be written, and with which constants: C58, C59 -/

namespace Verif.Props
open Spec

/-! ## C58 -/

/-- A class within the limits of the format can be written: if `N` has the constants of the class and they fit in a
pool together with one entry for each use of a dynamic constant or call site. -/
theorem C58_success (x : Class) (hx : FitsClass x) (N : List Sym) (hN : ∀ s ∈ consts x, s ∈ N)
    (hl : symSize N + dynamicUses x ≤ 65534) : ∃ bs, x.write = .ok bs :=
  class_total hx hN hl

/-- A class whose constants do not fit in a pool is never written, not even wrongly. -/
theorem C58_limit (x : Class) (bs : Bytes) (N : List Sym) (hN : N.Nodup) (hs : ∀ s ∈ N, s ∈ consts x)
    (hl : 65534 < symSize N) : x.write ≠ .ok bs := by
  intro h
  obtain ⟨cp, N', d, _, _, H, hm, _⟩ := class_holds h
  have h1 := symSize_le hN fun s h => (hm s).mpr (hs s h)
  have h2 := H.len
  have h3 := cp.len.toNat_lt
  omega

/-- For classes without dynamic constants the limit is exact. -/
theorem C58_exact (x : Class) (hx : FitsClass x) (hd : dynamicUses x = 0) (N : List Sym) (hn : N.Nodup)
    (hN : ∀ s, s ∈ N ↔ s ∈ consts x) : (∃ bs, x.write = .ok bs) ↔ symSize N ≤ 65534 := by
  constructor
  · rintro ⟨bs, h⟩
    rcases Nat.lt_or_ge 65534 (symSize N) with hl | hl
    · exact absurd h (C58_limit x bs N hn (fun s hs => (hN s).mp hs) hl)
    · exact hl
  · intro hl
    exact C58_success x hx N (fun s hs => (hN s).mpr hs) (by omega)

/-- Together with C47: a class within the limits is written and read back. -/
theorem C58_roundtrip (ord : Order) (hord : ∀ k n l, (ord k n l).Perm l) (x : Class) (hx : FitsClass x)
    (N : List Sym) (hN : ∀ s ∈ consts x, s ∈ N) (hl : symSize N + dynamicUses x ≤ 65534) (hw : x.Writable)
    (hs : AllClass Fitting x) (hr : (withTable x).Readable CodeReadable) :
    ∃ bs, x.write = .ok bs ∧ (bs.length < 2 ^ 32 → ∀ rest, ∃ y, Class.read ord (bs ++ rest) = .ok (y, rest) ∧
      SameClass (writtenBsms x) (fun b b' => ∃ ρ, SameBody (writtenBsms x) b b' ρ) (withTable x) y) := by
  obtain ⟨bs, h⟩ := C58_success x hx N hN hl
  exact ⟨bs, h, fun hb rest => C47_roundtrip_partial ord hord x bs hw hs h hb hr rest⟩

/-! ## C59 -/

/-- The class file has a constant pool with these entries. -/
def PoolOf (file : Bytes) (es : List Entry) : Prop :=
  ∃ head pool body, head.length = 8 ∧ PoolBytes es pool ∧ file = head ++ pool ++ body

/-- All dynamic constants and call sites of a class. -/
def allDynamics (x : Class) : List Dynamic :=
  classDynamics x ++ (writtenBsms x).flatMap fun b => b.arguments.flatMap fun a => orDynamics a.toOrDynamic

/-- Full claim: the pool has no more entries than there are different constants; here for dynamic constants. -/
def C59_full : Prop := ∀ (x : Class) (bs : Bytes) (es : List Entry) (D : List Dynamic),
  (∀ s, .utf8 s ∈ consts x → Fitting s) → x.write = .ok bs → PoolOf bs es → (∀ d ∈ allDynamics x, d ∈ D) →
  dyns es ≤ D.length

theorem pool_of {x : Class} {bs : Bytes} {cp : VecCp} {N : List Sym} {d : Nat} {pool body : Bytes}
    (H : Verif.Holds N cp d) (hm : ∀ s, s ∈ N ↔ s ∈ consts x) (hs : ∀ s, .utf8 s ∈ consts x → Fitting s)
    (hp : cp.write = .ok pool) (hb : bs = u32.write jvmMagic ++ x.version.write ++ pool ++ body) :
    PoolOf bs cp.entries := by
  have hok : ∀ e ∈ cp.entries, EntryOk e := by
    intro e he
    cases e with
    | utf8 s => exact hs s ((hm _).mp (H.text he))
    | _ => trivial
  obtain ⟨b, h1, h2⟩ := entries_write hok
  have hlen := H.inv.len
  refine ⟨u32.write jvmMagic ++ x.version.write, pool, body, ?_, ?_, hb⟩
  · rw [(Props.C29_write x.version []).1]
    simp [u32_write]
    rfl
  · unfold VecCp.write at hp
    rw [h1] at hp
    cases hp
    exact ⟨b, h2, by have := cp.len.toNat_lt; omega, by rw [u16_write, hlen]⟩

/-- Proved: every constant of the class is in the pool exactly once, under one index; there is no other entry but for
dynamic constants, at most one for each use of one; so the size of the pool is known. -/
theorem C59_pool_partial (x : Class) (bs : Bytes) (hs : ∀ s, .utf8 s ∈ consts x → Fitting s) (h : x.write = .ok bs)
    (N : List Sym) (hn : N.Nodup) (hN : ∀ s, s ∈ N ↔ s ∈ consts x) :
    ∃ es, PoolOf bs es ∧ (∀ s ∈ consts x, ∃ i, s.Is es i ∧ ∀ j, s.Is es j → j = i) ∧
      (∀ (i : UInt16) e, Spec.At es i.toNat e → isDyn e ∨ ∃ s ∈ consts x, s.Is es i) ∧
      (∀ (s t : Sym) i, s.Is es i → t.Is es i → s = t) ∧
      dyns es ≤ dynamicUses x ∧ slotsAll es = symSize N + dyns es := by
  obtain ⟨cp, N', d, pool, body, H, hm, hd, hp, hb, _⟩ := class_holds h
  refine ⟨cp.entries, pool_of H hm hs hp hb, fun s hs => ?_, fun i e he => ?_, fun s t i => sym_fun, ?_, ?_⟩
  · obtain ⟨i, hi⟩ := H.has s ((hm s).mpr hs)
    exact ⟨i, hi, fun j hj => sym_inj H.inv.inj hj hi⟩
  · rcases H.only i e he with h | ⟨s, h1, h2⟩
    · exact .inl h
    · exact .inr ⟨s, (hm s).mp h1, h2⟩
  · rw [H.dyns]
    exact hd
  · have h1 := H.inv.len
    rw [H.len] at h1
    have h2 := symSize_le hn fun s h => (hm s).mpr ((hN s).mp h)
    have h3 := symSize_le H.nodup fun s h => (hN s).mpr ((hm s).mp h)
    rw [H.dyns]
    omega

/-! ## Witnesses -/

/-- A method with two call sites that are the same. -/
def twiceCaller : Method :=
  ⟨⟨9⟩, [0x6E], .method [] none, [.code ⟨0, 0, [.invokeDynamic sampleSite, .invokeDynamic sampleSite, .return none], [], []⟩]⟩

/-- The strings of a list of constants satisfy a test. -/
def texts (t : Bytes → Bool) (c : List Sym) : Bool :=
  c.all fun s => match s with
    | .utf8 s => t s
    | _ => true

theorem texts_fit {c : List Sym} (h : texts (fun n => n.all (fun b => 0 < b && b < 128) && decide (n.length < 65536)) c = true)
    (s : Bytes) (hs : .utf8 s ∈ c) : Fitting s := fits (List.all_eq_true.mp h _ hs)

theorem dyns_of {w : Ins Bytes} {cp0 cp : VecCp} {bs : Bytes} {n : Nat}
    (h : (match w cp0 with
      | .ok (_, cp) => dyns cp.entries == n
      | .error _ => false) = true) (e : w cp0 = .ok (bs, cp)) : dyns cp.entries = n := by
  rw [e] at h
  simpa using h

theorem twice_dyns {cp : VecCp} {bs : Bytes}
    (e : wSeq [(smallClass [twiceCaller] []).writeBody, wBootstrap]
      { VecCp.new with bsm := ownBsms (smallClass [twiceCaller] []).attrs } = .ok (bs, cp)) : dyns cp.entries = 2 :=
  dyns_of (by decide +kernel) e

/-- Violated: a class with two equal call sites. -/
theorem C59_violated : ¬ C59_full := by
  intro h
  have hs : ∀ s, .utf8 s ∈ consts (smallClass [twiceCaller] []) → Fitting s := texts_fit (by decide +kernel)
  obtain ⟨bs, hw, _⟩ := written_of (x := smallClass [twiceCaller] []) (n := 181) (by decide +kernel)
  obtain ⟨cp, N, d, pool, body, H, hm, hd, hp, hb, e⟩ := class_holds hw
  have h1 := h _ bs cp.entries [sampleSite] hs hw (pool_of H hm hs hp hb) (by
    have : allDynamics (smallClass [twiceCaller] []) = [sampleSite, sampleSite] := rfl
    rw [this]
    simp)
  rw [twice_dyns e] at h1
  exact absurd h1 (by decide)

theorem sampleBody_within : FitsCode sampleBody := by
  have hl : ∀ l, l = 7 ∨ l = 8 ∨ l = 9 → .label l ∈ sampleBody.code := by
    rintro l (rfl | rfl | rfl) <;> simp [sampleBody, loop]
  refine ⟨?_, by decide, ?_, by decide, ?_, ?_, ?_, by decide⟩
  · intro i hi
    simp only [sampleBody, loop, List.mem_cons, List.not_mem_nil, or_false] at hi
    rcases hi with rfl | rfl | rfl | rfl | rfl | rfl | rfl | rfl | rfl <;> simp [insnDynamics, orDynamics]
  · intro i hi l h
    apply hl
    simp only [sampleBody, loop, List.mem_cons, List.not_mem_nil, or_false] at hi
    rcases hi with rfl | rfl | rfl | rfl | rfl | rfl | rfl | rfl | rfl <;>
      simp only [targets, List.mem_cons, List.not_mem_nil, or_false] at h
    · exact .inr (.inr h)
    · rcases h with h | h | h
      · exact .inr (.inr h)
      · exact .inl h
      · exact .inr (.inl h)
    · exact .inl h
  · intro d low ls hi
    simp only [sampleBody, loop, List.mem_cons, List.not_mem_nil, or_false, reduceCtorEq, false_or,
      Insn.tableSwitch.injEq] at hi
    obtain ⟨rfl, rfl, rfl⟩ := hi
    decide
  · intro k hk l h
    apply hl
    rw [show k = _ from List.mem_singleton.mp hk] at h
    simp [catchLabels] at h
    rcases h with rfl | rfl <;> simp
  · intro a ha
    rw [show a = _ from List.mem_singleton.mp ha]
    refine ⟨by decide, fun v hv => ?_, _, List.mem_singleton.mpr rfl, .inl rfl⟩
    rw [show v = _ from List.mem_singleton.mp hv]
    exact ⟨0, 7, rfl, rfl, by decide⟩

theorem sampleCaller_within : FitsMethod sampleCaller := by
  refine ⟨by decide, fun a ha => ?_⟩
  rw [show a = _ from List.mem_singleton.mp ha]
  refine ⟨?_, by decide, ?_, by decide, ?_, by simp, by simp, by decide⟩
  · intro i hi d hd
    simp only [List.mem_cons, List.not_mem_nil, or_false] at hi
    rcases hi with rfl | rfl
    · rw [show d = _ from List.mem_singleton.mp hd]
      exact ⟨_, _, rfl⟩
    · cases hd
  · intro i hi l h
    simp only [List.mem_cons, List.not_mem_nil, or_false] at hi
    rcases hi with rfl | rfl <;> cases h
  · intro d low ls hi
    simp at hi

theorem sampleClass_within : FitsClass sampleClass := by
  refine ⟨?_, ?_, ?_, by decide +kernel, ?_, by decide +kernel,
    fun s hs => legible_fitting (texts_fit (by decide +kernel) s hs)⟩
  · intro f hf
    rw [show f = _ from List.mem_singleton.mp hf]
    refine ⟨by decide, fun a ha => ?_⟩
    simp only [sampleField, List.mem_cons, List.not_mem_nil, or_false] at ha
    rcases ha with rfl | rfl | rfl <;> trivial
  · intro m hm
    simp only [sampleClass, List.mem_cons, List.not_mem_nil, or_false] at hm
    rcases hm with rfl | rfl
    · refine ⟨by decide, fun a ha => ?_⟩
      simp only [List.mem_cons, List.not_mem_nil, or_false] at ha
      rcases ha with rfl | rfl
      · exact sampleBody_within
      · exact (by decide : [[0x44]].length < 65536)
    · exact sampleCaller_within
  · intro a ha
    simp only [sampleClass, List.mem_cons, List.not_mem_nil, or_false] at ha
    rcases ha with rfl | rfl | rfl <;> trivial
  · intro b hb a ha d hd
    have : writtenBsms sampleClass = [⟨sampleHandle, [.static (.i32 8)]⟩, ⟨sampleHandle, [.static (.i32 7)]⟩] := rfl
    rw [this] at hb
    simp only [List.mem_cons, List.not_mem_nil, or_false] at hb
    rcases hb with rfl | rfl <;> rw [show a = _ from List.mem_singleton.mp ha] at hd <;> cases hd

/-- The sample class, with a call site and a body with branches, satisfies the hypotheses of C58 and C59: it is
written and read back, and its pool has 31 constants and one call site. -/
example : ∃ bs es, sampleClass.write = .ok bs ∧ PoolOf bs es ∧ slotsAll es = 31 + dyns es ∧ dyns es ≤ 1 ∧
    (bs.length < 2 ^ 32 → ∃ y, Class.read (fun _ _ l => l) (bs ++ []) = .ok (y, [])) := by
  obtain ⟨bs, h, h2⟩ := C58_roundtrip (fun _ _ l => l) (fun _ _ _ => .refl _) sampleClass sampleClass_within _
    (fun _ h => List.mem_eraseDups.mpr h) (by decide +kernel) sampleClass_writable sampleClass_fits sampleClass_readable
  obtain ⟨es, h3, _, _, _, h4, h5⟩ := C59_pool_partial sampleClass bs (texts_fit (by decide +kernel)) h
    (consts sampleClass).eraseDups (by decide +kernel) (fun _ => List.mem_eraseDups)
  refine ⟨bs, es, h, h3, ?_, ?_, fun hl => ?_⟩
  · rw [h5]
    have : symSize (consts sampleClass).eraseDups = 31 := by decide +kernel
    rw [this]
  · have : dynamicUses sampleClass = 1 := by decide +kernel
    rw [this] at h4
    exact h4
  · obtain ⟨y, hy, _⟩ := h2 hl []
    exact ⟨y, hy⟩

/-- A class with more than 65534 interfaces that are all different satisfies the hypotheses of C58_limit. -/
example (n : Nat) (hn : 65534 < n) (bs : Bytes) :
    Class.write ⟨⟨0, .j8⟩, ⟨0x21⟩, [0x41], some [0x42], (List.range n).map (List.replicate · 0x43), [], [], []⟩ ≠ .ok bs := by
  refine C58_limit _ bs ((List.range n).map fun k => .cls (List.replicate k 0x43)) ?_ (fun s hs => ?_) ?_
  · refine (List.pairwise_map.mpr (List.nodup_range.imp fun hab h => hab ?_))
    have := congrArg List.length (Sym.cls.inj h)
    simpa using this
  · obtain ⟨k, hk, rfl⟩ := List.mem_map.mp hs
    have h1 : Sym.cls (List.replicate k 0x43) ∈
        ((List.range n).map (List.replicate · (0x43 : UInt8))).flatMap fun s => (Sym.cls s).all :=
      List.mem_flatMap.mpr ⟨_, List.mem_map.mpr ⟨k, hk, rfl⟩, by simp [Sym.all]⟩
    exact List.mem_append_right _ (List.mem_append_right _ (List.mem_append_left _ h1))
  · have : ∀ l : List Nat, symSize (l.map fun k => .cls (List.replicate k 0x43)) = l.length := by
      intro l
      induction l with
      | nil => rfl
      | cons a l ih =>
        rw [List.map_cons, symSize_cons, ih, List.length_cons]
        exact Nat.add_comm 1 _
    rw [this, List.length_range]
    exact hn

/-- A class with a field of a long constant satisfies the hypotheses of C58_exact. -/
example : ∃ x : Class, FitsClass x ∧ dynamicUses x = 0 ∧ symSize (consts x).eraseDups = 10 ∧ (∃ bs, x.write = .ok bs) := by
  have hx : FitsClass ⟨⟨0, .j8⟩, ⟨0x21⟩, [0x41], some [0x42], [], [⟨⟨0x10⟩, [0x78], .long, [.constantValue (.i64 7)]⟩], [],
      [.deprecated]⟩ := by
    refine ⟨?_, by simp, ?_, by decide +kernel, (fun b hb => nomatch hb), by decide +kernel,
      fun s hs => legible_fitting (texts_fit (by decide +kernel) s hs)⟩
    · intro f hf
      rw [List.mem_singleton.mp hf]
      refine ⟨by decide, fun a ha => ?_⟩
      rw [List.mem_singleton.mp ha]
      trivial
    · intro a ha
      rw [List.mem_singleton.mp ha]
      trivial
  exact ⟨_, hx, by decide +kernel, by decide +kernel, (C58_exact _ hx (by decide +kernel) _ (by decide +kernel)
    (fun _ => List.mem_eraseDups)).mpr (by decide +kernel)⟩

end Verif.Props
