import Verif.Lemmas.Cp
import Verif.Props.Ty

/-! # Lemmas about inserting into the pool and resolving indices -/

namespace Verif
open Spec

/-! ## The insertion monad -/

theorem Ins.bind_ok {α β : Type} {x : Ins α} {f : α → Ins β} {cp cp'' : VecCp} {b : β}
    (h : (x >>= f) cp = .ok (b, cp'')) : ∃ a cp', x cp = .ok (a, cp') ∧ f a cp' = .ok (b, cp'') := by
  simp only [Bind.bind, Ins.bind] at h
  split at h
  · rename_i a cp' hx
    exact ⟨a, cp', hx, h⟩
  · cases h

theorem Ins.lift_ok {α : Type} {r : Res α} {cp cp' : VecCp} {a : α}
    (h : Ins.lift r cp = .ok (a, cp')) : r = .ok a ∧ cp' = cp := by
  unfold Ins.lift at h
  split at h
  · cases h; exact ⟨rfl, rfl⟩
  · cases h

/-! ## Invariant -/

/-- What every pool built by insertions satisfies. -/
structure VecCp.Inv (cp : VecCp) : Prop where
  len : cp.len.toNat = 1 + slotsAll cp.entries
  cache : ∀ e (i : UInt16), cp.cache.lookup e = some i ↔ At cp.entries i.toNat e

theorem VecCp.inv_new : VecCp.new.Inv where
  len := rfl
  cache e i := by simp [VecCp.new, At.not_nil]

/-- `cp'` has the entries and bootstrap methods of `cp` and possibly more. -/
structure VecCp.Ext (cp cp' : VecCp) : Prop where
  entries : cp.entries <+: cp'.entries
  bsm : cp.bsm <+: cp'.bsm

theorem VecCp.Ext.refl (cp : VecCp) : cp.Ext cp := ⟨List.prefix_refl _, List.prefix_refl _⟩

theorem VecCp.Ext.trans {a b c : VecCp} (h1 : a.Ext b) (h2 : b.Ext c) : a.Ext c :=
  ⟨h1.1.trans h2.1, h1.2.trans h2.2⟩

theorem VecCp.Ext.at_ {a b : VecCp} (h : a.Ext b) {i : Nat} {e : Entry} (ha : At a.entries i e) :
    At b.entries i e := by
  obtain ⟨n, hn⟩ := h.entries
  rw [← hn]
  exact ha.append n

theorem insertRaw_ok {e : Entry} {cp cp' : VecCp} {i : UInt16} (hi : cp.Inv)
    (h : insertRaw e cp = .ok (i, cp')) : cp'.Inv ∧ cp.Ext cp' ∧ At cp'.entries i.toNat e ∧
      cp'.bsm = cp.bsm := by
  unfold insertRaw at h
  split at h
  · rename_i j hj
    cases h
    exact ⟨hi, .refl _, (hi.cache _ _).mp hj, rfl⟩
  · rename_i hn
    split at h
    · rename_i hlt
      cases h
      have hs := size_slots e
      have hl := hi.len
      refine ⟨⟨?_, ?_⟩, ⟨List.prefix_append _ _, List.prefix_refl _⟩, ?_, rfl⟩
      · simp only [UInt16.toNat_add, slotsAll_append, slotsAll_cons, slotsAll_nil]
        rw [Nat.mod_eq_of_lt (by omega)]
        omega
      · intro x j
        simp only
        rw [At.snoc_iff, List.lookup_cons]
        by_cases hx : x = e
        · subst hx
          simp only [beq_self_eq_true]
          constructor
          · intro h'; cases h'; exact .inr ⟨hl, trivial⟩
          · rintro (h' | ⟨h', _⟩)
            · rw [← hi.cache, hn] at h'; cases h'
            · rw [UInt16.toNat_inj.mp (h'.trans hl.symm)]
        · have hb : (x == e) = false := by simpa using hx
          rw [hb]
          simp only
          rw [hi.cache]
          constructor
          · exact .inl
          · rintro (h' | ⟨_, h'⟩)
            · exact h'
            · exact absurd h' hx
      · simp only
        rw [hl]
        exact At.last _ _
    · cases h

theorem insertBsm_ok {m : Bsm} {cp cp' : VecCp} {i : UInt16} (hi : cp.Inv)
    (h : insertBsm m cp = .ok (i, cp')) : cp'.Inv ∧ cp.Ext cp' ∧ i = UInt16.ofNat cp.bsm.length ∧
      cp'.bsm = cp.bsm ++ [m] := by
  unfold insertBsm at h
  cases h
  exact ⟨⟨hi.len, hi.cache⟩, ⟨List.prefix_refl _, List.prefix_append _ _⟩, rfl, rfl⟩

theorem steps_ok {a b : VecCp} (h : Steps a b) (hi : a.Inv) : b.Inv ∧ a.Ext b := by
  induction h with
  | refl => exact ⟨hi, .refl _⟩
  | raw _ hr ih =>
    have h1 := ih
    have h2 := insertRaw_ok h1.1 hr
    exact ⟨h2.1, h1.2.trans h2.2.1⟩
  | bsm _ hr ih =>
    have h1 := ih
    have h2 := insertBsm_ok h1.1 hr
    exact ⟨h2.1, h1.2.trans h2.2.1⟩

theorem Spec.Steps.trans {a b c : VecCp} (h1 : Steps a b) (h2 : Steps b c) : Steps a c := by
  induction h2 with
  | refl => exact h1
  | raw _ hr ih => exact .raw ih hr
  | bsm _ hr ih => exact .bsm ih hr

/-! ## Pools -/

theorem Spec.Agrees.mono {P : Pool} {a b : VecCp} (h : Agrees P b.entries) (he : a.Ext b) :
    Agrees P a.entries := fun i e ha => h i e (he.at_ ha)

/-- `Good m post`: an insertion that only adds to the pool, and whose result satisfies `post` in
every pool holding the entries. -/
def Good {α : Type} (m : Ins α) (post : Pool → α → Prop) : Prop :=
  ∀ cp a cp', cp.Inv → m cp = .ok (a, cp') →
    Steps cp cp' ∧ ∀ P, Agrees P cp'.entries → post P a

theorem Good.pure {α : Type} (a : α) {post : Pool → α → Prop} (h : ∀ P, post P a) :
    Good (pure a : Ins α) post := by
  intro cp x cp' _ h1
  cases h1
  exact ⟨.refl _, fun P _ => h P⟩

theorem Good.bind {α β : Type} {x : Ins α} {f : α → Ins β} {p : Pool → α → Prop}
    {q : α → Pool → β → Prop} {post : Pool → β → Prop} (h1 : Good x p) (h2 : ∀ a, Good (f a) (q a))
    (h3 : ∀ P a b, p P a → q a P b → post P b) : Good (x >>= f) post := by
  intro cp b cp'' hi h
  obtain ⟨a, cp', e1, e2⟩ := Ins.bind_ok h
  have g1 := h1 cp a cp' hi e1
  have i1 := steps_ok g1.1 hi
  have g2 := h2 a cp' b cp'' i1.1 e2
  have i2 := steps_ok g2.1 i1.1
  exact ⟨g1.1.trans g2.1, fun P hP => h3 P a b (g1.2 P (hP.mono i2.2)) (g2.2 P hP)⟩

theorem Good.weaken {α : Type} {m : Ins α} {p q : Pool → α → Prop} (h : Good m p)
    (hw : ∀ P a, p P a → q P a) : Good m q :=
  fun cp a cp' hi he => ⟨(h cp a cp' hi he).1, fun P hP => hw P a ((h cp a cp' hi he).2 P hP)⟩

theorem good_raw (e : Entry) : Good (insertRaw e) (fun P i => P i = some e) := by
  intro cp i cp' hi h
  have := insertRaw_ok hi h
  exact ⟨.raw (.refl _) h, fun P hP => hP i e this.2.2.1⟩

theorem good_wtf8 (s : Bytes) : Good (insertWtf8 s) (fun P i => IsUtf8 P i s) := good_raw _

theorem good_class (s : Bytes) : Good (insertClass s) (fun P i => IsClass P i s) :=
  (good_wtf8 s).bind (fun _ => good_raw _) (fun _ a _ h1 h2 => ⟨a, h2, h1⟩)

/-- What `insert_indirect_str` stands for. -/
def IsIndirect (tag : UInt8) (P : Pool) (i : UInt16) (s : Bytes) : Prop :=
  (tag = 7 ∧ IsClass P i s) ∨ (tag = 8 ∧ IsString P i s) ∨ (tag = 19 ∧ IsModule P i s) ∨
    (tag = 20 ∧ IsPackage P i s)

theorem good_indirect7 (s : Bytes) : Good (insertIndirect 7 s) (fun P i => IsClass P i s) :=
  (good_wtf8 s).bind (fun _ => good_raw _) (fun _ a _ h1 h2 => ⟨a, h2, h1⟩)

theorem good_indirect8 (s : Bytes) : Good (insertIndirect 8 s) (fun P i => IsString P i s) :=
  (good_wtf8 s).bind (fun _ => good_raw _) (fun _ a _ h1 h2 => ⟨a, h2, h1⟩)

theorem good_indirect19 (s : Bytes) : Good (insertIndirect 19 s) (fun P i => IsModule P i s) :=
  (good_wtf8 s).bind (fun _ => good_raw _) (fun _ a _ h1 h2 => ⟨a, h2, h1⟩)

theorem good_indirect20 (s : Bytes) : Good (insertIndirect 20 s) (fun P i => IsPackage P i s) :=
  (good_wtf8 s).bind (fun _ => good_raw _) (fun _ a _ h1 h2 => ⟨a, h2, h1⟩)

theorem display_printable {t : JType} (h : Printable t) :
    ∃ cs, Desc t cs ∧ JType.display t = encodeCps cs := by
  obtain ⟨cs, hd⟩ := Props.C15_text_exists h.1
  refine ⟨cs, hd, ?_⟩
  rw [JType.display_desc hd, Wtf8.map_repl_of_none cs (h.2 cs hd)]

theorem good_nat (n : Bytes) {t : JType} (h : Printable t) :
    Good (insertNameAndType n (JType.display t)) (fun P i => IsNat P i n t) := by
  obtain ⟨cs, hd, he⟩ := display_printable h
  rw [he]
  refine Good.bind (good_wtf8 n) (fun a => Good.bind (good_wtf8 _) (fun b => good_raw (.nat a b))
    (post := fun P i => ∃ b, P i = some (.nat a b) ∧ IsUtf8 P b (encodeCps cs))
    (fun P b i h1 h2 => ⟨b, h2, h1⟩)) ?_
  rintro P a i h1 ⟨b, h2, h3⟩
  exact ⟨a, b, h2, h1, h.1, cs, hd, h3⟩

theorem isMethod_iff (t : JType) : JType.isMethod t = true ↔ ∃ ps r, t = .method ps r := by
  cases t <;> simp [JType.isMethod]

theorem isMethod_false (t : JType) (h : ¬ JType.isMethod t = true) : ∀ ps r, t ≠ .method ps r := by
  intro ps r e
  exact h ((isMethod_iff t).mpr ⟨ps, r, e⟩)

theorem good_member (m : MemberRef) (h : Printable m.descriptor) :
    Good (insertMember m) (fun P i => IsMember P i m) := by
  refine Good.bind (good_class m.owner) (fun o => Good.bind (good_nat m.name h) (fun nt => good_raw _)
    (post := fun P i => IsClass P o m.owner → IsMember P i m) ?_) (fun P o i h1 h2 => h2 h1)
  intro P nt i h1 h2 h3
  split at h2
  · rename_i hm
    obtain ⟨ps, r, hd⟩ := (isMethod_iff _).mp hm
    split at h2
    · rename_i hf
      exact .imethod o nt ps r h2 hd hf h3 h1
    · rename_i hf
      exact .method o nt ps r h2 hd (by simpa using hf) h3 h1
  · rename_i hm
    exact .field o nt h2 (isMethod_false _ hm) h3 h1

theorem toU8_refKind (k : HandleKind) : k.toU8 = UInt8.ofNat (refKind k) := by cases k <;> rfl

theorem good_handle (x : MethodHandle) (h : Printable x.member.descriptor) :
    Good (insertMethodHandle x) (fun P i => IsHandle P i x) := by
  refine Good.bind (good_member _ h) (fun m => good_raw _) ?_
  intro P m i h1 h2
  exact ⟨m, by rw [h2, toU8_refKind], h1⟩

theorem good_constant (c : Constant) (h : ConstOk c) :
    Good (insertConstant c) (fun P i => IsConstant P i c) := by
  cases c with
  | i32 x => exact (good_raw _).weaken (fun _ _ h => .int _ h)
  | f32 x => exact (good_raw _).weaken (fun _ _ h => .float _ h)
  | i64 x => exact (good_raw _).weaken (fun _ _ h => .long _ h)
  | f64 x => exact (good_raw _).weaken (fun _ _ h => .double _ h)
  | string s => exact (good_indirect8 _).weaken (fun _ _ h => .string _ h)
  | cls s => exact (good_indirect7 _).weaken (fun _ _ h => .cls _ h)
  | member m => exact (good_member _ h).weaken (fun _ _ h => .member _ h)
  | methodType t =>
    obtain ⟨cs, hd, he⟩ := display_printable h
    refine Good.bind (good_wtf8 _) (fun _ => good_raw _) ?_
    intro P a i h1 h2
    rw [he] at h1
    exact .methodType t a h2 ⟨h.1, cs, hd, h1⟩
  | methodHandle x => exact (good_handle x h).weaken (fun _ _ h => .methodHandle _ h)

/-! ## Resolution -/

theorem wtf8_of {P : Pool} {i : UInt16} {s : Bytes} (h : IsUtf8 P i s) : Pool.wtf8 P i = some s := by
  unfold IsUtf8 at h
  simp only [Pool.wtf8, h]

theorem class_of {P : Pool} {i : UInt16} {s : Bytes} (h : IsClass P i s) :
    Pool.indirect P 7 i = some s := by
  obtain ⟨j, h1, h2⟩ := h
  simp only [Pool.indirect, h1, wtf8_of h2, if_true]

theorem string_of {P : Pool} {i : UInt16} {s : Bytes} (h : IsString P i s) :
    Pool.indirect P 8 i = some s := by
  obtain ⟨j, h1, h2⟩ := h
  simp only [Pool.indirect, h1, wtf8_of h2, if_true]

theorem module_of {P : Pool} {i : UInt16} {s : Bytes} (h : IsModule P i s) :
    Pool.indirect P 19 i = some s := by
  obtain ⟨j, h1, h2⟩ := h
  simp only [Pool.indirect, h1, wtf8_of h2, if_true]

theorem package_of {P : Pool} {i : UInt16} {s : Bytes} (h : IsPackage P i s) :
    Pool.indirect P 20 i = some s := by
  obtain ⟨j, h1, h2⟩ := h
  simp only [Pool.indirect, h1, wtf8_of h2, if_true]

theorem parse_desc {t : JType} {cs : List Nat} (h : IsDescriptor t) (hd : Desc t cs) :
    JType.parseType (encodeCps cs) = .ok t := by
  rw [← Props.C15_write_text hd]
  exact Props.C15_write_parse t h

theorem nat_of {P : Pool} {i : UInt16} {n : Bytes} {t : JType} (h : IsNat P i n t) :
    Pool.nameAndType P i = .ok (some (n, t)) := by
  obtain ⟨a, b, h1, h2, h3, cs, hd, h4⟩ := h
  simp only [Pool.nameAndType, h1, wtf8_of h2, wtf8_of h4, parse_desc h3 hd, okOrNone]

theorem member_of {P : Pool} {i : UInt16} {m : MemberRef} (h : IsMember P i m) :
    Pool.member P i = .ok (some m.norm) := by
  cases h with
  | field o nt h1 h2 h3 h4 =>
    have hm : JType.isMethod m.descriptor = false := by
      cases he : JType.isMethod m.descriptor with
      | false => rfl
      | true => obtain ⟨ps, r, e⟩ := (isMethod_iff _).mp he; exact absurd e (h2 ps r)
    simp only [Pool.member, h1, Pool.memberParts, class_of h3, nat_of h4, MemberRef.norm, hm,
      Bool.and_false]
  | method o nt ps r h1 h2 hf h3 h4 =>
    simp only [Pool.member, h1, Pool.memberParts, class_of h3, nat_of h4, MemberRef.norm, hf,
      Bool.false_and]
  | imethod o nt ps r h1 h2 hf h3 h4 =>
    have hm : JType.isMethod m.descriptor = true := (isMethod_iff _).mpr ⟨ps, r, h2⟩
    simp only [Pool.member, h1, Pool.memberParts, class_of h3, nat_of h4, MemberRef.norm, hf, hm,
      Bool.and_self]

theorem ofU8_refKind (k : HandleKind) : HandleKind.ofU8 (UInt8.ofNat (refKind k)) = some k := by
  cases k <;> rfl

theorem handle_of {P : Pool} {i : UInt16} {x : MethodHandle} (h : IsHandle P i x) :
    Pool.methodHandle P i = .ok (some ⟨x.kind, x.member.norm⟩) := by
  obtain ⟨m, h1, h2⟩ := h
  simp only [Pool.methodHandle, h1, member_of h2, ofU8_refKind]

theorem constant_of {P : Pool} {i : UInt16} {c : Constant} (h : IsConstant P i c) :
    Pool.constant P i = .ok (some c.norm) := by
  cases h with
  | int x h => simp only [Pool.constant, h, Constant.norm]
  | float x h => simp only [Pool.constant, h, Constant.norm]
  | long x h => simp only [Pool.constant, h, Constant.norm]
  | double x h => simp only [Pool.constant, h, Constant.norm]
  | string s h =>
    obtain ⟨j, h1, h2⟩ := h
    simp only [Pool.constant, h1, wtf8_of h2, Constant.norm, Option.map]
  | cls s h =>
    obtain ⟨j, h1, h2⟩ := h
    simp only [Pool.constant, h1, wtf8_of h2, Constant.norm, Option.map]
  | member m h =>
    have := member_of h
    cases h with
    | field o nt h1 => simp only [Pool.constant, h1, this, Constant.norm, Option.map]
    | method o nt ps r h1 => simp only [Pool.constant, h1, this, Constant.norm, Option.map]
    | imethod o nt ps r h1 => simp only [Pool.constant, h1, this, Constant.norm, Option.map]
  | methodType t j h1 h2 =>
    obtain ⟨h3, cs, hd, h4⟩ := h2
    simp only [Pool.constant, h1, wtf8_of h4, parse_desc h3 hd, okOrNone, Constant.norm, Option.map]
  | methodHandle x h =>
    obtain ⟨m, h1, h2⟩ := h
    simp only [Pool.constant, h1, member_of h2, ofU8_refKind, Constant.norm]

theorem dynamic_of {P : Pool} {i b : UInt16} {n : Bytes} {t : JType} (h : IsDynamic P i b n t)
    (pending : List UInt16) :
    (if JType.isMethod t then Pool.invokeDynamic P i pending else Pool.dynamic P i pending) =
      .ok (some ⟨.pending b, n, t⟩, pending ++ [b]) := by
  cases h with
  | constant nt h1 h2 h3 =>
    have hm : ¬ JType.isMethod t = true := by
      intro he
      obtain ⟨ps, r, e⟩ := (isMethod_iff _).mp he
      exact h2 ps r e
    rw [if_neg hm]
    simp only [Pool.dynamic, h1, Pool.dynamicParts, nat_of h3]
  | callSite nt ps r h1 h2 h3 =>
    rw [if_pos ((isMethod_iff _).mpr ⟨ps, r, h2⟩)]
    simp only [Pool.invokeDynamic, h1, Pool.dynamicParts, nat_of h3]

/-! ## Dynamic constants -/

theorem insertDynamic_ok {d : Dynamic} {cp cp' : VecCp} {i : UInt16} (hp : Printable d.descriptor)
    (hi : cp.Inv) (h : insertDynamic d cp = .ok (i, cp')) :
    ∃ b, d.getBsm = .ok b ∧ Steps cp cp' ∧ cp.bsm ++ [b] <+: cp'.bsm ∧
      ∀ P, Agrees P cp'.entries →
        IsDynamic P i (UInt16.ofNat cp.bsm.length) d.name d.descriptor := by
  unfold insertDynamic at h
  obtain ⟨b, c0, h0, h1⟩ := Ins.bind_ok h
  obtain ⟨hb, rfl⟩ := Ins.lift_ok h0
  obtain ⟨k, c1, h2, h3⟩ := Ins.bind_ok h1
  have g2 := insertBsm_ok hi h2
  have hg : Good (do
      let nt ← insertNameAndType d.name (JType.display d.descriptor)
      insertRaw (if JType.isMethod d.descriptor then .indy k nt else .dyn k nt))
      (fun P i => IsDynamic P i k d.name d.descriptor) := by
    refine Good.bind (good_nat d.name hp) (fun nt => good_raw _) ?_
    intro P nt i h1 h2
    split at h2
    · rename_i hm
      obtain ⟨ps, r, hd⟩ := (isMethod_iff _).mp hm
      exact .callSite nt ps r h2 hd h1
    · rename_i hm
      exact .constant nt h2 (isMethod_false _ hm) h1
  have g3 := hg c1 i cp' g2.1 h3
  have g4 := steps_ok g3.1 g2.1
  refine ⟨b, hb, (Steps.bsm (.refl _) h2).trans g3.1, ?_, ?_⟩
  · rw [← g2.2.2.2]; exact g4.2.bsm
  · rw [← g2.2.2.1]; exact g3.2

/-! ## Bootstrap table -/

theorem fillLoop_ok (bsms : List Bsm) : ∀ (i : Nat) (refs : List (UInt16 × Nat)) (set : List (Nat × Bsm))
    (left : List (UInt16 × Nat)), fillLoop i bsms refs = (set, left) → i + bsms.length ≤ 65536 →
    (∀ k b, (k, b) ∈ set → ∃ j, (j, k) ∈ refs ∧ i ≤ j.toNat ∧ bsms[j.toNat - i]? = some b) ∧
    (∀ j k, (j, k) ∈ left ↔ (j, k) ∈ refs ∧ (j.toNat < i ∨ i + bsms.length ≤ j.toNat)) ∧
    (set.map (·.1) ++ left.map (·.2)).Perm (refs.map (·.2)) := by
  induction bsms with
  | nil =>
    intro i refs set left h _
    cases h
    refine ⟨by simp, fun j k => ?_, by simp⟩
    simp only [List.length_nil, Nat.add_zero]
    constructor
    · intro h; exact ⟨h, by omega⟩
    · exact And.left
  | cons b bs ih =>
    intro i refs set left h hl
    simp only [List.length_cons] at hl
    simp only [fillLoop] at h
    generalize hr : fillLoop (i + 1) bs (refs.filter fun r => r.1 ≠ UInt16.ofNat i) = r at h
    obtain ⟨s1, l1⟩ := r
    simp only [Prod.mk.injEq] at h
    obtain ⟨rfl, rfl⟩ := h
    obtain ⟨h1, h2, h3⟩ := ih _ _ _ _ hr (by omega)
    have hiu : ∀ j : UInt16, j = UInt16.ofNat i ↔ j.toNat = i := by
      intro j
      rw [← UInt16.toNat_inj, UInt16.toNat_ofNat', Nat.mod_eq_of_lt (by omega)]
    refine ⟨?_, ?_, ?_⟩
    · intro k x hx
      rw [List.mem_append] at hx
      rcases hx with hx | hx
      · rw [List.mem_map] at hx
        obtain ⟨⟨j, k'⟩, hm, he⟩ := hx
        simp only [Prod.mk.injEq] at he
        obtain ⟨rfl, rfl⟩ := he
        rw [List.mem_filter] at hm
        simp only [decide_eq_true_eq, hiu] at hm
        refine ⟨j, hm.1, by omega, ?_⟩
        rw [hm.2]; simp
      · obtain ⟨j, hm, hle, hg⟩ := h1 k x hx
        rw [List.mem_filter] at hm
        refine ⟨j, hm.1, by omega, ?_⟩
        have : j.toNat - i = (j.toNat - (i + 1)) + 1 := by omega
        rw [this, List.getElem?_cons_succ]
        exact hg
    · intro j k
      rw [h2, List.mem_filter]
      simp only [ne_eq, decide_not, Bool.not_eq_true', decide_eq_false_iff_not, hiu, List.length_cons]
      constructor
      · rintro ⟨⟨a, b⟩, c⟩; exact ⟨a, by omega⟩
      · rintro ⟨a, c⟩; exact ⟨⟨a, by omega⟩, by omega⟩
    · rw [List.map_append, List.map_map, List.append_assoc]
      have hp : (refs.map (·.2)).Perm ((refs.filter fun r => r.1 = UInt16.ofNat i).map (·.2) ++
          (refs.filter fun r => r.1 ≠ UInt16.ofNat i).map (·.2)) := by
        rw [← List.map_append]
        refine List.Perm.map _ ?_
        have := List.filter_append_perm (fun r : UInt16 × Nat => decide (r.1 = UInt16.ofNat i)) refs
        simpa using this.symm
      refine List.Perm.trans ?_ hp.symm
      exact List.Perm.append (List.Perm.refl _) h3

/-! ## Panics of the pool reader -/

theorem NumCodec.read_no_panic {α : Type} (c : NumCodec α) (bs : Bytes) : c.read bs ≠ .error .panic := by
  unfold NumCodec.read
  split
  · simp
  · rename_i e h
    intro he
    cases he
    unfold readExact at h
    split at h <;> cases h

theorem readString_no_panic (bs : Bytes) : readString bs ≠ .error .panic := by
  unfold readString
  split
  · split
    · rename_i buf _ _
      rcases Mutf8.decode_total buf with ⟨r, h⟩ | h <;> rw [h] <;> simp
    · rename_i e h
      intro he
      cases he
      unfold readExact at h
      split at h <;> cases h
  · rename_i e h
    intro he
    cases he
    exact NumCodec.read_no_panic _ _ h

theorem bind_no_panic {α β : Type} {r : Reader α} {f : α → Reader β} {bs : Bytes}
    (h1 : r bs ≠ .error .panic) (h2 : ∀ a rest, f a rest ≠ .error .panic) :
    Reader.bind r f bs ≠ .error .panic := by
  unfold Reader.bind
  split
  · exact h2 _ _
  · rename_i e h
    intro he
    cases he
    exact h1 h

theorem map_no_panic {α β : Type} {r : Reader α} {f : α → β} {bs : Bytes}
    (h1 : r bs ≠ .error .panic) : r.map f bs ≠ .error .panic :=
  bind_no_panic h1 (fun _ _ => by simp [Reader.pure])

theorem map2_no_panic {α β γ : Type} {r : Reader α} {s : Reader β} {f : α → β → γ} {bs : Bytes}
    (h1 : ∀ bs, r bs ≠ .error .panic) (h2 : ∀ bs, s bs ≠ .error .panic) :
    Reader.map2 f r s bs ≠ .error .panic :=
  bind_no_panic (h1 _) (fun _ _ => bind_no_panic (h2 _) (fun _ _ => by simp [Reader.pure]))

theorem entry_no_panic (bs : Bytes) : Entry.read bs ≠ .error .panic := by
  have n8 : ∀ bs, u8.read bs ≠ .error .panic := NumCodec.read_no_panic _
  have n16 : ∀ bs, u16.read bs ≠ .error .panic := NumCodec.read_no_panic _
  refine bind_no_panic (n8 _) ?_
  intro tag rest
  unfold Entry.readPayload
  split
  · exact map_no_panic (readString_no_panic _)
  all_goals first
    | exact map_no_panic (NumCodec.read_no_panic _ _)
    | exact map2_no_panic n16 n16
    | exact map2_no_panic n8 n16
    | (intro h; cases h)

theorem readLoop_panic (count : UInt16) : ∀ (n : Nat) (i : UInt16) (acc : List (UInt16 × Entry))
    (bs : Bytes), 65536 - i.toNat ≤ n → MapCp.readLoop count i acc bs = .error .panic →
    count.toNat = 65535 := by
  intro n
  induction n with
  | zero => intro i _ _ h; have := i.toNat_lt; omega
  | succ n ih =>
    intro i acc bs hn h
    rw [MapCp.readLoop] at h
    split at h
    · rename_i hlt
      rw [UInt16.lt_iff_toNat_lt] at hlt
      split at h
      · rename_i e r he
        have hp := slots_pos e
        have hss := size_slots e
        split at h
        · rename_i hs
          exact ih _ _ _ (by rw [UInt16.toNat_add, Nat.mod_eq_of_lt hs]; omega) h
        · rename_i hs
          have h2 : slots e ≤ 2 := by cases e <;> simp [slots]
          have := count.toNat_lt
          omega
      · rename_i e he
        cases h
        exact absurd he (entry_no_panic bs)
    · cases h

theorem readLoop_cls (count : UInt16) (tail : Bytes) : ∀ (n : Nat) (i : UInt16)
    (acc : List (UInt16 × Entry)), i.toNat + n < count.toNat →
    ∃ acc', MapCp.readLoop count i acc ((List.replicate n [7, 0, 1]).flatten ++ tail) =
      MapCp.readLoop count (i + UInt16.ofNat n) acc' tail := by
  intro n
  induction n with
  | zero => intro i acc _; exact ⟨acc, by simp⟩
  | succ n ih =>
    intro i acc h
    have hc := count.toNat_lt
    have h1 : (i + 1).toNat = i.toNat + 1 := by
      rw [UInt16.toNat_add, Nat.mod_eq_of_lt (by simp; omega)]; rfl
    obtain ⟨acc', e⟩ := ih (i + 1) ((i, .cls 1) :: acc) (by omega)
    refine ⟨acc', ?_⟩
    rw [MapCp.readLoop, if_pos (by rw [UInt16.lt_iff_toNat_lt]; omega)]
    have hr := entry_reads (@EntryBytes.cls 1)
    have he : U1 7 ++ U2 (1 : UInt16).toNat = [7, 0, 1] := by decide
    rw [he] at hr
    rw [List.replicate_succ, List.flatten_cons, List.append_assoc, hr]
    simp only
    have h16 : i.toNat + (Entry.cls 1).size.toNat < 65536 := by
      have : (Entry.cls 1).size.toNat = 1 := rfl
      omega
    rw [if_pos h16]
    refine e.trans ?_
    congr 1
    rw [← UInt16.toNat_inj]
    simp [UInt16.toNat_add]
    omega

theorem agrees_exists (es : List Entry) : ∃ P, Agrees P es := by
  classical
  refine ⟨fun i => if h : ∃ e, At es i.toNat e then some h.choose else none, ?_⟩
  intro i e he
  have h : ∃ e, At es i.toNat e := ⟨e, he⟩
  simp only [dif_pos h]
  rw [h.choose_spec.functional he]

end Verif
