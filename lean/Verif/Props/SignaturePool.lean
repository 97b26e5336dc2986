import Verif.Props.SignatureText
import Verif.Props.Single

/-! # C72, C80: signatures through the constant pool (src/signature.rs:486-500, 530-540) -/

namespace Verif.Props
open Verif.Spec Verif.Sig Verif.JType

/-- Text of scalar values, as a `String` has. -/
def Scalars (cs : Str) : Prop := ∀ c ∈ cs, IsCodePoint c ∧ ¬ IsSurrogate c

theorem scalars_of (cs : Str) (h : cs.all (· < 0x80) = true) : Scalars cs := by
  intro c hc
  have := List.all_eq_true.mp h c hc
  simp at this
  exact ⟨by unfold IsCodePoint; omega, by unfold IsSurrogate; omega⟩

theorem wSig_eq {cs : Str} (h : Scalars cs) : wSig cs = wUtf8 (encodeCps cs) := by
  unfold wSig
  rw [show cs.foldl JType.pushChar [] = encodeCps cs from foldl_pushChar [] cs (fun c hc => (h c hc).1)]

theorem rSig_utf8 {α : Type} {parse : Str → Res α} {x : α} {cs : Str} {P : Pool} {i : UInt16}
    (h : Scalars cs) (hp : parse cs = .ok x) (hi : IsUtf8 P i (encodeCps cs)) (ct : Option (List Catch)) :
    PReads (rSig parse) ⟨P, ct⟩ (U2 i.toNat) x :=
  reads_sig (text := fun y ds => ds = cs ∧ y = x) (c := ⟨P, [], fun _ => none, fun _ => none⟩) (by rintro _ ⟨rfl, _⟩; exact hp)
    ⟨i, ⟨cs, ⟨rfl, rfl⟩, h, hi⟩, rfl⟩ ct

/-- Text that is written, and parsed as `x`. -/
theorem sig_trip {α : Type} {parse : Str → Res α} {x : α} {cs : Str} (hs : Scalars cs)
    (hp : parse cs = .ok x) {cp cp' cp'' : VecCp} {bs : Bytes} {P : Pool} (h0 : Steps VecCp.new cp)
    (h1 : wSig cs cp = .ok (bs, cp')) (h2 : Steps cp' cp'') (hP : Agrees P cp''.entries) :
    Refer (fun i => IsUtf8 P i (encodeCps cs)) bs ∧ ∀ ct, PReads (rSig parse) ⟨P, ct⟩ bs x := by
  rw [wSig_eq hs] at h1
  obtain ⟨i, h3, rfl⟩ := wIdx_ok h1
  have h4 := hP i _ (C20_stable h0 h3 h2)
  exact ⟨⟨i, rfl, h4⟩, fun ct => rSig_utf8 hs hp h4 ct⟩

/-- C72. A part of a signature is written as the index of its JVMS text, and is read back with any
pool that has at least the entries the writer has at the end. -/
theorem C72_signature_simple {s : SimpleSig} {cs : Str} (h : SText s cs) (hs : Scalars cs)
    {cp cp' cp'' : VecCp} {bs : Bytes} {P : Pool} (h0 : Steps VecCp.new cp)
    (h1 : wSig (showS s) cp = .ok (bs, cp')) (h2 : Steps cp' cp'') (hP : Agrees P cp''.entries) :
    Refer (fun i => IsUtf8 P i (encodeCps cs)) bs ∧ ∀ ct, PReads (rSig parseSimple) ⟨P, ct⟩ bs s := by
  have ht := C18_simple h
  rw [ht.1] at h1
  exact sig_trip hs ht.2 h0 h1 h2 hP

theorem C72_signature_class_type {c : ClassTySig} {cs : Str} (h : CText c cs) (hs : Scalars cs)
    {cp cp' cp'' : VecCp} {bs : Bytes} {P : Pool} (h0 : Steps VecCp.new cp)
    (h1 : wSig (showC c) cp = .ok (bs, cp')) (h2 : Steps cp' cp'') (hP : Agrees P cp''.entries) :
    Refer (fun i => IsUtf8 P i (encodeCps cs)) bs ∧ ∀ ct, PReads (rSig parseClassTy) ⟨P, ct⟩ bs c := by
  have ht := C18_class_type h
  rw [ht.1] at h1
  exact sig_trip hs ht.2 h0 h1 h2 hP

theorem C72_signature_type {t : TypeSig} {cs : Str} (h : TText t cs) (hs : Scalars cs)
    {cp cp' cp'' : VecCp} {bs : Bytes} {P : Pool} (h0 : Steps VecCp.new cp)
    (h1 : wSig (showT t) cp = .ok (bs, cp')) (h2 : Steps cp' cp'') (hP : Agrees P cp''.entries) :
    Refer (fun i => IsUtf8 P i (encodeCps cs)) bs ∧ ∀ ct, PReads (rSig parseTypeSig) ⟨P, ct⟩ bs t := by
  have ht := C18_type h
  rw [ht.1] at h1
  exact sig_trip hs ht.2 h0 h1 h2 hP

theorem C72_signature_throws {c : ClassTySig} {cs : Str} (h : CText c cs) (hs : Scalars cs)
    {cp cp' cp'' : VecCp} {bs : Bytes} {P : Pool} (h0 : Steps VecCp.new cp)
    (h1 : wSig (showThrows (.cls c)) cp = .ok (bs, cp')) (h2 : Steps cp' cp'') (hP : Agrees P cp''.entries) :
    Refer (fun i => IsUtf8 P i (encodeCps (0x5E :: cs))) bs ∧
      ∀ ct, PReads (rSig parseThrows) ⟨P, ct⟩ bs (.cls c) := by
  rw [showThrows, (C18_class_type h).1] at h1
  refine sig_trip ?_ (C19_throws (.cls h)) h0 h1 h2 hP
  intro x hx
  rcases List.mem_cons.mp hx with rfl | hx
  · exact ⟨by decide, by decide⟩
  · exact hs x hx

/-- C72. A type parameter is read back exactly if it has one bound. -/
theorem C72_signature_param {p : TypeParam} {cs : Str} (h : ParamText p cs) (hs : Scalars cs)
    (hb : SingleBounds [p]) {cp cp' cp'' : VecCp} {bs : Bytes} {P : Pool} (h0 : Steps VecCp.new cp)
    (h1 : wSig (showParam p) cp = .ok (bs, cp')) (h2 : Steps cp' cp'') (hP : Agrees P cp''.entries) :
    Refer (fun i => IsUtf8 P i (encodeCps cs)) bs ∧ ∀ ct, PReads (rSig parseParam) ⟨P, ct⟩ bs p := by
  rw [showParam_text h] at h1
  exact sig_trip hs ((C19_param_right_iff h).mpr hb) h0 h1 h2 hP

/-- C80. A JVMS class signature in the pool is read, and what is read is written as the same string
again, also if it was misread. -/
theorem C80_pool_class {c : ClassSig} {cs : Str} {P : Pool} {i : UInt16} (h : ClassText c cs)
    (hs : Scalars cs) (hi : IsUtf8 P i (encodeCps cs)) :
    ∃ d, (∀ ct, PReads (rSig parseClass) ⟨P, ct⟩ (U2 i.toNat) d) ∧
      wSig (showClass d) = wUtf8 (encodeCps cs) := by
  obtain ⟨d, h1, h2⟩ := C80_class_text h
  exact ⟨d, fun ct => rSig_utf8 hs h1 hi ct, by rw [h2, wSig_eq hs]⟩

/-- C80. The same for methods that throw no type variables. -/
theorem C80_pool_method_partial {m : MethodSig} {cs : Str} {P : Pool} {i : UInt16} (h : MethodText m cs)
    (hs : Scalars cs) (hi : IsUtf8 P i (encodeCps cs)) (ht : ∀ n, ThrowsSig.typeParam n ∉ m.throws) :
    ∃ d, (∀ ct, PReads (rSig parseMethod) ⟨P, ct⟩ (U2 i.toNat) d) ∧
      wSig (showMethod d) = wUtf8 (encodeCps cs) := by
  obtain ⟨d, h1, h2⟩ := C80_method_text_partial h
  exact ⟨d, fun ct => rSig_utf8 hs h1 hi ct, by rw [h2 ht, wSig_eq hs]⟩

/-- `<T:LA;:LA;>LA;` as entry 1 of a pool. -/
example : ∃ cs d, ClassText ⟨[⟨[0x54], some (.cls clsA), [.cls clsA]⟩], clsA, []⟩ cs ∧
    (∀ ct, PReads (rSig parseClass) ⟨fun i => if i = 1 then some (.utf8 (encodeCps cs)) else none, ct⟩ [0, 1] d) ∧
    wSig (showClass d) = wUtf8 (encodeCps cs) := by
  have h : ClassText ⟨[⟨[0x54], some (.cls clsA), [.cls clsA]⟩], clsA, []⟩ _ :=
    .mk (.some (by simp) (.cons (.cls ident_T (.mk (.cls clsA_text))
      (.cons (.mk (.cls clsA_text)) .nil)) .nil)) clsA_text .nil
  obtain ⟨d, h1, h2⟩ := C80_pool_class (P := fun i => if i = 1 then some (.utf8 _) else none) (i := 1) h
    (scalars_of _ (by decide)) rfl
  exact ⟨_, d, h, h1, h2⟩

/-- `A<TT;>` is written into an empty pool. -/
example : ∃ cs cp', SText (.mk [0x41] [.exact (.typeVar [0x54])]) cs ∧ Scalars cs ∧
    wSig (showS (.mk [0x41] [.exact (.typeVar [0x54])])) VecCp.new = .ok ([0, 1], cp') := by
  have h : SText (.mk [0x41] [.exact (.typeVar [0x54])]) _ :=
    .args ident_A (by simp) (.cons (.exact (.typeVar ident_T)) .nil)
  refine ⟨_, _, h, ?_, rfl⟩
  exact scalars_of _ (by decide)

end Verif.Props
