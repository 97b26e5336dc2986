import Verif.Lemmas.LocalCode
import Verif.Props.Attr

/-! # C42 for the attributes of methods and of code -/

namespace Verif.Props
open Spec

theorem methodTable_some' (o : Nat → List LocalVariable → List LocalVariable) {n : Bytes}
    (h : n ∈ methodAttrNames) : ∃ r, MethodAttr.table o n = some r := by
  simp only [methodAttrNames, List.mem_cons, List.not_mem_nil, or_false] at h
  rcases h with rfl | rfl | rfl | rfl | rfl | rfl | rfl | rfl | rfl | rfl | rfl | rfl | rfl <;> exact ⟨_, rfl⟩

theorem codeTable_some' {n : Bytes} (h : n ∈ codeAttrNames) : ∃ r, CodeAttr.table n = some r := by
  simp only [codeAttrNames, List.mem_cons, List.not_mem_nil, or_false] at h
  rcases h with rfl | rfl | rfl | rfl | rfl | rfl <;> exact ⟨_, rfl⟩

/-- An attribute of a method or of code that the library does not know is read as its name and payload. -/
theorem C42_raw_method (ord : Order) (P : Pool) (i : UInt16) (name body rest : Bytes) (hi : IsUtf8 P i name)
    (hn : name ∉ methodAttrNames) (hl : body.length < 4294967296) (cs : Option (List Catch)) (st : RSt) :
    MethodAttr.read ord ⟨P, cs⟩ st (U2 i.toNat ++ U4 body.length ++ body ++ rest) =
      .ok (.raw ⟨name, body⟩, st, rest) :=
  PReads.rawAttr (c := ⟨P, [], fun _ => none, fun _ => none⟩) hi (methodTable_none hn) hl st rest

theorem C42_raw_code (P : Pool) (i : UInt16) (name body rest : Bytes) (hi : IsUtf8 P i name)
    (hn : name ∉ codeAttrNames) (hl : body.length < 4294967296) (cs : Option (List Catch)) (st : RSt) :
    CodeAttr.read ⟨P, cs⟩ st (U2 i.toNat ++ U4 body.length ++ body ++ rest) =
      .ok (.raw ⟨name, body⟩, st, rest) :=
  PReads.rawAttr (c := ⟨P, [], fun _ => none, fun _ => none⟩) hi (codeTable_none hn) hl st rest

/-- Code attributes: no longer and no shorter payload is accepted, and nothing beyond it is looked at. -/
theorem C42_code_length (P : Pool) (cs : Option (List Catch)) (st st' : RSt) (i : UInt16)
    (name body : Bytes) (a : CodeAttr) (hi : IsUtf8 P i name) (hn : name ∈ codeAttrNames)
    (hl : body.length < 4294967296)
    (h : CodeAttr.read ⟨P, cs⟩ st (U2 i.toNat ++ U4 body.length ++ body) = .ok (a, st', [])) :
    (∀ rest, CodeAttr.read ⟨P, cs⟩ st (U2 i.toNat ++ U4 body.length ++ body ++ rest) =
      .ok (a, st', rest)) ∧
    (∀ more rest, more ≠ [] → (body ++ more).length < 4294967296 →
      CodeAttr.read ⟨P, cs⟩ st (U2 i.toNat ++ U4 (body ++ more).length ++ (body ++ more) ++ rest) =
        .error (.attrLen (UInt32.ofNat (body ++ more).length) (UInt32.ofNat body.length) name)) ∧
    ∀ less more rest, body = less ++ more → more ≠ [] →
      ∃ e, CodeAttr.read ⟨P, cs⟩ st (U2 i.toNat ++ U4 less.length ++ less ++ rest) = .error e := by
  obtain ⟨r, ht⟩ := codeTable_some' hn
  have hr := Local.codeTable r ht
  have hb := payload_of_ok hi ht hl h
  refine ⟨fun rest => ?_, fun more rest hm hml => attr_longer hi ht hr hb hm hml, ?_⟩
  · exact (rAttr_eq _ _ hi ht hl st).trans (by rw [hb])
  · rintro less more rest rfl hm
    simp only [List.length_append] at hl
    exact attr_shorter hi ht hr hb hm (by omega)

/-- The reader for a name, for three orders of the variables. -/
theorem method_readers {ord ord' : Order} (ho : ∀ n k vs, (ord n k vs).Perm vs)
    (ho' : ∀ n k vs, (ord' n k vs).Perm vs) (n m : Nat) {name : Bytes} (hn : name ∈ methodAttrNames) :
    ∃ r r0 r', MethodAttr.table (ord n) name = some r ∧ MethodAttr.table (fun _ vs => vs) name = some r0 ∧
      MethodAttr.table (ord' m) name = some r' ∧ Local r0 ∧ Par (SimilarAttr ShuffledCode) r r0 ∧
      Par (SimilarAttr ShuffledCode) r0 r' ∧ Par (SimilarAttr ShuffledCode) r r' := by
  have key : ∀ o o' : Nat → List LocalVariable → List LocalVariable, (∀ k vs, (o k vs).Perm (o' k vs)) →
      Par ShuffledCode (Code.read o) (Code.read o') := fun o o' h =>
    .code (fun k s l is cs as vs => ⟨_, rfl, each_append (each_refl (fun _ => .inl rfl) as)
      (.cons (.inr ⟨_, _, rfl, rfl, h k vs⟩) .nil)⟩) shuffledCode_refl
  obtain ⟨r, h⟩ := methodTable_some' (ord n) hn
  obtain ⟨r0, h0⟩ := methodTable_some' (fun _ vs => vs) hn
  obtain ⟨r', h'⟩ := methodTable_some' (ord' m) hn
  have pick : ∀ {o o' : Nat → List LocalVariable → List LocalVariable} {x y : Rd MethodAttr},
      (∀ k vs, (o k vs).Perm (o' k vs)) → MethodAttr.table o name = some x →
      MethodAttr.table o' name = some y → Par (SimilarAttr ShuffledCode) x y := by
    intro o o' x y hp hx hy
    rcases Par.methodTable (key o o' hp) name with ⟨h1, _⟩ | ⟨_, _, h1, h2, h3⟩
    · rw [hx] at h1; cases h1
    · rw [hx] at h1
      rw [hy] at h2
      cases h1
      cases h2
      exact h3
  exact ⟨r, r0, r', h, h0, h', Local.methodTable r0 h0, pick (ho n) h h0,
    pick (fun k vs => (ho' m k vs).symm) h0 h',
    pick (fun k vs => (ho n k vs).trans (ho' m k vs).symm) h h'⟩

/-- The same for attributes of methods, among them whole method bodies; here the order of the variables
is that of a hash map and may be different each time. -/
theorem C42_method_length (ord ord' : Order) (ho : ∀ n k vs, (ord n k vs).Perm vs)
    (ho' : ∀ n k vs, (ord' n k vs).Perm vs) (P : Pool) (cs : Option (List Catch)) (st st' : RSt) (i : UInt16)
    (name body : Bytes) (a : MethodAttr) (hi : IsUtf8 P i name) (hn : name ∈ methodAttrNames)
    (hl : body.length < 4294967296)
    (h : MethodAttr.read ord ⟨P, cs⟩ st (U2 i.toNat ++ U4 body.length ++ body) = .ok (a, st', [])) :
    (∀ rest, ∃ a', MethodAttr.read ord' ⟨P, cs⟩ st (U2 i.toNat ++ U4 body.length ++ body ++ rest) =
      .ok (a', st', rest) ∧ SimilarAttr ShuffledCode a a') ∧
    (∀ more rest, more ≠ [] → (body ++ more).length < 4294967296 →
      MethodAttr.read ord' ⟨P, cs⟩ st (U2 i.toNat ++ U4 (body ++ more).length ++ (body ++ more) ++ rest) =
        .error (.attrLen (UInt32.ofNat (body ++ more).length) (UInt32.ofNat body.length) name)) ∧
    ∀ less more rest, body = less ++ more → more ≠ [] →
      ∃ e, MethodAttr.read ord' ⟨P, cs⟩ st (U2 i.toNat ++ U4 less.length ++ less ++ rest) = .error e := by
  refine ⟨fun rest => ?_, fun more rest hm hml => ?_, ?_⟩
  · obtain ⟨r, r0, r', e, e0, e', _, _, _, hp⟩ := method_readers ho ho'
      (U2 i.toNat ++ U4 body.length ++ body).length (U2 i.toNat ++ U4 body.length ++ body ++ rest).length hn
    have hb := payload_of_ok hi e hl h
    rcases hp ⟨P, cs⟩ st body with ⟨_, h1, _⟩ | ⟨x, y, s, left, h1, h2, h3⟩
    · rw [hb] at h1; cases h1
    · rw [hb] at h1
      cases h1
      exact ⟨y, (rAttr_eq _ _ hi e' hl st).trans (by rw [h2]), h3⟩
  · obtain ⟨r, r0, r', e, e0, e', hloc, hp, hp', _⟩ := method_readers ho ho'
      (U2 i.toNat ++ U4 body.length ++ body).length
      (U2 i.toNat ++ U4 (body ++ more).length ++ (body ++ more) ++ rest).length hn
    have hb := payload_of_ok hi e hl h
    rcases hp ⟨P, cs⟩ st body with ⟨_, h1, _⟩ | ⟨x, y, s, left, h1, h2, h3⟩
    · rw [hb] at h1; cases h1
    rw [hb] at h1
    cases h1
    have h4 := hloc.more more h2
    rcases hp' ⟨P, cs⟩ st (body ++ more) with ⟨_, h5, _⟩ | ⟨x', y', s', left', h5, h6, h7⟩
    · rw [h4] at h5; cases h5
    rw [h4] at h5
    cases h5
    refine (rAttr_eq _ _ hi e' hml st).trans ?_
    rw [h6]
    cases more with
    | nil => exact absurd rfl hm
    | cons x xs => exact congrArg (fun u => Except.error (Err.attrLen _ u _)) (used_length body (x :: xs))
  · rintro less more rest rfl hm
    obtain ⟨r, r0, r', e, e0, e', hloc, hp, hp', _⟩ := method_readers ho ho'
      (U2 i.toNat ++ U4 (less ++ more).length ++ (less ++ more)).length
      (U2 i.toNat ++ U4 less.length ++ less ++ rest).length hn
    have hb := payload_of_ok hi e hl h
    simp only [List.length_append] at hl
    rcases hp ⟨P, cs⟩ st (less ++ more) with ⟨_, h1, _⟩ | ⟨x, y, s, left, h1, h2, h3⟩
    · rw [hb] at h1; cases h1
    rw [hb] at h1
    cases h1
    rcases hp' ⟨P, cs⟩ st less with ⟨e1, _, h6⟩ | ⟨x', y', s', left', h5, h6, h7⟩
    · exact ⟨e1, (rAttr_eq _ _ hi e' (by omega) st).trans (by rw [h6])⟩
    cases left' with
    | cons => exact ⟨_, (rAttr_eq _ _ hi e' (by omega) st).trans (by rw [h6])⟩
    | nil =>
      have h8 := hloc.more more h5
      rw [h2] at h8
      simp only [List.nil_append, Except.ok.injEq, Prod.mk.injEq] at h8
      exact absurd h8.2.2.symm hm

/-- The body `return`, with nothing else; a byte more is refused. -/
example : ∃ P : Pool, ∃ x,
    MethodAttr.read (fun _ _ vs => vs) ⟨P, none⟩ ⟨[], none⟩
      [0, 1, 0, 0, 0, 13, 0, 0, 0, 0, 0, 0, 0, 1, 0xB1, 0, 0, 0, 0] = .ok (.code x, ⟨[], none⟩, []) ∧
    MethodAttr.read (fun _ _ vs => vs) ⟨P, none⟩ ⟨[], none⟩
      [0, 1, 0, 0, 0, 14, 0, 0, 0, 0, 0, 0, 0, 1, 0xB1, 0, 0, 0, 0, 7] = .error (.attrLen 14 13 N.code) := by
  obtain ⟨P, hP⟩ := agrees_exists [.utf8 N.code]
  have h1 : IsUtf8 P 1 N.code := hP 1 _ ⟨[], [], rfl, rfl⟩
  have h2 : ∃ x, Code.read (fun _ vs => vs) ⟨P, none⟩ ⟨[], none⟩ [0, 0, 0, 0, 0, 0, 0, 1, 0xB1, 0, 0, 0, 0] =
      .ok (x, ⟨[], none⟩, []) := ⟨_, by with_unfolding_all rfl⟩
  obtain ⟨x, h2⟩ := h2
  have h3 : MethodAttr.read (fun _ _ vs => vs) ⟨P, none⟩ ⟨[], none⟩
      (U2 (1 : UInt16).toNat ++ U4 13 ++ [0, 0, 0, 0, 0, 0, 0, 1, 0xB1, 0, 0, 0, 0]) =
      .ok (.code x, ⟨[], none⟩, []) :=
    (rAttr_eq (rest := []) (cs := none) (body := [0, 0, 0, 0, 0, 0, 0, 1, 0xB1, 0, 0, 0, 0])
      (MethodAttr.table fun _ vs => vs) .raw h1 (r := Rd.map .code (Code.read fun _ vs => vs)) rfl
      (by decide) ⟨[], none⟩).trans (by
        unfold Rd.map Rd.bind
        rw [h2]
        rfl)
  exact ⟨P, x, h3, (C42_method_length (fun _ _ vs => vs) (fun _ _ vs => vs) (fun _ _ _ => .refl _)
    (fun _ _ _ => .refl _) P none _ _ 1 N.code [0, 0, 0, 0, 0, 0, 0, 1, 0xB1, 0, 0, 0, 0] _ h1 (by decide)
    (by decide) h3).2.1 [7] [] (by simp) (by decide)⟩

end Verif.Props
