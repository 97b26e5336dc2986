import Verif.Lemmas.LocalCode
import Verif.Props.Annotation

/-! # C78: how deep reading annotations recurses

`AnnValue.readF d` is the reader that gives up (`diverge`) when `AnnotationValue::read_from` would call itself to a depth of
more than `d`; this is what a thread with room for `d` calls does. -/

namespace Verif.Props
open Spec

/-- Full claim: some depth is enough for all input. -/
def C78_full : Prop := ∃ d, ∀ env st bs, AnnValue.readF d env st bs = AnnValue.read env st bs

/-- `n` arrays with one element each, around an empty one. -/
def nested : Nat → Bytes
  | 0 => [0x5B, 0, 0]
  | n + 1 => [0x5B, 0, 1] ++ nested n

def nestedValue : Nat → AnnValue
  | 0 => .array []
  | n + 1 => .array [nestedValue n]

theorem nested_length : ∀ n, (nested n).length = 3 * n + 3
  | 0 => rfl
  | n + 1 => by rw [nested, List.length_append, nested_length n]; simp; omega

theorem num_cons2 (env : REnv) (st : RSt) (a b : UInt8) (rest : Bytes) :
    rNum u16 env st (a :: b :: rest) = .ok (UInt16.ofNat (a.toNat * 256 + b.toNat), st, rest) := by
  unfold rNum Rd.lift NumCodec.read readExact
  rw [if_pos (by simp [u16])]
  simp [u16, fromBe]

theorem array_read (d k : Nat) (hk : k < 256) (env : REnv) (st : RSt) (bs : Bytes) :
    AnnValue.readF (d + 1) env st (0x5B :: 0 :: UInt8.ofNat k :: bs) =
      Rd.map .array (Rd.replicate k (AnnValue.readF d)) env st bs := by
  have h1 : rNum u8 env st (0x5B :: 0 :: UInt8.ofNat k :: bs) = .ok (0x5B, st, 0 :: UInt8.ofNat k :: bs) := by
    unfold rNum Rd.lift NumCodec.read readExact
    rw [if_pos (by simp [u8])]
    rfl
  rw [AnnValue.readF]
  unfold Rd.bind
  simp only [h1]
  show Rd.map AnnValue.array (rVec u16 (AnnValue.readF d)) env st _ = _
  unfold Rd.map Rd.bind rVec
  unfold Rd.bind
  rw [num_cons2]
  have : u16.bits (UInt16.ofNat ((0 : UInt8).toNat * 256 + (UInt8.ofNat k).toNat)) = k := by
    simp [u16]
    omega
  simp only [this]

theorem nested_read : ∀ (n d : Nat) (env : REnv) (st : RSt) (rest : Bytes), n < d →
    AnnValue.readF d env st (nested n ++ rest) = .ok (nestedValue n, st, rest)
  | _, 0, _, _, _, h => absurd h (by omega)
  | 0, d + 1, env, st, rest, _ => (array_read d 0 (by omega) env st rest).trans rfl
  | n + 1, d + 1, env, st, rest, h => by
    refine (array_read d 1 (by omega) env st (nested n ++ rest)).trans ?_
    unfold Rd.map Rd.replicate Rd.replicate Rd.bind
    simp only
    rw [nested_read n d env st rest (by omega)]
    rfl

theorem nested_deep : ∀ (n d : Nat) (env : REnv) (st : RSt) (rest : Bytes), d ≤ n →
    AnnValue.readF d env st (nested n ++ rest) = .error .diverge
  | _, 0, _, _, _, _ => rfl
  | 0, _ + 1, _, _, _, h => absurd h (by omega)
  | n + 1, d + 1, env, st, rest, h => by
    refine (array_read d 1 (by omega) env st (nested n ++ rest)).trans ?_
    unfold Rd.map Rd.replicate Rd.bind
    simp only
    rw [nested_deep n d env st rest (by omega)]

/-- No depth is enough. -/
theorem C78_violated : ¬ C78_full := by
  rintro ⟨d, h⟩
  have h1 := h ⟨fun _ => none, none⟩ ⟨[], none⟩ (nested d ++ [])
  rw [nested_deep d d _ _ _ (Nat.le_refl _)] at h1
  unfold AnnValue.read at h1
  rw [nested_read d _ _ _ _ (by simp [nested_length]; omega)] at h1
  cases h1

/-- The payload of an attribute `AnnotationDefault` of `3 n + 3` bytes is accepted and takes a depth of `n + 1` calls,
for every `n` for which an attribute can be that long. -/
theorem C78_deep (n : Nat) (hn : 3 * n + 3 < 4294967296) (ord : Order) (P : Pool) (i : UInt16)
    (hi : IsUtf8 P i N.annotationDefault) (cs : Option (List Catch)) (st : RSt) (rest : Bytes) :
    MethodAttr.read ord ⟨P, cs⟩ st (U2 i.toNat ++ U4 (3 * n + 3) ++ nested n ++ rest) =
      .ok (.annotationDefault (nestedValue n), st, rest) ∧
    AnnValue.readF (n + 1) ⟨P, cs⟩ st (nested n) = .ok (nestedValue n, st, []) ∧
    ∀ d ≤ n, AnnValue.readF d ⟨P, cs⟩ st (nested n) = .error .diverge := by
  have h0 := nested_read n (n + 1) ⟨P, cs⟩ st [] (by omega)
  rw [List.append_nil] at h0
  refine ⟨?_, h0, fun d hd => ?_⟩
  · rw [← nested_length n]
    have hr : Rd.map MethodAttrOf.annotationDefault AnnValue.read ⟨P, cs⟩ st (nested n) =
        .ok ((.annotationDefault (nestedValue n) : MethodAttr), st, []) := by
      unfold Rd.map Rd.bind AnnValue.read
      have := nested_read n ((nested n).length + 1) ⟨P, cs⟩ st [] (by rw [nested_length]; omega)
      rw [List.append_nil] at this
      rw [this]
      rfl
    unfold MethodAttr.read
    rw [rAttr_eq (r := Rd.map .annotationDefault AnnValue.read) _ _ hi rfl (by rw [nested_length]; exact hn), hr]
  · have := nested_deep n d ⟨P, cs⟩ st [] hd
    rwa [List.append_nil] at this

theorem num_took {α : Type} {c : NumCodec α} {env : REnv} {st st' : RSt} {bs rest : Bytes} {a : α}
    (h : rNum c env st bs = .ok (a, st', rest)) : bs.length = c.size + rest.length :=
  NumCodec.read_length (rNum_ok h).2

/-- Every level of nesting takes three bytes. -/
theorem readF_same3 : ∀ n m, Same (3 * min n m) (AnnValue.readF n) (AnnValue.readF m)
  | 0, _ => fun _ _ _ h => absurd h (by omega)
  | _ + 1, 0 => fun _ _ _ h => absurd h (by omega)
  | n + 1, m + 1 => by
    intro env st bs hl
    have ih := readF_same3 n m
    have hs := Shrinks.annValue n
    simp only [AnnValue.readF, Rd.bind]
    rcases h : rNum u8 env st bs with _ | ⟨tag, st', rest⟩
    · rfl
    · have hr : rest.length < 3 * min n m + 2 := by
        have := num_took h
        simp only [show u8.size = 1 from rfl] at this
        omega
      have vec : ∀ {α : Type} {r r' : Rd α}, Same (3 * min n m) r r' → Shrinks r →
          Same (3 * min n m + 2) (rVec u16 r) (rVec u16 r') := by
        intro α r r' h hs env st bs hl
        unfold rVec Rd.bind
        rcases h1 : rNum u16 env st bs with _ | ⟨k, st1, rest1⟩
        · rfl
        · have := num_took h1
          simp only [show u16.size = 2 from rfl] at this
          exact h.replicate hs _ env st1 rest1 (by omega)
      refine Same.ite (.refl _ _) (.ite (.refl _ _) (.ite (.refl _ _) (.ite (.refl _ _)
        (.ite (.refl _ _) (.ite (.refl _ _) (.ite (.refl _ _) (.ite (.refl _ _) (.ite (.refl _ _)
        (.ite (.refl _ _) (.ite (.refl _ _) (.ite ?_ (.ite ?_ (.refl _ _))))))))))))) env st' rest hr
      · refine (Same.refl _ _).bind (.map .type) (fun _ => Same.bind ?_ (.elemsWith hs) (fun _ => .refl _ _))
        refine (vec ?_ ?_).bind (.vec ?_) (fun _ => .refl _ _)
        · exact (Same.refl _ _).bind .utf8 (fun _ => ih.bind hs (fun _ => .refl _ _))
        · exact Shrinks.utf8.bind (fun _ => hs.map)
        · exact Shrinks.utf8.bind (fun _ => hs.map)
      · exact (vec ih hs).bind (.vec hs) (fun _ => .refl _ _)

/-- Proved: the depth is at most a third of the length of the input, and one more; `C78_deep` shows that this is exact. -/
theorem C78_bound_partial (env : REnv) (st : RSt) (bs : Bytes) (d : Nat) (hd : bs.length / 3 < d) :
    AnnValue.readF d env st bs = AnnValue.read env st bs :=
  readF_same3 d (bs.length + 1) env st bs (by omega)

/-- Thirty arrays in an attribute of 93 bytes. -/
example (P : Pool) : AnnValue.readF 31 ⟨P, none⟩ ⟨[], none⟩ (nested 30) = .ok (nestedValue 30, ⟨[], none⟩, []) ∧
    AnnValue.readF 30 ⟨P, none⟩ ⟨[], none⟩ (nested 30) = .error .diverge := by
  constructor
  · have := nested_read 30 31 ⟨P, none⟩ ⟨[], none⟩ [] (by omega)
    rwa [List.append_nil] at this
  · have := nested_deep 30 30 ⟨P, none⟩ ⟨[], none⟩ [] (by omega)
    rwa [List.append_nil] at this

end Verif.Props
