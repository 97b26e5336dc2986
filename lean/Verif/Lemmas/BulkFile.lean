import Verif.Lemmas.BulkPool
import Verif.Props.Input
import Verif.Lemmas.Wtf8Wide
/-! A file in which every interface has the same long name, and the class in it. -/

namespace Verif.Props
open Spec

/-- A file in which `n` interfaces all have the same name of `l` bytes. -/
def interfaceFile (l n : Nat) : Bytes :=
  [0xCA, 0xFE, 0xBA, 0xBE, 0, 0, 0, 52] ++ ([0, 3] ++ (utf8Bytes (List.replicate l 0x41) ++ ([7, 0, 1] ++
    ([0, 0x21] ++ ([0, 2] ++ ([0, 0] ++ (u16.write (UInt16.ofNat n) ++ ((List.replicate n [0, 2]).flatten ++
      [0, 0, 0, 0, 0, 0]))))))))

theorem interfaceFile_length (l n : Nat) : (interfaceFile l n).length = 30 + l + 2 * n := by
  simp [interfaceFile, utf8Bytes, NumCodec.write, u16, toBe_length]
  omega

theorem decode_letters (l : Nat) : Mutf8.decode (List.replicate l 0x41) = .ok (List.replicate l 0x41) := by
  have hs : ∀ l, Mutf8.scan false (List.replicate l 0x41) = .ok false := by
    intro l
    induction l with
    | zero => rw [List.replicate_zero, Mutf8.scan]
    | succ l ih =>
      rw [List.replicate_succ]
      unfold Mutf8.scan
      rw [if_neg (by decide), if_neg (by decide)]
      exact ih
  have he : ∀ l, encodeCps (List.replicate l 0x41) = List.replicate l 0x41 := by
    intro l
    induction l with
    | zero => rfl
    | succ n ih => rw [List.replicate_succ, Wtf8.encodeCps_cons, ih, List.replicate_succ]; rfl
  unfold Mutf8.decode
  rw [hs]
  simp only [bind, Except.bind]
  rw [if_neg (by simp), ← he l]
  refine Mutf8.fromBytes'_encode _ ⟨?_, ?_⟩
  · intro c hc
    rw [List.eq_of_mem_replicate hc]
    decide
  · clear hs he
    induction l with
    | zero => exact True.intro
    | succ l ih =>
      cases l with
      | zero => exact True.intro
      | succ l => exact ⟨by decide, ih⟩

theorem letters_read {l : Nat} (hl : l ≤ 65535) :
    ReadsTo Entry.read (utf8Bytes (List.replicate l 0x41)) (.utf8 (List.replicate l 0x41)) := by
  intro rest
  have h : readString ((u16.write (UInt16.ofNat l) ++ List.replicate l 0x41) ++ rest) = .ok (List.replicate l 0x41, rest) := by
    unfold readString
    rw [List.append_assoc, NumCodec.reads u16_lawful (UInt16.ofNat l)]
    dsimp only
    rw [readExact_append _ _ _ (by rw [List.length_replicate, UInt16.toNat_ofNat', Nat.mod_eq_of_lt (by omega)])]
    dsimp only
    rw [decode_letters]
  unfold utf8Bytes
  rw [List.length_replicate]
  unfold Entry.read Reader.bind
  rw [show u8.read (1 :: (u16.write (UInt16.ofNat l) ++ List.replicate l 0x41) ++ rest) =
    .ok (1, (u16.write (UInt16.ofNat l) ++ List.replicate l 0x41) ++ rest) from NumCodec.reads u8_lawful 1 _]
  show Reader.map Entry.utf8 readString _ = _
  unfold Reader.map Reader.bind
  rw [h]
  rfl

theorem pool_letters {l : Nat} (hl : l ≤ 65535) (rest : Bytes) :
    MapCp.read ([0, 3] ++ (utf8Bytes (List.replicate l 0x41) ++ ([7, 0, 1] ++ rest))) =
      .ok (⟨[(2, .cls 1), (1, .utf8 (List.replicate l 0x41))]⟩, rest) := by
  unfold MapCp.read Reader.bind
  rw [show u16.read ([0, 3] ++ (utf8Bytes (List.replicate l 0x41) ++ ([7, 0, 1] ++ rest))) =
    .ok (3, utf8Bytes (List.replicate l 0x41) ++ ([7, 0, 1] ++ rest)) from NumCodec.reads u16_lawful 3 _]
  dsimp only
  rw [MapCp.readLoop, if_pos (by decide), letters_read hl]
  dsimp only
  rw [show (Entry.utf8 (List.replicate l 0x41)).size = 1 from rfl, if_pos (by decide), MapCp.readLoop,
    if_pos (by decide), show Entry.read ([7, 0, 1] ++ rest) = .ok (.cls 1, rest) from rfl]
  dsimp only
  rw [show (Entry.cls 1).size = 1 from rfl, if_pos (by decide), MapCp.readLoop, if_neg (by decide)]
  rfl

theorem names_read {name : Bytes} {env : REnv} (he : Pool.indirect env.pool 7 2 = some name) (st : RSt) (rest : Bytes) :
    ∀ n, Rd.replicate n (rStr 7) env st ((List.replicate n [0, 2]).flatten ++ rest) =
      .ok (List.replicate n name, st, rest)
  | 0 => rfl
  | n + 1 => by
    have ih := names_read he st rest n
    rw [Rd.replicate]
    have h1 : rStr 7 env st ((List.replicate (n + 1) [0, 2]).flatten ++ rest) =
        .ok (name, st, (List.replicate n [0, 2]).flatten ++ rest) := by
      rw [List.replicate_succ, List.flatten_cons, List.append_assoc]
      unfold rStr rIdx Rd.bind rNum Rd.lift rLookup
      have hu : ∀ r, u16.read ([0, 2] ++ r) = .ok (2, r) := fun _ => rfl
      rw [hu]
      dsimp only
      rw [he]
    unfold Rd.bind
    rw [h1]
    dsimp only
    rw [ih]
    rfl

/-- The class in the file. -/
def interfaceClass (l n : Nat) : Class :=
  ⟨⟨0, .j8⟩, Flags.ofBitsTruncate .cls 0x21, List.replicate l 0x41, none, List.replicate n (List.replicate l 0x41), [], [], []⟩

theorem interfaces_read (ord : Order) {l n : Nat} (hl : l ≤ 65535) (hn : n ≤ 65535) :
    Class.read ord (interfaceFile l n) = .ok (interfaceClass l n, []) := by
  unfold Class.read interfaceFile
  rw [show u32.read ([0xCA, 0xFE, 0xBA, 0xBE, 0, 0, 0, 52] ++ _) = .ok (jvmMagic, [0, 0, 0, 52] ++ _) from
    NumCodec.reads u32_lawful jvmMagic _]
  dsimp only
  have hv : ∀ r, Version.read ([0, 0, 0, 52] ++ r) = .ok (⟨0, .j8⟩, r) := fun _ => rfl
  rw [if_pos rfl, hv]
  dsimp only
  rw [pool_letters hl]
  dsimp only
  have h : Class.readBody ord ⟨0, .j8⟩ ⟨(MapCp.mk [(2, .cls 1), (1, .utf8 (List.replicate l 0x41))]).get, none⟩ ⟨[], none⟩
      ([0, 0x21] ++ ([0, 2] ++ ([0, 0] ++ (u16.write (UInt16.ofNat n) ++ ((List.replicate n [0, 2]).flatten ++
      [0, 0, 0, 0, 0, 0]))))) = .ok (interfaceClass l n, ⟨[], none⟩, []) := by
    have hv : rVec u16 (rStr 7) ⟨(MapCp.mk [(2, .cls 1), (1, .utf8 (List.replicate l 0x41))]).get, none⟩ ⟨[], none⟩
        (u16.write (UInt16.ofNat n) ++ ((List.replicate n [0, 2]).flatten ++ [0, 0, 0, 0, 0, 0])) =
        .ok (List.replicate n (List.replicate l 0x41), ⟨[], none⟩, [0, 0, 0, 0, 0, 0]) := by
      unfold rVec Rd.bind rNum Rd.lift
      rw [NumCodec.reads u16_lawful (UInt16.ofNat n)]
      dsimp only
      rw [show u16.bits (UInt16.ofNat n) = n from (by
        show (UInt16.ofNat n).toNat = n
        rw [UInt16.toNat_ofNat', Nat.mod_eq_of_lt (by omega)])]
      exact names_read rfl _ _ n
    have h3 : Rd.ap (Rd.ap (Rd.map (ClassOf.mk (C := Code) ⟨0, .j8⟩) (rFlags .cls)) (rStr 7)) rClsOpt
        ⟨(MapCp.mk [(2, .cls 1), (1, .utf8 (List.replicate l 0x41))]).get, none⟩ ⟨[], none⟩
        ([0, 0x21] ++ ([0, 2] ++ ([0, 0] ++ (u16.write (UInt16.ofNat n) ++ ((List.replicate n [0, 2]).flatten ++
      [0, 0, 0, 0, 0, 0]))))) = .ok (ClassOf.mk ⟨0, .j8⟩ (Flags.ofBitsTruncate .cls 0x21) (List.replicate l 0x41) none, ⟨[], none⟩,
        u16.write (UInt16.ofNat n) ++ ((List.replicate n [0, 2]).flatten ++ [0, 0, 0, 0, 0, 0])) := by
      generalize u16.write (UInt16.ofNat n) ++ ((List.replicate n [0, 2]).flatten ++ [0, 0, 0, 0, 0, 0]) = r
      generalize List.replicate l (0x41 : UInt8) = s
      have h1 : rFlags .cls ⟨(MapCp.mk [(2, .cls 1), (1, .utf8 s)]).get, none⟩ ⟨[], none⟩
          ([0, 0x21] ++ ([0, 2] ++ ([0, 0] ++ r))) = .ok (Flags.ofBitsTruncate .cls 0x21, ⟨[], none⟩, [0, 2] ++ ([0, 0] ++ r)) := rfl
      have h2 : rStr 7 ⟨(MapCp.mk [(2, .cls 1), (1, .utf8 s)]).get, none⟩ ⟨[], none⟩
          ([0, 2] ++ ([0, 0] ++ r)) = .ok (s, ⟨[], none⟩, [0, 0] ++ r) := rfl
      have h3 : rClsOpt ⟨(MapCp.mk [(2, .cls 1), (1, .utf8 s)]).get, none⟩ ⟨[], none⟩
          ([0, 0] ++ r) = .ok (none, ⟨[], none⟩, r) := rfl
      rw [Rd.ap, Rd.bind, Rd.ap, Rd.bind, Rd.map, Rd.bind, h1]
      dsimp only [Rd.pure]
      rw [Rd.bind, h2]
      dsimp only [Rd.pure]
      rw [Rd.bind, h3]
      rfl
    unfold Class.readBody
    rw [Rd.ap, Rd.bind, Rd.ap, Rd.bind, Rd.ap, Rd.bind, Rd.ap, Rd.bind, h3]
    dsimp only
    rw [Rd.bind, hv]
    rfl
  rw [h]
  rfl

end Verif.Props
