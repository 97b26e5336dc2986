import Verif.Lemmas.CodeWrite

/-! # The size of assembled code -/

namespace Verif
open Spec

theorem room_straight {i : Insn} (he : EncOk i) : room i = 6 := by
  cases i <;> first | rfl | exact False.elim he

theorem enc_short {c : Ctx} {p : Nat} {i : Insn} {b : Bytes} (h : Enc c p i b) (he : EncOk i) : b.length ≤ 6 := by
  cases h <;> first | exact False.elim he |
    (simp only [List.length_append, U1, U2, S1, S2, List.length_cons, List.length_nil]; omega)

theorem Branch.emit_room {L : List (Label × (Nat × Nat))} {I : List Nat} {s idx : Nat} {j : Branch} {o : Bytes}
    (he : j.emit L I s idx = .ok o) : o.length ≤ room j.insn := by
  cases j with
  | lookup d t =>
    rw [Branch.emit] at he
    obtain ⟨x, h1, h⟩ := Res.bind_ok he
    obtain ⟨es, h2, h⟩ := Res.bind_ok h
    cases h
    have := padding_le (idx - s + 1)
    simp only [List.length_append, List.length_replicate, i32_write_length, u32_write_length, u8_write_length,
      resolvePairs_length h2, List.length_mergeSort, Branch.insn, room]
    omega
  | table d low ls =>
    rw [Branch.emit] at he
    obtain ⟨x, h1, h⟩ := Res.bind_ok he
    have := padding_le (idx - s + 1)
    split at h
    · cases h
    · simp only at h
      split at h
      · obtain ⟨es, h2, h⟩ := Res.bind_ok h
        cases h
        simp only [List.length_append, List.length_replicate, i32_write_length, u8_write_length,
          resolveAll_length h2, Branch.insn, room]
        omega
      · cases h
  | jsr l =>
    rw [Branch.emit] at he
    obtain ⟨x, h1, h⟩ := Res.bind_ok he
    cases h
    show List.length _ ≤ 10
    split <;> simp [i32_write_length, i16_write_length, u8_write_length]
  | jump k l =>
    by_cases hk : k = .always
    · subst hk
      rw [Branch.emit] at he
      obtain ⟨x, h1, h⟩ := Res.bind_ok he
      cases h
      show List.length _ ≤ 10
      split <;> simp [i32_write_length, i16_write_length, u8_write_length]
    · rw [Branch.emit_cond hk] at he
      obtain ⟨x, h1, h⟩ := Res.bind_ok he
      show o.length ≤ 10
      split at h
      · cases h
        simp only [List.length_append, i16_write_length, u8_write_length]
        omega
      · split at h
        · cases h
        · cases h
          simp only [List.length_append, i32_write_length, u8_write_length]
          omega

theorem emit_room {L : List (Label × (Nat × Nat))} {I : List Nat} {js : List Branch} {bs : List Bytes}
    {r : List (Nat × Nat)} {code : Bytes} (h : emitFrom L I js bs r = .ok code) :
    code.length ≤ ((js.zip bs).map fun e => room e.1.insn + e.2.length).sum := by
  induction js generalizing bs r code with
  | nil =>
    have : code = [] := by
      cases bs <;> cases r <;> first | (cases h; rfl) | cases h
    subst this
    exact Nat.zero_le _
  | cons j js ih =>
    cases bs with
    | nil => cases h; exact Nat.zero_le _
    | cons b bs =>
      cases r with
      | nil => cases h; exact Nat.zero_le _
      | cons e r =>
        obtain ⟨o, rest, h1, h2, rfl⟩ := emit_cons h
        have := ih h2
        have := Branch.emit_room h1
        simp only [List.length_append, List.zip_cons_cons, List.map_cons, List.sum_cons]
        omega

theorem Pieces.room {enc : Insn → Bytes → Prop} (henc : ∀ i b, enc i b → b.length ≤ Spec.room i) {k off : Nat}
    {is : List Insn} {first : Bytes} {rest : List (Branch × Bytes)} {ls : List (Label × (Nat × Nat))}
    (h : Pieces enc k off is first rest ls) :
    first.length + (rest.map fun e => Spec.room e.1.insn + e.2.length).sum ≤ (is.map Spec.room).sum := by
  induction h with
  | nil => exact Nat.le_refl _
  | straight h1 _ ih =>
    have := henc _ _ h1
    simp only [List.length_append, List.map_cons, List.sum_cons]
    omega
  | label _ ih =>
    simp only [List.map_cons, List.sum_cons]
    omega
  | line _ ih =>
    simp only [List.map_cons, List.sum_cons]
    omega
  | branch j _ ih =>
    simp only [List.map_cons, List.sum_cons, List.length_nil]
    omega

theorem writeCode_room {is : List Insn} (hi : ∀ i ∈ is, CodeOk i) {cp cp' : VecCp} {a : Assembled} (hc : cp.Inv)
    (h : writeCode is cp = .ok (a, cp')) : a.code.length ≤ (is.map room).sum := by
  obtain ⟨_, L, js, first, bs, H, r, final, code, _, _, _, he, rfl, _, hW⟩ := writeCode_steps hi hc h
  obtain ⟨P, hP⟩ := agrees_exists cp'.entries
  obtain ⟨ls, _, hp⟩ := hW ⟨P, cp'.bsm⟩ ⟨hP, List.prefix_refl _⟩
  have h1 := hp.room fun i b h => by
    rw [room_straight h.1]
    exact enc_short (h.2 WEnv.outside 0) h.1
  have h2 := emit_room he
  simp only [List.length_append]
  omega

/-- Compact code has a size for which C37 is proved. -/
theorem sized_of_compact {is : List Insn} (hi : ∀ i ∈ is, CodeOk i) (h : Compact is) {cp cp' : VecCp} {a : Assembled}
    (hc : cp.Inv) (hw : writeCode is cp = .ok (a, cp')) : Sized is a := by
  have hr := writeCode_room hi hc hw
  rcases h with h | h
  · exact .inl (by omega)
  · exact .inr ⟨by omega, .inl (by omega)⟩

end Verif
