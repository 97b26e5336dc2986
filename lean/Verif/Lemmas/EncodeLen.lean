import Verif.Lemmas.Heft

/-! # How much longer a string gets in modified UTF-8 -/

namespace Verif
open Spec Wtf8

theorem acc_small {a n : Nat} (h : a < 2 ^ n) (y : UInt8) : utf8AccContByte a y < 2 ^ (n + 6) := by
  unfold utf8AccContByte
  refine Nat.or_lt_two_pow ?_ ?_
  · rw [Nat.shiftLeft_eq, Nat.pow_add]
    exact Nat.mul_lt_mul_of_pos_right h (by decide)
  · have : (y &&& 0x3F).toNat ≤ 63 := by
      rw [UInt8.toNat_and]
      exact Nat.and_le_right
    have h2 : 2 ^ 6 ≤ 2 ^ (n + 6) := Nat.pow_le_pow_right (by decide) (by omega)
    simp at *
    omega

theorem first_small (x : UInt8) : utf8FirstByte x 2 < 2 ^ 5 := by
  unfold utf8FirstByte
  rw [UInt8.toNat_and]
  exact Nat.lt_of_le_of_lt Nat.and_le_right (by decide)

theorem first_small3 (x : UInt8) (h1 : ¬ x ≥ 0xF0) (h2 : x ≥ 0xE0) : utf8FirstByte x 2 < 2 ^ 4 := by
  have h : ∀ n < 256, ¬ UInt8.ofNat n ≥ 0xF0 → UInt8.ofNat n ≥ 0xE0 → utf8FirstByte (UInt8.ofNat n) 2 < 2 ^ 4 := by
    decide +kernel
  have := h x.toNat x.toNat_lt
  rw [UInt8.ofNat_toNat] at this
  exact this h1 h2

theorem next_encode {bs rest : Bytes} {c : Nat} (h : nextCodePoint bs = .cp c rest) :
    (Mutf8.encodeCp c).length + 2 * rest.length ≤ 2 * bs.length := by
  have e2 : c < 2 ^ 11 → (Mutf8.encodeCp c).length ≤ 2 := by
    intro hc
    unfold Mutf8.encodeCp
    split
    · simp
    · split
      · simp
      · omega
  have e3 : c < 2 ^ 16 → (Mutf8.encodeCp c).length ≤ 3 := by
    intro hc
    unfold Mutf8.encodeCp
    repeat' split
    all_goals first | (simp; done) | omega
  have e6 : (Mutf8.encodeCp c).length ≤ 6 := by
    unfold Mutf8.encodeCp
    repeat' split
    all_goals simp
  rcases bs with _ | ⟨x, t⟩
  · cases h
  rw [nextCodePoint] at h
  by_cases hx : x < 128
  · rw [if_pos hx] at h
    cases h
    have : x.toNat < 128 := hx
    have := e2 (by omega)
    simp only [List.length_cons]
    omega
  rw [if_neg hx] at h
  rcases t with _ | ⟨y, t⟩
  · cases h
  simp only at h
  by_cases h2 : x ≥ 0xE0
  · rw [if_pos h2] at h
    rcases t with _ | ⟨z, t⟩
    · cases h
    simp only at h
    by_cases h3 : x ≥ 0xF0
    · rw [if_pos h3] at h
      rcases t with _ | ⟨w, t⟩
      · cases h
      cases h
      simp only [List.length_cons]
      omega
    · rw [if_neg h3] at h
      cases h
      have a1 : (y &&& 0x3F).toNat < 2 ^ 6 := by
        have : (y &&& 0x3F).toNat ≤ 63 := by
          rw [UInt8.toNat_and]
          exact Nat.and_le_right
        omega
      have a2 : utf8AccContByte (y &&& 0x3F).toNat z < 2 ^ 16 := Nat.lt_of_lt_of_le (acc_small a1 z) (by decide)
      have a3 : utf8FirstByte x 2 <<< 12 < 2 ^ 16 := by
        have := first_small3 x h3 h2
        rw [Nat.shiftLeft_eq]
        omega
      have := e3 (Nat.or_lt_two_pow a3 a2)
      simp only [List.length_cons]
      omega
  · rw [if_neg h2] at h
    cases h
    have := e2 (acc_small (first_small x) y)
    simp only [List.length_cons]
    omega

/-- Encoding at most doubles the length. -/
theorem encode_double {s out : Bytes} (h : Mutf8.encode s = .ok out) : out.length ≤ 2 * s.length := by
  have h2 : ∀ (n : Nat) (bs : Bytes) (cs : List Nat), bs.length = n → codepoints bs = some cs →
      (cs.flatMap Mutf8.encodeCp).length ≤ 2 * bs.length := by
    intro n
    induction n using Nat.strongRecOn with
    | _ n ih =>
      intro bs cs hn h
      rw [codepoints] at h
      split at h
      · cases h; simp
      · cases h
      · rename_i c rest hc
        have hl := nextCodePoint_length hc
        rcases hr : codepoints rest with _ | ds
        · rw [hr] at h; cases h
        · rw [hr] at h
          cases h
          have := ih _ (by omega) rest ds rfl hr
          have := next_encode hc
          rw [List.flatMap_cons, List.length_append]
          omega
  unfold Mutf8.encode at h
  split at h
  · rename_i cs hc
    cases h
    exact h2 _ s cs rfl hc
  · cases h

end Verif
