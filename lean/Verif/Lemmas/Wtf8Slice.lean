import Verif.Lemmas.Wtf8Ops

/-! Slicing and lossy conversion. -/

namespace Verif.Wtf8
open Verif.Spec Verif.Bits

/-! ### Boundaries -/

theorem gutf8_shape (c : Nat) (h : IsCodePoint c) : ∃ (a : UInt8) (t : Bytes), gutf8 c = a :: t ∧
    ¬ (128 ≤ a.toNat ∧ a.toNat < 192) ∧ ∀ b ∈ t, 128 ≤ b.toNat ∧ b.toNat < 192 := by
  rcases gutf8_cases c h with ⟨h1, a, e, ha⟩ | ⟨h1, h2, a, b, e, ha, hb⟩ |
    ⟨h1, h2, a, b, d, e, ha, hb, hd⟩ | ⟨h1, a, b, d, f, e, ha, hb, hd, hf⟩
  · exact ⟨a, [], e, by omega, by simp⟩
  · exact ⟨a, [b], e, by omega, by simp; omega⟩
  · exact ⟨a, [b, d], e, by omega, by simp; omega⟩
  · exact ⟨a, [b, d, f], e, by omega, by simp; omega⟩

theorem boundary_append (u s : Bytes) (j : Nat) :
    isCodePointBoundary (u ++ s) (u.length + j) = isCodePointBoundary s j := by
  unfold isCodePointBoundary
  by_cases h : j = s.length
  · simp [h]
  · have : ¬ (u.length + j = (u ++ s).length) := by simp; omega
    rw [if_neg h, if_neg this]
    simp [List.getElem?_append_right]

theorem boundary_get (s : Bytes) (i : Nat) (b : UInt8) (h : s[i]? = some b) :
    isCodePointBoundary s i = true ↔ ¬ (128 ≤ b.toNat ∧ b.toNat < 192) := by
  have hi : i < s.length := (List.getElem?_eq_some_iff.mp h).1
  unfold isCodePointBoundary
  rw [if_neg (by omega), h]
  simp [UInt8.le_iff_toNat_le]
  omega

theorem boundary_encode (cs : List Nat) (h : ∀ c ∈ cs, IsCodePoint c) (i : Nat) :
    isCodePointBoundary (encodeCps cs) i = true ↔
      ∃ k, k ≤ cs.length ∧ i = (encodeCps (cs.take k)).length := by
  induction cs generalizing i with
  | nil =>
    simp only [encodeCps, List.flatMap_nil, isCodePointBoundary, List.take_nil, List.length_nil]
    simp
  | cons c cs ih =>
    have hc := h c (by simp)
    have ih := ih (fun x hx => h x (by simp [hx]))
    obtain ⟨a, t, e, ha, ht⟩ := gutf8_shape c hc
    rw [encodeCps_cons]
    have hlen : 0 < (gutf8 c).length := by rw [e]; simp
    by_cases h0 : i = 0
    · subst h0
      constructor
      · intro _
        exact ⟨0, by simp, by simp [encodeCps]⟩
      · intro _
        rw [boundary_get _ 0 a (by rw [e]; simp)]
        exact ha
    by_cases hl : i < (gutf8 c).length
    · constructor
      · intro hb
        exfalso
        obtain ⟨j, rfl⟩ : ∃ j, i = j + 1 := ⟨i - 1, by omega⟩
        rw [e] at hl hb
        simp at hl
        rw [boundary_get _ (j + 1) t[j] (by
          simp [List.getElem?_append_left, hl])] at hb
        have := ht t[j] (List.getElem_mem _)
        omega
      · rintro ⟨k, hk, rfl⟩
        exfalso
        cases k with
        | zero => simp [encodeCps] at h0
        | succ k =>
          rw [List.take_succ_cons, encodeCps_cons, List.length_append] at hl
          omega
    · obtain ⟨j, rfl⟩ : ∃ j, i = (gutf8 c).length + j := ⟨i - (gutf8 c).length, by omega⟩
      rw [boundary_append, ih]
      constructor
      · rintro ⟨k, hk, rfl⟩
        exact ⟨k + 1, by simp; omega, by rw [List.take_succ_cons, encodeCps_cons, List.length_append]⟩
      · rintro ⟨k, hk, hj⟩
        cases k with
        | zero => rw [List.take_zero, encodeCps, List.flatMap_nil, List.length_nil] at hj; omega
        | succ k =>
          rw [List.take_succ_cons, encodeCps_cons, List.length_append] at hj
          exact ⟨k, by simp at hk; omega, by omega⟩

theorem encode_take_drop (cs : List Nat) (i j : Nat) (hij : i ≤ j) :
    ((encodeCps cs).drop (encodeCps (cs.take i)).length).take
      ((encodeCps (cs.take j)).length - (encodeCps (cs.take i)).length) =
      encodeCps ((cs.take j).drop i) := by
  have e1 : cs = cs.take i ++ (cs.drop i) := (List.take_append_drop i cs).symm
  have e2 : cs.take j = cs.take i ++ (cs.take j).drop i := by
    conv => lhs; rw [← List.take_append_drop i (cs.take j)]
    rw [List.take_take, Nat.min_eq_left hij]
  have e3 : cs.drop i = (cs.take j).drop i ++ cs.drop j := by
    conv => lhs; rw [← List.take_append_drop j cs]
    rw [List.drop_append]
    by_cases hl : j ≤ cs.length
    · rw [List.length_take, Nat.min_eq_left hl, Nat.sub_eq_zero_of_le hij]; simp
    · rw [List.drop_eq_nil_of_le (as := cs) (i := j) (by omega)]; simp
  have l1 : encodeCps cs = encodeCps (cs.take i) ++ (encodeCps ((cs.take j).drop i) ++ encodeCps (cs.drop j)) := by
    rw [← encodeCps_append, ← e3, ← encodeCps_append, ← e1]
  have l2 : (encodeCps (cs.take j)).length =
      (encodeCps (cs.take i)).length + (encodeCps ((cs.take j).drop i)).length := by
    conv => lhs; rw [e2]
    rw [encodeCps_append, List.length_append]
  rw [l2]
  conv => lhs; rw [l1]
  rw [List.drop_left', Nat.add_sub_cancel_left, List.take_left']
  · rfl
  · rfl

theorem length_take_mono (cs : List Nat) (i j : Nat) (h : i ≤ j) (hj : j ≤ cs.length)
    (hlt : i < j) : (encodeCps (cs.take i)).length < (encodeCps (cs.take j)).length := by
  have e2 : cs.take j = cs.take i ++ (cs.take j).drop i := by
    conv => lhs; rw [← List.take_append_drop i (cs.take j)]
    rw [List.take_take, Nat.min_eq_left h]
  rw [e2, encodeCps_append, List.length_append]
  have : 0 < (encodeCps ((cs.take j).drop i)).length := by
    cases hd : (cs.take j).drop i with
    | nil =>
      have := congrArg List.length hd
      simp at this; omega
    | cons x t =>
      rw [encodeCps_cons, List.length_append]
      have := List.length_pos_iff.mpr (gutf8_ne_nil x)
      omega
  omega

theorem ValidCps_append {as bs : List Nat} (h : ValidCps (as ++ bs)) : ValidCps as ∧ ValidCps bs := by
  obtain ⟨h1, h2⟩ := h
  have := (NoPair_append as bs).mp h2
  exact ⟨⟨fun c hc => h1 c (by simp [hc]), this.1⟩, ⟨fun c hc => h1 c (by simp [hc]), this.2.1⟩⟩

theorem ValidCps_take {cs : List Nat} (h : ValidCps cs) (i : Nat) : ValidCps (cs.take i) := by
  rw [← List.take_append_drop i cs] at h
  exact (ValidCps_append h).1

theorem ValidCps_drop {cs : List Nat} (h : ValidCps cs) (i : Nat) : ValidCps (cs.drop i) := by
  rw [← List.take_append_drop i cs] at h
  exact (ValidCps_append h).2

/-! ### Lossy conversion -/

/-- Replace surrogates by U+FFFD. -/
def repl (c : Nat) : Nat := if IsSurrogate c then 0xFFFD else c

theorem nextSurrogateFrom_gutf8 (c : Nat) (h : IsCodePoint c) (pos : Nat) (rest : Bytes) :
    nextSurrogateFrom pos (gutf8 c ++ rest) =
      if IsSurrogate c then some pos else nextSurrogateFrom (pos + (gutf8 c).length) rest := by
  have hS : IsSurrogate c ↔ 0xD800 ≤ c ∧ c ≤ 0xDFFF := Iff.rfl
  have hc := h
  unfold IsCodePoint at hc
  rcases gutf8_cases c h with ⟨h1, a, e, ha⟩ | ⟨h1, h2, a, b, e, ha, hb⟩ |
    ⟨h1, h2, a, b, d, e, ha, hb, hd⟩ | ⟨h1, a, b, d, f, e, ha, hb, hd, hf⟩
  · rw [e, if_neg (by rw [hS]; omega)]
    conv => lhs; unfold nextSurrogateFrom
    simp only [List.cons_append, List.nil_append, List.length_cons, List.length_nil]
    rw [if_pos (by u8)]
  · rw [e, if_neg (by rw [hS]; omega)]
    conv => lhs; unfold nextSurrogateFrom
    simp only [List.cons_append, List.nil_append, List.length_cons, List.length_nil]
    rw [if_neg (by u8), if_pos (by u8)]
    rfl
  · rw [e]
    conv => lhs; unfold nextSurrogateFrom
    simp only [List.cons_append, List.nil_append, List.length_cons, List.length_nil]
    rw [if_neg (by u8), if_neg (by u8)]
    by_cases hed : 0xD000 ≤ c ∧ c ≤ 0xDFFF
    · rw [if_pos (by u8)]
      simp only [List.getElem?_cons_zero, List.getElem?_cons_succ]
      by_cases hs : IsSurrogate c
      · rw [if_pos hs]
        rw [hS] at hs
        rw [if_pos (by u8)]
      · rw [if_neg hs]
        rw [hS] at hs
        rw [if_neg (by u8)]
        rfl
    · rw [if_neg (by u8), if_pos (by u8), if_neg (by rw [hS]; omega)]
      rfl
  · rw [e, if_neg (by rw [hS]; omega)]
    conv => lhs; unfold nextSurrogateFrom
    simp only [List.cons_append, List.nil_append, List.length_cons, List.length_nil]
    rw [if_neg (by u8), if_neg (by u8), if_neg (by u8), if_neg (by u8)]
    rfl

theorem nextSurrogateFrom_encode (cs : List Nat) (h : ∀ c ∈ cs, IsCodePoint c) (pos : Nat) :
    (nextSurrogateFrom pos (encodeCps cs) = none ∧ ∀ c ∈ cs, ¬ IsSurrogate c) ∨
    (∃ as c bs, cs = as ++ c :: bs ∧ (∀ x ∈ as, ¬ IsSurrogate x) ∧ IsSurrogate c ∧
      nextSurrogateFrom pos (encodeCps cs) = some (pos + (encodeCps as).length)) := by
  induction cs generalizing pos with
  | nil => left; exact ⟨by unfold nextSurrogateFrom; rfl, by simp⟩
  | cons c cs ih =>
    rw [encodeCps_cons, nextSurrogateFrom_gutf8 c (h c (by simp))]
    by_cases hs : IsSurrogate c
    · right
      exact ⟨[], c, cs, rfl, by simp, hs, by simp [hs, encodeCps]⟩
    · rw [if_neg hs]
      rcases ih (fun x hx => h x (by simp [hx])) (pos + (gutf8 c).length) with ⟨h1, h2⟩ | ⟨as, d, bs, h1, h2, h3, h4⟩
      · left; exact ⟨h1, by simpa using ⟨hs, h2⟩⟩
      · right
        refine ⟨c :: as, d, bs, by simp [h1], by simpa using ⟨hs, h2⟩, h3, ?_⟩
        rw [h4, encodeCps_cons, List.length_append, Nat.add_assoc]

theorem map_repl_of_none (cs : List Nat) (h : ∀ c ∈ cs, ¬ IsSurrogate c) : cs.map repl = cs := by
  induction cs with
  | nil => rfl
  | cons c cs ih => simp [repl, h c (by simp)]; exact ih (fun x hx => h x (by simp [hx]))

theorem gutf8_replacement : gutf8 0xFFFD = replacement := by decide

theorem toStringLossyFrom_spec (n : Nat) (cs : List Nat) (hn : cs.length ≤ n)
    (h : ∀ c ∈ cs, IsCodePoint c) (pre : Bytes) :
    toStringLossyFrom (pre ++ encodeCps cs) pre.length = encodeCps (cs.map repl) := by
  induction n generalizing cs pre with
  | zero =>
    have : cs = [] := List.length_eq_zero_iff.mp (by omega)
    subst this
    unfold toStringLossyFrom
    have : nextSurrogate (pre ++ encodeCps []) pre.length = none := by
      unfold nextSurrogate nextSurrogateFrom; simp [encodeCps]
    split
    · simp_all
    · simp [encodeCps]
  | succ n ih =>
    unfold toStringLossyFrom
    have hd : (pre ++ encodeCps cs).drop pre.length = encodeCps cs := by simp
    rcases nextSurrogateFrom_encode cs h pre.length with ⟨h1, h2⟩ | ⟨as, d, bs, h1, h2, h3, h4⟩
    · split
      · rename_i p hp
        unfold nextSurrogate at hp
        rw [hd, h1] at hp
        simp at hp
      · rw [hd, map_repl_of_none cs h2]
    · split
      · rename_i p hp
        unfold nextSurrogate at hp
        rw [hd, h4] at hp
        have hp : pre.length + (encodeCps as).length = p := by simpa using hp
        rw [hd]
        have eq : pre ++ encodeCps cs = (pre ++ encodeCps as ++ gutf8 d) ++ encodeCps bs := by
          rw [h1, encodeCps_append, encodeCps_cons]; simp
        have hlen : p + 3 = (pre ++ encodeCps as ++ gutf8 d).length := by
          rw [List.length_append, List.length_append, length_gutf8_lead d h3]; omega
        rw [eq, hlen, ih bs (by rw [h1] at hn; simp at hn; omega)
          (fun x hx => h x (by rw [h1]; simp [hx]))]
        have : (encodeCps cs).take (p - pre.length) = encodeCps as := by
          rw [h1, encodeCps_append, ← hp]; simp
        rw [this, h1, List.map_append, List.map_cons, encodeCps_append, encodeCps_cons,
          map_repl_of_none as h2]
        simp [repl, h3, gutf8_replacement]
      · rename_i hp
        unfold nextSurrogate at hp
        rw [hd, h4] at hp
        simp at hp

theorem intoStringLossyFrom_spec (n : Nat) (cs : List Nat) (hn : cs.length ≤ n)
    (h : ∀ c ∈ cs, IsCodePoint c) (pre : Bytes) :
    intoStringLossyFrom (pre ++ encodeCps cs) pre.length = pre ++ encodeCps (cs.map repl) := by
  induction n generalizing cs pre with
  | zero =>
    have : cs = [] := List.length_eq_zero_iff.mp (by omega)
    subst this
    unfold intoStringLossyFrom
    have : nextSurrogate (pre ++ encodeCps []) pre.length = none := by
      unfold nextSurrogate nextSurrogateFrom; simp [encodeCps]
    split
    · simp_all
    · simp [encodeCps]
  | succ n ih =>
    unfold intoStringLossyFrom
    have hd : (pre ++ encodeCps cs).drop pre.length = encodeCps cs := by simp
    rcases nextSurrogateFrom_encode cs h pre.length with ⟨h1, h2⟩ | ⟨as, d, bs, h1, h2, h3, h4⟩
    · split
      · rename_i p hp
        unfold nextSurrogate at hp
        rw [hd, h1] at hp
        simp at hp
      · rw [map_repl_of_none cs h2]
    · split
      · rename_i p hp
        unfold nextSurrogate at hp
        rw [hd, h4] at hp
        have hp : pre.length + (encodeCps as).length = p := by simpa using hp
        have eq : pre ++ encodeCps cs = (pre ++ encodeCps as) ++ (gutf8 d ++ encodeCps bs) := by
          rw [h1, encodeCps_append, encodeCps_cons]; simp
        have hp' : p = (pre ++ encodeCps as).length := by rw [List.length_append]; omega
        have t1 : (pre ++ encodeCps cs).take p = pre ++ encodeCps as := by
          rw [eq, hp']; exact List.take_left' rfl
        have t2 : (pre ++ encodeCps cs).drop (p + 3) = encodeCps bs := by
          rw [eq, ← List.append_assoc]
          exact List.drop_left' (by
            rw [List.length_append, length_gutf8_lead d h3]; omega)
        rw [t1, t2]
        have hlen : p + 3 = (pre ++ encodeCps as ++ replacement).length := by
          rw [List.length_append, hp']; rfl
        rw [hlen, ih bs (by rw [h1] at hn; simp at hn; omega)
          (fun x hx => h x (by rw [h1]; simp [hx]))]
        rw [h1, List.map_append, List.map_cons, encodeCps_append, encodeCps_cons,
          map_repl_of_none as h2]
        simp [repl, h3, gutf8_replacement]
      · rename_i hp
        unfold nextSurrogate at hp
        rw [hd, h4] at hp
        simp at hp

end Verif.Wtf8
