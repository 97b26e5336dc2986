import Verif.Lemmas.Mutf8Inv
import Verif.Lemmas.Wtf8Slice
import Verif.Lemmas.TySound
import Verif.Lemmas.SignatureTop
import Verif.Spec.Input

/-! Strings as the reader of a pool accepts them: not always well-formed (C02), but harmless. -/

namespace Verif.Wtf8
open Verif.Spec Verif.Bits

theorem LooseUnit_plain {c : Nat} {u : Bytes} (h : LooseUnit c u) (hs : ¬ IsSurrogate c) : u = gutf8 c := by
  obtain ⟨_, rfl | ⟨hl, _⟩⟩ := h
  · rfl
  · exact absurd (by unfold IsLead at hl; unfold IsSurrogate; omega) hs

theorem nextSurrogateFrom_unit {c : Nat} {u : Bytes} (h : LooseUnit c u) (pos : Nat) (rest : Bytes) :
    nextSurrogateFrom pos (u ++ rest) =
      if IsSurrogate c then some pos else nextSurrogateFrom (pos + u.length) rest := by
  obtain ⟨hc, rfl | ⟨hl, x, hx, rfl⟩⟩ := h
  · exact nextSurrogateFrom_gutf8 c hc pos rest
  · unfold IsLead at hl
    have hb : (UInt8.ofNat (0x80 + c / 64 % 64)).toNat = 0x80 + c / 64 % 64 := by
      rw [u8_ofNat_toNat]; omega
    generalize UInt8.ofNat (0x80 + c / 64 % 64) = b at hb
    rw [if_pos (by unfold IsSurrogate; omega)]
    conv => lhs; unfold nextSurrogateFrom
    simp only [List.cons_append, List.nil_append]
    rw [if_neg (by decide), if_neg (by decide)]
    simp only [if_true, List.getElem?_cons_zero, List.getElem?_cons_succ]
    rw [if_pos (by u8)]

theorem unit_length {c : Nat} {u : Bytes} (h : LooseUnit c u) (hs : IsSurrogate c) : u.length = 3 := by
  obtain ⟨_, rfl | ⟨_, _, _, rfl⟩⟩ := h
  · exact length_gutf8_lead c hs
  · rfl

theorem nextSurrogateFrom_loose {cs : List Nat} {bs : Bytes} (h : LooseEnc cs bs) (pos : Nat) :
    (nextSurrogateFrom pos bs = none ∧ (∀ c ∈ cs, ¬ IsSurrogate c) ∧ bs = encodeCps cs) ∨
    (∃ as c us ds rest, cs = as ++ c :: ds ∧ (∀ x ∈ as, ¬ IsSurrogate x) ∧ IsSurrogate c ∧ us.length = 3 ∧
      bs = encodeCps as ++ us ++ rest ∧ LooseEnc ds rest ∧
      nextSurrogateFrom pos bs = some (pos + (encodeCps as).length)) := by
  induction h generalizing pos with
  | nil => exact .inl ⟨by unfold nextSurrogateFrom; rfl, by simp, rfl⟩
  | @cons c u cs bs hu hl ih =>
    rw [nextSurrogateFrom_unit hu]
    by_cases hs : IsSurrogate c
    · exact .inr ⟨[], c, u, cs, bs, rfl, by simp, hs, unit_length hu hs, rfl, hl, by simp [hs, encodeCps]⟩
    · rw [if_neg hs]
      have e := LooseUnit_plain hu hs
      subst e
      rcases ih (pos + (gutf8 c).length) with ⟨h1, h2, h3⟩ | ⟨as, d, us, ds, rest, h1, h2, h3, h4, h5, h6, h7⟩
      · exact .inl ⟨h1, by simpa using ⟨hs, h2⟩, by rw [encodeCps_cons, h3]⟩
      · refine .inr ⟨c :: as, d, us, ds, rest, by simp [h1], by simpa using ⟨hs, h2⟩, h3, h4, ?_, h6, ?_⟩
        · rw [encodeCps_cons, h5]; simp
        · rw [h7, encodeCps_cons, List.length_append, Nat.add_assoc]

theorem toStringLossyFrom_loose (n : Nat) (cs : List Nat) (bs : Bytes) (hn : cs.length ≤ n)
    (h : LooseEnc cs bs) (pre : Bytes) :
    toStringLossyFrom (pre ++ bs) pre.length = encodeCps (cs.map repl) := by
  induction n generalizing cs bs pre with
  | zero =>
    have : cs = [] := List.length_eq_zero_iff.mp (by omega)
    subst this
    cases h
    unfold toStringLossyFrom
    have : nextSurrogate (pre ++ []) pre.length = none := by
      unfold nextSurrogate nextSurrogateFrom; simp
    split
    · simp_all
    · simp [encodeCps]
  | succ n ih =>
    unfold toStringLossyFrom
    have hd : (pre ++ bs).drop pre.length = bs := by simp
    rcases nextSurrogateFrom_loose h pre.length with ⟨h1, h2, h3⟩ | ⟨as, d, us, ds, rest, h1, h2, h3, h4, h5, h6, h7⟩
    · split
      · rename_i p hp
        unfold nextSurrogate at hp
        rw [hd, h1] at hp
        simp at hp
      · rw [hd, map_repl_of_none cs h2, h3]
    · split
      · rename_i p hp
        unfold nextSurrogate at hp
        rw [hd, h7] at hp
        have hp : pre.length + (encodeCps as).length = p := by simpa using hp
        rw [hd]
        have eq : pre ++ bs = (pre ++ encodeCps as ++ us) ++ rest := by
          rw [h5]; simp
        have hlen : p + 3 = (pre ++ encodeCps as ++ us).length := by
          rw [List.length_append, List.length_append, h4]; omega
        rw [eq, hlen, ih ds rest (by rw [h1] at hn; simp at hn; omega) h6]
        have : bs.take (p - pre.length) = encodeCps as := by
          rw [h5, ← hp]; simp
        rw [this, h1, List.map_append, List.map_cons, encodeCps_append, encodeCps_cons,
          map_repl_of_none as h2]
        simp [repl, h3, gutf8_replacement]
      · rename_i hp
        unfold nextSurrogate at hp
        rw [hd, h7] at hp
        simp at hp

theorem repl_cp {c : Nat} (h : IsCodePoint c) : IsCodePoint (repl c) := by
  unfold repl
  split
  · decide
  · exact h

/-- Converting an accepted string lossily gives a string that can be iterated over. -/
theorem lossy_codepoints {cs : List Nat} {bs : Bytes} (h : LooseEnc cs bs) :
    codepoints (toStringLossy bs) = some (cs.map repl) := by
  have e : toStringLossy bs = encodeCps (cs.map repl) :=
    toStringLossyFrom_loose cs.length cs bs (Nat.le_refl _) h []
  rw [e]
  refine codepoints_loose (LooseEnc_of_encode _ ?_)
  intro c hc
  obtain ⟨d, hd, rfl⟩ := List.mem_map.mp hc
  exact repl_cp (LooseEnc_isCodePoint h d hd)

theorem LooseEnc_split {as bs : List Nat} {s : Bytes} (h : LooseEnc (as ++ bs) s) :
    ∃ u v, s = u ++ v ∧ LooseEnc as u ∧ LooseEnc bs v := by
  induction as generalizing s with
  | nil => exact ⟨[], s, rfl, .nil, h⟩
  | cons a as ih =>
    rw [List.cons_append] at h
    cases h with
    | @cons _ u _ t hu hl =>
      obtain ⟨x, y, rfl, h1, h2⟩ := ih hl
      exact ⟨u ++ x, y, by simp, .cons hu h1, h2⟩

theorem loose_run {k : Nat} {s : Bytes} (h : LooseEnc (List.replicate k 0x5B) s) : s = List.replicate k 0x5B := by
  induction k generalizing s with
  | zero => cases h; rfl
  | succ k ih =>
    rw [List.replicate_succ] at h
    cases h with
    | @cons _ u _ t hu hl =>
      rw [LooseUnit_plain hu (by decide), ih hl, List.replicate_succ]
      rfl




theorem run_of_deep {cs : List Nat} {s : Bytes} (h : LooseEnc cs s) (hd : JType.Deep cs) : Run s := by
  obtain ⟨a, b, rfl⟩ := hd
  rw [List.append_assoc] at h
  obtain ⟨u, v, rfl, _, h2⟩ := LooseEnc_split h
  obtain ⟨x, y, rfl, h3, _⟩ := LooseEnc_split h2
  rw [loose_run h3, Run]
  generalize List.replicate 256 (0x5B : UInt8) = r
  exact ⟨u, y, by simp⟩

theorem repl_bracket {c : Nat} (h : repl c = 0x5B) : c = 0x5B := by
  unfold repl at h
  split at h
  · cases h
  · exact h

theorem deep_of_repl {cs : List Nat} (h : JType.Deep (cs.map repl)) : JType.Deep cs := by
  obtain ⟨a, b, e⟩ := h
  obtain ⟨l1, l2, e1, h1, h2⟩ := List.map_eq_append_iff.mp e
  obtain ⟨l3, l4, e2, h3, h4⟩ := List.map_eq_append_iff.mp h1
  refine ⟨l3, l2, ?_⟩
  rw [e1, e2]
  congr 2
  have hl : l4.length = 256 := by
    have := congrArg List.length h4
    rwa [List.length_map, List.length_replicate] at this
  refine List.eq_replicate_iff.mpr ⟨hl, fun c hc => ?_⟩
  have : repl c ∈ l4.map repl := List.mem_map.mpr ⟨c, hc, rfl⟩
  rw [h4] at this
  exact repl_bracket (List.eq_of_mem_replicate this)

end Verif.Wtf8

namespace Verif.Mutf8
open Verif.Spec Verif.Bits Verif.Wtf8

/-- Bytes that stand for themselves in modified UTF-8. -/
def Plain7 (l : Bytes) : Prop := ∀ b ∈ l, 1 ≤ b.toNat ∧ b.toNat < 128

theorem skip {xs out l : Bytes} (hx : ∀ b ∈ xs, ¬ (1 ≤ b.toNat ∧ b.toNat < 128)) (hl : Plain7 l)
    (h : l <:+: xs ++ out) : l <:+: out := by
  induction xs with
  | nil => exact h
  | cons x xs ih =>
    rw [List.cons_append, List.infix_cons_iff] at h
    rcases h with h | h
    · cases l with
      | nil => exact List.nil_infix
      | cons y l =>
        have := (List.cons_prefix_cons.mp h).1
        subst this
        exact absurd (hl y (by simp)) (hx y (by simp))
    · exact ih (fun b hb => hx b (by simp [hb])) h

theorem skip_prefix {x : UInt8} {out l : Bytes} (hx : ¬ (1 ≤ x.toNat ∧ x.toNat < 128)) (hl : Plain7 l)
    (h : l <+: x :: out) : l = [] := by
  cases l with
  | nil => rfl
  | cons y l =>
    have := (List.cons_prefix_cons.mp h).1
    subst this
    exact absurd (hl y (by simp)) hx

theorem rewrite_run (bs : Bytes) : ∀ out, rewrite bs = .ok out → ∀ l, Plain7 l →
    (l <+: out → l <+: bs) ∧ (l <:+: out → l <:+: bs) := by
  induction hn : bs.length using Nat.strongRecOn generalizing bs with
  | ind k ih =>
    intro out h l hl
    cases bs with
    | nil =>
      unfold rewrite at h
      cases h
      exact ⟨id, id⟩
    | cons b t =>
      rcases rewrite_cases b t with ⟨t', rfl, rfl⟩ | ⟨n, n1, n3, n4, t', rfl, rfl, h1, h2⟩ | hc
      · rw [rewrite_zero] at h
        cases hr : rewrite t' with
        | error e => rw [hr] at h; cases h
        | ok out' =>
          rw [hr] at h
          cases h
          obtain ⟨_, i2⟩ := ih t'.length (by simp at hn; omega) t' rfl out' hr l hl
          refine ⟨fun hp => ?_, fun hi => ?_⟩
          · rw [skip_prefix (by decide) hl hp]; exact List.nil_prefix
          · have := i2 (skip (xs := [0]) (by decide) hl hi)
            exact this.trans ⟨[0xC0, 0x80], [], by simp⟩
      · rw [rewrite_pair _ _ _ _ _ h1 h2] at h
        have hbig : 0x10000 ≤ pairChar n n1 n3 n4 := by rw [pairChar_eq]; omega
        have hcp : IsCodePoint (pairChar n n1 n3 n4) := by rw [pairChar_eq]; unfold IsCodePoint; omega
        cases hr : rewrite t' with
        | error e => rw [hr] at h; cases h
        | ok out' =>
          rw [hr] at h
          cases h
          obtain ⟨_, i2⟩ := ih t'.length (by simp at hn; omega) t' rfl out' hr l hl
          rcases gutf8_cases _ hcp with ⟨h1, _⟩ | ⟨_, h2, _⟩ | ⟨_, h2, _⟩ | ⟨_, x, y, z, w, e, hx, hy, hz, hw⟩
          · omega
          · omega
          · omega
          · rw [e]
            unfold IsCodePoint at hcp
            refine ⟨fun hp => ?_, fun hi => ?_⟩
            · rw [skip_prefix (by omega) hl hp]; exact List.nil_prefix
            · have := i2 (skip (xs := [x, y, z, w]) (by
                intro b hb
                simp only [List.mem_cons, List.not_mem_nil, or_false] at hb
                rcases hb with rfl | rfl | rfl | rfl <;> omega) hl hi)
              exact this.trans ⟨[0xED, n, n1, 0xED, n3, n4], [], by simp⟩
      · rw [hc] at h
        cases hr : rewrite t with
        | error e => rw [hr] at h; cases h
        | ok out' =>
          rw [hr] at h
          cases h
          have hih := ih t.length (by simp at hn; omega) t rfl out' hr
          have hpre : ∀ l, Plain7 l → l <+: b :: out' → l <+: b :: t := by
            intro l hl hp
            cases l with
            | nil => exact List.nil_prefix
            | cons y l =>
              obtain ⟨hy, hq⟩ := List.cons_prefix_cons.mp hp
              exact List.cons_prefix_cons.mpr ⟨hy, (hih l (fun b hb => hl b (by simp [hb]))).1 hq⟩
          refine ⟨hpre l hl, fun hi => ?_⟩
          rcases List.infix_cons_iff.mp hi with hi | hi
          · exact (hpre l hl hi).isInfix
          · exact List.infix_cons_iff.mpr (.inr ((hih l hl).2 hi))

/-- A decoded string is accepted, and what is plain in it was already there. -/
theorem decode_loose {buf s : Bytes} (h : decode buf = .ok s) :
    (∃ cs, LooseEnc cs s) ∧ ∀ l, Plain7 l → l <:+: s → l <:+: buf := by
  unfold decode at h
  cases hs : scan false buf with
  | error e => rw [hs] at h; cases h
  | ok m =>
    rw [hs] at h
    cases m with
    | false =>
      obtain ⟨rfl, cs, h1, _⟩ := fromBytes'_loose _ _ (by simpa [bind, Except.bind] using h)
      exact ⟨⟨cs, h1⟩, fun _ _ h => h⟩
    | true =>
      cases hr : rewrite buf with
      | error e => simp [bind, Except.bind, hr] at h
      | ok out =>
        obtain ⟨rfl, cs, h1, _⟩ := fromBytes'_loose _ _ (by simpa [bind, Except.bind, hr] using h)
        exact ⟨⟨cs, h1⟩, fun l hl hi => (rewrite_run buf _ hr l hl).2 hi⟩

end Verif.Mutf8

namespace Verif
open Verif.Spec Verif.Wtf8

/-- Parsing the descriptor in an accepted string. -/
theorem parseType_err {s : Bytes} {cs : List Nat} (h : LooseEnc cs s) {e : Err}
    (hp : JType.parseType s = .error e) : e = .invalid ∨ (e = .panic ∧ Run s) := by
  rw [JType.parseType, codepoints_loose h] at hp
  simp only at hp
  split at hp
  · cases hp
  · rename_i e' he
    cases hp
    rcases JType.getType_err _ _ _ (by omega) he with rfl | ⟨rfl, hd⟩
    · exact .inl rfl
    · exact .inr ⟨rfl, run_of_deep h hd⟩

theorem parseType_array {s : Bytes} {cs : List Nat} (h : LooseEnc cs s) (hh : s.head? = some 0x5B) {t : JType}
    (hp : JType.parseType s = .ok t) : ∃ d u, t = .array d u := by
  obtain ⟨cs', rfl⟩ : ∃ cs', cs = 0x5B :: cs' := by
    cases h with
    | nil => cases hh
    | @cons c u cs bs hu _ =>
      have h1 := LooseUnit_next hu bs
      cases hub : u ++ bs with
      | nil => rw [hub] at hh; cases hh
      | cons b r =>
        rw [hub] at hh h1
        cases hh
        have h2 := nextCodePoint_gutf8 0x5B (by decide) r
        rw [show gutf8 0x5B ++ r = 0x5B :: r from rfl, h1] at h2
        cases h2
        exact ⟨cs, rfl⟩
  rw [JType.parseType, codepoints_loose h] at hp
  simp only at hp
  split at hp
  · rename_i t' rest hg
    cases hp
    rcases JType.getType_cases (2 * (0x5B :: cs').length + 1) 0x5B cs' with
      ⟨t0, hd0, h0⟩ | ⟨hc, h0⟩ | ⟨hc, h0⟩ | ⟨hc, h0⟩ | h0
    · generalize hx : (0x5B : Nat) = x at hd0
      generalize hl : [x] = l at hd0
      cases hd0 with
      | array => exact ⟨_, _, (by rw [h0] at hg; cases hg; rfl)⟩
      | _ => simp at hl; try omega
    · omega
    · rw [h0] at hg
      split at hg
      · split at hg
        · cases hg; exact ⟨_, _, rfl⟩
        · cases hg
      · cases hg
    · omega
    · rw [h0] at hg; cases hg
  · cases hp

end Verif
