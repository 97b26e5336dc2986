import Verif.Model.Depth
import Verif.Lemmas.TySound
import Verif.Lemmas.SignatureSound

/-! Helper lemmas for C84: how deep the parsers of descriptors and signatures recurse. -/

namespace Verif
namespace JType

theorem getType_step (n : Nat) (cs : List Nat) : getType (n + 1) cs = typeWith (getType n) (getParams n) cs := by
  cases cs with
  | nil => rfl
  | cons c cs => rw [getType, typeWith]; rfl

/-- The branches of the body of `get_type`. -/
theorem typeWith_cases (c : Nat) (cs : List Nat) :
    (∃ x, (∀ r ps, typeWith r ps (c :: cs) = x) ∧ x ≠ .error .diverge) ∨
    (c = 0x5B ∧ ∀ r ps, typeWith r ps (c :: cs) =
      if 1 + (countBrackets cs).1 < 256 then
        match r (countBrackets cs).2 with
        | .ok (t, rest) => .ok (.array (UInt8.ofNat (1 + (countBrackets cs).1)) t, rest)
        | .error e => .error e
      else .error .panic) ∨
    (c = 0x28 ∧ ∀ r ps, typeWith r ps (c :: cs) =
      match ps cs with
      | .ok (ts, rest) =>
        match rest with
        | [] => .error .invalid
        | _ :: rest =>
          if rest.head? = some 0x56 then .ok (.method ts none, rest)
          else match r rest with
            | .ok (t, rest) => .ok (.method ts (some t), rest)
            | .error e => .error e
      | .error e => .error e) := by
  by_cases h1 : c = 0x5B
  · subst h1
    exact .inr (.inl ⟨rfl, fun _ _ => rfl⟩)
  by_cases h2 : c = 0x28
  · subst h2
    exact .inr (.inr ⟨rfl, fun _ _ => rfl⟩)
  refine .inl ⟨typeWith (fun _ => .error .ub) (fun _ => .error .ub) (c :: cs), fun r ps => ?_, ?_⟩
  · rw [typeWith, typeWith]
    simp only [if_neg h1, if_neg h2]
  · rw [typeWith]
    simp only [if_neg h1, if_neg h2]
    repeat' split
    all_goals exact (nomatch ·)

theorem typeWith_congr {r r' : List Nat → Res (JType × List Nat)} {ps ps' : List Nat → Res (List JType × List Nat)}
    {cs : List Nat}
    (h1 : ∀ xs, xs.length < cs.length → r xs = r' xs) (h2 : ∀ c t, cs = c :: t → ps t = ps' t)
    (h3 : ∀ c t ts rest, cs = c :: t → ps' t = .ok (ts, rest) → rest.length ≤ t.length) :
    typeWith r ps cs = typeWith r' ps' cs := by
  cases cs with
  | nil => rfl
  | cons c cs =>
    rcases typeWith_cases c cs with ⟨x, hx, _⟩ | ⟨_, hx⟩ | ⟨_, hx⟩
    · rw [hx, hx]
    · rw [hx, hx, h1 (countBrackets cs).2 (by
        have := countBrackets_length cs
        simp only [List.length_cons]
        omega)]
    · rw [hx, hx, h2 c cs rfl]
      rcases hp : ps' cs with e | ⟨ts, rest⟩
      · rfl
      · cases rest with
        | nil => rfl
        | cons x rest =>
          have := h3 c cs ts _ rfl hp
          simp only
          rw [h1 rest (by simp only [List.length_cons] at this ⊢; omega)]

theorem paramsWith_same (m : Nat) {r : List Nat → Res (JType × List Nat)}
    (h : ∀ cs fuel, cs.length ≤ m → 2 * cs.length + 1 ≤ fuel → r cs = getType fuel cs) :
    ∀ (k fuel : Nat) (cs : List Nat), cs.length ≤ m → cs.length < k → 2 * cs.length + 2 ≤ fuel →
      paramsWith r k cs = getParams fuel cs
  | 0, _, _, _, hk, _ => absurd hk (by omega)
  | _ + 1, 0, _, _, _, hf => absurd hf (by omega)
  | k + 1, fuel + 1, cs, hm, hk, hf => by
    rw [paramsWith, getParams]
    split
    · rfl
    rw [h cs fuel hm (by omega)]
    rcases ht : getType fuel cs with e | ⟨t, rest⟩
    · rfl
    · have := getType_lt _ _ _ _ ht
      simp only
      rw [paramsWith_same m h k fuel rest (by omega) (by omega) (by omega)]
      rfl

/-- A depth beyond the length of the text is enough. -/
theorem getTypeD_same : ∀ (d : Nat) (cs : List Nat) (fuel : Nat), cs.length < d → 2 * cs.length + 1 ≤ fuel →
    getTypeD d cs = getType fuel cs
  | 0, _, _, hd, _ => absurd hd (by omega)
  | _ + 1, _, 0, _, hf => absurd hf (by omega)
  | d + 1, cs, fuel + 1, hd, hf => by
    rw [getTypeD, getType_step]
    refine typeWith_congr (fun xs hx => getTypeD_same d xs fuel (by omega) (by omega)) (fun c t e => ?_)
      (fun c t ts rest _ hp => getParams_le _ _ _ _ hp)
    subst e
    simp only [List.length_cons] at hd hf ⊢
    exact paramsWith_same t.length (fun xs f hx hf => getTypeD_same d xs f (by omega) hf) _ _ _ (Nat.le_refl _)
      (by omega) (by omega)

/-- What the parser answers within its limit is the answer. -/
theorem paramsWith_mono {r r' : List Nat → Res (JType × List Nat)} 
    (h : ∀ cs, r cs ≠ .error .diverge → r cs = r' cs) : ∀ (k : Nat) (cs : List Nat),
      paramsWith r k cs ≠ .error .diverge → paramsWith r k cs = paramsWith r' k cs
  | 0, _, hn => absurd rfl hn
  | k + 1, cs, hn => by
    rw [paramsWith] at hn ⊢
    rw [paramsWith]
    split
    · rfl
    rename_i hh
    rw [if_neg hh] at hn
    rcases hr : r cs with e | ⟨t, rest⟩
    · rw [hr] at hn
      simp only at hn
      rw [← h cs (by rw [hr]; exact fun h0 => hn (by injection h0 with h0; rw [h0])), hr]
    · rw [hr] at hn
      rw [← h cs (by rw [hr]; exact (nomatch ·)), hr]
      simp only at hn ⊢
      have : paramsWith r k rest ≠ .error .diverge := by
        intro h0
        rw [h0] at hn
        exact hn rfl
      rw [paramsWith_mono h k rest this]

theorem getTypeD_mono : ∀ (d : Nat) (cs : List Nat), getTypeD d cs ≠ .error .diverge →
    getTypeD d cs = getTypeD (d + 1) cs
  | 0, _, h => absurd rfl h
  | d + 1, cs, h => by
    have ih := getTypeD_mono d
    rw [getTypeD] at h ⊢
    rw [getTypeD]
    cases cs with
    | nil => rfl
    | cons c cs =>
      rcases typeWith_cases c cs with ⟨x, hx, _⟩ | ⟨_, hx⟩ | ⟨_, hx⟩
      · rw [hx, hx]
      · rw [hx] at h ⊢
        rw [hx]
        split
        · rename_i h3
          rw [if_pos h3] at h
          rw [← ih _ (by
            intro h0
            rw [h0] at h
            exact h rfl)]
        · rfl
      · rw [hx] at h ⊢
        rw [hx]
        have hp : paramsWith (getTypeD d) ((c :: cs).length + 1) cs ≠ .error .diverge := by
          intro h0
          rw [h0] at h
          exact h rfl
        rw [← paramsWith_mono ih _ _ hp]
        rcases hq : paramsWith (getTypeD d) ((c :: cs).length + 1) cs with e | ⟨ts, rest⟩
        · rfl
        · rw [hq] at h
          cases rest with
          | nil => rfl
          | cons x rest =>
            simp only at h ⊢
            split
            · rfl
            rename_i h3
            rw [if_neg h3] at h
            rw [← ih _ (by
              intro h0
              rw [h0] at h
              exact h rfl)]

theorem getTypeD_le {d d' : Nat} (hd : d ≤ d') {cs : List Nat} (h : getTypeD d cs ≠ .error .diverge) :
    getTypeD d cs = getTypeD d' cs := by
  obtain ⟨k, rfl⟩ : ∃ k, d' = d + k := ⟨d' - d, by omega⟩
  clear hd
  induction k with
  | zero => rfl
  | succ k ih => rw [ih, getTypeD_mono (d + k) cs (by rwa [← ih]), Nat.add_assoc]

mutual
/-- A text that is accepted takes at most two calls for three characters. -/
theorem getType_shallow : (n : Nat) → (cs : List Nat) → (t : JType) → (rest : List Nat) →
    getType n cs = .ok (t, rest) → (d : Nat) →
    (2 * cs.length + 2 < 3 * d + 3 + 2 * rest.length → getTypeD d cs = .ok (t, rest)) ∧
    (cs.head? ≠ some 0x5B → 2 * cs.length + 1 < 3 * d + 3 + 2 * rest.length → getTypeD d cs = .ok (t, rest))
  | 0, _, _, _, h, _ => by simp [getType] at h
  | n + 1, [], _, _, h, _ => by simp [getType] at h
  | n + 1, c :: cs, t, rest, h, d => by
    have hlt := getType_lt _ _ _ _ h
    simp only [List.length_cons] at hlt ⊢
    rw [getType_step] at h
    rcases typeWith_cases c cs with ⟨x, hx, _⟩ | ⟨hc, hx⟩ | ⟨hc, hx⟩
    · rw [hx] at h
      have key : ∀ d, 0 < d → getTypeD d (c :: cs) = .ok (t, rest) := by
        intro d hd
        obtain ⟨e, rfl⟩ : ∃ e, d = e + 1 := ⟨d - 1, by omega⟩
        rw [getTypeD, hx, h]
      exact ⟨fun hd => key d (by omega), fun _ hd => key d (by omega)⟩
    · rw [hx] at h
      refine ⟨fun hd => ?_, fun h0 => absurd (congrArg some hc) h0⟩
      obtain ⟨e, rfl⟩ : ∃ e, d = e + 1 := ⟨d - 1, by omega⟩
      rw [getTypeD, hx]
      split at h
      · rename_i hk
        rw [if_pos hk]
        rcases hg : getType n (countBrackets cs).2 with e1 | ⟨t1, rest1⟩
        · rw [hg] at h
          exact nomatch h
        · rw [hg] at h
          simp only [Except.ok.injEq, Prod.mk.injEq] at h
          obtain ⟨h1, h2⟩ := h
          have := countBrackets_length cs
          rw [(getType_shallow n _ _ _ hg e).2 (Sig.countBrackets_head cs) (by rw [h2]; omega)]
          simp only
          rw [h1, h2]
      · exact nomatch h
    · rw [hx] at h
      have key : ∀ d, 2 * (cs.length + 1) + 1 < 3 * d + 3 + 2 * rest.length → getTypeD d (c :: cs) = .ok (t, rest) := by
        intro d hd
        obtain ⟨e, rfl⟩ : ∃ e, d = e + 1 := ⟨d - 1, by omega⟩
        rw [getTypeD, hx]
        rcases hp : getParams n cs with e1 | ⟨ts, rest1⟩
        · rw [hp] at h
          exact nomatch h
        · rw [hp] at h
          have hle := getParams_le _ _ _ _ hp
          cases rest1 with
          | nil => exact nomatch h
          | cons x rest1 =>
            simp only [List.length_cons] at h hle
            split at h
            · rename_i hv
              simp only [Except.ok.injEq, Prod.mk.injEq] at h
              obtain ⟨h1, h2⟩ := h
              rw [getParams_shallow n _ _ _ hp e _ (by simp only [List.length_cons]; omega) (by simp only [List.length_cons]; rw [h2]; omega)]
              simp only
              rw [if_pos hv, h1, h2]
            · rename_i hv
              rcases hg : getType n rest1 with e1 | ⟨t1, rest2⟩
              · rw [hg] at h
                exact nomatch h
              · rw [hg] at h
                simp only [Except.ok.injEq, Prod.mk.injEq] at h
                obtain ⟨h1, h2⟩ := h
                have hl2 := getType_lt _ _ _ _ hg
                rw [h2] at hl2
                rw [getParams_shallow n _ _ _ hp e _ (by simp only [List.length_cons]; omega) (by simp only [List.length_cons]; omega)]
                simp only
                rw [if_neg hv, (getType_shallow n _ _ _ hg e).1 (by rw [h2]; omega)]
                simp only
                rw [h1, h2]
      exact ⟨fun hd => key d (by omega), fun _ hd => key d (by omega)⟩
theorem getParams_shallow : (n : Nat) → (cs : List Nat) → (ts : List JType) → (rest : List Nat) →
    getParams n cs = .ok (ts, rest) → (d k : Nat) → cs.length < k →
    2 * cs.length + 2 < 3 * d + 3 + 2 * rest.length → paramsWith (getTypeD d) k cs = .ok (ts, rest)
  | 0, _, _, _, h, _, _, _, _ => by simp [getParams] at h
  | n + 1, cs, ts, rest, h, d, k, hk, hd => by
    obtain ⟨k, rfl⟩ : ∃ e, k = e + 1 := ⟨k - 1, by omega⟩
    rw [paramsWith]
    rw [getParams] at h
    split at h
    · rename_i hh
      rw [if_pos hh, h]
    · rename_i hh
      rw [if_neg hh]
      rcases hg : getType n cs with e1 | ⟨t1, rest1⟩
      · rw [hg] at h
        exact nomatch h
      · rw [hg] at h
        have hl1 := getType_lt _ _ _ _ hg
        simp only at h
        rcases hp : getParams n rest1 with e1 | ⟨ts1, rest2⟩
        · rw [hp] at h
          exact nomatch h
        · rw [hp] at h
          have hl2 := getParams_le _ _ _ _ hp
          simp only [Except.ok.injEq, Prod.mk.injEq] at h
          obtain ⟨h1, h2⟩ := h
          rw [h2] at hl2
          rw [(getType_shallow n _ _ _ hg d).1 (by omega)]
          simp only
          rw [getParams_shallow n _ _ _ hp d k (by omega) (by rw [h2]; omega)]
          simp only
          rw [h1, h2]
end

end JType
namespace Sig

/-- `r` answers what `ref_type_sig` answers on texts of length at most `m` (nothing is asked for `m = 0`). -/
def Answers (r : Str → Res (RefSig × Str)) (m : Nat) : Prop :=
  1 ≤ m → ∀ s : Str, s.length ≤ m → ∀ fuel, 4 * s.length + 2 ≤ fuel → r s = refTypeSig fuel s

theorem Answers.mono {r : Str → Res (RefSig × Str)} {m m' : Nat} (h : Answers r m) (hm : m' ≤ m) : Answers r m' :=
  fun h1 s hs => h (by omega) s (by omega)

theorem typeArgWith_same {r : Str → Res (RefSig × Str)} {m : Nat} (h : Answers r m) (i : Str) (fuel : Nat)
    (hi : i.length ≤ m) (hf : 4 * i.length + 3 ≤ fuel) : typeArgWith r i = typeArg fuel i := by
  obtain ⟨fuel, rfl⟩ : ∃ f, fuel = f + 1 := ⟨fuel - 1, by omega⟩
  cases i with
  | nil => rfl
  | cons c cs =>
    simp only [List.length_cons] at hi hf
    rw [typeArgWith, typeArg, h (by omega) cs (by omega) fuel (by omega),
      h (by omega) (c :: cs) (by simp only [List.length_cons]; omega) fuel (by simp only [List.length_cons]; omega)]
    rfl

theorem typeArgsWith_same {r : Str → Res (RefSig × Str)} {m : Nat} (h : Answers r m) :
    ∀ (k : Nat) (i : Str) (fuel : Nat), i.length ≤ m → i.length < k → 4 * i.length + 4 ≤ fuel →
      typeArgsWith r k i = typeArgs fuel i
  | 0, _, _, _, hk, _ => absurd hk (by omega)
  | _ + 1, _, 0, _, _, hf => absurd hf (by omega)
  | k + 1, [], fuel + 1, _, _, _ => by rw [typeArgsWith, typeArgs]
  | k + 1, c :: cs, fuel + 1, hm, hk, hf => by
    rw [typeArgsWith, typeArgs]
    split
    · rfl
    simp only [List.length_cons] at hm hk hf
    rw [typeArgWith_same h (c :: cs) fuel (by simp only [List.length_cons]; omega) (by simp only [List.length_cons]; omega)]
    rcases ha : typeArg fuel (c :: cs) with e | ⟨a, i⟩
    · rfl
    · have := (okA _ _ _ _ ha).2.length
      simp only [List.length_cons] at this ⊢
      rw [typeArgsWith_same h k i fuel (by omega) (by omega) (by omega)]
      rfl

theorem simpleWith_same {r : Str → Res (RefSig × Str)} {m : Nat} (h : Answers r m) (i : Str) (fuel : Nat)
    (hi : i.length ≤ m + 1) (hf : 4 * i.length + 1 ≤ fuel) : simpleWith r i = simpleTypeSig fuel i := by
  obtain ⟨fuel, rfl⟩ : ∃ f, fuel = f + 1 := ⟨fuel - 1, by omega⟩
  have hs := (suf_dropWhile nameChar i).length
  rw [simpleWith, simpleTypeSig]
  cases hd : i.dropWhile nameChar with
  | nil => rfl
  | cons c cs =>
    rw [hd] at hs
    simp only [List.length_cons] at hs ⊢
    rw [typeArgsWith_same h (cs.length + 1) cs fuel (by omega) (by omega) (by omega)]
    rfl

theorem suffixesWith_same {r : Str → Res (RefSig × Str)} {m : Nat} (h : Answers r m) :
    ∀ (k : Nat) (i : Str) (fuel : Nat), i.length ≤ m + 1 → i.length < k → 4 * i.length + 1 ≤ fuel →
      suffixesWith r k i = suffixes fuel i
  | 0, _, _, _, hk, _ => absurd hk (by omega)
  | _ + 1, _, 0, _, _, hf => absurd hf (by omega)
  | k + 1, [], fuel + 1, _, _, _ => by rw [suffixesWith, suffixes]
  | k + 1, c :: cs, fuel + 1, hm, hk, hf => by
    rw [suffixesWith, suffixes]
    simp only [List.length_cons] at hm hk hf
    rw [simpleWith_same h cs fuel (by omega) (by omega)]
    rcases ha : simpleTypeSig fuel cs with e | ⟨a, i⟩
    · rfl
    · have := (okS _ _ _ _ ha).2.length
      simp only
      rw [suffixesWith_same h k i fuel (by omega) (by omega) (by omega)]
      rfl

theorem classWith_same {r : Str → Res (RefSig × Str)} {m : Nat} (h : Answers r m) (i : Str) (fuel : Nat)
    (hi : i.length ≤ m + 2) (hf : 4 * i.length + 1 ≤ fuel) : classWith r i = classTypeSig fuel i := by
  obtain ⟨fuel, rfl⟩ : ∃ f, fuel = f + 1 := ⟨fuel - 1, by omega⟩
  rw [classWith, classTypeSig]
  rcases he : expect 0x4C i with e | i1
  · rfl
  have l1 := (expect_suf he).length
  simp only
  rcases hp : packages i1 with e | ⟨pk, i2⟩
  · rfl
  have l2 := (packages_suf hp).length
  simp only
  rw [simpleWith_same h i2 fuel (by omega) (by omega)]
  rcases hs : simpleTypeSig fuel i2 with e | ⟨nm, i3⟩
  · rfl
  have l3 := (okS _ _ _ _ hs).2.length
  simp only
  rw [suffixesWith_same h (i3.length + 1) i3 fuel (by omega) (by omega) (by omega)]
  rfl

/-- Two calls for three characters are enough. -/
theorem refTypeSigD_same : ∀ (d : Nat) (i : Str) (fuel : Nat), 1 ≤ d → 4 * i.length + 2 ≤ fuel →
    (2 * i.length + 2 < 3 * d + 3 → refTypeSigD d i = refTypeSig fuel i) ∧
    (i.head? ≠ some 0x5B → 2 * i.length + 1 < 3 * d + 3 → refTypeSigD d i = refTypeSig fuel i)
  | 0, _, _, hd, _ => absurd hd (by omega)
  | _ + 1, _, 0, _, hf => absurd hf (by omega)
  | d + 1, [], fuel + 1, _, _ => by
    have : refTypeSigD (d + 1) [] = refTypeSig (fuel + 1) [] := by rw [refTypeSigD, refWith, refTypeSig]
    exact ⟨fun _ => this, fun _ _ => this⟩
  | d + 1, c :: cs, fuel + 1, _, hf => by
    simp only [List.length_cons] at hf ⊢
    by_cases hc : c = 0x5B
    · refine ⟨fun hd => ?_, fun h0 => absurd (congrArg some hc) h0⟩
      rw [refTypeSigD, refWith, refTypeSig, if_pos hc, if_pos hc]
      split
      · have hl := (suf_brackets cs).length
        have : typeSigWith (refTypeSigD d) (JType.countBrackets cs).2 = typeSig fuel (JType.countBrackets cs).2 := by
          obtain ⟨fuel, rfl⟩ : ∃ f, fuel = f + 1 := ⟨fuel - 1, by omega⟩
          have hh := countBrackets_head cs
          cases hb : (JType.countBrackets cs).2 with
          | nil => rfl
          | cons x xs =>
            rw [hb] at hl hh
            simp only [List.length_cons] at hl
            rw [typeSigWith, typeSig,
              (refTypeSigD_same d (x :: xs) fuel (by omega) (by simp only [List.length_cons]; omega)).2 hh
                (by simp only [List.length_cons]; omega)]
            rfl
        rw [this]
        rfl
      · rfl
    · have key : 2 * (cs.length + 1) + 1 < 3 * (d + 1) + 3 →
          refTypeSigD (d + 1) (c :: cs) = refTypeSig (fuel + 1) (c :: cs) := by
        intro hd
        rw [refTypeSigD, refWith, refTypeSig, if_neg hc, if_neg hc]
        split
        · rfl
        split
        · have : Answers (refTypeSigD d) (cs.length - 1) := by
            intro hm s hs f hf
            exact (refTypeSigD_same d s f (by omega) hf).1 (by omega)
          rw [classWith_same this (c :: cs) fuel (by simp only [List.length_cons]; omega)
            (by simp only [List.length_cons]; omega)]
          rfl
        · rfl
      exact ⟨fun hd => key (by omega), fun _ hd => key (by omega)⟩

theorem class_two {n : Nat} {s : Str} {t : ClassTySig} {rest : Str} (h : classTypeSig n s = .ok (t, rest)) :
    rest.length + 2 ≤ s.length := by
  cases n with
  | zero => simp [classTypeSig] at h
  | succ n =>
    rw [classTypeSig] at h
    rcases he : expect 0x4C s with e | i1
    · rw [he] at h
      exact nomatch h
    rw [he] at h
    have l1 := (expect_suf he).length
    simp only at h
    rcases hp : packages i1 with e | ⟨pk, i2⟩
    · rw [hp] at h
      exact nomatch h
    rw [hp] at h
    have l2 := (packages_suf hp).length
    simp only at h
    rcases hs : simpleTypeSig n i2 with e | ⟨nm, i3⟩
    · rw [hs] at h
      exact nomatch h
    rw [hs] at h
    have l3 := (okS _ _ _ _ hs).2.length
    simp only at h
    rcases hx : suffixes n i3 with e | ⟨ss, i4⟩
    · rw [hx] at h
      exact nomatch h
    rw [hx] at h
    have l4 := (okSs _ _ _ _ hx).2.length
    simp only at h
    rcases hy : expect 0x3B i4 with e | i5
    · rw [hy] at h
      exact nomatch h
    rw [hy] at h
    have l5 := (expect_suf hy).length
    simp only [Except.ok.injEq, Prod.mk.injEq] at h
    rw [← h.2]
    omega

mutual
/-- What is accepted takes at most two calls for five characters. -/
theorem shallowR : (n : Nat) → (s : Str) → (r : RefSig) → (rest : Str) → refTypeSig n s = .ok (r, rest) → (d : Nat) →
    (2 * s.length + 4 < 5 * d + 5 + 2 * rest.length → refTypeSigD d s = .ok (r, rest)) ∧
    (s.head? ≠ some 0x5B → 2 * s.length + 1 < 5 * d + 5 + 2 * rest.length → refTypeSigD d s = .ok (r, rest))
  | 0, _, _, _, h, _ => by simp [refTypeSig] at h
  | n + 1, [], _, _, h, _ => by simp [refTypeSig] at h
  | n + 1, c :: cs, r, rest, h, d => by
    have hlt := (okR _ _ _ _ h).2.length
    simp only [List.length_cons] at hlt ⊢
    rw [refTypeSig] at h
    by_cases hc : c = 0x5B
    · refine ⟨fun hd => ?_, fun h0 => absurd (congrArg some hc) h0⟩
      obtain ⟨e, rfl⟩ : ∃ e, d = e + 1 := ⟨d - 1, by omega⟩
      rw [refTypeSigD, refWith, if_pos hc]
      rw [if_pos hc] at h
      split at h
      · rename_i hk
        rw [if_pos hk]
        have hl := (suf_brackets cs).length
        rcases hg : typeSig n (JType.countBrackets cs).2 with e1 | ⟨t1, rest1⟩
        · rw [hg] at h
          exact nomatch h
        · rw [hg] at h
          simp only [Except.ok.injEq, Prod.mk.injEq] at h
          obtain ⟨h1, h2⟩ := h
          rw [shallowT n _ _ _ hg e (countBrackets_head cs) (by rw [h2]; omega)]
          simp only
          rw [h1, h2]
      · exact nomatch h
    · rw [if_neg hc] at h
      have key : 2 * (cs.length + 1) + 1 < 5 * d + 5 + 2 * rest.length → refTypeSigD d (c :: cs) = .ok (r, rest) := by
        intro hd
        obtain ⟨e, rfl⟩ : ∃ e, d = e + 1 := by
          by_cases h0 : d = 0
          · subst h0
            split at h
            · rcases ht : tyVar cs with e1 | ⟨n1, i1⟩
              · rw [ht] at h
                exact nomatch h
              · rw [ht] at h
                simp only [Except.ok.injEq, Prod.mk.injEq] at h
                have := congrArg List.length (tyVar_ok ht).2
                simp only [List.length_append, List.length_cons] at this
                rw [h.2] at this
                omega
            · split at h
              · rcases ht : classTypeSig n (c :: cs) with e1 | ⟨n1, i1⟩
                · rw [ht] at h
                  exact nomatch h
                · rw [ht] at h
                  simp only [Except.ok.injEq, Prod.mk.injEq] at h
                  have := class_two ht
                  simp only [List.length_cons] at this
                  rw [h.2] at this
                  omega
              · exact nomatch h
          · exact ⟨d - 1, by omega⟩
        rw [refTypeSigD, refWith, if_neg hc]
        split at h
        · rename_i ht
          rw [if_pos ht]
          exact h
        · rename_i ht
          rw [if_neg ht]
          split at h
          · rename_i hl
            rw [if_pos hl]
            rcases hg : classTypeSig n (c :: cs) with e1 | ⟨t1, rest1⟩
            · rw [hg] at h
              exact nomatch h
            · rw [hg] at h
              simp only [Except.ok.injEq, Prod.mk.injEq] at h
              obtain ⟨h1, h2⟩ := h
              rw [shallowC n _ _ _ hg e (by simp only [List.length_cons]; rw [h2]; omega)]
              simp only
              rw [h1, h2]
          · exact nomatch h
      exact ⟨fun hd => key (by omega), fun _ hd => key (by omega)⟩
theorem shallowT : (n : Nat) → (s : Str) → (t : TypeSig) → (rest : Str) → typeSig n s = .ok (t, rest) → (d : Nat) →
    s.head? ≠ some 0x5B → 2 * s.length + 1 < 5 * d + 5 + 2 * rest.length →
    typeSigWith (refTypeSigD d) s = .ok (t, rest)
  | 0, _, _, _, h, _, _, _ => by simp [typeSig] at h
  | n + 1, [], _, _, h, _, _, _ => by simp [typeSig] at h
  | n + 1, c :: cs, t, rest, h, d, hh, hd => by
    rw [typeSig] at h
    rw [typeSigWith]
    cases hp : primSig c with
    | some x =>
      rw [hp] at h
      exact h
    | none =>
      rw [hp] at h
      simp only at h ⊢
      split at h
      · rename_i hr
        rw [if_pos hr]
        rcases hg : refTypeSig n (c :: cs) with e1 | ⟨r1, rest1⟩
        · rw [hg] at h
          exact nomatch h
        · rw [hg] at h
          simp only [Except.ok.injEq, Prod.mk.injEq] at h
          obtain ⟨h1, h2⟩ := h
          rw [(shallowR n _ _ _ hg d).2 hh (by rw [h2]; exact hd)]
          simp only
          rw [h1, h2]
      · exact nomatch h
theorem shallowC : (n : Nat) → (s : Str) → (t : ClassTySig) → (rest : Str) → classTypeSig n s = .ok (t, rest) →
    (d : Nat) → 2 * s.length + 1 < 5 * (d + 1) + 5 + 2 * rest.length → classWith (refTypeSigD d) s = .ok (t, rest)
  | 0, _, _, _, h, _, _ => by simp [classTypeSig] at h
  | n + 1, s, t, rest, h, d, hd => by
    rw [classTypeSig] at h
    rw [classWith]
    rcases he : expect 0x4C s with e | i1
    · rw [he] at h
      exact nomatch h
    rw [he] at h
    have l1 := (expect_suf he).length
    simp only at h ⊢
    rcases hp : packages i1 with e | ⟨pk, i2⟩
    · rw [hp] at h
      exact nomatch h
    rw [hp] at h
    have l2 := (packages_suf hp).length
    simp only at h ⊢
    rcases hs : simpleTypeSig n i2 with e | ⟨nm, i3⟩
    · rw [hs] at h
      exact nomatch h
    rw [hs] at h
    have l3 := (okS _ _ _ _ hs).2.length
    simp only at h
    rcases hx : suffixes n i3 with e | ⟨ss, i4⟩
    · rw [hx] at h
      exact nomatch h
    rw [hx] at h
    have l4 := (okSs _ _ _ _ hx).2.length
    simp only at h
    rcases hy : expect 0x3B i4 with e | i5
    · rw [hy] at h
      exact nomatch h
    rw [hy] at h
    have l5 := (expect_suf hy).length
    simp only [Except.ok.injEq, Prod.mk.injEq] at h
    rw [← h.2] at hd
    rw [shallowS n _ _ _ hs d (by omega)]
    simp only
    rw [shallowSs n _ _ _ hx d _ (by omega) (by omega)]
    simp only
    rw [hy]
    simp only
    rw [h.1, h.2]
theorem shallowSs : (n : Nat) → (s : Str) → (t : List SimpleSig) → (rest : Str) → suffixes n s = .ok (t, rest) →
    (d k : Nat) → s.length < k → 2 * s.length < 5 * d + 5 + 2 * rest.length →
    suffixesWith (refTypeSigD d) k s = .ok (t, rest)
  | 0, _, _, _, h, _, _, _, _ => by simp [suffixes] at h
  | _ + 1, _, _, _, _, _, 0, hk, _ => absurd hk (by omega)
  | n + 1, [], _, _, h, _, k + 1, _, _ => by
    rw [suffixes] at h
    rw [suffixesWith]
    exact h
  | n + 1, c :: cs, t, rest, h, d, k + 1, hk, hd => by
    rw [suffixes] at h
    rw [suffixesWith]
    simp only [List.length_cons] at hk hd
    split at h
    · rename_i hc
      rw [if_pos hc]
      rcases hs : simpleTypeSig n cs with e | ⟨nm, i3⟩
      · rw [hs] at h
        exact nomatch h
      rw [hs] at h
      have l3 := (okS _ _ _ _ hs).2.length
      simp only at h
      rcases hx : suffixes n i3 with e | ⟨ss, i4⟩
      · rw [hx] at h
        exact nomatch h
      rw [hx] at h
      have l4 := (okSs _ _ _ _ hx).2.length
      simp only [Except.ok.injEq, Prod.mk.injEq] at h
      rw [← h.2] at hd
      rw [shallowS n _ _ _ hs d (by omega)]
      simp only
      rw [shallowSs n _ _ _ hx d k (by omega) (by omega)]
      simp only
      rw [h.1, h.2]
    · rename_i hc
      rw [if_neg hc]
      exact h
theorem shallowS : (n : Nat) → (s : Str) → (t : SimpleSig) → (rest : Str) → simpleTypeSig n s = .ok (t, rest) →
    (d : Nat) → 2 * s.length < 5 * d + 5 + 2 * rest.length → simpleWith (refTypeSigD d) s = .ok (t, rest)
  | 0, _, _, _, h, _, _ => by simp [simpleTypeSig] at h
  | n + 1, s, t, rest, h, d, hd => by
    rw [simpleTypeSig] at h
    rw [simpleWith]
    have hs := (suf_dropWhile nameChar s).length
    cases hw : s.dropWhile nameChar with
    | nil =>
      rw [hw] at h
      exact h
    | cons c cs =>
      rw [hw] at h hs
      simp only [List.length_cons] at h hs ⊢
      split at h
      · rename_i hc
        rw [if_pos hc]
        rcases ha : typeArgs n cs with e | ⟨as, i1⟩
        · rw [ha] at h
          exact nomatch h
        rw [ha] at h
        simp only at h
        rcases hy : expect 0x3E i1 with e | i2
        · rw [hy] at h
          exact nomatch h
        rw [hy] at h
        have l2 := (expect_suf hy).length
        simp only [Except.ok.injEq, Prod.mk.injEq] at h
        rw [← h.2] at hd
        rw [shallowAs n _ _ _ ha d _ (by omega) (by omega)]
        simp only
        rw [hy]
        simp only
        rw [h.1, h.2]
      · rename_i hc
        rw [if_neg hc]
        exact h
theorem shallowAs : (n : Nat) → (s : Str) → (t : List TypeArg) → (rest : Str) → typeArgs n s = .ok (t, rest) →
    (d k : Nat) → s.length < k → 2 * s.length + 4 < 5 * d + 5 + 2 * rest.length →
    typeArgsWith (refTypeSigD d) k s = .ok (t, rest)
  | 0, _, _, _, h, _, _, _, _ => by simp [typeArgs] at h
  | _ + 1, _, _, _, _, _, 0, hk, _ => absurd hk (by omega)
  | n + 1, [], _, _, h, _, k + 1, _, _ => by
    rw [typeArgs] at h
    rw [typeArgsWith]
    exact h
  | n + 1, c :: cs, t, rest, h, d, k + 1, hk, hd => by
    rw [typeArgs] at h
    rw [typeArgsWith]
    split at h
    · rename_i hc
      rw [if_pos hc]
      exact h
    · rename_i hc
      rw [if_neg hc]
      rcases hs : typeArg n (c :: cs) with e | ⟨a, i3⟩
      · rw [hs] at h
        exact nomatch h
      rw [hs] at h
      have l3 := (okA _ _ _ _ hs).2.length
      simp only at h
      rcases hx : typeArgs n i3 with e | ⟨ss, i4⟩
      · rw [hx] at h
        exact nomatch h
      rw [hx] at h
      have l4 := (okAs _ _ _ _ hx).2.length
      simp only [Except.ok.injEq, Prod.mk.injEq] at h
      rw [← h.2] at hd
      rw [shallowA n _ _ _ hs d (by omega)]
      simp only
      rw [shallowAs n _ _ _ hx d k (by omega) (by omega)]
      simp only
      rw [h.1, h.2]
theorem shallowA : (n : Nat) → (s : Str) → (t : TypeArg) → (rest : Str) → typeArg n s = .ok (t, rest) →
    (d : Nat) → 2 * s.length + 4 < 5 * d + 5 + 2 * rest.length → typeArgWith (refTypeSigD d) s = .ok (t, rest)
  | 0, _, _, _, h, _, _ => by simp [typeArg] at h
  | n + 1, [], _, _, h, _, _ => by simp [typeArg] at h
  | n + 1, c :: cs, t, rest, h, d, hd => by
    rw [typeArg] at h
    rw [typeArgWith]
    have one : ∀ (f : RefSig → TypeArg) (i : Str), i.length ≤ (c :: cs).length →
        (match refTypeSig n i with
          | .ok (r, i) => (.ok (f r, i) : Res (TypeArg × Str))
          | .error e => .error e) = .ok (t, rest) →
        (match refTypeSigD d i with
          | .ok (r, i) => (.ok (f r, i) : Res (TypeArg × Str))
          | .error e => .error e) = .ok (t, rest) := by
      intro f i hi h
      rcases hg : refTypeSig n i with e1 | ⟨r1, rest1⟩
      · rw [hg] at h
        exact nomatch h
      · rw [hg] at h
        simp only [Except.ok.injEq, Prod.mk.injEq] at h
        obtain ⟨h1, h2⟩ := h
        rw [(shallowR n _ _ _ hg d).1 (by rw [h2]; omega)]
        simp only
        rw [h1, h2]
    split at h
    · rename_i hc
      rw [if_pos hc]
      exact h
    rename_i hc
    rw [if_neg hc]
    split at h
    · rename_i hc
      rw [if_pos hc]
      exact one .sup cs (by simp) h
    rename_i hc
    rw [if_neg hc]
    split at h
    · rename_i hc
      rw [if_pos hc]
      exact one .ext cs (by simp) h
    rename_i hc
    rw [if_neg hc]
    split at h
    · rename_i hc
      rw [if_pos hc]
      exact one .exact (c :: cs) (Nat.le_refl _) h
    · exact nomatch h
end

/-- `r'` answers as `r` does whenever `r` answers within its limit. -/
def Extends {α β : Type} (r r' : α → Res β) : Prop := ∀ s, r s ≠ .error .diverge → r s = r' s

theorem Extends.or {α β : Type} {r r' : α → Res β} (h : Extends r r') (s : α) : r s = .error .diverge ∨ r s = r' s :=
  (Classical.em (r s = .error .diverge)).imp_right (h s)

theorem typeSigWith_ext {r r' : Str → Res (RefSig × Str)} (h : Extends r r') :
    Extends (typeSigWith r) (typeSigWith r') := by
  intro s hn
  cases s with
  | nil => rfl
  | cons c cs =>
    rw [typeSigWith] at hn ⊢
    rw [typeSigWith]
    cases hp : primSig c with
    | some x => rfl
    | none =>
      rw [hp] at hn
      simp only at hn ⊢
      split
      · rename_i hr
        rw [if_pos hr] at hn
        rcases h.or (c :: cs) with h0 | h0
        · rw [h0] at hn
          exact absurd rfl hn
        · rw [h0]
      · rfl

theorem typeArgWith_ext {r r' : Str → Res (RefSig × Str)} (h : Extends r r') :
    Extends (typeArgWith r) (typeArgWith r') := by
  intro s hn
  cases s with
  | nil => rfl
  | cons c cs =>
    rw [typeArgWith] at hn ⊢
    rw [typeArgWith]
    split
    · rfl
    rename_i hc
    rw [if_neg hc] at hn
    split
    · rename_i hc
      rw [if_pos hc] at hn
      rcases h.or cs with h0 | h0
      · rw [h0] at hn
        exact absurd rfl hn
      · rw [h0]
    rename_i hc
    rw [if_neg hc] at hn
    split
    · rename_i hc
      rw [if_pos hc] at hn
      rcases h.or cs with h0 | h0
      · rw [h0] at hn
        exact absurd rfl hn
      · rw [h0]
    rename_i hc
    rw [if_neg hc] at hn
    split
    · rename_i hc
      rw [if_pos hc] at hn
      rcases h.or (c :: cs) with h0 | h0
      · rw [h0] at hn
        exact absurd rfl hn
      · rw [h0]
    · rfl

theorem typeArgsWith_ext {r r' : Str → Res (RefSig × Str)} (h : Extends r r') :
    ∀ k, Extends (typeArgsWith r k) (typeArgsWith r' k)
  | 0, _, hn => absurd rfl hn
  | _ + 1, [], _ => by rw [typeArgsWith, typeArgsWith]
  | k + 1, c :: cs, hn => by
    rw [typeArgsWith] at hn ⊢
    rw [typeArgsWith]
    split
    · rfl
    rename_i hc
    rw [if_neg hc] at hn
    rcases (typeArgWith_ext h).or (c :: cs) with h0 | h0
    · rw [h0] at hn
      exact absurd rfl hn
    rw [← h0]
    rcases ha : typeArgWith r (c :: cs) with e | ⟨a, i⟩
    · rfl
    rw [ha] at hn
    simp only at hn ⊢
    rcases (typeArgsWith_ext h k).or i with h0 | h0
    · rw [h0] at hn
      exact absurd rfl hn
    · rw [h0]

theorem simpleWith_ext {r r' : Str → Res (RefSig × Str)} (h : Extends r r') :
    Extends (simpleWith r) (simpleWith r') := by
  intro s hn
  rw [simpleWith] at hn ⊢
  rw [simpleWith]
  cases hw : s.dropWhile nameChar with
  | nil => rfl
  | cons c cs =>
    rw [hw] at hn
    simp only at hn ⊢
    split
    · rename_i hc
      rw [if_pos hc] at hn
      rcases (typeArgsWith_ext h _).or cs with h0 | h0
      · rw [h0] at hn
        exact absurd rfl hn
      · rw [h0]
    · rfl

theorem suffixesWith_ext {r r' : Str → Res (RefSig × Str)} (h : Extends r r') :
    ∀ k, Extends (suffixesWith r k) (suffixesWith r' k)
  | 0, _, hn => absurd rfl hn
  | _ + 1, [], _ => by rw [suffixesWith, suffixesWith]
  | k + 1, c :: cs, hn => by
    rw [suffixesWith] at hn ⊢
    rw [suffixesWith]
    split
    · rename_i hc
      rw [if_pos hc] at hn
      rcases (simpleWith_ext h).or cs with h0 | h0
      · rw [h0] at hn
        exact absurd rfl hn
      rw [← h0]
      rcases ha : simpleWith r cs with e | ⟨a, i⟩
      · rfl
      rw [ha] at hn
      simp only at hn ⊢
      rcases (suffixesWith_ext h k).or i with h0 | h0
      · rw [h0] at hn
        exact absurd rfl hn
      · rw [h0]
    · rfl

theorem classWith_ext {r r' : Str → Res (RefSig × Str)} (h : Extends r r') :
    Extends (classWith r) (classWith r') := by
  intro s hn
  rw [classWith] at hn ⊢
  rw [classWith]
  rcases he : expect 0x4C s with e | i1
  · rfl
  rw [he] at hn
  simp only at hn ⊢
  rcases hp : packages i1 with e | ⟨pk, i2⟩
  · rfl
  rw [hp] at hn
  simp only at hn ⊢
  rcases (simpleWith_ext h).or i2 with h0 | h0
  · rw [h0] at hn
    exact absurd rfl hn
  rw [← h0]
  rcases ha : simpleWith r i2 with e | ⟨a, i⟩
  · rfl
  rw [ha] at hn
  simp only at hn ⊢
  rcases (suffixesWith_ext h _).or i with h0 | h0
  · rw [h0] at hn
    exact absurd rfl hn
  · rw [h0]

theorem refTypeSigD_ext : ∀ d, Extends (refTypeSigD d) (refTypeSigD (d + 1))
  | 0, _, hn => absurd rfl hn
  | d + 1, s, hn => by
    rw [refTypeSigD] at hn ⊢
    rw [refTypeSigD]
    cases s with
    | nil => rfl
    | cons c cs =>
      rw [refWith] at hn ⊢
      rw [refWith]
      split
      · rename_i hc
        rw [if_pos hc] at hn
        split
        · rename_i hk
          rw [if_pos hk] at hn
          rcases (typeSigWith_ext (refTypeSigD_ext d)).or (JType.countBrackets cs).2 with h0 | h0
          · rw [h0] at hn
            exact absurd rfl hn
          · rw [h0]
        · rfl
      rename_i hc
      rw [if_neg hc] at hn
      split
      · rfl
      rename_i hc
      rw [if_neg hc] at hn
      split
      · rename_i hc
        rw [if_pos hc] at hn
        rcases (classWith_ext (refTypeSigD_ext d)).or (c :: cs) with h0 | h0
        · rw [h0] at hn
          exact absurd rfl hn
        · rw [h0]
      · rfl

theorem refTypeSigD_le {d d' : Nat} (hd : d ≤ d') : Extends (refTypeSigD d) (refTypeSigD d') := by
  intro cs h
  obtain ⟨k, rfl⟩ : ∃ k, d' = d + k := ⟨d' - d, by omega⟩
  clear hd
  induction k with
  | zero => rfl
  | succ k ih => rw [ih, refTypeSigD_ext (d + k) cs (by rwa [← ih]), Nat.add_assoc]

end Sig
end Verif
