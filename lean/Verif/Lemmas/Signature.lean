import Verif.Spec.Signature
import Verif.Lemmas.TySound

namespace Verif.Sig
open Verif.Spec

/-! ### Splitting at delimiters -/

theorem takeWhile_split {p : Nat → Bool} (xs : Str) (c : Nat) (rest : Str) (h : ∀ x ∈ xs, p x = true)
    (hc : p c = false) : (xs ++ c :: rest).takeWhile p = xs ∧ (xs ++ c :: rest).dropWhile p = c :: rest := by
  induction xs with
  | nil => simp [hc]
  | cons x xs ih =>
    have hx := h x (by simp)
    have := ih (fun y hy => h y (by simp [hy]))
    rw [List.cons_append, List.takeWhile_cons, List.dropWhile_cons, if_pos hx, if_pos hx, this.1, this.2]
    exact ⟨rfl, rfl⟩

theorem dropWhile_cons_false {p : Nat → Bool} (xs : Str) {c : Nat} {rest : Str}
    (h : xs.dropWhile p = c :: rest) : p c = false := by
  induction xs with
  | nil => simp at h
  | cons d xs ih =>
    rw [List.dropWhile_cons] at h
    split at h
    · exact ih h
    · rename_i hd
      rw [List.cons.injEq] at h
      rw [← h.1]
      simpa using hd

theorem mem_takeWhile {p : Nat → Bool} {xs : Str} {c : Nat} (h : c ∈ xs.takeWhile p) : p c = true := by
  induction xs with
  | nil => simp at h
  | cons d xs ih =>
    rw [List.takeWhile_cons] at h
    split at h
    · rename_i hd
      rcases List.mem_cons.mp h with rfl | h
      · exact hd
      · exact ih h
    · simp at h

theorem tyVar_text (n rest : Str) (h : 0x3B ∉ n) : tyVar (n ++ 0x3B :: rest) = .ok (n, rest) := by
  have := takeWhile_split (p := (· ≠ 0x3B)) n 0x3B rest
    (by intro x hx; simp; rintro rfl; exact h hx) (by simp)
  unfold tyVar
  rw [this.1, this.2]

theorem nameChar_iff (c : Nat) : nameChar c = true ↔ c ≠ 0x3B ∧ c ≠ 0x3C ∧ c ≠ 0x2E := by
  simp [nameChar]; omega

/-- The text after the last slash does not hold another one before the name ends. -/
theorem packagesLoop_text (pk : List Str) (hpk : ∀ p ∈ pk, Plain p ∧ 0x2F ∉ p) (n : Str)
    (hn : Plain n) (hs : 0x2F ∉ n) (d : Nat) (hd : d = 0x3B ∨ d = 0x3C ∨ d = 0x2E) (rest : Str)
    (acc : List Str) :
    packagesLoop (pk.flatMap (fun s => s ++ [0x2F]) ++ (n ++ d :: rest)) [] acc
      (pk.flatMap (fun s => s ++ [0x2F]) ++ (n ++ d :: rest)) = .ok (acc ++ pk, n ++ d :: rest) := by
  -- scanning plain characters
  have scan : ∀ (p : Str) (cur : Str) (acc : List Str) (tail after : Str), Plain p → 0x2F ∉ p →
      packagesLoop (p ++ tail) cur acc after = packagesLoop tail (cur ++ p) acc after := by
    intro p
    induction p with
    | nil => intros; simp
    | cons c p ih =>
      intro cur acc tail after hp hsl
      have hc := hp c (by simp)
      have hc2 : c ≠ 0x2F := by rintro rfl; exact hsl (by simp)
      rw [List.cons_append, packagesLoop, if_neg hc2, if_neg (by omega),
        ih _ _ _ _ (fun x hx => hp x (by simp [hx])) (fun hx => hsl (by simp [hx]))]
      simp
  induction pk generalizing acc with
  | nil =>
    rw [List.flatMap_nil, List.nil_append, scan n _ _ _ _ hn hs, packagesLoop, if_neg (by omega),
      if_pos hd, List.append_nil]
  | cons p pk ih =>
    have hp := hpk p (by simp)
    rw [List.flatMap_cons, List.append_assoc, List.append_assoc, scan p _ _ _ _ hp.1 hp.2,
      List.singleton_append, packagesLoop, if_pos rfl, List.nil_append,
      ih (fun x hx => hpk x (by simp [hx]))]
    simp

/-! ### Parsing printed signatures -/

theorem showT_ne (t : TypeSig) (h : OkT t) : showT t ≠ [] := by
  cases t with
  | ref r =>
    cases r with
    | typeVar n => simp [showT, showR]
    | array d t =>
      have hd : d.toNat ≠ 0 := fun e => h.1 (UInt8.toNat_inj.mp e)
      obtain ⟨k, hk⟩ : ∃ k, d.toNat = k + 1 := ⟨d.toNat - 1, by omega⟩
      simp [showT, showR, hk, List.replicate_succ]
    | cls c => cases c; simp [showT, showR, showC]
  | _ => simp [showT]

/-- The first character of a printed reference type. -/
theorem showR_head (r : RefSig) (h : OkR r) : ∃ c cs, showR r = c :: cs ∧ isRefStart c = true := by
  cases r with
  | typeVar n => exact ⟨_, _, by rw [showR], rfl⟩
  | array d t =>
    rw [OkR] at h
    have hd : d.toNat ≠ 0 := fun e => h.1 (UInt8.toNat_inj.mp e)
    obtain ⟨k, hk⟩ : ∃ k, d.toNat = k + 1 := ⟨d.toNat - 1, by omega⟩
    exact ⟨0x5B, _, by rw [showR, hk, List.replicate_succ, List.cons_append], rfl⟩
  | cls c => cases c; exact ⟨0x4C, _, by rw [showR, showC], rfl⟩

theorem primSig_refStart (c : Nat) (h : isRefStart c = true) : primSig c = none := by
  simp [isRefStart] at h
  rcases h with (rfl | rfl) | rfl <;> rfl

theorem showA_ne (a : TypeArg) (h : OkA a) : ∃ c cs, showA a = c :: cs ∧ c ≠ 0x3E := by
  cases a with
  | any => exact ⟨_, _, by rw [showA], by omega⟩
  | ext r => exact ⟨_, _, by rw [showA], by omega⟩
  | sup r => exact ⟨_, _, by rw [showA], by omega⟩
  | exact r =>
    rw [OkA] at h
    obtain ⟨c, cs, e, hc⟩ := showR_head r h
    refine ⟨c, cs, by rw [showA, e], ?_⟩
    simp [isRefStart] at hc
    omega

/-- What may follow a simple class name: `.` or `;`. -/
def SEnd (rest : Str) : Prop := ∃ d r, rest = d :: r ∧ (d = 0x2E ∨ d = 0x3B)

mutual
theorem rtT : (t : TypeSig) → OkT t → (f : Nat) → (rest : Str) → 4 * (showT t).length + 3 ≤ f →
    typeSig f (showT t ++ rest) = .ok (t, rest)
  | .ref r, h, f, rest, hf => by
    rw [OkT] at h
    rw [showT] at hf ⊢
    obtain ⟨f, rfl⟩ : ∃ g, f = g + 1 := ⟨f - 1, by omega⟩
    have ih := rtR r h f rest (by omega)
    obtain ⟨c, cs, e, hc⟩ := showR_head r h
    rw [e, List.cons_append] at ih ⊢
    rw [typeSig, primSig_refStart c hc]
    simp only [hc, if_true, ih]
  | .byte, _, f + 1, rest, _ => by simp [showT, typeSig, primSig]
  | .char, _, f + 1, rest, _ => by simp [showT, typeSig, primSig]
  | .double, _, f + 1, rest, _ => by simp [showT, typeSig, primSig]
  | .float, _, f + 1, rest, _ => by simp [showT, typeSig, primSig]
  | .int, _, f + 1, rest, _ => by simp [showT, typeSig, primSig]
  | .long, _, f + 1, rest, _ => by simp [showT, typeSig, primSig]
  | .boolean, _, f + 1, rest, _ => by simp [showT, typeSig, primSig]
  | .short, _, f + 1, rest, _ => by simp [showT, typeSig, primSig]
theorem rtR : (r : RefSig) → OkR r → (f : Nat) → (rest : Str) → 4 * (showR r).length + 2 ≤ f →
    refTypeSig f (showR r ++ rest) = .ok (r, rest)
  | .typeVar n, h, f + 1, rest, hf => by
    rw [OkR] at h
    rw [showR, List.cons_append, refTypeSig, List.append_assoc, List.singleton_append,
      tyVar_text n rest h]
    simp
  | .array d t, h, f + 1, rest, hf => by
    rw [OkR] at h
    obtain ⟨hd, hna, ht⟩ := h
    have hd' : d.toNat ≠ 0 := fun e => hd (UInt8.toNat_inj.mp e)
    have hlt : d.toNat < 256 := d.toNat_lt
    obtain ⟨k, hk⟩ : ∃ k, d.toNat = k + 1 := ⟨d.toNat - 1, by omega⟩
    have hdk : UInt8.ofNat (k + 1) = d := by
      apply UInt8.toNat_inj.mp; rw [UInt8.toNat_ofNat']; omega
    rw [showR, List.length_append, List.length_replicate] at hf
    have ih := rtT t ht f rest (by omega)
    have hhead : ∃ c cs, showT t = c :: cs ∧ c ≠ 0x5B := by
      cases t with
      | ref r =>
        rw [OkT] at ht
        cases r with
        | typeVar n => exact ⟨_, _, by rw [showT, showR], by omega⟩
        | array d' t' => exact absurd rfl (hna d' t')
        | cls c => cases c; exact ⟨_, _, by rw [showT, showR, showC], by omega⟩
      | _ => exact ⟨_, _, by rw [showT], by omega⟩
    obtain ⟨c, cs, e, hc⟩ := hhead
    rw [showR, hk, List.replicate_succ, List.cons_append, List.cons_append, List.append_assoc, refTypeSig,
      if_pos rfl]
    rw [e, List.cons_append] at ih ⊢
    rw [JType.countBrackets_replicate k c _ hc]
    simp only [ih]
    rw [if_pos (by omega), hdk]
  | .cls c, h, f + 1, rest, hf => by
    rw [OkR] at h
    rw [showR] at hf ⊢
    have ih := rtC c h f rest (by omega)
    have hc : ∃ cs, showC c = 0x4C :: cs := by cases c; exact ⟨_, by rw [showC]⟩
    obtain ⟨cs, e⟩ := hc
    rw [e, List.cons_append] at ih ⊢
    rw [refTypeSig, if_neg (by omega), if_neg (by omega), if_pos rfl, ih]
theorem rtC : (c : ClassTySig) → OkC c → (f : Nat) → (rest : Str) → 4 * (showC c).length + 1 ≤ f →
    classTypeSig f (showC c ++ rest) = .ok (c, rest)
  | .mk pk (.mk n as) ss, h, f + 1, rest, hf => by
    rw [OkC] at h
    obtain ⟨hpk, hn, hs, hss⟩ := h
    rw [showC] at hf ⊢
    simp only [List.length_cons, List.length_append, List.length_nil] at hf
    have ihS := rtS (.mk n as) hs f (showSuffix ss ++ 0x3B :: rest) (by omega) (by
      cases ss with
      | nil => exact ⟨_, _, by rw [showSuffix, List.nil_append], .inr rfl⟩
      | cons s ss => exact ⟨_, _, by rw [showSuffix, List.cons_append], .inl rfl⟩)
    have ihSs := rtSs ss hss f (0x3B :: rest) (by omega) (by simp)
    have hplain : Plain n := by rw [OkS] at hs; exact hs.1
    have hpkg : packages (pk.flatMap (fun s => s ++ [0x2F]) ++ (showS (.mk n as) ++
        (showSuffix ss ++ 0x3B :: rest))) =
        .ok (pk, showS (.mk n as) ++ (showSuffix ss ++ 0x3B :: rest)) := by
      obtain ⟨d, tl, e, hd⟩ : ∃ d tl, showS (.mk n as) ++ (showSuffix ss ++ 0x3B :: rest) = n ++ d :: tl ∧
          (d = 0x3B ∨ d = 0x3C ∨ d = 0x2E) := by
        cases as with
        | cons a as => exact ⟨0x3C, _, by rw [showS, List.append_assoc, List.cons_append], .inr (.inl rfl)⟩
        | nil =>
          cases ss with
          | nil => exact ⟨0x3B, rest, by simp [showS, showSuffix], .inl rfl⟩
          | cons s ss => exact ⟨0x2E, _, by simp [showS, showSuffix]; rfl, .inr (.inr rfl)⟩
      rw [e]
      have := packagesLoop_text pk hpk n hplain hn d hd tl []
      rw [packages, this, List.nil_append]
    simp only [List.cons_append, List.append_assoc, List.nil_append]
    rw [classTypeSig, expect, if_pos rfl]
    simp only [hpkg, ihS, ihSs, expect, if_pos]
theorem rtSs : (ss : List SimpleSig) → OkSs ss → (f : Nat) → (rest : Str) →
    4 * (showSuffix ss).length + 1 ≤ f → rest.head? ≠ some 0x2E →
    (hs : ∃ r, rest = 0x3B :: r := by exact ⟨_, rfl⟩) →
    suffixes f (showSuffix ss ++ rest) = .ok (ss, rest)
  | [], _, f + 1, rest, _, hr, _ => by
    rw [showSuffix, List.nil_append]
    cases rest with
    | nil => rw [suffixes]
    | cons c cs =>
      rw [suffixes, if_neg (by simpa using hr)]
  | s :: ss, h, f + 1, rest, hf, hr, hs => by
    rw [OkSs] at h
    rw [showSuffix] at hf ⊢
    simp only [List.length_cons, List.length_append] at hf
    have ihS := rtS s h.1 f (showSuffix ss ++ rest) (by omega) (by
      cases ss with
      | nil =>
        obtain ⟨r, rfl⟩ := hs
        exact ⟨_, _, by rw [showSuffix, List.nil_append], .inr rfl⟩
      | cons s ss => exact ⟨_, _, by rw [showSuffix, List.cons_append], .inl rfl⟩)
    have ihSs := rtSs ss h.2 f rest (by omega) hr hs
    rw [List.cons_append, suffixes, if_pos rfl, List.append_assoc, ihS]
    simp only [ihSs]
theorem rtS : (s : SimpleSig) → OkS s → (f : Nat) → (rest : Str) →
    4 * (showS s).length + 1 ≤ f → SEnd rest → simpleTypeSig f (showS s ++ rest) = .ok (s, rest)
  | .mk n [], h, f + 1, rest, hf, hr => by
    rw [OkS] at h
    obtain ⟨d, r, rfl, hd⟩ := hr
    have ht := takeWhile_split (p := nameChar) n d r (fun x hx => (nameChar_iff x).mpr (h.1 x hx))
      (by rcases hd with rfl | rfl <;> rfl)
    rw [showS, List.append_nil, simpleTypeSig, ht.1, ht.2]
    simp only
    rw [if_neg (by omega)]
  | .mk n (a :: as), h, f + 1, rest, hf, hr => by
    rw [OkS] at h
    rw [showS] at hf ⊢
    simp only [List.length_cons, List.length_append, List.length_nil] at hf
    have ih := rtAs (a :: as) h.2 f rest (by rw [showArgs, List.length_append]; omega)
    rw [showArgs, List.append_assoc] at ih
    have ht := takeWhile_split (p := nameChar) n 0x3C (showA a ++ (showArgs as ++ 0x3E :: rest))
      (fun x hx => (nameChar_iff x).mpr (h.1 x hx)) rfl
    simp only [List.cons_append, List.append_assoc, List.nil_append]
    rw [simpleTypeSig, ht.1, ht.2]
    simp only [ih, expect, if_pos]
theorem rtAs : (as : List TypeArg) → OkAs as → (f : Nat) → (rest : Str) →
    4 * (showArgs as).length + 4 ≤ f →
    typeArgs f (showArgs as ++ 0x3E :: rest) = .ok (as, 0x3E :: rest)
  | [], _, f + 1, rest, _ => by rw [showArgs, List.nil_append, typeArgs, if_pos rfl]
  | a :: as, h, f + 1, rest, hf => by
    rw [OkAs] at h
    rw [showArgs, List.length_append] at hf
    obtain ⟨c, cs, e, hc⟩ := showA_ne a h.1
    have hl : 1 ≤ (showA a).length := by rw [e]; simp
    have ihA := rtA a h.1 f (showArgs as ++ 0x3E :: rest) (by omega)
    have ihAs := rtAs as h.2 f rest (by omega)
    rw [showArgs, List.append_assoc]
    rw [e, List.cons_append] at ihA ⊢
    rw [typeArgs, if_neg hc, ihA]
    simp only [ihAs]
theorem rtA : (a : TypeArg) → OkA a → (f : Nat) → (rest : Str) → 4 * (showA a).length + 3 ≤ f →
    typeArg f (showA a ++ rest) = .ok (a, rest)
  | .any, _, f + 1, rest, _ => by simp [showA, typeArg]
  | .ext r, h, f + 1, rest, hf => by
    rw [OkA] at h
    rw [showA, List.length_cons] at hf
    have ih := rtR r h f rest (by omega)
    rw [showA, List.cons_append, typeArg, if_neg (by omega), if_neg (by omega), if_pos rfl, ih]
  | .sup r, h, f + 1, rest, hf => by
    rw [OkA] at h
    rw [showA, List.length_cons] at hf
    have ih := rtR r h f rest (by omega)
    rw [showA, List.cons_append, typeArg, if_neg (by omega), if_pos rfl, ih]
  | .exact r, h, f + 1, rest, hf => by
    rw [OkA] at h
    rw [showA] at hf ⊢
    have ih := rtR r h f rest (by omega)
    obtain ⟨c, cs, e, hc⟩ := showR_head r h
    have h1 : c ≠ 0x2A ∧ c ≠ 0x2D ∧ c ≠ 0x2B := by simp [isRefStart] at hc; omega
    rw [e, List.cons_append] at ih ⊢
    rw [typeArg, if_neg h1.1, if_neg h1.2.1, if_neg h1.2.2, if_pos hc, ih]
end

end Verif.Sig
