import Verif.Spec.Bulk
import Verif.Lemmas.Loose

/-! What the parsers of descriptors and signatures make of a text is not much larger than the text. -/

namespace Verif
open Spec Wtf8

theorem codepoints_len : ∀ {bs : Bytes} {cs : List Nat}, codepoints bs = some cs → cs.length ≤ bs.length := by
  intro bs
  induction hn : bs.length using Nat.strongRecOn generalizing bs with
  | _ n ih =>
    intro cs h
    rw [codepoints] at h
    split at h
    · cases h; simp
    · cases h
    · rename_i c rest hc
      have hl := nextCodePoint_length hc
      rcases hr : codepoints rest with _ | ds
      · rw [hr] at h; cases h
      · rw [hr] at h
        cases h
        have := ih _ (by omega) rfl hr
        simp only [List.length_cons]
        omega

theorem encodeRaw_len (c : Nat) : (encodeUtf8Raw c).length ≤ 4 := by
  unfold encodeUtf8Raw
  split <;> simp

theorem push_len (s : Bytes) (c : Nat) : (push s c).length ≤ s.length + 4 := by
  have h : ∀ s c, (pushUnchecked s c).length ≤ s.length + 4 := fun s c => by
    have := encodeRaw_len c
    unfold pushUnchecked
    rw [List.length_append]
    omega
  unfold push
  split
  · split
    · refine Nat.le_trans (h _ _) ?_
      rw [List.length_take]
      omega
    · exact h _ _
  · exact h _ _

theorem pushAll_len : ∀ (cs : List Nat) (s : Bytes), (cs.foldl push s).length ≤ s.length + 4 * cs.length
  | [], s => Nat.le_refl _
  | c :: cs, s => by
    have h1 := pushAll_len cs (push s c)
    have h2 := push_len s c
    simp only [List.foldl_cons, List.length_cons]
    omega

theorem span_len {p : Nat → Bool} (cs : List Nat) : (cs.takeWhile p).length + (cs.dropWhile p).length = cs.length := by
  rw [← List.length_append, List.takeWhile_append_dropWhile]

theorem brackets_len : ∀ cs : List Nat, (JType.countBrackets cs).2.length ≤ cs.length
  | [] => Nat.le_refl _
  | c :: cs => by
    have := brackets_len cs
    unfold JType.countBrackets
    split
    · simp only [List.length_cons]; omega
    · exact Nat.le_refl _

theorem lossy_len (s : Bytes) : ∀ (n pos : Nat), s.length - pos = n → (toStringLossyFrom s pos).length ≤ s.length - pos := by
  intro n
  induction n using Nat.strongRecOn with
  | _ n ih =>
    intro pos hn
    rw [toStringLossyFrom]
    split
    · rename_i p hp
      have h1 := nextSurrogateFrom_ge _ _ _ hp
      rw [List.length_drop] at h1
      have h2 := ih (s.length - (p + 3)) (by omega) (p + 3) rfl
      simp only [List.length_append, List.length_take, List.length_drop, replacement, List.length_cons, List.length_nil]
      omega
    · rw [List.length_drop]
      exact Nat.le_refl _

/-! ## Descriptors -/

theorem getType_bulk : ∀ fuel,
    (∀ cs t rest, JType.getType fuel cs = .ok (t, rest) → bulkType t + 8 * rest.length ≤ 8 * cs.length) ∧
    (∀ cs ts rest, JType.getParams fuel cs = .ok (ts, rest) → bulkTypes ts + 8 * rest.length ≤ 8 * cs.length + 1) := by
  intro fuel
  induction fuel with
  | zero => exact ⟨fun _ _ _ h => by simp [JType.getType] at h, fun _ _ _ h => by simp [JType.getParams] at h⟩
  | succ fuel ih =>
    obtain ⟨ih1, ih2⟩ := ih
    constructor
    · intro cs t rest h
      cases cs with
      | nil => simp [JType.getType] at h
      | cons c cs =>
        unfold JType.getType at h
        have hl : (c :: cs).length = cs.length + 1 := rfl
        rw [hl]
        by_cases hc : c = 0x42
        · rw [if_pos hc] at h; cases h; simp only [bulkType]; omega
        rw [if_neg hc] at h; clear hc
        by_cases hc : c = 0x43
        · rw [if_pos hc] at h; cases h; simp only [bulkType]; omega
        rw [if_neg hc] at h; clear hc
        by_cases hc : c = 0x44
        · rw [if_pos hc] at h; cases h; simp only [bulkType]; omega
        rw [if_neg hc] at h; clear hc
        by_cases hc : c = 0x46
        · rw [if_pos hc] at h; cases h; simp only [bulkType]; omega
        rw [if_neg hc] at h; clear hc
        by_cases hc : c = 0x49
        · rw [if_pos hc] at h; cases h; simp only [bulkType]; omega
        rw [if_neg hc] at h; clear hc
        by_cases hc : c = 0x4A
        · rw [if_pos hc] at h; cases h; simp only [bulkType]; omega
        rw [if_neg hc] at h; clear hc
        by_cases hc : c = 0x5A
        · rw [if_pos hc] at h; cases h; simp only [bulkType]; omega
        rw [if_neg hc] at h; clear hc
        by_cases hc : c = 0x53
        · rw [if_pos hc] at h; cases h; simp only [bulkType]; omega
        rw [if_neg hc] at h; clear hc
        by_cases hc : c = 0x4C
        · rw [if_pos hc] at h
          have hs := span_len (p := fun x => decide (x ≠ 0x3B)) cs
          have hp := pushAll_len (cs.takeWhile fun x => decide (x ≠ 0x3B)) []
          simp only at h
          split at h
          · cases h
          · rename_i d r hd
            cases h
            rw [hd] at hs
            simp only [List.length_cons, List.length_nil] at hs hp
            simp only [bulkType, bulkS]
            omega
        rw [if_neg hc] at h; clear hc
        by_cases hc : c = 0x5B
        · rw [if_pos hc] at h
          have hb := brackets_len cs
          simp only at h
          split at h
          · split at h
            · rename_i t' r' ht
              cases h
              have := ih1 _ _ _ ht
              simp only [bulkType]
              omega
            · cases h
          · cases h
        rw [if_neg hc] at h; clear hc
        by_cases hc : c = 0x28
        · rw [if_pos hc] at h
          split at h
          · rename_i ts r hts
            have h2 := ih2 _ _ _ hts
            split at h
            · cases h
            · rename_i d r'
              simp only [List.length_cons] at h2
              split at h
              · cases h
                simp only [bulkType]
                omega
              · split at h
                · rename_i t' r'' ht
                  cases h
                  have h3 := ih1 _ _ _ ht
                  simp only [bulkType]
                  omega
                · cases h
          · cases h
        · rw [if_neg hc] at h; cases h
    · intro cs ts rest h
      unfold JType.getParams at h
      split at h
      · cases h; simp only [bulkTypes]; omega
      · split at h
        · rename_i t r ht
          have h1 := ih1 _ _ _ ht
          split at h
          · rename_i ts' r' hts
            have h2 := ih2 _ _ _ hts
            cases h
            simp only [bulkTypes]
            omega
          · cases h
        · cases h

theorem parseType_bulk {s : Bytes} {t : JType} (h : JType.parseType s = .ok t) : bulkType t ≤ 8 * s.length := by
  unfold JType.parseType at h
  split at h
  · cases h
  · rename_i cs hc
    have h1 := codepoints_len hc
    split at h
    · rename_i t' r ht
      cases h
      have := (getType_bulk _).1 _ _ _ ht
      omega
    · cases h

/-! ## Signatures -/

namespace Sig

theorem bulkL_append {α : Type} (f : α → Nat) (xs : List α) (y : α) : bulkL f (xs ++ [y]) = bulkL f xs + f y := by
  induction xs with
  | nil => simp only [List.nil_append, bulkL]; omega
  | cons x xs ih => simp only [List.cons_append, bulkL, ih]; omega

theorem expect_len {c : Nat} {i j : Str} (h : expect c i = .ok j) : i.length = j.length + 1 := by
  unfold expect at h
  split at h
  · cases h
  · split at h
    · cases h; rfl
    · cases h

theorem tyVar_bulk {cs n rest : Str} (h : tyVar cs = .ok (n, rest)) : n.length + 1 + rest.length ≤ cs.length := by
  unfold tyVar at h
  have hs := span_len (p := fun x => decide (x ≠ 0x3B)) cs
  split at h
  · cases h
  · rename_i d r hd
    cases h
    rw [hd] at hs
    simp only [List.length_cons] at hs
    omega

theorem packagesLoop_bulk : ∀ (cs cur : Str) (acc : List Str) (after : Str) (ps : List Str) (r : Str),
    packagesLoop cs cur acc after = .ok (ps, r) → after.length = cur.length + cs.length →
    bulkL bulkT ps + 8 * r.length ≤ bulkL bulkT acc + 8 * after.length
  | [], _, _, _, _, _, h, _ => by cases h
  | c :: cs, cur, acc, after, ps, r, h, hl => by
    unfold packagesLoop at h
    simp only [List.length_cons] at hl
    split at h
    · have := packagesLoop_bulk cs [] (acc ++ [cur]) cs ps r h (by simp)
      rw [bulkL_append] at this
      unfold bulkT at this
      unfold bulkT
      omega
    · split at h
      · cases h; exact Nat.le_refl _
      · exact packagesLoop_bulk cs (cur ++ [c]) acc after ps r h (by simp only [List.length_append, List.length_cons, List.length_nil]; omega)

theorem packages_bulk {i r : Str} {ps : List Str} (h : packages i = .ok (ps, r)) :
    bulkL bulkT ps + 8 * r.length ≤ 8 * i.length + 1 := by
  have := packagesLoop_bulk i [] [] i ps r h (by simp)
  simp only [bulkL] at this ⊢
  omega

/-- All parsers of reference types with the same fuel. -/
structure Bound (fuel : Nat) : Prop where
  ty : ∀ {s t r}, typeSig fuel s = .ok (t, r) → bulkTySig t + 8 * r.length ≤ 8 * s.length
  ref : ∀ {s t r}, refTypeSig fuel s = .ok (t, r) → bulkRef t + 1 + 8 * r.length ≤ 8 * s.length
  cls : ∀ {s t r}, classTypeSig fuel s = .ok (t, r) → bulkClsSig t + 2 + 8 * r.length ≤ 8 * s.length
  sufs : ∀ {s t r}, suffixes fuel s = .ok (t, r) → bulkSimples t + 8 * r.length ≤ 8 * s.length + 1
  simple : ∀ {s t r}, simpleTypeSig fuel s = .ok (t, r) → bulkSimple t + 8 * r.length ≤ 8 * s.length + 3
  args : ∀ {s t r}, typeArgs fuel s = .ok (t, r) → bulkArgs t + 8 * r.length ≤ 8 * s.length + 1
  arg : ∀ {s t r}, typeArg fuel s = .ok (t, r) → bulkTyArg t + 8 * r.length ≤ 8 * s.length

theorem primSig_bulk {c : Nat} {t : TypeSig} (h : primSig c = some t) : bulkTySig t = 1 := by
  unfold primSig at h
  repeat' split at h
  all_goals first | (cases h; rfl) | cases h

theorem bound : ∀ fuel, Bound fuel := by
  intro fuel
  induction fuel with
  | zero => 
    constructor <;> intro s t r h
    · simp [typeSig] at h
    · simp [refTypeSig] at h
    · simp [classTypeSig] at h
    · simp [suffixes] at h
    · simp [simpleTypeSig] at h
    · simp [typeArgs] at h
    · simp [typeArg] at h
  | succ fuel ih =>
    constructor
    · intro s t r h
      cases s with
      | nil => simp [typeSig] at h
      | cons c cs =>
        unfold typeSig at h
        split at h
        · rename_i t' hp
          cases h
          have := primSig_bulk hp
          simp only [List.length_cons]
          omega
        · split at h
          · split at h
            · rename_i hr
              cases h
              have := ih.ref hr
              simp only [bulkTySig]
              omega
            · cases h
          · cases h
    · intro s t r h
      cases s with
      | nil => simp [refTypeSig] at h
      | cons c cs =>
        unfold refTypeSig at h
        have hb := brackets_len cs
        simp only [List.length_cons]
        split at h
        · split at h
          · split at h
            · rename_i ht
              cases h
              have := ih.ty ht
              simp only [bulkRef]
              omega
            · cases h
          · cases h
        · split at h
          · split at h
            · rename_i ht
              cases h
              have := tyVar_bulk ht
              simp only [bulkRef, bulkT]
              omega
            · cases h
          · split at h
            · split at h
              · rename_i ht
                cases h
                have := ih.cls ht
                simp only [List.length_cons] at this
                simp only [bulkRef]
                omega
              · cases h
            · cases h
    · intro s t r h
      unfold classTypeSig at h
      split at h
      · cases h
      · rename_i i1 h1
        have l1 := expect_len h1
        split at h
        · cases h
        · rename_i ps i2 h2
          have l2 := packages_bulk h2
          split at h
          · cases h
          · rename_i n i3 h3
            have l3 := ih.simple h3
            split at h
            · cases h
            · rename_i ss i4 h4
              have l4 := ih.sufs h4
              split at h
              · cases h
              · rename_i i5 h5
                have l5 := expect_len h5
                cases h
                simp only [bulkClsSig]
                omega
    · intro s t r h
      cases s with
      | nil => simp [suffixes] at h; obtain ⟨rfl, rfl⟩ := h; simp [bulkSimples]
      | cons c cs =>
        unfold suffixes at h
        simp only [List.length_cons]
        split at h
        · split at h
          · cases h
          · rename_i h1
            have l1 := ih.simple h1
            split at h
            · cases h
            · rename_i h2
              have l2 := ih.sufs h2
              cases h
              simp only [bulkSimples]
              omega
        · cases h
          simp only [bulkSimples, List.length_cons]
          omega
    · intro s t r h
      unfold simpleTypeSig at h
      have hs := span_len (p := nameChar) s
      split at h
      · rename_i hd
        cases h
        rw [hd] at hs
        simp only [bulkSimple, bulkT, bulkArgs, List.length_nil] at hs ⊢
        omega
      · rename_i c cs hd
        rw [hd] at hs
        simp only [List.length_cons] at hs
        split at h
        · split at h
          · cases h
          · rename_i h1
            have l1 := ih.args h1
            split at h
            · cases h
            · rename_i h2
              have l2 := expect_len h2
              cases h
              simp only [bulkSimple, bulkT]
              omega
        · cases h
          simp only [bulkSimple, bulkT, bulkArgs, List.length_cons]
          omega
    · intro s t r h
      cases s with
      | nil => simp [typeArgs] at h; obtain ⟨rfl, rfl⟩ := h; simp [bulkArgs]
      | cons c cs =>
        unfold typeArgs at h
        split at h
        · cases h
          simp only [bulkArgs, List.length_cons]
          omega
        · split at h
          · cases h
          · rename_i h1
            have l1 := ih.arg h1
            split at h
            · cases h
            · rename_i h2
              have l2 := ih.args h2
              cases h
              simp only [bulkArgs]
              omega
    · intro s t r h
      cases s with
      | nil => simp [typeArg] at h
      | cons c cs =>
        unfold typeArg at h
        simp only [List.length_cons]
        split at h
        · cases h; simp only [bulkTyArg]; omega
        split at h
        · split at h
          · rename_i h1
            have l1 := ih.ref h1
            cases h; simp only [bulkTyArg]; omega
          · cases h
        split at h
        · split at h
          · rename_i h1
            have l1 := ih.ref h1
            cases h; simp only [bulkTyArg]; omega
          · cases h
        split at h
        · split at h
          · rename_i h1
            have l1 := ih.ref h1
            simp only [List.length_cons] at l1
            cases h; simp only [bulkTyArg]; omega
          · cases h
        · cases h

theorem refStart_of {fuel : Nat} {c : Nat} {cs : Str} {x : RefSig × Str} (h : refTypeSig fuel (c :: cs) = .ok x) : c ≠ 0x3A := by
  rintro rfl
  cases fuel with
  | zero => simp [refTypeSig] at h
  | succ fuel => simp [refTypeSig] at h

theorem interfaceBounds_bulk {cs i r : Str} {bs : List RefSig} (h : interfaceBounds cs i = .ok (bs, r)) :
    (bs = [] ∧ r = i) ∨ bulkL bulkRef bs + 8 * r.length ≤ 8 * cs.length := by
  cases cs with
  | nil => cases h; exact .inl ⟨rfl, rfl⟩
  | cons c cs =>
    unfold interfaceBounds at h
    split at h
    · split at h
      · cases h
      · rename_i b i' hb
        have l1 := (bound _).ref hb
        split at h
        · cases h
        · rename_i bs' i'' hbs
          cases h
          right
          have : bs' = [] ∧ r = i' := by
            cases cs with
            | nil => cases hbs; exact ⟨rfl, rfl⟩
            | cons d ds =>
              unfold interfaceBounds at hbs
              rw [if_neg (refStart_of hb)] at hbs
              cases hbs; exact ⟨rfl, rfl⟩
          obtain ⟨rfl, rfl⟩ := this
          simp only [bulkL, List.length_cons]
          omega
    · cases h; exact .inl ⟨rfl, rfl⟩

theorem typeParam_bulk {i r : Str} {p : TypeParam} (hi : 0 < i.length) (h : typeParam i = .ok (p, r)) :
    bulkParam p + 8 * r.length ≤ 8 * i.length := by
  have hs := span_len (p := fun x => decide (x ≠ 0x3A)) i
  have hd : ((i.dropWhile fun x => decide (x ≠ 0x3A)).drop 1).length = (i.dropWhile fun x => decide (x ≠ 0x3A)).length - 1 := by
    rw [List.length_drop]
  unfold typeParam at h
  simp only at h
  generalize (i.dropWhile fun x => decide (x ≠ 0x3A)).drop 1 = chars at h hd
  generalize i.dropWhile (fun x => decide (x ≠ 0x3A)) = dropped at hs hd
  have fin : ∀ (b : Option RefSig) (j : Str) (bs : List RefSig), interfaceBounds chars j = .ok (bs, r) →
      p = ⟨i.takeWhile fun x => decide (x ≠ 0x3A), b, bs⟩ →
      (b = none ∧ j = chars ∨ ∃ x c ds, b = some x ∧ chars = c :: ds ∧ c ≠ 0x3A ∧ bulkRef x + 1 + 8 * j.length ≤ 8 * chars.length) →
      bulkParam p + 8 * r.length ≤ 8 * i.length := by
    rintro b j bs hb rfl (⟨rfl, rfl⟩ | ⟨x, c, ds, rfl, rfl, hc, hx⟩)
    · rcases interfaceBounds_bulk hb with ⟨rfl, rfl⟩ | hl
      · simp only [bulkParam, bulkT, bulkO, bulkL]; omega
      · simp only [bulkParam, bulkT, bulkO]; omega
    · unfold interfaceBounds at hb
      rw [if_neg hc] at hb
      cases hb
      simp only [bulkParam, bulkT, bulkO, bulkL]
      omega
  cases chars with
  | nil =>
    simp only at h
    split at h
    · cases h
    · rename_i bs j hb
      cases h
      exact fin none [] _ hb rfl (.inl ⟨rfl, rfl⟩)
  | cons c ds =>
    simp only at h
    by_cases hc : isRefStart c = true
    · rw [if_pos hc] at h
      rcases hx : refTypeSig (enough (c :: ds)) (c :: ds) with e | ⟨x, j⟩
      · rw [hx] at h; cases h
      · rw [hx] at h
        simp only at h
        split at h
        · cases h
        · rename_i bs j' hb
          cases h
          exact fin (some x) j _ hb rfl (.inr ⟨x, c, ds, rfl, rfl, refStart_of hx, (bound _).ref hx⟩)
    · rw [if_neg hc] at h
      simp only at h
      split at h
      · cases h
      · rename_i bs j' hb
        cases h
        exact fin none _ _ hb rfl (.inl ⟨rfl, rfl⟩)

theorem typeParamsLoop_bulk : ∀ (fuel : Nat) {s r : Str} {ps : List TypeParam}, typeParamsLoop fuel s = .ok (ps, r) →
    bulkL bulkParam ps + 8 * r.length ≤ 8 * s.length + 1 := by
  intro fuel
  induction fuel with
  | zero => intro s r ps h; simp [typeParamsLoop] at h
  | succ fuel ih =>
    intro s r ps h
    cases s with
    | nil => simp [typeParamsLoop] at h; obtain ⟨rfl, rfl⟩ := h; simp [bulkL]
    | cons c cs =>
      unfold typeParamsLoop at h
      split at h
      · cases h; simp only [bulkL]; omega
      · split at h
        · cases h
        · rename_i h1
          have l1 := typeParam_bulk (by simp) h1
          split at h
          · cases h
          · rename_i h2
            have l2 := ih h2
            cases h
            simp only [bulkL]
            omega

theorem typeParams_bulk {s r : Str} {ps : List TypeParam} (h : typeParams s = .ok (ps, r)) :
    bulkL bulkParam ps + 8 * r.length ≤ 8 * s.length + 1 := by
  cases s with
  | nil => cases h; simp [bulkL]
  | cons c cs =>
    rw [typeParams] at h
    split at h
    · split at h
      · cases h
      · rename_i h1
        have l1 := typeParamsLoop_bulk _ h1
        split at h
        · cases h
        · rename_i h2
          have l2 := expect_len h2
          cases h
          simp only [List.length_cons]
          omega
    · cases h; simp only [bulkL]; omega

theorem retSig_bulk {s r : Str} {t : Option TypeSig} (h : retSig s = .ok (t, r)) :
    bulkO bulkTySig t + 8 * r.length ≤ 8 * s.length := by
  cases s with
  | nil => cases h
  | cons c cs =>
    rw [retSig] at h
    split at h
    · cases h; simp only [bulkO, List.length_cons]; omega
    · split at h
      · rename_i h1
        have l1 := (bound _).ty h1
        cases h
        simp only [bulkO]
        exact l1
      · cases h

theorem paramsLoop_bulk : ∀ (fuel : Nat) {s r : Str} {ps : List TypeSig}, paramsLoop fuel s = .ok (ps, r) →
    bulkL bulkTySig ps + 8 * r.length ≤ 8 * s.length + 1 := by
  intro fuel
  induction fuel with
  | zero => intro s r ps h; simp [paramsLoop] at h
  | succ fuel ih =>
    intro s r ps h
    cases s with
    | nil => simp [paramsLoop] at h; obtain ⟨rfl, rfl⟩ := h; simp [bulkL]
    | cons c cs =>
      unfold paramsLoop at h
      split at h
      · split at h
        · cases h
        · rename_i h1
          have l1 := (bound _).ty h1
          split at h
          · cases h
          · rename_i h2
            have l2 := ih h2
            cases h
            simp only [bulkL]
            omega
      · cases h; simp only [bulkL]; omega

theorem throwsSig_bulk {s r : Str} {t : ThrowsSig} (h : throwsSig s = .ok (t, r)) :
    bulkThrows t + 8 * r.length ≤ 8 * s.length := by
  unfold throwsSig at h
  split at h
  · cases h
  · cases h
  · rename_i c cs h0
    have l0 := expect_len h0
    simp only [List.length_cons] at l0
    split at h
    · split at h
      · rename_i h1
        have l1 := (bound _).cls h1
        simp only [List.length_cons] at l1
        cases h
        simp only [bulkThrows]
        omega
      · cases h
    · split at h
      · split at h
        · rename_i h1
          have l1 := tyVar_bulk h1
          cases h
          simp only [bulkThrows, bulkT]
          omega
        · cases h
      · cases h

theorem throwsLoop_bulk : ∀ (fuel : Nat) {s r : Str} {ps : List ThrowsSig}, throwsLoop fuel s = .ok (ps, r) →
    bulkL bulkThrows ps + 8 * r.length ≤ 8 * s.length + 1 := by
  intro fuel
  induction fuel with
  | zero => intro s r ps h; simp [throwsLoop] at h
  | succ fuel ih =>
    intro s r ps h
    cases s with
    | nil => simp [throwsLoop] at h; obtain ⟨rfl, rfl⟩ := h; simp [bulkL]
    | cons c cs =>
      unfold throwsLoop at h
      split at h
      · split at h
        · cases h
        · rename_i h1
          have l1 := throwsSig_bulk h1
          split at h
          · cases h
          · rename_i h2
            have l2 := ih h2
            cases h
            simp only [bulkL]
            omega
      · cases h; simp only [bulkL]; omega

theorem interfacesLoop_bulk : ∀ (fuel : Nat) {s r : Str} {ps : List ClassTySig}, interfacesLoop fuel s = .ok (ps, r) →
    bulkL bulkClsSig ps + 8 * r.length ≤ 8 * s.length + 1 := by
  intro fuel
  induction fuel with
  | zero => intro s r ps h; simp [interfacesLoop] at h
  | succ fuel ih =>
    intro s r ps h
    cases s with
    | nil => simp [interfacesLoop] at h; obtain ⟨rfl, rfl⟩ := h; simp [bulkL]
    | cons c cs =>
      unfold interfacesLoop at h
      split at h
      · split at h
        · cases h
        · rename_i h1
          have l1 := (bound _).cls h1
          split at h
          · cases h
          · rename_i h2
            have l2 := ih h2
            cases h
            simp only [bulkL]
            omega
      · cases h; simp only [bulkL]; omega

theorem dropRest_ok {α : Type} {x : Res (α × Str)} {a : α} (h : dropRest x = .ok a) : ∃ r, x = .ok (a, r) := by
  cases x with
  | error e => cases h
  | ok p => cases h; exact ⟨_, rfl⟩

theorem parseRef_bulk {s : Str} {t : RefSig} (h : parseRef s = .ok t) : bulkRef t ≤ 8 * s.length := by
  obtain ⟨r, h⟩ := dropRest_ok h
  have := (bound _).ref h
  omega

theorem parseMethod_bulk {s : Str} {t : MethodSig} (h : parseMethod s = .ok t) : bulkMethodSig t ≤ 8 * s.length := by
  obtain ⟨r, h⟩ := dropRest_ok h
  unfold methodSig at h
  split at h
  · cases h
  · rename_i h1
    have l1 := typeParams_bulk h1
    split at h
    · cases h
    · rename_i h2
      have l2 := expect_len h2
      split at h
      · cases h
      · rename_i h3
        have l3 := paramsLoop_bulk _ h3
        split at h
        · cases h
        · rename_i h4
          have l4 := expect_len h4
          split at h
          · cases h
          · rename_i h5
            have l5 := retSig_bulk h5
            split at h
            · cases h
            · rename_i h6
              have l6 := throwsLoop_bulk _ h6
              cases h
              simp only [bulkMethodSig]
              omega

theorem parseClass_bulk {s : Str} {t : ClassSig} (h : parseClass s = .ok t) : bulkClassSig t ≤ 8 * s.length + 1 := by
  obtain ⟨r, h⟩ := dropRest_ok h
  unfold classSig at h
  split at h
  · cases h
  · rename_i h1
    have l1 := typeParams_bulk h1
    split at h
    · cases h
    · rename_i h2
      have l2 := (bound _).cls h2
      split at h
      · cases h
      · rename_i h3
        have l3 := interfacesLoop_bulk _ h3
        cases h
        simp only [bulkClassSig]
        omega

end Sig

/-! ## Strings -/

theorem rewrite_len : ∀ (buf : Bytes) {out : Bytes}, Mutf8.rewrite buf = .ok out → out.length ≤ buf.length := by
  intro buf
  induction hn : buf.length using Nat.strongRecOn generalizing buf with
  | _ n ih =>
    intro out h
    cases buf with
    | nil => unfold Mutf8.rewrite at h; cases h; simp
    | cons b t =>
      simp only [List.length_cons] at hn
      have one : ∀ {x : Bytes} {y : UInt8}, x.length ≤ t.length → (do let o ← Mutf8.rewrite x; return y :: o : Res Bytes) = .ok out →
          out.length ≤ n := by
        intro x y hx hr
        cases ho : Mutf8.rewrite x with
        | error e => rw [ho] at hr; cases hr
        | ok o =>
          rw [ho] at hr
          cases hr
          have := ih x.length (by omega) x rfl ho
          simp only [List.length_cons]
          omega
      rw [Mutf8.rewrite.eq_def] at h
      simp only at h
      split at h
      · exact one (by rw [List.length_drop]; omega) h
      · split at h
        · split at h
          · rename_i n0 n1 b3 n3 n4 t' _
            split at h
            · cases hp : Mutf8.pairBytes (Mutf8.pairChar n0 n1 n3 n4) with
              | error e => rw [hp] at h; cases h
              | ok p =>
                rw [hp] at h
                cases ho : Mutf8.rewrite t' with
                | error e => simp [ho, bind, Except.bind] at h
                | ok o =>
                  simp [ho, bind, Except.bind, pure, Except.pure] at h
                  subst h
                  have h1 := ih t'.length (by simp only [List.length_cons] at hn; omega) t' rfl ho
                  have h2 : p.length ≤ 4 := by
                    unfold Mutf8.pairBytes at hp
                    split at hp
                    · cases hp; rw [List.length_take]; omega
                    · cases hp
                  simp only [List.length_cons] at hn
                  rw [List.length_append]
                  omega
            · exact one (Nat.le_refl _) h
          · exact one (Nat.le_refl _) h
        · exact one (Nat.le_refl _) h

theorem fromBytes'_same {bs s : Bytes} (h : Mutf8.fromBytes' bs = .ok s) : s = bs := by
  unfold Mutf8.fromBytes' fromBytes at h
  cases hv : validate bs with
  | error e => rw [hv] at h; cases h
  | ok u => rw [hv] at h; cases h; rfl

theorem decode_len {buf s : Bytes} (h : Mutf8.decode buf = .ok s) : s.length ≤ buf.length := by
  unfold Mutf8.decode at h
  cases hs : Mutf8.scan false buf with
  | error e => rw [hs] at h; cases h
  | ok m =>
    rw [hs] at h
    cases m with
    | false => rw [fromBytes'_same (show Mutf8.fromBytes' buf = .ok s from h)]; exact Nat.le_refl _
    | true =>
      cases hr : Mutf8.rewrite buf with
      | error e => simp [hr, bind, Except.bind] at h
      | ok o =>
        simp [hr, bind, Except.bind] at h
        rw [fromBytes'_same h]
        exact rewrite_len buf hr

end Verif
