import Verif.Lemmas.ReleaseSafeClass
import Verif.Lemmas.BulkPool

/-! # How much a class holds that was read in a build without overflow checks

As in `Lemmas/Bulk` and the files after it. -/

namespace Verif
open Spec Wtf8

theorem getType_bulkW : ∀ fuel,
    (∀ cs t rest, JType.getTypeW fuel cs = .ok (t, rest) → bulkType t + 8 * rest.length ≤ 8 * cs.length) ∧
    (∀ cs ts rest, JType.getParamsW fuel cs = .ok (ts, rest) → bulkTypes ts + 8 * rest.length ≤ 8 * cs.length + 1) := by
  intro fuel
  induction fuel with
  | zero => exact ⟨fun _ _ _ h => by simp [JType.getTypeW] at h, fun _ _ _ h => by simp [JType.getParamsW] at h⟩
  | succ fuel ih =>
    obtain ⟨ih1, ih2⟩ := ih
    constructor
    · intro cs t rest h
      cases cs with
      | nil => simp [JType.getTypeW] at h
      | cons c cs =>
        unfold JType.getTypeW at h
        have hl : (c :: cs).length = cs.length + 1 := rfl
        rw [hl]
        by_cases hc : c = 0x42
        · rw [if_pos hc] at h; cases h; simp only [bulkType]; omega
        rw [if_neg hc] at h; clear hc
        by_cases hc : c = 0x43
        · rw [if_pos hc] at h; cases h; simp only [bulkType]; omega
        rw [if_neg hc] at h; clear hc
        by_cases hc : c = 0x44
        · rw [if_pos hc] at h; cases h; simp only [bulkType]; omega
        rw [if_neg hc] at h; clear hc
        by_cases hc : c = 0x46
        · rw [if_pos hc] at h; cases h; simp only [bulkType]; omega
        rw [if_neg hc] at h; clear hc
        by_cases hc : c = 0x49
        · rw [if_pos hc] at h; cases h; simp only [bulkType]; omega
        rw [if_neg hc] at h; clear hc
        by_cases hc : c = 0x4A
        · rw [if_pos hc] at h; cases h; simp only [bulkType]; omega
        rw [if_neg hc] at h; clear hc
        by_cases hc : c = 0x5A
        · rw [if_pos hc] at h; cases h; simp only [bulkType]; omega
        rw [if_neg hc] at h; clear hc
        by_cases hc : c = 0x53
        · rw [if_pos hc] at h; cases h; simp only [bulkType]; omega
        rw [if_neg hc] at h; clear hc
        by_cases hc : c = 0x4C
        · rw [if_pos hc] at h
          have hs := span_len (p := fun x => decide (x ≠ 0x3B)) cs
          have hp := pushAll_len (cs.takeWhile fun x => decide (x ≠ 0x3B)) []
          simp only at h
          split at h
          · cases h
          · rename_i d r hd
            cases h
            rw [hd] at hs
            simp only [List.length_cons, List.length_nil] at hs hp
            simp only [bulkType, bulkS]
            omega
        rw [if_neg hc] at h; clear hc
        by_cases hc : c = 0x5B
        · rw [if_pos hc] at h
          have hb := brackets_len cs
          simp only at h
          split at h
          · rename_i t' r' ht
            cases h
            have := ih1 _ _ _ ht
            simp only [bulkType]
            omega
          · cases h
        rw [if_neg hc] at h; clear hc
        by_cases hc : c = 0x28
        · rw [if_pos hc] at h
          split at h
          · rename_i ts r hts
            have h2 := ih2 _ _ _ hts
            split at h
            · cases h
            · rename_i d r'
              simp only [List.length_cons] at h2
              split at h
              · cases h
                simp only [bulkType]
                omega
              · split at h
                · rename_i t' r'' ht
                  cases h
                  have h3 := ih1 _ _ _ ht
                  simp only [bulkType]
                  omega
                · cases h
          · cases h
        · rw [if_neg hc] at h; cases h
    · intro cs ts rest h
      unfold JType.getParamsW at h
      split at h
      · cases h; simp only [bulkTypes]; omega
      · split at h
        · rename_i t r ht
          have h1 := ih1 _ _ _ ht
          split at h
          · rename_i ts' r' hts
            have h2 := ih2 _ _ _ hts
            cases h
            simp only [bulkTypes]
            omega
          · cases h
        · cases h

theorem parseType_bulkW {s : Bytes} {t : JType} (h : JType.parseTypeW s = .ok t) : bulkType t ≤ 8 * s.length := by
  unfold JType.parseTypeW at h
  split at h
  · cases h
  · rename_i cs hc
    have h1 := codepoints_len hc
    split at h
    · rename_i t' r ht
      cases h
      have := (getType_bulkW _).1 _ _ _ ht
      omega
    · cases h

namespace Sig

/-- All parsers of reference types with the same fuel. -/
structure BoundW (fuel : Nat) : Prop where
  ty : ∀ {s t r}, typeSigW fuel s = .ok (t, r) → bulkTySig t + 8 * r.length ≤ 8 * s.length
  ref : ∀ {s t r}, refTypeSigW fuel s = .ok (t, r) → bulkRef t + 1 + 8 * r.length ≤ 8 * s.length
  cls : ∀ {s t r}, classTypeSigW fuel s = .ok (t, r) → bulkClsSig t + 2 + 8 * r.length ≤ 8 * s.length
  sufs : ∀ {s t r}, suffixesW fuel s = .ok (t, r) → bulkSimples t + 8 * r.length ≤ 8 * s.length + 1
  simple : ∀ {s t r}, simpleTypeSigW fuel s = .ok (t, r) → bulkSimple t + 8 * r.length ≤ 8 * s.length + 3
  args : ∀ {s t r}, typeArgsW fuel s = .ok (t, r) → bulkArgs t + 8 * r.length ≤ 8 * s.length + 1
  arg : ∀ {s t r}, typeArgW fuel s = .ok (t, r) → bulkTyArg t + 8 * r.length ≤ 8 * s.length

theorem boundW : ∀ fuel, BoundW fuel := by
  intro fuel
  induction fuel with
  | zero => 
    constructor <;> intro s t r h
    · simp [typeSigW] at h
    · simp [refTypeSigW] at h
    · simp [classTypeSigW] at h
    · simp [suffixesW] at h
    · simp [simpleTypeSigW] at h
    · simp [typeArgsW] at h
    · simp [typeArgW] at h
  | succ fuel ih =>
    constructor
    · intro s t r h
      cases s with
      | nil => simp [typeSigW] at h
      | cons c cs =>
        unfold typeSigW at h
        split at h
        · rename_i t' hp
          cases h
          have := primSig_bulk hp
          simp only [List.length_cons]
          omega
        · split at h
          · split at h
            · rename_i hr
              cases h
              have := ih.ref hr
              simp only [bulkTySig]
              omega
            · cases h
          · cases h
    · intro s t r h
      cases s with
      | nil => simp [refTypeSigW] at h
      | cons c cs =>
        unfold refTypeSigW at h
        have hb := brackets_len cs
        simp only [List.length_cons]
        split at h
        · split at h
          · rename_i ht
            cases h
            have := ih.ty ht
            simp only [bulkRef]
            omega
          · cases h
        · split at h
          · split at h
            · rename_i ht
              cases h
              have := tyVar_bulk ht
              simp only [bulkRef, bulkT]
              omega
            · cases h
          · split at h
            · split at h
              · rename_i ht
                cases h
                have := ih.cls ht
                simp only [List.length_cons] at this
                simp only [bulkRef]
                omega
              · cases h
            · cases h
    · intro s t r h
      unfold classTypeSigW at h
      split at h
      · cases h
      · rename_i i1 h1
        have l1 := expect_len h1
        split at h
        · cases h
        · rename_i ps i2 h2
          have l2 := packages_bulk h2
          split at h
          · cases h
          · rename_i n i3 h3
            have l3 := ih.simple h3
            split at h
            · cases h
            · rename_i ss i4 h4
              have l4 := ih.sufs h4
              split at h
              · cases h
              · rename_i i5 h5
                have l5 := expect_len h5
                cases h
                simp only [bulkClsSig]
                omega
    · intro s t r h
      cases s with
      | nil => simp [suffixesW] at h; obtain ⟨rfl, rfl⟩ := h; simp [bulkSimples]
      | cons c cs =>
        unfold suffixesW at h
        simp only [List.length_cons]
        split at h
        · split at h
          · cases h
          · rename_i h1
            have l1 := ih.simple h1
            split at h
            · cases h
            · rename_i h2
              have l2 := ih.sufs h2
              cases h
              simp only [bulkSimples]
              omega
        · cases h
          simp only [bulkSimples, List.length_cons]
          omega
    · intro s t r h
      unfold simpleTypeSigW at h
      have hs := span_len (p := nameChar) s
      split at h
      · rename_i hd
        cases h
        rw [hd] at hs
        simp only [bulkSimple, bulkT, bulkArgs, List.length_nil] at hs ⊢
        omega
      · rename_i c cs hd
        rw [hd] at hs
        simp only [List.length_cons] at hs
        split at h
        · split at h
          · cases h
          · rename_i h1
            have l1 := ih.args h1
            split at h
            · cases h
            · rename_i h2
              have l2 := expect_len h2
              cases h
              simp only [bulkSimple, bulkT]
              omega
        · cases h
          simp only [bulkSimple, bulkT, bulkArgs, List.length_cons]
          omega
    · intro s t r h
      cases s with
      | nil => simp [typeArgsW] at h; obtain ⟨rfl, rfl⟩ := h; simp [bulkArgs]
      | cons c cs =>
        unfold typeArgsW at h
        split at h
        · cases h
          simp only [bulkArgs, List.length_cons]
          omega
        · split at h
          · cases h
          · rename_i h1
            have l1 := ih.arg h1
            split at h
            · cases h
            · rename_i h2
              have l2 := ih.args h2
              cases h
              simp only [bulkArgs]
              omega
    · intro s t r h
      cases s with
      | nil => simp [typeArgW] at h
      | cons c cs =>
        unfold typeArgW at h
        simp only [List.length_cons]
        split at h
        · cases h; simp only [bulkTyArg]; omega
        split at h
        · split at h
          · rename_i h1
            have l1 := ih.ref h1
            cases h; simp only [bulkTyArg]; omega
          · cases h
        split at h
        · split at h
          · rename_i h1
            have l1 := ih.ref h1
            cases h; simp only [bulkTyArg]; omega
          · cases h
        split at h
        · split at h
          · rename_i h1
            have l1 := ih.ref h1
            simp only [List.length_cons] at l1
            cases h; simp only [bulkTyArg]; omega
          · cases h
        · cases h

theorem refStart_ofW {fuel : Nat} {c : Nat} {cs : Str} {x : RefSig × Str} (h : refTypeSigW fuel (c :: cs) = .ok x) : c ≠ 0x3A := by
  rintro rfl
  cases fuel with
  | zero => simp [refTypeSigW] at h
  | succ fuel => simp [refTypeSigW] at h

theorem interfaceBounds_bulkW {cs i r : Str} {bs : List RefSig} (h : interfaceBoundsW cs i = .ok (bs, r)) :
    (bs = [] ∧ r = i) ∨ bulkL bulkRef bs + 8 * r.length ≤ 8 * cs.length := by
  cases cs with
  | nil => cases h; exact .inl ⟨rfl, rfl⟩
  | cons c cs =>
    unfold interfaceBoundsW at h
    split at h
    · split at h
      · cases h
      · rename_i b i' hb
        have l1 := (boundW _).ref hb
        split at h
        · cases h
        · rename_i bs' i'' hbs
          cases h
          right
          have : bs' = [] ∧ r = i' := by
            cases cs with
            | nil => cases hbs; exact ⟨rfl, rfl⟩
            | cons d ds =>
              unfold interfaceBoundsW at hbs
              rw [if_neg (refStart_ofW hb)] at hbs
              cases hbs; exact ⟨rfl, rfl⟩
          obtain ⟨rfl, rfl⟩ := this
          simp only [bulkL, List.length_cons]
          omega
    · cases h; exact .inl ⟨rfl, rfl⟩

theorem typeParam_bulkW {i r : Str} {p : TypeParam} (hi : 0 < i.length) (h : typeParamW i = .ok (p, r)) :
    bulkParam p + 8 * r.length ≤ 8 * i.length := by
  have hs := span_len (p := fun x => decide (x ≠ 0x3A)) i
  have hd : ((i.dropWhile fun x => decide (x ≠ 0x3A)).drop 1).length = (i.dropWhile fun x => decide (x ≠ 0x3A)).length - 1 := by
    rw [List.length_drop]
  unfold typeParamW at h
  simp only at h
  generalize (i.dropWhile fun x => decide (x ≠ 0x3A)).drop 1 = chars at h hd
  generalize i.dropWhile (fun x => decide (x ≠ 0x3A)) = dropped at hs hd
  have fin : ∀ (b : Option RefSig) (j : Str) (bs : List RefSig), interfaceBoundsW chars j = .ok (bs, r) →
      p = ⟨i.takeWhile fun x => decide (x ≠ 0x3A), b, bs⟩ →
      (b = none ∧ j = chars ∨ ∃ x c ds, b = some x ∧ chars = c :: ds ∧ c ≠ 0x3A ∧ bulkRef x + 1 + 8 * j.length ≤ 8 * chars.length) →
      bulkParam p + 8 * r.length ≤ 8 * i.length := by
    rintro b j bs hb rfl (⟨rfl, rfl⟩ | ⟨x, c, ds, rfl, rfl, hc, hx⟩)
    · rcases interfaceBounds_bulkW hb with ⟨rfl, rfl⟩ | hl
      · simp only [bulkParam, bulkT, bulkO, bulkL]; omega
      · simp only [bulkParam, bulkT, bulkO]; omega
    · unfold interfaceBoundsW at hb
      rw [if_neg hc] at hb
      cases hb
      simp only [bulkParam, bulkT, bulkO, bulkL]
      omega
  cases chars with
  | nil =>
    simp only at h
    split at h
    · cases h
    · rename_i bs j hb
      cases h
      exact fin none [] _ hb rfl (.inl ⟨rfl, rfl⟩)
  | cons c ds =>
    simp only at h
    by_cases hc : isRefStart c = true
    · rw [if_pos hc] at h
      rcases hx : refTypeSigW (enough (c :: ds)) (c :: ds) with e | ⟨x, j⟩
      · rw [hx] at h; cases h
      · rw [hx] at h
        simp only at h
        split at h
        · cases h
        · rename_i bs j' hb
          cases h
          exact fin (some x) j _ hb rfl (.inr ⟨x, c, ds, rfl, rfl, refStart_ofW hx, (boundW _).ref hx⟩)
    · rw [if_neg hc] at h
      simp only at h
      split at h
      · cases h
      · rename_i bs j' hb
        cases h
        exact fin none _ _ hb rfl (.inl ⟨rfl, rfl⟩)

theorem typeParamsLoop_bulkW : ∀ (fuel : Nat) {s r : Str} {ps : List TypeParam}, typeParamsLoopW fuel s = .ok (ps, r) →
    bulkL bulkParam ps + 8 * r.length ≤ 8 * s.length + 1 := by
  intro fuel
  induction fuel with
  | zero => intro s r ps h; simp [typeParamsLoopW] at h
  | succ fuel ih =>
    intro s r ps h
    cases s with
    | nil => simp [typeParamsLoopW] at h; obtain ⟨rfl, rfl⟩ := h; simp [bulkL]
    | cons c cs =>
      unfold typeParamsLoopW at h
      split at h
      · cases h; simp only [bulkL]; omega
      · split at h
        · cases h
        · rename_i h1
          have l1 := typeParam_bulkW (by simp) h1
          split at h
          · cases h
          · rename_i h2
            have l2 := ih h2
            cases h
            simp only [bulkL]
            omega

theorem typeParams_bulkW {s r : Str} {ps : List TypeParam} (h : typeParamsW s = .ok (ps, r)) :
    bulkL bulkParam ps + 8 * r.length ≤ 8 * s.length + 1 := by
  cases s with
  | nil => cases h; simp [bulkL]
  | cons c cs =>
    rw [typeParamsW] at h
    split at h
    · split at h
      · cases h
      · rename_i h1
        have l1 := typeParamsLoop_bulkW _ h1
        split at h
        · cases h
        · rename_i h2
          have l2 := expect_len h2
          cases h
          simp only [List.length_cons]
          omega
    · cases h; simp only [bulkL]; omega

theorem retSig_bulkW {s r : Str} {t : Option TypeSig} (h : retSigW s = .ok (t, r)) :
    bulkO bulkTySig t + 8 * r.length ≤ 8 * s.length := by
  cases s with
  | nil => cases h
  | cons c cs =>
    rw [retSigW] at h
    split at h
    · cases h; simp only [bulkO, List.length_cons]; omega
    · split at h
      · rename_i h1
        have l1 := (boundW _).ty h1
        cases h
        simp only [bulkO]
        exact l1
      · cases h

theorem paramsLoop_bulkW : ∀ (fuel : Nat) {s r : Str} {ps : List TypeSig}, paramsLoopW fuel s = .ok (ps, r) →
    bulkL bulkTySig ps + 8 * r.length ≤ 8 * s.length + 1 := by
  intro fuel
  induction fuel with
  | zero => intro s r ps h; simp [paramsLoopW] at h
  | succ fuel ih =>
    intro s r ps h
    cases s with
    | nil => simp [paramsLoopW] at h; obtain ⟨rfl, rfl⟩ := h; simp [bulkL]
    | cons c cs =>
      unfold paramsLoopW at h
      split at h
      · split at h
        · cases h
        · rename_i h1
          have l1 := (boundW _).ty h1
          split at h
          · cases h
          · rename_i h2
            have l2 := ih h2
            cases h
            simp only [bulkL]
            omega
      · cases h; simp only [bulkL]; omega

theorem throwsSig_bulkW {s r : Str} {t : ThrowsSig} (h : throwsSigW s = .ok (t, r)) :
    bulkThrows t + 8 * r.length ≤ 8 * s.length := by
  unfold throwsSigW at h
  split at h
  · cases h
  · cases h
  · rename_i c cs h0
    have l0 := expect_len h0
    simp only [List.length_cons] at l0
    split at h
    · split at h
      · rename_i h1
        have l1 := (boundW _).cls h1
        simp only [List.length_cons] at l1
        cases h
        simp only [bulkThrows]
        omega
      · cases h
    · split at h
      · split at h
        · rename_i h1
          have l1 := tyVar_bulk h1
          cases h
          simp only [bulkThrows, bulkT]
          omega
        · cases h
      · cases h

theorem throwsLoop_bulkW : ∀ (fuel : Nat) {s r : Str} {ps : List ThrowsSig}, throwsLoopW fuel s = .ok (ps, r) →
    bulkL bulkThrows ps + 8 * r.length ≤ 8 * s.length + 1 := by
  intro fuel
  induction fuel with
  | zero => intro s r ps h; simp [throwsLoopW] at h
  | succ fuel ih =>
    intro s r ps h
    cases s with
    | nil => simp [throwsLoopW] at h; obtain ⟨rfl, rfl⟩ := h; simp [bulkL]
    | cons c cs =>
      unfold throwsLoopW at h
      split at h
      · split at h
        · cases h
        · rename_i h1
          have l1 := throwsSig_bulkW h1
          split at h
          · cases h
          · rename_i h2
            have l2 := ih h2
            cases h
            simp only [bulkL]
            omega
      · cases h; simp only [bulkL]; omega

theorem interfacesLoop_bulkW : ∀ (fuel : Nat) {s r : Str} {ps : List ClassTySig}, interfacesLoopW fuel s = .ok (ps, r) →
    bulkL bulkClsSig ps + 8 * r.length ≤ 8 * s.length + 1 := by
  intro fuel
  induction fuel with
  | zero => intro s r ps h; simp [interfacesLoopW] at h
  | succ fuel ih =>
    intro s r ps h
    cases s with
    | nil => simp [interfacesLoopW] at h; obtain ⟨rfl, rfl⟩ := h; simp [bulkL]
    | cons c cs =>
      unfold interfacesLoopW at h
      split at h
      · split at h
        · cases h
        · rename_i h1
          have l1 := (boundW _).cls h1
          split at h
          · cases h
          · rename_i h2
            have l2 := ih h2
            cases h
            simp only [bulkL]
            omega
      · cases h; simp only [bulkL]; omega

theorem parseRef_bulkW {s : Str} {t : RefSig} (h : parseRefW s = .ok t) : bulkRef t ≤ 8 * s.length := by
  obtain ⟨r, h⟩ := dropRest_ok h
  have := (boundW _).ref h
  omega

theorem parseMethod_bulkW {s : Str} {t : MethodSig} (h : parseMethodW s = .ok t) : bulkMethodSig t ≤ 8 * s.length := by
  obtain ⟨r, h⟩ := dropRest_ok h
  unfold methodSigW at h
  split at h
  · cases h
  · rename_i h1
    have l1 := typeParams_bulkW h1
    split at h
    · cases h
    · rename_i h2
      have l2 := expect_len h2
      split at h
      · cases h
      · rename_i h3
        have l3 := paramsLoop_bulkW _ h3
        split at h
        · cases h
        · rename_i h4
          have l4 := expect_len h4
          split at h
          · cases h
          · rename_i h5
            have l5 := retSig_bulkW h5
            split at h
            · cases h
            · rename_i h6
              have l6 := throwsLoop_bulkW _ h6
              cases h
              simp only [bulkMethodSig]
              omega

theorem parseClass_bulkW {s : Str} {t : ClassSig} (h : parseClassW s = .ok t) : bulkClassSig t ≤ 8 * s.length + 1 := by
  obtain ⟨r, h⟩ := dropRest_ok h
  unfold classSigW at h
  split at h
  · cases h
  · rename_i h1
    have l1 := typeParams_bulkW h1
    split at h
    · cases h
    · rename_i h2
      have l2 := (boundW _).cls h2
      split at h
      · cases h
      · rename_i h3
        have l3 := interfacesLoop_bulkW _ h3
        cases h
        simp only [bulkClassSig]
        omega

end Sig

open Sig
variable {α β γ δ : Type} {B : Nat}

theorem nat_bulkW {P : Pool} (hP : PoolB B P) {i : UInt16} {p : Bytes × JType}
    (h : Pool.nameAndTypeW P i = .ok (some p)) : p.1.length ≤ B ∧ bulkType p.2 ≤ 8 * B := by
  unfold Pool.nameAndTypeW at h
  split at h
  · split at h
    · rename_i n hn
      split at h
      · rename_i s hs
        split at h
        · rename_i t ht
          cases h
          have h1 := wtf8_bulk hP hs
          have h2 := parseType_bulkW (okOrNone_some ht)
          exact ⟨wtf8_bulk hP hn, by dsimp only; omega⟩
        · cases h
        · cases h
      · cases h
    · cases h
  · cases h

theorem memberParts_bulkW {P : Pool} (hP : PoolB B P) {b : Bool} {o nt : UInt16} {m : MemberRef}
    (h : Pool.memberPartsW P b o nt = .ok (some m)) : bulkMember m ≤ 10 * B + 3 := by
  unfold Pool.memberPartsW at h
  split at h
  · rename_i s hs
    split at h
    · rename_i hn
      cases h
      have h1 := nat_bulkW hP hn
      have h2 := indirect_bulk hP hs
      simp only [bulkMember, bulkS] at *
      omega
    · cases h
    · cases h
  · cases h

theorem member_bulkW {P : Pool} (hP : PoolB B P) {i : UInt16} {m : MemberRef}
    (h : Pool.memberW P i = .ok (some m)) : bulkMember m ≤ 10 * B + 3 := by
  unfold Pool.memberW at h
  split at h
  · exact memberParts_bulkW hP h
  · exact memberParts_bulkW hP h
  · exact memberParts_bulkW hP h
  · cases h

theorem methodHandle_bulkW {P : Pool} (hP : PoolB B P) {i : UInt16} {m : MethodHandle}
    (h : Pool.methodHandleW P i = .ok (some m)) : bulkHandle m ≤ 10 * B + 4 := by
  unfold Pool.methodHandleW at h
  split at h
  · split at h
    · rename_i hm
      split at h
      · cases h
        have := member_bulkW hP hm
        simp only [bulkHandle]
        omega
      · cases h
    · cases h
    · cases h
  · cases h

theorem constant_bulkW {P : Pool} (hP : PoolB B P) {i : UInt16} {c : Constant}
    (h : Pool.constantW P i = .ok (some c)) : bulkConst c ≤ 10 * B + 5 := by
  unfold Pool.constantW at h
  split at h
  · cases h; simp only [bulkConst]; omega
  · cases h; simp only [bulkConst]; omega
  · cases h; simp only [bulkConst]; omega
  · cases h; simp only [bulkConst]; omega
  · rename_i s _
    rcases hs : Pool.wtf8 P s with _ | t
    · rw [hs] at h; cases h
    · rw [hs] at h; cases h; have := wtf8_bulk hP hs; simp only [bulkConst, bulkS]; omega
  · rename_i s _
    rcases hs : Pool.wtf8 P s with _ | t
    · rw [hs] at h; cases h
    · rw [hs] at h; cases h; have := wtf8_bulk hP hs; simp only [bulkConst, bulkS]; omega
  · split at h
    · rename_i s hs
      split at h
      · rename_i t ht
        cases t with
        | none => cases h
        | some t =>
          cases h
          have h1 := wtf8_bulk hP hs
          have h2 := parseType_bulkW (okOrNone_some ht)
          simp only [bulkConst]
          omega
      · cases h
    · cases h
  · split at h
    · rename_i hm
      split at h
      · cases h
        have := member_bulkW hP hm
        simp only [bulkConst, bulkHandle]
        omega
      · cases h
    · cases h
  · split at h
    · rename_i m hm
      cases m with
      | none => cases h
      | some m =>
        cases h
        have := member_bulkW hP hm
        simp only [bulkConst]
        omega
    · cases h

theorem dynamicParts_bulkW {P : Pool} (hP : PoolB B P) {b nt : UInt16} {p q : List UInt16} {d : Dynamic}
    (h : Pool.dynamicPartsW P b nt p = .ok (some d, q)) : bulkDynamic d ≤ 9 * B + 3 := by
  unfold Pool.dynamicPartsW at h
  split at h
  · rename_i hn
    cases h
    have := nat_bulkW hP hn
    simp only [bulkDynamic, bulkS, bulkCell] at *
    omega
  · cases h
  · cases h

theorem indy_bulkW {P : Pool} (hP : PoolB B P) {i : UInt16} {p q : List UInt16} {d : Dynamic}
    (h : Pool.invokeDynamicW P i p = .ok (some d, q)) : bulkDynamic d ≤ 9 * B + 3 := by
  unfold Pool.invokeDynamicW at h
  split at h
  · exact dynamicParts_bulkW hP h
  · cases h

theorem dynamic_bulkW {P : Pool} (hP : PoolB B P) {i : UInt16} {p q : List UInt16} {d : Dynamic}
    (h : Pool.dynamicW P i p = .ok (some d, q)) : bulkDynamic d ≤ 9 * B + 3 := by
  unfold Pool.dynamicW at h
  split at h
  · exact dynamicParts_bulkW hP h
  · cases h

theorem orDynamic_bulkW {P : Pool} (hP : PoolB B P) {g : α → Nat} {f : UInt16 → Res (Option α)} {i : UInt16}
    {p q : List UInt16} {x : OrDynamic α} (hf : ∀ a, f i = .ok (some a) → g a ≤ 10 * B + 5)
    (h : Pool.orDynamicW P f i p = .ok (some x, q)) : bulkOrDyn g x ≤ 10 * B + 6 := by
  cases x with
  | static a =>
    have := hf a (orDynamic_staticW h)
    simp only [bulkOrDyn]
    omega
  | dynamic d =>
    unfold Pool.orDynamicW at h
    split at h
    · rename_i hd
      cases h
      have := dynamic_bulkW hP hd
      simp only [bulkOrDyn]
      omega
    · split at h
      · rename_i a _
        cases a <;> cases h
      · cases h
    · cases h

theorem costs_typeW : Costs B 0 (W fun t => bulkType t + 8) rTypeW :=
  costs_bind costs_text fun s n (hn : _ ≤ _) => costs_ofRes fun t ht => by
    have := parseType_bulkW ht
    tally

theorem costs_constW : Costs B 0 (W fun c => bulkConst c + 8) rConstW := costs_idxR fun P i a hp h => by
  have := constant_bulkW hp h
  simp only [price]
  omega

theorem costs_natOptW : Costs B 0 (W fun s => bulkO (fun p => bulkS p.1 + bulkType p.2) s + 8) rNatOptW :=
  costs_opt fun i => costs_lookupR fun P a hp h => by
    have := nat_bulkW hp h
    simp only [bulkS]
    omega

theorem costs_argW : Costs B 0 (W bulkArg) rArgW :=
  costs_bind costs_num fun i n hn => by
    cases (show n = price B from hn)
    refine costs_map (Q1 := W fun x => bulkOrDyn bulkConst x) (costs_lookupD fun P a p q hp h => ?_) fun x n hn => ?_
    · have := orDynamic_bulkW (g := bulkConst) hp (fun a h => constant_bulkW hp h) h
      simp only [price]
      omega
    · cases x with
      | static c => simp only [W, OrDynamic.toArg, bulkArg, bulkOrDyn] at *; omega
      | dynamic d => simp only [W, OrDynamic.toArg, bulkArg, bulkOrDyn, bulkDynamic] at *; omega

theorem costs_bsmW : Costs B 0 (W bulkBsm) Bsm.readW :=
  costs_ap (Q1 := W fun as => bulkL bulkArg as + 8)
    (costs_map (Q1 := W fun h => bulkHandle h + 8) (costs_idxR fun P i a hp h => by
      have := methodHandle_bulkW hp h
      simp only [price]
      omega) fun h n hn as m hm => by simp only [W, bulkBsm] at *; omega) (costs_vec costs_argW)

theorem costs_classTextW : Costs B 0 (W fun t => bulkO bulkType t + 8) rClassTextW :=
  costs_bind costs_text fun s n (hn : 16 * s.length + 16 ≤ n) => by
    split
    · exact costs_pure (show 0 + 8 ≤ n by omega)
    · exact costs_map (Q1 := W fun t => bulkType t + 8) (costs_ofRes fun t ht => by
        have := parseType_bulkW ht
        tally) fun t n hn => hn

theorem costs_valueFW : ∀ n, Costs B 0 (W bulkValue) (AnnValue.readFW n)
  | 0 => costs_fail
  | n + 1 => by
    have ih : Costs B 0 (W bulkValue) (AnnValue.readFW n) := costs_valueFW n
    refine costs_bind costs_num fun t p hp => Costs.mono (c := 0) ?_ (Nat.zero_le _) fun _ _ h => h
    repeat' refine costs_ite ?_ ?_
    all_goals first
      | exact costs_intIn fun _ => rfl
      | exact costs_num1 fun _ => rfl
      | exact costs_map costs_utf8 fun _ _ _ => by simp only [W, bulkValue] at *; omega
      | exact costs_ap (costs_map costs_typeW fun _ _ _ _ _ _ => by simp only [W, bulkValue] at *; omega) costs_utf8
      | exact costs_map costs_classTextW fun _ _ _ => by simp only [W, bulkValue] at *; omega
      | exact costs_ap (costs_map costs_typeW fun _ _ _ _ _ _ => by simp only [W, bulkValue] at *; omega) (costs_elemsWith ih)
      | exact costs_map (costs_vec ih) fun _ _ _ => by simp only [W, bulkValue, bulkValues_eq] at *; omega
      | exact costs_fail

theorem costs_valueW : Costs B 0 (W bulkValue) AnnValue.readW := fun env st bs => costs_valueFW (bs.length + 1) env st bs

theorem costs_elemsW : Costs B 0 (W fun m => bulkElems m + 8) Elems.readW := costs_elemsWith costs_valueW

theorem costs_annotationW : Costs B 0 (W bulkAnn) Annotation.readW :=
  costs_ap (costs_map costs_typeW fun _ _ _ _ _ _ => by simp only [W, bulkAnn] at *; omega) costs_elemsW

theorem costs_typeAnnotationW {T : Type} {f : T → Nat} {r : Rd T} (h : Costs B 0 (W f) r) :
    Costs B 0 (W (bulkTyAnn f)) (TypeAnnotation.readW r) :=
  costs_ap (costs_ap (costs_ap (costs_map h fun _ _ _ _ _ _ _ _ _ _ _ _ => by
    simp only [W, bulkL_one, bulkTyAnn] at *; omega) (costs_vec costs_pathStep)) costs_typeW) costs_elemsW

theorem costs_classAttrW : Costs B 0 (W bulkClassAttr) ClassAttr.readW := by
  have h16 : 16 ≤ price B := by unfold price; omega
  refine costs_attr ?_ fun a => by simp only [bulkClassAttr]; omega
  intro name r
  revert r
  unfold ClassAttr.tableW
  repeat' refine table_ite (fun _ => ?_) ?_
  all_goals (first
    | exact table_nil
    | exact costs_pure (by simp only [W, bulkClassAttr]; omega)
    | exact costs_map (costs_sig (fun _ _ h => parseClass_bulkW h)).more fun _ _ _ => by simp only [W, bulkClassAttr] at *; omega
    | exact costs_map costs_utf8.more fun _ _ _ => by simp only [W, bulkClassAttr] at *; omega
    | exact costs_map (costs_vec costs_innerClass).more fun _ _ _ => by simp only [W, bulkClassAttr] at *; omega
    | exact costs_map ((costs_debugExt (c := 1)).mono (by omega) fun _ _ h => h) fun _ _ _ => by simp only [W, bulkClassAttr] at *; omega
    | exact costs_map (costs_vec costs_bsmW).more fun _ _ _ => by simp only [W, bulkClassAttr] at *; omega
    | exact costs_map costs_module.more fun _ _ _ => by simp only [W, bulkClassAttr] at *; omega
    | exact costs_map (Costs.more costs_strs) fun _ _ _ => by simp only [W, bulkClassAttr] at *; omega
    | exact costs_map costs_str.more fun _ _ _ => by simp only [W, bulkClassAttr] at *; omega
    | exact costs_map (costs_vec costs_annotationW).more fun _ _ _ => by simp only [W, bulkClassAttr] at *; omega
    | exact costs_map (costs_vec (costs_typeAnnotationW costs_classTarget)).more fun _ _ _ => by simp only [W, bulkClassAttr] at *; omega
    | exact costs_ap (costs_map costs_str.more fun _ _ _ _ _ _ => by simp only [W, bulkClassAttr] at *; omega) costs_natOptW)

theorem costs_fieldAttrW : Costs B 0 (W bulkFieldAttr) FieldAttr.readW := by
  have h16 : 16 ≤ price B := by unfold price; omega
  refine costs_attr ?_ fun a => by simp only [bulkFieldAttr]; omega
  intro name r
  revert r
  unfold FieldAttr.tableW
  repeat' refine table_ite (fun _ => ?_) ?_
  all_goals (first
    | exact table_nil
    | exact costs_pure (by simp only [W, bulkFieldAttr]; omega)
    | exact costs_map (costs_sig (fun _ _ h => Nat.le_succ_of_le (parseRef_bulkW h))).more fun _ _ _ => by simp only [W, bulkFieldAttr] at *; omega
    | exact costs_map costs_constW.more fun _ _ _ => by simp only [W, bulkFieldAttr] at *; omega
    | exact costs_map (costs_vec costs_annotationW).more fun _ _ _ => by simp only [W, bulkFieldAttr] at *; omega
    | exact costs_map (costs_vec (costs_typeAnnotationW costs_fieldTarget)).more fun _ _ _ => by simp only [W, bulkFieldAttr] at *; omega)

theorem costs_fieldW : Costs B 0 (W bulkField) Field.readW :=
  costs_ap (costs_ap (costs_ap (costs_map costs_flags fun _ _ _ _ _ _ _ _ _ _ _ _ => by
    simp only [W, bulkField] at *; omega) costs_utf8) costs_typeW) (costs_vec costs_fieldAttrW)

theorem fans_tblW : Fans (fun t => t.offsets.length) TblSwitch.readW := by
  refine fans_bind (g := fun _ => 0) (Fans.less fans_num fun _ => Nat.zero_le _) fun low =>
    fans_bind (g := fun _ => 0) (Fans.less fans_num fun _ => Nat.zero_le _) fun high => ?_
  simp only [Nat.sub_zero]
  split
  · exact fans_of1 (fans_replicate fans_num _) fun _ => Nat.le_refl _
  · intro bs a rest hr
    cases hr

theorem fans_insnW : Fans (fun r => r.fan + 1) RInsn.readW := by
  intro bs a rest h
  unfold RInsn.readW at h
  split at h
  · exact fans_insn _ _ _ h
  · split at h
    · rename_i o bs ho
      have h1 : Fans RInsn.fan (Reader.of2 RInsn.TableSwitch i32.read TblSwitch.readW) :=
        fans_of2 fans_num fans_tblW fun _ _ => by simp only [RInsn.fan]; omega
      have := h1 _ _ _ h
      simp only [List.length_cons]
      omega
    · exact fans_insn _ _ _ h

theorem costs_orDynW {f : Pool → UInt16 → Res (Option α)} {i : UInt16} {g : α → Nat}
    (h : ∀ P a, PoolB B P → f P i = .ok (some a) → g a ≤ 10 * B + 5) :
    Costs B (price B) (W fun x => bulkOrDyn g x + 8) (rOrDynW f i) :=
  costs_lookupD fun P a p q hp he => by
    have := orDynamic_bulkW hp (fun a ha => h P a hp ha) he
    simp only [price]
    omega

theorem costs_memberW {i : UInt16} : Costs B (price B) (W fun x => bulkOrDyn bulkMember x + 8) (rMemberW i) :=
  costs_orDynW fun P a hp h => by have := member_bulkW hp h; omega

theorem costs_classOrW {i : UInt16} :
    Costs B (price B) (W fun x => bulkOrDyn (fun s : Bytes => 8 * s.length + 5) x + 8) (rClassOrW i) :=
  costs_orDynW fun P a hp h => by
    have := indirect_bulk hp (Except.ok.inj h)
    omega

theorem arrayElem_bulkW {c : Bytes} {t : JType} (h : arrayElemW c = .ok t) : bulkType t ≤ 8 * c.length + 2 := by
  unfold arrayElemW at h
  split at h
  · rename_i ht
    cases h
    have := parseType_bulkW (okOrNone_some ht)
    omega
  · cases h
    simp only [bulkType, bulkS]
    omega
  · cases h

theorem toClassType_bulkW {c : Bytes} {t : ClassType} (h : toClassTypeW c = .ok t) : bulkClassType t ≤ 8 * c.length + 2 := by
  unfold toClassTypeW at h
  split at h
  · split at h
    · rename_i ht
      cases h
      have := parseType_bulkW ht
      simp only [bulkType, bulkClassType] at *
      omega
    · cases h
    · cases h
  · cases h
    simp only [bulkClassType, bulkS]
    omega

theorem costs_newArrayW {i : UInt16} {d : UInt8} : Costs B (price B) (W bulkInsn) (rNewArrayW i d) := by
  refine costs_bind costs_classOrW fun c n hn => ?_
  cases c with
  | dynamic d => exact costs_pure (by simp only [W, bulkInsn, bulkOrDyn] at *; omega)
  | static c =>
    refine costs_map (Q1 := W fun t => bulkType t + 4) (costs_ofRes fun t ht => ?_) fun t m hm => ?_
    · have := arrayElem_bulkW ht
      simp only [W, bulkOrDyn] at *
      omega
    · simp only [W, bulkInsn, bulkOrDyn] at *
      omega

theorem costs_classTypeW {i : UInt16} : Costs B (price B) (W fun x => bulkOrDyn bulkClassType x + 2) (rClassTypeW i) := by
  refine costs_bind costs_classOrW fun c n hn => ?_
  cases c with
  | dynamic d => exact costs_pure (by simp only [W, bulkOrDyn] at *; omega)
  | static c =>
    refine costs_map (Q1 := W fun t => bulkClassType t + 4) (costs_ofRes fun t ht => ?_) fun t m hm => ?_
    · have := toClassType_bulkW ht
      simp only [W, bulkOrDyn] at *
      omega
    · simp only [W, bulkOrDyn] at *
      omega

theorem costs_convertW (p : Nat) (r : RInsn) : Costs B (price B + price B * r.fan) (W bulkInsn) (convertW p r) := by
  have h16 : 16 ≤ price B := by unfold price; omega
  have hc : ∀ {c : Nat} {Q : Insn → Nat → Prop} {x : Rd Insn}, Costs B (price B) Q x → Costs B (price B + c) Q x :=
    fun h => h.mono (by omega) fun _ _ h => h
  have pu : ∀ {c : Nat} {i : Insn}, bulkInsn i ≤ 4 → Costs B (price B + c) (W bulkInsn) (Rd.pure i) :=
    fun h => hc (costs_pure (show _ ≤ _ by omega))
  have br : ∀ {c : Nat} {f : Label → Insn} {o : Int}, (∀ l, bulkInsn (f l) = 1) →
      Costs B (price B + c) (W bulkInsn) (Rd.map f (lbl p o)) :=
    fun h => hc (costs_map ((costs_lbl (c := 1)).mono (by omega) fun _ _ h => h) fun l n hn => by
      simp only [W, h] at *
      exact hn)
  have mb : ∀ {c : Nat} {f : OrDynamic MemberRef → Insn} {o : UInt16}, (∀ l, bulkInsn (f l) = 1 + bulkOrDyn bulkMember l) →
      Costs B (price B + c) (W bulkInsn) (Rd.map f (rMemberW o)) :=
    fun h => hc (costs_map costs_memberW fun l n hn => by
      simp only [W, h] at *
      omega)
  have ct : ∀ {c : Nat} {f : OrDynamic ClassType → Insn} {o : UInt16}, (∀ l, bulkInsn (f l) = 1 + bulkOrDyn bulkClassType l) →
      Costs B (price B + c) (W bulkInsn) (Rd.map f (rClassTypeW o)) :=
    fun h => hc (costs_map costs_classTypeW fun l n hn => by
      simp only [W, h] at *
      omega)
  have ps : ∀ {c : Nat} {o : UInt16}, Costs B (price B + c) (W bulkInsn) (rPushW o) :=
    hc (costs_map (Q1 := W fun c => bulkConst c + 8) (costs_lookupR fun P a hp h => by
      have := constant_bulkW hp h
      simp only [price]
      omega) fun l n hn => by
      simp only [W, Insn.const, bulkInsn, bulkOrDyn] at *
      omega)
  cases r with
  | TableSwitch d t =>
    have hm : 16 * t.offsets.length ≤ price B * t.offsets.length := Nat.mul_le_mul_right _ h16
    refine costs_bind ((costs_lbl (c := 2 + t.offsets.length + t.offsets.length)).mono ?_ fun _ _ h => h) fun l n hn => ?_
    · simp only [RInsn.fan]; omega
    · refine costs_map ((costs_lbls t.offsets (2 + t.offsets.length)).mono hn fun _ _ h => h) fun ls m hm => ?_
      simp only [W, bulkInsn]
      omega
  | LookupSwitch d es =>
    have hm : 16 * es.length ≤ price B * es.length := Nat.mul_le_mul_right _ h16
    refine costs_bind ((costs_lbl (c := 2 + es.length + es.length)).mono ?_ fun _ _ h => h) fun l n hn => ?_
    · simp only [RInsn.fan]; omega
    · refine costs_map ((costs_lblEntries es (2 + es.length)).mono hn fun _ _ h => h) fun ls m hm => ?_
      have := indexCollect_len ls
      simp only [W, bulkInsn]
      omega
  | Wide w => cases w <;> exact pu (by simp [bulkInsn])
  | NewArray n =>
    show Costs B _ _ (match newArrayType n with
      | some t => Rd.pure (Insn.newArray (.static t) 1)
      | none => Rd.fail .invalid)
    split
    · rename_i t ht
      have := newArrayType_bulk ht
      exact pu (by simp only [bulkInsn, bulkOrDyn]; omega)
    · exact costs_fail
  | New n =>
    refine hc (costs_map costs_classOrW fun l n hn => ?_)
    cases l with
    | dynamic d => simp only [W, bulkInsn, bulkOrDyn] at *; omega
    | static d => simp only [W, bulkInsn, bulkOrDyn, bulkS] at *; omega
  | InvokeDynamic d u =>
    refine hc (costs_map (Q1 := W fun d => bulkDynamic d + 8) (costs_lookupD fun P a p q hp h => ?_) fun l n hn => ?_)
    · have := indy_bulkW hp h
      simp only [price]
      omega
    · simp only [W, bulkInsn] at *
      omega
  | _ =>
    first
    | exact pu (by simp only [bulkInsn, Insn.const, bulkOrDyn, bulkConst]; omega)
    | exact br fun _ => rfl
    | exact mb fun _ => rfl
    | exact ct fun _ => rfl
    | exact ps
    | exact hc costs_newArrayW

theorem costs_insnW (pos : Nat) : Costs B 0 (W bulkInsn) (rInsnW pos) := by
  intro env st bs i st' rest he hr
  have key : ∀ cs : Bytes, cs.length ≤ bs.length → Rd.bind (Rd.lift RInsn.readW) (convertW pos) env st cs = .ok (i, st', rest) →
      ∃ n, W bulkInsn i n ∧ n + st'.count + price B * rest.length ≤ st.count + price B * bs.length + 0 := by
    intro cs hcs h
    obtain ⟨r, st1, bs1, h1, h2⟩ := Rd.bind_ok h
    unfold Rd.lift at h1
    split at h1
    · rename_i a rest1 h3
      cases h1
      have e1 : bs1.length + (r.fan + 1) ≤ cs.length := fans_insnW _ _ _ h3
      obtain ⟨n, e2, e3⟩ := costs_convertW (B := B) pos r _ _ _ _ _ _ he h2
      refine ⟨n, e2, ?_⟩
      have e4 : price B * (bs1.length + (r.fan + 1)) ≤ price B * bs.length := Nat.mul_le_mul_left _ (by omega)
      rw [Nat.mul_add, Nat.mul_add, Nat.mul_one] at e4
      omega
    · cases h1
  unfold rInsnW at hr
  split at hr
  · cases hr
  · rename_i o tl
    split at hr
    · refine key _ ?_ hr
      simp only [List.length_cons, List.length_drop]
      omega
    · exact key _ (Nat.le_refl _) hr

theorem loop_bulkW {len : Nat} {env : REnv} (he : EnvB B env) : ∀ (n : Nat) {st st' : RSt} {bs : Bytes}
    {is : List (Nat × Insn)}, bs.length = n → readLoopW len env st bs = .ok (is, st') →
    bulkL (fun i => bulkInsn i.2) is + st'.count ≤ st.count + price B * bs.length + 1 := by
  intro n
  induction n using Nat.strongRecOn with
  | _ n ih =>
    intro st st' bs is hn h
    rw [readLoopW] at h
    split at h
    · cases h
      simp only [bulkL]
      omega
    · split at h
      · cases h
      · rename_i i st1 rest h1
        obtain ⟨m, e1, e2⟩ := costs_insnW (B := B) _ _ _ _ _ _ _ he h1
        split at h
        · rename_i hlt
          split at h
          · cases h
          · rename_i is' st2 h2
            cases h
            have := ih rest.length (by omega) rfl h2
            simp only [W, bulkL] at *
            omega
        · cases h

theorem costs_varW : Costs B 0 (W VarEntry.worth) VarEntry.readW :=
  costs_ap (costs_ap (costs_ap (costs_ap (costs_map costs_one fun _ _ _ _ _ _ _ _ _ _ _ _ _ _ _ => by
    simp only [W, VarEntry.worth] at *; omega) costs_one) costs_utf8) costs_typeW) costs_one

theorem costs_varTypeW : Costs B 0 (W VarTypeEntry.worth) VarTypeEntry.readW :=
  costs_ap (costs_ap (costs_ap (costs_ap (costs_map costs_one fun _ _ _ _ _ _ _ _ _ _ _ _ _ _ _ => by
    simp only [W, VarTypeEntry.worth] at *; omega) costs_one) costs_utf8)
    (costs_sig fun _ _ h => Nat.le_succ_of_le (parseRef_bulkW h))) costs_one

theorem costs_codeAttrW : Costs B 0 (W CodeAttr.worth) CodeAttr.readW := by
  have h16 : 16 ≤ price B := by unfold price; omega
  have hta : Costs B 0 (W (bulkTyAnn bulkTarget)) (TypeAnnotation.readW CodeTarget.read) :=
    costs_typeAnnotationW (costs_codeTarget.mono (Nat.le_refl _) fun _ _ _ => by tally)
  refine costs_attr ?_ fun a => by simp only [CodeAttr.worth]; omega
  intro name r
  revert r
  unfold CodeAttr.tableW
  repeat' refine table_ite (fun _ => ?_) ?_
  all_goals (first
    | exact table_nil
    | exact costs_map (Costs.more (costs_vec costs_line)) fun _ _ _ => by simp only [W, CodeAttr.worth, bulkL_one] at *; omega
    | exact costs_map (Costs.more (costs_vec costs_varW)) fun _ _ _ => by simp only [W, CodeAttr.worth] at *; omega
    | exact costs_map (Costs.more (costs_vec costs_varTypeW)) fun _ _ _ => by simp only [W, CodeAttr.worth] at *; omega
    | exact costs_map (Costs.more (costs_vec hta)) fun _ _ _ => by simp only [W, CodeAttr.worth] at *; omega
    | exact costs_map (Costs.more (costs_vec costs_frame)) fun _ _ _ => by simp only [W, CodeAttr.worth] at *; omega)

theorem costs_rangeW {s l : UInt16} {c : Nat} : Costs B (c + 2) (W fun _ => c) (rangeLabelsW s l) :=
  costs_bind (costs_getLabel (c := c + 1)) fun _ n (hn : c + 1 ≤ n) =>
    costs_map ((costs_getLabel (c := c)).mono hn fun _ _ h => h) fun _ _ h => h

theorem costs_addVarsW : ∀ (ls : List VarEntry) (vars : List LocalVariable) (c : Nat),
    Costs B (c + bulkL bulkVar vars + bulkL VarEntry.worth ls) (fun vs n => c + bulkL bulkVar vs ≤ n) (addVarsW vars ls)
  | [], vars, c => costs_pure (by omega)
  | l :: ls, vars, c => by
    refine costs_bind ((costs_rangeW (c := c + (bulkL bulkVar vars + 2 + bulkS l.name + bulkType l.descriptor) + bulkL VarEntry.worth ls)).mono ?_
      fun _ _ h => h) fun r n hn => (costs_addVarsW ls _ c).mono ?_ fun _ _ h => h
    · simp only [bulkL, VarEntry.worth]
      omega
    · have := upsert_bulk (f := fun w => { w with descriptor := some l.descriptor })
        (v := ⟨r.1, r.2, l.name, some l.descriptor, none, l.index⟩) (d := 2 + bulkS l.name + bulkType l.descriptor)
        (fun w => by simp only [bulkVar, bulkO]; omega) (by simp only [bulkVar, bulkO]; omega) vars
      tally

theorem costs_addVarTypesW : ∀ (ls : List VarTypeEntry) (vars : List LocalVariable) (c : Nat),
    Costs B (c + bulkL bulkVar vars + bulkL VarTypeEntry.worth ls) (fun vs n => c + bulkL bulkVar vs ≤ n) (addVarTypesW vars ls)
  | [], vars, c => costs_pure (by omega)
  | l :: ls, vars, c => by
    refine costs_bind ((costs_rangeW (c := c + (bulkL bulkVar vars + 2 + bulkS l.name + bulkRef l.signature) + bulkL VarTypeEntry.worth ls)).mono ?_
      fun _ _ h => h) fun r n hn => (costs_addVarTypesW ls _ c).mono ?_ fun _ _ h => h
    · simp only [bulkL, VarTypeEntry.worth]
      omega
    · have := upsert_bulk (f := fun w => { w with signature := some l.signature })
        (v := ⟨r.1, r.2, l.name, none, some l.signature, l.index⟩) (d := 2 + bulkS l.name + bulkRef l.signature)
        (fun w => by simp only [bulkVar, bulkO]; omega) (by simp only [bulkVar, bulkO]; omega) vars
      tally

theorem costs_stepW {idx : Nat → Option Nat} {k : Nat} (acc : AttrAcc) (a : CodeAttr) (c : Nat) :
    Costs B (c + acc.worth k + a.worth) (W fun acc => c + acc.worth k) (acc.stepW idx a) := by
  cases a with
  | lines ls =>
    refine costs_map (Q1 := fun m n => c + bulkL bulkCodeAttr acc.attrs + markBulk m k + bulkL bulkVar acc.vars ≤ n)
      (costs_ofRes fun m hm => ?_) fun m n hn => ?_
    · have := addLines_bulk ls (n := k) hm
      simp only [AttrAcc.worth, CodeAttr.worth]
      omega
    · simp only [W, AttrAcc.worth]
      omega
  | vars vs =>
    refine costs_map ((costs_addVarsW vs acc.vars (c + bulkL bulkCodeAttr acc.attrs + markBulk acc.ins k)).mono ?_ fun _ _ h => h)
      fun m n hn => ?_
    · simp only [AttrAcc.worth, CodeAttr.worth]
      omega
    · simp only [W, AttrAcc.worth]
      omega
  | varTypes vs =>
    refine costs_map ((costs_addVarTypesW vs acc.vars (c + bulkL bulkCodeAttr acc.attrs + markBulk acc.ins k)).mono ?_ fun _ _ h => h)
      fun m n hn => ?_
    · simp only [AttrAcc.worth, CodeAttr.worth]
      omega
    · simp only [W, AttrAcc.worth]
      omega
  | frames fs => exact costs_pure (by simp only [W]; omega)
  | invisibleType as =>
    exact costs_pure (by simp only [W, AttrAcc.worth, CodeAttr.worth, bulkL_append, bulkCodeAttr]; omega)
  | visibleType as =>
    exact costs_pure (by simp only [W, AttrAcc.worth, CodeAttr.worth, bulkL_append, bulkCodeAttr]; omega)
  | raw a =>
    exact costs_pure (by simp only [W, AttrAcc.worth, CodeAttr.worth, bulkL_append, bulkCodeAttr]; omega)

theorem costs_codeAttrsW {idx : Nat → Option Nat} {k : Nat} : ∀ (n : Nat) (acc : AttrAcc) (c : Nat),
    Costs B (c + acc.worth k) (W fun acc => c + acc.worth k) (readCodeAttrsW idx n acc)
  | 0, acc, c => costs_pure (Nat.le_refl _)
  | n + 1, acc, c => costs_bind (costs_codeAttrW.frame (k := c + acc.worth k) (Q' := W fun a : CodeAttr => c + acc.worth k + a.worth)
      (by omega) fun _ _ _ => by tally) fun a m hm =>
      costs_bind ((costs_stepW acc a c).mono hm fun _ _ h => h) fun acc' m' hm' =>
        (costs_codeAttrsW n acc' c).mono hm' fun _ _ h => h

theorem costs_insnsW {code : Bytes} {c : Nat} :
    Costs B (price B * code.length + 1 + c) (W fun is => bulkL (fun i : Nat × Insn => bulkInsn i.2) is + c) (readInsnsW code) := by
  intro env st bs x st' rest he hr
  unfold readInsnsW at hr
  split at hr
  · cases hr
  · rename_i h
    cases hr
    have := loop_bulkW he _ rfl h
    exact ⟨_, Nat.le_refl _, by tally⟩

theorem settles_codeW {ord : Nat → List LocalVariable → List LocalVariable} (ho : ∀ n l, (ord n l).Perm l) :
    Settles B 0 (W fun c => bulkCode c + 1) (Code.readInW ord) := by
  refine settles_bind costs_unit fun _ n (hn : 8 ≤ n) => settles_bind (Costs.more costs_unit) fun _ _ _ =>
    settles_bind (Costs.more costs_unit) fun len n (hn : 8 ≤ n) =>
    settles_bind ((costs_bytes (c := 8)).mono hn fun _ _ h => h) fun code n hn =>
    settles_bind ((costs_insnsW (c := 7)).mono (by tally) fun _ _ h => h) fun pis n hn =>
    settles_bind costs_handlers fun cs n' hn' => settles_bind (Costs.frame costs_num (k := n') (Q' := fun _ m => n' ≤ m) (by omega)
      fun _ m _ => by omega) fun k m hm => ?_
  obtain ⟨hn1, hn2⟩ := hn'
  have hz : ∀ k, markBulk (fun _ => []) k = 0 := fun k => by
    induction k with
    | zero => rfl
    | succ k ih => simp only [markBulk, ih]; rfl
  refine settles_bind (costs_withCatches
    ((costs_codeAttrsW (k := (pis.map Prod.snd).length) _ _ (m - 2)).mono ?_ fun _ _ h => h) hn2) fun acc p hp => ?_
  · simp only [AttrAcc.worth, bulkL, hz]
    omega
  · intro env st bs x st' rest he hr
    obtain ⟨is, st1, bs1, h1, h2⟩ := Rd.bind_ok hr
    cases h2
    unfold placeMarkers at h1
    split at h1
    · cases h1
    · rename_i lm hl
      split at h1
      · cases h1
      · rename_i ins' hi
        cases h1
        have e1 := addLabels_bulk lm (n := (pis.map Prod.snd).length) hi
        have e2 := insertDown_bulk (ins := ins') (pis.map Prod.snd).length (pis.map Prod.snd)
        have e3 : bulkIs (pis.map Prod.snd) = bulkL (fun i : Nat × Insn => bulkInsn i.2) pis := bulkL_map _
        have e4 : ∀ j, bulkL bulkCodeAttr (if acc.vars.length = 0 then acc.attrs else acc.attrs ++ [.locals (ord j acc.vars)]) ≤
            bulkL bulkCodeAttr acc.attrs + 1 + bulkL bulkVar acc.vars := fun j => by
          split
          · omega
          · simp only [bulkL_append, bulkCodeAttr, bulkL_perm (ho _ _)]
            omega
        have e4 := e4 bs.length
        have e5 : st.count = lm.length := by simp only [RSt.count, hl]
        refine ⟨_, Nat.le_refl _, ?_⟩
        simp only [W, bulkCode, AttrAcc.worth] at *
        simp only [bulkIs] at *
        omega

theorem costs_codeW {ord : Nat → List LocalVariable → List LocalVariable} (ho : ∀ n l, (ord n l).Perm l) :
    Costs B 0 (W fun c => bulkCode c + 1) (Code.readW ord) := by
  intro env st bs x st' rest he hr
  unfold Code.readW at hr
  split at hr
  · cases hr
  · rename_i h
    cases hr
    obtain ⟨n, h1, h2⟩ := settles_codeW (B := B) ho { env with catches := some [] } _ _ _ _ _ ⟨he.1, fun _ h => by cases h; exact nofun⟩ h
    refine ⟨n, h1, ?_⟩
    simp only [RSt.count, List.length_nil] at *
    omega

theorem costs_methodAttrW {ord : Nat → List LocalVariable → List LocalVariable} (ho : ∀ n l, (ord n l).Perm l) :
    Costs B 0 (W bulkMethodAttr) (rAttr (MethodAttr.tableW ord) .raw) := by
  have h16 : 16 ≤ price B := by unfold price; omega
  refine costs_attr ?_ fun a => by simp only [bulkMethodAttr]; omega
  intro name r
  revert r
  unfold MethodAttr.tableW
  repeat' refine table_ite (fun _ => ?_) ?_
  all_goals (first
    | exact table_nil
    | exact costs_pure (by simp only [W, bulkMethodAttr]; omega)
    | exact costs_map (Costs.more (costs_codeW ho)) fun _ _ _ => by simp only [W, bulkMethodAttr] at *; omega
    | exact costs_map (Costs.more (costs_sig fun _ _ h => Nat.le_succ_of_le (parseMethod_bulkW h))) fun _ _ _ => by simp only [W, bulkMethodAttr] at *; omega
    | exact costs_map (Costs.more (costs_vec costs_annotationW)) fun _ _ _ => by simp only [W, bulkMethodAttr] at *; omega
    | exact costs_map (Costs.more (costs_vec (costs_typeAnnotationW costs_methodTarget))) fun _ _ _ => by simp only [W, bulkMethodAttr] at *; omega
    | exact costs_map (Costs.more (costs_vec (f := bulkL bulkAnn) ((costs_vec costs_annotationW).mono (Nat.le_refl _) fun _ _ _ => by tally))) fun _ _ _ => by simp only [W, bulkMethodAttr] at *; omega
    | exact costs_map (Costs.more costs_strs) fun _ _ _ => by simp only [W, bulkMethodAttr] at *; omega
    | exact costs_map (costs_valueW.frame (k := price B) (Q' := W fun v => bulkValue v + 1) (by omega) fun _ _ _ => by tally) fun _ _ _ => by simp only [W, bulkMethodAttr] at *; omega
    | exact costs_map (Costs.more (costs_vec costs_parameter)) fun _ _ _ => by simp only [W, bulkMethodAttr] at *; omega)

theorem costs_methodW {ord : Order} (ho : ∀ k n l, (ord k n l).Perm l) : Costs B 0 (W bulkMethod) (Method.readW ord) :=
  costs_ap (costs_ap (costs_ap (costs_map costs_flags fun _ _ _ _ _ _ _ _ _ _ _ _ => by
    simp only [W, bulkMethod] at *; omega) costs_utf8) costs_typeW)
    (costs_vec fun env st bs => costs_methodAttrW (ho bs.length) env st bs)

theorem costs_classW {ord : Order} (ho : ∀ k n l, (ord k n l).Perm l) (v : Version) :
    Costs B 0 (W bulkClass) (Class.readBodyW ord v) :=
  costs_ap (costs_ap (costs_ap (costs_ap (costs_ap (costs_ap (costs_map costs_flags
    fun _ _ _ _ _ _ _ _ _ _ _ _ _ _ _ _ _ _ _ _ _ => by
    simp only [W, bulkClass] at *; omega) costs_str) costs_clsOpt) costs_strs) (costs_vec costs_fieldW))
    (costs_vec (costs_methodW ho))) (costs_vec costs_classAttrW)

theorem pool_loopW {N : Nat} {count : UInt16} : ∀ (fuel : Nat) {i : UInt16} {acc : List (UInt16 × Entry)} {bs rest : Bytes} {m : MapCp},
    (∀ p ∈ acc, p.2.textLen + bs.length ≤ N ∧ p.2.textLen ≤ 65535) → bs.length ≤ N →
    MapCp.readLoopW count fuel i acc bs = .ok (m, rest) →
    (∀ p ∈ m.entries, p.2.textLen + rest.length ≤ N ∧ p.2.textLen ≤ 65535) ∧ rest.length ≤ N
  | 0, i, acc, bs, rest, m, ha, hb, h => by cases h
  | fuel + 1, i, acc, bs, rest, m, ha, hb, h => by
    rw [MapCp.readLoopW] at h
    split at h
    · split at h
      · rename_i e bs1 h1
        have e1 := fans_entry' _ _ _ h1
        have e2 := entry_short h1
        refine pool_loopW fuel ?_ (by omega) h
        intro p hp
        rcases List.mem_cons.mp hp with rfl | hp
        · exact ⟨by dsimp only; omega, e2⟩
        · have := ha p hp
          exact ⟨by omega, this.2⟩
      · cases h
    · cases h
      exact ⟨ha, hb⟩

theorem pool_bulkW {bs rest : Bytes} {m : MapCp} (h : MapCp.readW bs = .ok (m, rest)) :
    PoolB (min 65535 (bs.length - rest.length)) m.get ∧ rest.length ≤ bs.length := by
  obtain ⟨c, bs1, h1, h2⟩ := Reader.bind_ok h
  have e1 := fans_num (c := u16) (by decide) _ _ _ h1
  have e1 : bs1.length + 1 ≤ bs.length := e1
  obtain ⟨e2, e3⟩ := pool_loopW (N := bs.length) _ (fun p hp => absurd hp List.not_mem_nil) (by omega) h2
  refine ⟨fun i s hs => ?_, e3⟩
  have := e2 _ (lookup_mem hs)
  simp only [Entry.textLen] at this
  omega

/-- What a class file costs. -/
theorem class_bulkW {ord : Order} (ho : ∀ k n l, (ord k n l).Perm l) {input rest : Bytes} {x : Class}
    (h : Class.readW ord input = .ok (x, rest)) :
    bulkClass x ≤ price (min 65535 (input.length - rest.length)) * (input.length - rest.length) := by
  unfold Class.readW at h
  split at h
  · cases h
  · rename_i magic bs1 h1
    split at h
    · split at h
      · cases h
      · rename_i v bs2 h2
        split at h
        · cases h
        · rename_i cp bs3 h3
          split at h
          · cases h
          · rename_i c st bs4 h4
            split at h
            · cases h
            · cases h
              have e1 : bs1.length + 1 ≤ input.length := fans_num (c := u32) (by decide) _ _ _ h1
              have e2 : bs2.length + 0 ≤ bs1.length := fans_version _ _ _ h2
              obtain ⟨e3, e4⟩ := pool_bulkW h3
              have key : ∀ B, PoolB B cp.get → bulkClass x + price B * rest.length ≤ price B * bs3.length := by
                intro B hB
                obtain ⟨n, e5, e6⟩ := costs_classW (B := B) ho v _ _ _ _ _ _ ⟨hB, fun _ h => Option.noConfusion rfl (heq_of_eq h)⟩ h4
                simp only [W, RSt.count] at e5 e6
                omega
              have hle : rest.length ≤ bs3.length := by
                rcases Nat.lt_or_ge bs3.length rest.length with hlt | hge
                · have e7 := key _ e3
                  have e8 := Nat.mul_le_mul_left (price (min 65535 (bs2.length - bs3.length))) (Nat.succ_le_of_lt hlt)
                  rw [Nat.mul_succ] at e8
                  have : 0 < price (min 65535 (bs2.length - bs3.length)) := by unfold price; omega
                  omega
                · exact hge
              have e7 := key (min 65535 (input.length - rest.length)) (e3.mono (by omega))
              generalize price (min 65535 (input.length - rest.length)) = p at e7 ⊢
              have e8 : p * bs3.length ≤ p * ((input.length - rest.length) + rest.length) := Nat.mul_le_mul_left _ (by omega)
              rw [Nat.mul_add] at e8
              omega
    · cases h

end Verif
