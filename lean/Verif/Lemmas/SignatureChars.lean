import Verif.Lemmas.SignatureTop

/-! # The text of a signature that was read consists of code points -/

namespace Verif.Sig
open Spec JType

/-- All chars are code points. -/
def Valid (s : Str) : Prop := ∀ c ∈ s, IsCodePoint c

namespace Valid

theorem nil : Valid [] := fun _ h => nomatch h

theorem cons {c : Nat} {s : Str} (hc : IsCodePoint c) (hs : Valid s) : Valid (c :: s) := by
  intro x hx
  rcases List.mem_cons.mp hx with rfl | hx
  · exact hc
  · exact hs x hx

theorem append {a b : Str} (ha : Valid a) (hb : Valid b) : Valid (a ++ b) := by
  intro x hx
  rcases List.mem_append.mp hx with hx | hx
  · exact ha x hx
  · exact hb x hx

theorem left {a b : Str} (h : Valid (a ++ b)) : Valid a := fun x hx => h x (List.mem_append_left _ hx)
theorem right {a b : Str} (h : Valid (a ++ b)) : Valid b := fun x hx => h x (List.mem_append_right _ hx)
theorem tail {c : Nat} {s : Str} (h : Valid (c :: s)) : Valid s := fun x hx => h x (List.mem_cons_of_mem _ hx)

theorem suf {s r : Str} (h : Valid s) (hs : Suf s r) : Valid r := by
  obtain ⟨u, rfl⟩ := hs
  exact h.right

theorem psuf {s r : Str} (h : Valid s) (hs : PSuf s r) : Valid r := h.suf hs.suf

theorem flatMap {α : Type} {f : α → Str} {xs : List α} (h : ∀ x ∈ xs, Valid (f x)) : Valid (xs.flatMap f) := by
  intro c hc
  obtain ⟨x, hx, hc⟩ := List.mem_flatMap.mp hc
  exact h x hx c hc

theorem takeWhile {s : Str} (h : Valid s) (p : Nat → Bool) : Valid (s.takeWhile p) :=
  fun c hc => h c ((List.takeWhile_sublist p).mem hc)

theorem dropWhile {s : Str} (h : Valid s) (p : Nat → Bool) : Valid (s.dropWhile p) := h.suf (suf_dropWhile p s)

theorem replicate (k : Nat) {c : Nat} (hc : IsCodePoint c) : Valid (List.replicate k c) := by
  intro x hx
  rw [List.eq_of_mem_replicate hx]
  exact hc

end Valid

theorem ascii_cp {c : Nat} (h : c < 128) : IsCodePoint c := by
  show c ≤ 0x10FFFF
  omega

theorem prim_valid {c : Nat} {t : TypeSig} (h : primSig c = some t) : Valid (showT t) := by
  unfold primSig at h
  iterate 8
    split at h
    · cases h
      exact .cons (ascii_cp (by omega)) .nil
  cases h

theorem tyVar_valid {s n r : Str} (h : tyVar s = .ok (n, r)) (hs : Valid s) : Valid n := by
  rw [(tyVar_ok h).2] at hs
  exact hs.left

theorem packages_valid {s : Str} {pk : List Str} {r : Str} (h : packages s = .ok (pk, r)) (hs : Valid s) :
    Valid (pk.flatMap fun p => p ++ [0x2F]) := by
  obtain ⟨more, e1, e2, _⟩ := packagesLoop_ok s [] [] pk r h (by simp [Plain]) (by simp)
  rw [List.nil_append] at e1 e2
  subst e1
  rw [e2] at hs
  exact hs.left

mutual
theorem validT : (n : Nat) → (s : Str) → (t : TypeSig) → (rest : Str) →
    typeSig n s = .ok (t, rest) → Valid s → Valid (showT t)
  | 0, _, _, _, h, _ => by simp [typeSig] at h
  | n + 1, [], _, _, h, _ => by simp [typeSig] at h
  | n + 1, c :: cs, t, rest, h, hv => by
    rw [typeSig] at h
    split at h
    · rename_i t' hp; cases h; exact prim_valid hp
    · split at h
      · split at h
        · rename_i r i hr
          cases h
          rw [showT]
          exact validR n _ _ _ hr hv
        · cases h
      · cases h
theorem validR : (n : Nat) → (s : Str) → (r : RefSig) → (rest : Str) →
    refTypeSig n s = .ok (r, rest) → Valid s → Valid (showR r)
  | 0, _, _, _, h, _ => by simp [refTypeSig] at h
  | n + 1, [], _, _, h, _ => by simp [refTypeSig] at h
  | n + 1, c :: cs, t, rest, h, hv => by
    rw [refTypeSig] at h
    split at h
    · split at h
      · split at h
        · rename_i t' i ht
          cases h
          rw [showR]
          exact .append (.replicate _ (ascii_cp (by omega))) (validT n _ _ _ ht (hv.tail.suf (suf_brackets cs)))
        · cases h
      · cases h
    · split at h
      · split at h
        · rename_i nm i hx
          cases h
          rw [showR]
          exact .cons (ascii_cp (by omega)) (.append (tyVar_valid hx hv.tail) (.cons (ascii_cp (by omega)) .nil))
        · cases h
      · split at h
        · split at h
          · rename_i sg i hc
            cases h
            rw [showR]
            exact validC n _ _ _ hc hv
          · cases h
        · cases h
theorem validC : (n : Nat) → (s : Str) → (r : ClassTySig) → (rest : Str) →
    classTypeSig n s = .ok (r, rest) → Valid s → Valid (showC r)
  | 0, _, _, _, h, _ => by simp [classTypeSig] at h
  | n + 1, s, t, rest, h, hv => by
    rw [classTypeSig] at h
    split at h
    · cases h
    rename_i i1 h1
    split at h
    · cases h
    rename_i pk i2 h2
    split at h
    · cases h
    rename_i nm i3 h3
    split at h
    · cases h
    rename_i ss i4 h4
    split at h
    · cases h
    rename_i i5 h5
    cases h
    have v1 := hv.psuf (expect_suf h1)
    have v2 := v1.suf (packages_suf h2)
    have v3 := v2.suf (okS n _ _ _ h3).2
    rw [showC]
    exact .cons (ascii_cp (by omega)) (.append (packages_valid h2 v1) (.append (validS n _ _ _ h3 v2)
      (.append (validSs n _ _ _ h4 v3) (.cons (ascii_cp (by omega)) .nil))))
theorem validSs : (n : Nat) → (s : Str) → (r : List SimpleSig) → (rest : Str) →
    suffixes n s = .ok (r, rest) → Valid s → Valid (showSuffix r)
  | 0, _, _, _, h, _ => by simp [suffixes] at h
  | n + 1, [], _, _, h, _ => by rw [suffixes] at h; cases h; exact .nil
  | n + 1, c :: cs, t, rest, h, hv => by
    rw [suffixes] at h
    split at h
    · split at h
      · cases h
      rename_i sg i1 h1
      split at h
      · cases h
      rename_i ss i2 h2
      cases h
      rw [showSuffix]
      exact .cons (ascii_cp (by omega)) (.append (validS n _ _ _ h1 hv.tail)
        (validSs n _ _ _ h2 (hv.tail.suf (okS n _ _ _ h1).2)))
    · cases h; exact .nil
theorem validS : (n : Nat) → (s : Str) → (r : SimpleSig) → (rest : Str) →
    simpleTypeSig n s = .ok (r, rest) → Valid s → Valid (showS r)
  | 0, _, _, _, h, _ => by simp [simpleTypeSig] at h
  | n + 1, s, t, rest, h, hv => by
    have hd := hv.dropWhile nameChar
    rw [simpleTypeSig] at h
    split at h
    · cases h
      rw [showS]
      exact .append (hv.takeWhile _) .nil
    · rename_i c cs e
      rw [e] at hd
      split at h
      · split at h
        · cases h
        rename_i as i1 h1
        split at h
        · cases h
        cases h
        have ih := validAs n _ _ _ h1 hd.tail
        cases as with
        | nil => rw [showS]; exact .append (hv.takeWhile _) .nil
        | cons a as =>
          rw [showArgs] at ih
          rw [showS]
          exact .append (hv.takeWhile _) (.cons (ascii_cp (by omega)) (.append ih.left
            (.append ih.right (.cons (ascii_cp (by omega)) .nil))))
      · cases h
        rw [showS]
        exact .append (hv.takeWhile _) .nil
theorem validAs : (n : Nat) → (s : Str) → (r : List TypeArg) → (rest : Str) →
    typeArgs n s = .ok (r, rest) → Valid s → Valid (showArgs r)
  | 0, _, _, _, h, _ => by simp [typeArgs] at h
  | n + 1, [], _, _, h, _ => by rw [typeArgs] at h; cases h; exact .nil
  | n + 1, c :: cs, t, rest, h, hv => by
    rw [typeArgs] at h
    split at h
    · cases h; exact .nil
    · split at h
      · cases h
      rename_i sg i1 h1
      split at h
      · cases h
      rename_i ss i2 h2
      cases h
      rw [showArgs]
      exact .append (validA n _ _ _ h1 hv) (validAs n _ _ _ h2 (hv.psuf (okA n _ _ _ h1).2))
theorem validA : (n : Nat) → (s : Str) → (r : TypeArg) → (rest : Str) →
    typeArg n s = .ok (r, rest) → Valid s → Valid (showA r)
  | 0, _, _, _, h, _ => by simp [typeArg] at h
  | n + 1, [], _, _, h, _ => by simp [typeArg] at h
  | n + 1, c :: cs, t, rest, h, hv => by
    rw [typeArg] at h
    split at h
    · cases h; exact .cons (ascii_cp (by omega)) .nil
    · split at h
      · split at h
        · rename_i r i hr
          cases h
          rw [showA]
          exact .cons (ascii_cp (by omega)) (validR n _ _ _ hr hv.tail)
        · cases h
      · split at h
        · split at h
          · rename_i r i hr
            cases h
            rw [showA]
            exact .cons (ascii_cp (by omega)) (validR n _ _ _ hr hv.tail)
          · cases h
        · split at h
          · split at h
            · rename_i r i hr
              cases h
              rw [showA]
              exact validR n _ _ _ hr hv
            · cases h
          · cases h
end

theorem valid_ref {s : Str} {r : RefSig} (h : parseRef s = .ok r) (hv : Valid s) : Valid (showR r) := by
  rw [parseRef] at h
  rcases hx : refTypeSig (enough s) s with e | ⟨r', i⟩ <;> rw [hx] at h <;> cases h
  exact validR _ _ _ _ hx hv

/-! ## Type parameters -/

theorem valid_bounds (cs : Str) : ∀ (i : Str) (bs : List RefSig) (r : Str), interfaceBounds cs i = .ok (bs, r) →
    Valid cs → Valid i → Valid (bs.flatMap fun b => 0x3A :: showR b) ∧ Valid r := by
  induction cs with
  | nil =>
    intro i bs r h _ hi
    cases h
    exact ⟨.nil, hi⟩
  | cons c cs ih =>
    intro i bs r h hv hi
    rw [interfaceBounds] at h
    split at h
    · split at h
      · cases h
      rename_i b i1 h1
      split at h
      · cases h
      rename_i bs' i2 h2
      cases h
      have := ih _ _ _ h2 hv.tail (hv.tail.psuf (okR _ _ _ _ h1).2)
      rw [List.flatMap_cons]
      exact ⟨.append (.cons (ascii_cp (by omega)) (validR _ _ _ _ h1 hv.tail)) this.1, this.2⟩
    · cases h
      exact ⟨.nil, hi⟩

theorem valid_param {i r : Str} {p : TypeParam} (h : typeParam i = .ok (p, r)) (hv : Valid i) :
    Valid (showParam p) ∧ Valid r := by
  unfold typeParam at h
  have hc : Valid ((i.dropWhile (· ≠ 0x3A)).drop 1) := by
    intro c hc
    exact hv.dropWhile _ c (List.mem_of_mem_drop hc)
  simp only at h
  generalize ((i.dropWhile (· ≠ 0x3A)).drop 1) = chars at h hc
  have key : ∀ cb i', (match chars with
      | [] => (.ok (none, chars) : Res (Option RefSig × Str))
      | c :: _ => if isRefStart c then
          match refTypeSig (enough chars) chars with
          | .ok (r, i) => .ok (some r, i)
          | .error e => .error e
        else .ok (none, chars)) = .ok (cb, i') → Valid (cb.elim [] showR) ∧ Valid i' := by
    intro cb i' hb
    split at hb
    · cases hb
      exact ⟨.nil, .nil⟩
    · split at hb
      · split at hb
        · rename_i r' i1 h1
          cases hb
          exact ⟨validR _ _ _ _ h1 hc, hc.psuf (okR _ _ _ _ h1).2⟩
        · cases hb
      · cases hb
        exact ⟨.nil, hc⟩
  split at h
  · cases h
  rename_i cb i' hb
  obtain ⟨k1, k2⟩ := key cb i' hb
  split at h
  · cases h
  rename_i bs i2 h2
  cases h
  obtain ⟨k3, k4⟩ := valid_bounds _ _ _ _ h2 hc k2
  exact ⟨.append (hv.takeWhile _) (.cons (ascii_cp (by omega)) (.append k1 k3)), k4⟩

theorem valid_paramsLoop (n : Nat) : ∀ (i : Str) (ps : List TypeParam) (r : Str), typeParamsLoop n i = .ok (ps, r) →
    Valid i → Valid (ps.flatMap showParam) ∧ Valid r := by
  induction n with
  | zero => intro i ps r h; cases h
  | succ n ih =>
    intro i ps r h hv
    cases i with
    | nil => cases h; exact ⟨.nil, .nil⟩
    | cons c cs =>
      rw [typeParamsLoop] at h
      split at h
      · cases h
        exact ⟨.nil, hv⟩
      · split at h
        · cases h
        rename_i p i1 h1
        split at h
        · cases h
        rename_i ps' i2 h2
        cases h
        obtain ⟨k1, k2⟩ := valid_param h1 hv
        obtain ⟨k3, k4⟩ := ih _ _ _ h2 k2
        rw [List.flatMap_cons]
        exact ⟨.append k1 k3, k4⟩

theorem valid_params {i r : Str} {ps : List TypeParam} (h : typeParams i = .ok (ps, r)) (hv : Valid i) :
    Valid (showParams ps) ∧ Valid r := by
  cases i with
  | nil => cases h; exact ⟨.nil, .nil⟩
  | cons c cs =>
    rw [typeParams] at h
    split at h
    · split at h
      · cases h
      rename_i ps' i1 h1
      split at h
      · cases h
      rename_i i2 h2
      cases h
      obtain ⟨k1, k2⟩ := valid_paramsLoop _ _ _ _ h1 hv.tail
      refine ⟨?_, k2.psuf (expect_suf h2)⟩
      cases ps with
      | nil => exact .nil
      | cons p ps =>
        rw [List.flatMap_cons] at k1
        exact .cons (ascii_cp (by omega)) (.append k1.left (.append k1.right (.cons (ascii_cp (by omega)) .nil)))
    · cases h
      exact ⟨.nil, hv⟩

/-! ## Methods and classes -/

theorem valid_types (n : Nat) : ∀ (i : Str) (ts : List TypeSig) (r : Str), paramsLoop n i = .ok (ts, r) →
    Valid i → Valid (ts.flatMap showT) ∧ Valid r := by
  induction n with
  | zero => intro i ps r h; cases h
  | succ n ih =>
    intro i ts r h hv
    cases i with
    | nil => cases h; exact ⟨.nil, .nil⟩
    | cons c cs =>
      rw [paramsLoop] at h
      split at h
      · split at h
        · cases h
        rename_i p i1 h1
        split at h
        · cases h
        rename_i ps' i2 h2
        cases h
        obtain ⟨k3, k4⟩ := ih _ _ _ h2 (hv.psuf (okT _ _ _ _ h1).2)
        rw [List.flatMap_cons]
        exact ⟨.append (validT _ _ _ _ h1 hv) k3, k4⟩
      · cases h
        exact ⟨.nil, hv⟩

theorem valid_throw {i r : Str} {t : ThrowsSig} (h : throwsSig i = .ok (t, r)) (hv : Valid i) :
    Valid (showThrows t) ∧ Valid r := by
  unfold throwsSig at h
  split at h
  · cases h
  · cases h
  rename_i c cs hx
  have v := hv.psuf (expect_suf hx)
  split at h
  · split at h
    · rename_i s i1 h1
      cases h
      exact ⟨.cons (ascii_cp (by omega)) (validC _ _ _ _ h1 v), v.psuf (okC _ _ _ _ h1).2⟩
    · cases h
  · split at h
    · split at h
      · rename_i nm i1 h1
        cases h
        exact ⟨.cons (ascii_cp (by omega)) (.cons (ascii_cp (by omega)) (.append (tyVar_valid h1 v.tail)
          (.cons (ascii_cp (by omega)) .nil))), v.tail.suf (tyVar_suf h1)⟩
      · cases h
    · cases h

theorem valid_throws (n : Nat) : ∀ (i : Str) (ts : List ThrowsSig) (r : Str), throwsLoop n i = .ok (ts, r) →
    Valid i → Valid (ts.flatMap showThrows) := by
  induction n with
  | zero => intro i ps r h; cases h
  | succ n ih =>
    intro i ts r h hv
    cases i with
    | nil => cases h; exact .nil
    | cons c cs =>
      rw [throwsLoop] at h
      split at h
      · split at h
        · cases h
        rename_i p i1 h1
        split at h
        · cases h
        rename_i ps' i2 h2
        cases h
        obtain ⟨k1, k2⟩ := valid_throw h1 hv
        rw [List.flatMap_cons]
        exact .append k1 (ih _ _ _ h2 k2)
      · cases h
        exact .nil

theorem valid_ret {i r : Str} {t : Option TypeSig} (h : retSig i = .ok (t, r)) (hv : Valid i) :
    Valid (t.elim [0x56] showT) ∧ Valid r := by
  cases i with
  | nil => cases h
  | cons c cs =>
    rw [retSig] at h
    split at h
    · cases h
      exact ⟨.cons (ascii_cp (by omega)) .nil, hv.tail⟩
    · split at h
      · rename_i t' i1 h1
        cases h
        exact ⟨validT _ _ _ _ h1 hv, hv.psuf (okT _ _ _ _ h1).2⟩
      · cases h

theorem valid_method {s : Str} {m : MethodSig} (h : parseMethod s = .ok m) (hv : Valid s) : Valid (showMethod m) := by
  rw [parseMethod, methodSig] at h
  split at h
  · cases h
  rename_i tps i1 h1
  obtain ⟨k1, v1⟩ := valid_params h1 hv
  split at h
  · cases h
  rename_i i2 h2
  have v2 := v1.psuf (expect_suf h2)
  split at h
  · cases h
  rename_i ps i3 h3
  obtain ⟨k3, v3⟩ := valid_types _ _ _ _ h3 v2
  split at h
  · cases h
  rename_i i4 h4
  have v4 := v3.psuf (expect_suf h4)
  split at h
  · cases h
  rename_i r i5 h5
  obtain ⟨k5, v5⟩ := valid_ret h5 v4
  split at h
  · cases h
  rename_i ts i6 h6
  cases h
  exact .append k1 (.cons (ascii_cp (by omega)) (.append k3 (.cons (ascii_cp (by omega))
    (.append k5 (valid_throws _ _ _ _ h6 v5)))))

theorem valid_interfaces (n : Nat) : ∀ (i : Str) (ts : List ClassTySig) (r : Str), interfacesLoop n i = .ok (ts, r) →
    Valid i → Valid (ts.flatMap showC) := by
  induction n with
  | zero => intro i ps r h; cases h
  | succ n ih =>
    intro i ts r h hv
    cases i with
    | nil => cases h; exact .nil
    | cons c cs =>
      rw [interfacesLoop] at h
      split at h
      · split at h
        · cases h
        rename_i p i1 h1
        split at h
        · cases h
        rename_i ps' i2 h2
        cases h
        rw [List.flatMap_cons]
        exact .append (validC _ _ _ _ h1 hv) (ih _ _ _ h2 (hv.psuf (okC _ _ _ _ h1).2))
      · cases h
        exact .nil

theorem valid_class {s : Str} {m : ClassSig} (h : parseClass s = .ok m) (hv : Valid s) : Valid (showClass m) := by
  rw [parseClass, classSig] at h
  split at h
  · cases h
  rename_i tps i1 h1
  obtain ⟨k1, v1⟩ := valid_params h1 hv
  split at h
  · cases h
  rename_i sup i2 h2
  split at h
  · cases h
  rename_i is i3 h3
  cases h
  exact .append k1 (.append (validC _ _ _ _ h2 v1) (valid_interfaces _ _ _ _ h3 (v1.psuf (okC _ _ _ _ h2).2)))

end Verif.Sig
