import Verif.Model.Release
import Verif.Lemmas.Rewritten
import Verif.Lemmas.TySound
import Verif.Lemmas.TameClass

/-! # Builds with and without overflow checks agree where nothing overflows -/

namespace Verif
open Spec

namespace JType

mutual
theorem getTypeW_eq : ∀ (fuel : Nat) (cs : List Nat), getType fuel cs ≠ .error .panic → getTypeW fuel cs = getType fuel cs
  | 0, _, _ => by rw [getType, getTypeW]
  | _ + 1, [], _ => by rw [getType, getTypeW]
  | fuel + 1, c :: cs, h => by
    rw [getType] at h ⊢
    rw [getTypeW]
    by_cases h5 : c = 0x5B
    · subst h5
      simp only [Nat.reduceEqDiff, reduceIte] at h ⊢
      split at h
      · rename_i hk
        have h1 : getType fuel (countBrackets cs).2 ≠ .error .panic := by
          intro e
          rw [e] at h
          exact h rfl
        rw [if_pos hk, getTypeW_eq fuel _ h1]
        rfl
      · exact absurd rfl h
    · by_cases h6 : c = 0x28
      · subst h6
        simp only [Nat.reduceEqDiff, reduceIte] at h ⊢
        have h1 : getParams fuel cs ≠ .error .panic := by
          intro e
          rw [e] at h
          exact h rfl
        rw [getParamsW_eq fuel cs h1]
        rcases e : getParams fuel cs with e1 | ⟨ts, _ | ⟨d, rest⟩⟩
        · rfl
        · rfl
        · rw [e] at h
          simp only at h ⊢
          split
          · rfl
          · rename_i hn
            rw [if_neg hn] at h
            have h2 : getType fuel rest ≠ .error .panic := by
              intro e
              rw [e] at h
              exact h rfl
            rw [getTypeW_eq fuel rest h2]
            rfl
      · simp only [h5, h6, if_false]
        rfl
theorem getParamsW_eq : ∀ (fuel : Nat) (cs : List Nat), getParams fuel cs ≠ .error .panic → getParamsW fuel cs = getParams fuel cs
  | 0, _, _ => by rw [getParams, getParamsW]
  | fuel + 1, cs, h => by
    rw [getParams] at h ⊢
    rw [getParamsW]
    split
    · rfl
    · rename_i hn
      rw [if_neg hn] at h
      have h1 : getType fuel cs ≠ .error .panic := by
        intro e
        rw [e] at h
        exact h rfl
      rw [getTypeW_eq fuel cs h1]
      rcases e : getType fuel cs with e1 | ⟨t, rest⟩
      · rfl
      · rw [e] at h
        have h2 : getParams fuel rest ≠ .error .panic := by
          intro e
          simp only [e] at h
          exact h rfl
        simp only [getParamsW_eq fuel rest h2]
        rfl
end

mutual
theorem getTypeW_total : ∀ (fuel : Nat) (cs : List Nat), 2 * cs.length + 1 ≤ fuel →
    getTypeW fuel cs = .error .invalid ∨ ∃ t rest, getTypeW fuel cs = .ok (t, rest) ∧ rest.length < cs.length
  | 0, _, h => absurd h (by omega)
  | _ + 1, [], _ => .inl (by rw [getTypeW])
  | fuel + 1, c :: cs, hf => by
    rw [List.length_cons] at hf
    rw [getTypeW]
    by_cases h5 : c = 0x5B
    · subst h5
      simp only [Nat.reduceEqDiff, reduceIte]
      have hl := countBrackets_length cs
      rcases getTypeW_total fuel (countBrackets cs).2 (by omega) with h | ⟨t, rest, h, hr⟩
      · rw [h]
        exact .inl rfl
      · rw [h]
        exact .inr ⟨_, _, rfl, by rw [List.length_cons]; omega⟩
    · by_cases h6 : c = 0x28
      · subst h6
        simp only [Nat.reduceEqDiff, reduceIte]
        rcases getParamsW_total fuel cs (by omega) with h | ⟨ts, rest, h, hr⟩
        · rw [h]
          exact .inl rfl
        · rw [h]
          rcases rest with _ | ⟨d, rest⟩
          · exact .inl rfl
          · rw [List.length_cons] at hr
            simp only
            split
            · exact .inr ⟨_, _, rfl, by rw [List.length_cons]; omega⟩
            · rcases getTypeW_total fuel rest (by omega) with h | ⟨t, rest', h, hr'⟩
              · rw [h]
                exact .inl rfl
              · rw [h]
                exact .inr ⟨_, _, rfl, by rw [List.length_cons]; omega⟩
      · simp only [h5, h6, if_false]
        by_cases h7 : c = 0x4C
        · subst h7
          simp only [Nat.reduceEqDiff, reduceIte]
          have hl : (cs.dropWhile (· ≠ 0x3B)).length ≤ cs.length := (List.dropWhile_sublist _).length_le
          generalize cs.dropWhile (· ≠ 0x3B) = l at hl ⊢
          rcases l with _ | ⟨d, l⟩
          · exact .inl rfl
          · rw [List.length_cons] at hl
            exact .inr ⟨_, _, rfl, by rw [List.length_cons]; omega⟩
        · simp only [h7, if_false]
          repeat' split
          all_goals first
            | exact .inl rfl
            | exact .inr ⟨_, _, rfl, by rw [List.length_cons]; omega⟩
theorem getParamsW_total : ∀ (fuel : Nat) (cs : List Nat), 2 * cs.length + 2 ≤ fuel →
    getParamsW fuel cs = .error .invalid ∨ ∃ ts rest, getParamsW fuel cs = .ok (ts, rest) ∧ rest.length ≤ cs.length
  | 0, _, h => absurd h (by omega)
  | fuel + 1, cs, hf => by
    rw [getParamsW]
    split
    · exact .inr ⟨_, _, rfl, Nat.le_refl _⟩
    · rcases getTypeW_total fuel cs (by omega) with h | ⟨t, rest, h, hr⟩
      · rw [h]
        exact .inl rfl
      · rw [h]
        rcases getParamsW_total fuel rest (by omega) with h' | ⟨ts, rest', h', hr'⟩
        · simp only [h', true_or]
        · simp only [h']
          exact .inr ⟨_, _, rfl, by omega⟩
end

theorem parseTypeW_eq {s : Bytes} (h : parseType s ≠ .error .panic) : parseTypeW s = parseType s := by
  unfold parseType at h ⊢
  unfold parseTypeW
  rcases hcs : Wtf8.codepoints s with _ | cs
  · rfl
  · rw [hcs] at h
    simp only at h ⊢
    rw [getTypeW_eq _ _ fun e => h (by rw [e])]
    rfl

end JType

/-! ## The constant pool -/

/-- Reading an entry takes at least a byte. -/
theorem entry_shorter {bs rest : Bytes} {e : Entry} (h : Entry.read bs = .ok (e, rest)) : rest.length < bs.length := by
  rcases bs with _ | ⟨t, bs⟩
  · cases h
  · have key : ∀ {α : Type} {r : Reader α} {f : α → Entry}, Plain r → ∀ {e rest}, Reader.map f r bs = .ok (e, rest) →
        rest.length < (t :: bs).length := by
      intro α r f hr e rest h
      have h2 := hr bs
      unfold Reader.map Reader.bind at h
      rcases hr2 : r bs with x | ⟨a, bs2⟩
      · rw [hr2] at h; cases h
      · rw [hr2] at h h2
        cases h
        have := List.IsSuffix.length_le h2
        rw [List.length_cons]
        omega
    have key2 : ∀ {α β : Type} {r : Reader α} {q : Reader β} {f : α → β → Entry}, Plain r → Plain q → ∀ {e rest},
        Reader.map2 f r q bs = .ok (e, rest) → rest.length < (t :: bs).length := by
      intro α β r q f hr hq e rest h
      have h2 := hr bs
      unfold Reader.map2 Reader.bind at h
      rcases hr2 : r bs with x | ⟨a, bs2⟩
      · rw [hr2] at h; cases h
      · rw [hr2] at h h2
        simp only at h
        have h3 := hq bs2
        rcases hr3 : q bs2 with x | ⟨b, bs3⟩
        · rw [hr3] at h; cases h
        · rw [hr3] at h h3
          cases h
          have := List.IsSuffix.length_le h2
          have := List.IsSuffix.length_le h3
          rw [List.length_cons]
          omega
    obtain ⟨t', hu⟩ : ∃ t', u8.read (t :: bs) = .ok (t', bs) := ⟨_, rfl⟩
    unfold Entry.read Reader.bind at h
    rw [hu] at h
    have h : Entry.readPayload t' bs = .ok (e, rest) := h
    unfold Entry.readPayload at h
    split at h
    case h_1 =>
      have h2 := plain_string_ok bs
      have h : Reader.map Entry.utf8 readString bs = .ok (e, rest) := h
      unfold Reader.map Reader.bind at h
      rcases hr2 : readString bs with x | ⟨s, bs2⟩
      · rw [hr2] at h; cases h
      · rw [hr2] at h h2
        cases h
        have := h2.1.length_le
        rw [List.length_cons]
        omega
    all_goals first
      | exact key (plain_num _) h
      | exact key2 (plain_num _) (plain_num _) h
      | cases h

theorem readLoopW_eq {count : UInt16} : ∀ (fuel : Nat) {i : UInt16} {acc : List (UInt16 × Entry)} {bs : Bytes}, bs.length < fuel →
    MapCp.readLoop count i acc bs ≠ .error .panic → MapCp.readLoopW count fuel i acc bs = MapCp.readLoop count i acc bs
  | 0, _, _, _, h, _ => absurd h (Nat.not_lt_zero _)
  | fuel + 1, i, acc, bs, hf, h => by
    rw [MapCp.readLoop] at h ⊢
    rw [MapCp.readLoopW]
    by_cases hc : i < count
    · rw [if_pos hc] at h ⊢
      rw [if_pos hc]
      rcases hr : Entry.read bs with x | ⟨e, rest⟩
      · rfl
      · rw [hr] at h
        simp only at h ⊢
        by_cases hl : i.toNat + e.size.toNat < 65536
        · rw [if_pos hl] at h ⊢
          exact readLoopW_eq fuel (by have := entry_shorter hr; omega) h
        · rw [if_neg hl] at h
          exact absurd rfl h
    · rw [if_neg hc, if_neg hc]

theorem readLoopW_calm {count : UInt16} : ∀ (fuel : Nat) {i : UInt16} {acc : List (UInt16 × Entry)} {bs : Bytes}, bs.length < fuel →
    ∀ e, MapCp.readLoopW count fuel i acc bs = .error e → Calm False e
  | 0, _, _, _, h, _, _ => absurd h (Nat.not_lt_zero _)
  | fuel + 1, i, acc, bs, hf, er, h => by
    rw [MapCp.readLoopW] at h
    split at h
    · have h1 := entry_ok bs
      rcases hr : Entry.read bs with x | ⟨e, rest⟩
      · rw [hr] at h h1
        cases h
        exact h1
      · rw [hr] at h
        exact readLoopW_calm fuel (by have := entry_shorter hr; omega) er h
    · cases h

theorem insertRawW_eq {e : Entry} {cp cp' : VecCp} {i : UInt16} (h : insertRaw e cp = .ok (i, cp')) :
    insertRawW e cp = (i, cp') := by
  unfold insertRaw at h
  unfold insertRawW
  split at h
  · cases h
    simp only [*]
  · split at h
    · cases h
      simp only [*]
    · cases h

theorem insertAllW_eq : ∀ {es : List Entry} {cp cp' : VecCp} {is : List UInt16}, insertAll es cp = .ok (is, cp') →
    insertAllW es cp = (is, cp')
  | [], _, _, _, h => by cases h; rfl
  | e :: es, cp, cp', is, h => by
    obtain ⟨i, cp1, h1, h⟩ := Ins.bind_ok h
    obtain ⟨is1, cp2, h2, h⟩ := Ins.bind_ok h
    cases h
    rw [insertAllW, insertRawW_eq h1]
    simp only [insertAllW_eq h2]

/-- The indices of different entries are their offsets, modulo 2^16. -/
theorem insertAll_cases : ∀ (es : List Entry) (cp : VecCp), insertAll es cp = .ok (insertAllW es cp) ∨ insertAll es cp = .error .panic
  | [], _ => .inl rfl
  | e :: es, cp => by
    show Ins.bind _ _ _ = _ ∨ Ins.bind _ _ _ = _
    unfold Ins.bind
    rcases h : insertRaw e cp with er | ⟨i, cp1⟩
    · right
      unfold insertRaw at h
      split at h
      · cases h
      · split at h
        · cases h
        · cases h
          rfl
    · rw [insertAllW, insertRawW_eq h]
      show Ins.bind _ _ _ = _ ∨ Ins.bind _ _ _ = _
      unfold Ins.bind
      rcases insertAll_cases es cp1 with h | h
      · rw [h]
        exact .inl rfl
      · rw [h]
        exact .inr rfl

theorem insertAll_fits : ∀ (es : List Entry) (cp : VecCp), es.Nodup → (∀ e ∈ es, cp.cache.lookup e = none) →
    ((∃ r, insertAll es cp = .ok r) ↔ cp.len.toNat + slotsAll es < 65536)
  | [], cp, _, _ => ⟨fun _ => cp.len.toNat_lt, fun _ => ⟨_, rfl⟩⟩
  | e :: es, cp, hd, hc => by
    obtain ⟨hd1, hd2⟩ := List.nodup_cons.mp hd
    have h0 := hc e (.head _)
    have hs : slotsAll (e :: es) = slots e + slotsAll es := rfl
    have e1 : insertRaw e cp = if cp.len.toNat + e.size.toNat < 65536 then .ok (cp.len, { cp with
        entries := cp.entries ++ [e], cache := (e, cp.len) :: cp.cache, len := cp.len + e.size }) else .error .panic := by
      unfold insertRaw
      rw [h0]
    have hb : insertAll (e :: es) cp = Ins.bind (insertRaw e) (fun i => insertAll es >>= fun is => pure (i :: is)) cp := rfl
    rw [hb, Ins.bind, e1, hs]
    rw [size_slots]
    by_cases hk : cp.len.toNat + slots e < 65536
    · have ih := insertAll_fits es { cp with
          entries := cp.entries ++ [e], cache := (e, cp.len) :: cp.cache, len := cp.len + e.size } hd2 (by
        intro f hf
        show List.lookup f ((e, cp.len) :: cp.cache) = none
        rw [List.lookup_cons]
        have : (f == e) = false := by
          rw [beq_eq_false_iff_ne]
          rintro rfl
          exact hd1 hf
        rw [this]
        exact hc f (.tail _ hf))
      have hl : (cp.len + e.size).toNat = cp.len.toNat + slots e := by
        rw [UInt16.toNat_add, size_slots]
        omega
      simp only [hl] at ih
      rw [if_pos hk, ← Nat.add_assoc, ← ih]
      constructor
      · rintro ⟨r, h⟩
        obtain ⟨is, cp', h, _⟩ := Ins.bind_ok h
        exact ⟨_, h⟩
      · rintro ⟨⟨is, cp'⟩, h⟩
        refine ⟨(cp.len :: is, cp'), ?_⟩
        show Ins.bind _ _ _ = _
        unfold Ins.bind
        rw [h]
        rfl
    · rw [if_neg hk]
      exact ⟨fun ⟨r, h⟩ => (nomatch h), fun h => absurd h (by omega)⟩

theorem insertAllW_indices : ∀ (es : List Entry) (cp : VecCp), es.Nodup → (∀ e ∈ es, cp.cache.lookup e = none) →
    (insertAllW es cp).1 = (List.range es.length).map (fun n => cp.len + UInt16.ofNat (slotsAll (es.take n))) ∧
    (insertAllW es cp).2.len = cp.len + UInt16.ofNat (slotsAll es) ∧ (insertAllW es cp).2.entries = cp.entries ++ es
  | [], cp, _, _ => ⟨rfl, by show cp.len = cp.len + 0; simp, by simp [insertAllW]⟩
  | e :: es, cp, hd, hc => by
    obtain ⟨hd1, hd2⟩ := List.nodup_cons.mp hd
    have h0 := hc e (.head _)
    have e1 : insertRawW e cp = (cp.len, { cp with
        entries := cp.entries ++ [e], cache := (e, cp.len) :: cp.cache, len := cp.len + e.size }) := by
      unfold insertRawW
      rw [h0]
    obtain ⟨i1, i2, i3⟩ := insertAllW_indices es { cp with
        entries := cp.entries ++ [e], cache := (e, cp.len) :: cp.cache, len := cp.len + e.size } hd2 (by
      intro f hf
      show List.lookup f ((e, cp.len) :: cp.cache) = none
      rw [List.lookup_cons]
      have : (f == e) = false := by
        rw [beq_eq_false_iff_ne]
        rintro rfl
        exact hd1 hf
      rw [this]
      exact hc f (.tail _ hf))
    have hs : ∀ l, slotsAll (e :: l) = slots e + slotsAll l := fun l => rfl
    have hz : e.size = UInt16.ofNat (slots e) := by
      apply UInt16.toNat_inj.mp
      rw [size_slots]
      cases e <;> rfl
    rw [insertAllW, e1]
    refine ⟨?_, ?_, ?_⟩
    · show cp.len :: (insertAllW es _).1 = _
      rw [i1, List.length_cons, List.range_succ_eq_map, List.map_cons, List.map_map]
      congr 1
      · show cp.len = cp.len + 0
        simp
      · apply List.map_congr_left
        intro n _
        show cp.len + e.size + _ = cp.len + UInt16.ofNat (slotsAll (e :: es.take n))
        rw [hs, hz, UInt16.ofNat_add, UInt16.add_assoc]
    · show (insertAllW es _).2.len = _
      rw [i2, hs, hz, UInt16.ofNat_add, UInt16.add_assoc]
    · show (insertAllW es _).2.entries = _
      rw [i3]
      show cp.entries ++ [e] ++ es = _
      rw [List.append_assoc]
      rfl

/-! ## The loop over bootstrap methods -/

theorem batchesW_eq {T : List Bsm} : ∀ (fuel i : Nat) (cp : VecCp) {n : Nat} {bs : Bytes} {cp' : VecCp},
    writeBatchesIn T fuel i cp = .ok (n, bs, cp') → writeBatchesInW T fuel (UInt16.ofNat i) cp = .ok (UInt16.ofNat n, bs, cp')
  | 0, _, _, _, _, _, h => by cases h
  | fuel + 1, i, cp, n, bs, cp', h => by
    rw [writeBatchesIn] at h
    rw [writeBatchesInW]
    split at h
    · rename_i h0
      rw [if_pos h0]
      cases h
      rfl
    · rename_i h0
      rw [if_neg h0]
      split at h
      · split at h
        · cases h
        · rename_i hw
          simp only [hw]
          split at h
          · cases h
          · rename_i hr
            cases h
            have := batchesW_eq fuel _ _ hr
            rw [UInt16.ofNat_add, show UInt16.ofNat (cp.bsm.length % 65536) = UInt16.ofNat cp.bsm.length from
              UInt16.toNat_inj.mp (by simp)] at this
            simp only [this]
      · cases h

theorem bootstrapW_eq {T : List Bsm} {fuel : Nat} {cp cp' : VecCp} {bs : Bytes} (h : wBootstrapIn T fuel cp = .ok (bs, cp')) :
    wBootstrapInW T fuel cp = .ok (bs, cp') := by
  unfold wBootstrapIn at h
  unfold wBootstrapInW
  split at h
  · rename_i h0
    rw [if_pos h0]
    exact h
  · rename_i h0
    rw [if_neg h0]
    split at h
    · cases h
    · rename_i hw
      rw [show (0 : UInt16) = UInt16.ofNat 0 from rfl, batchesW_eq fuel 0 cp hw]
      simp only
      split at h
      · cases h
      · rename_i hn
        simp only [hn]
        split at h
        · rename_i hl
          cases h
          congr 5
        · cases h

theorem rewriteW_eq {x : Class} {fuel : Nat} {out : Bytes} (h : x.rewrite fuel = .ok out) : x.rewriteW fuel = .ok out := by
  unfold ClassOf.rewrite ClassOf.writeIn at h
  unfold ClassOf.rewriteW ClassOf.writeInW
  split at h
  · cases h
  · rename_i buf cp he
    obtain ⟨b1, cp1, e1, e⟩ := Ins.bind_ok he
    obtain ⟨b2', cp2, e2, e⟩ := Ins.bind_ok e
    cases e
    obtain ⟨b2, cp2', e2, e⟩ := Ins.bind_ok e2
    cases e
    rw [wSeq_cons_ok e1 (wSeq_cons_ok (bootstrapW_eq e2) rfl)]
    exact h

theorem circular_batchesW {T : List Bsm} (hT : ∀ b ∈ T, SharedBsm b) : ∀ (fuel : Nat) (i : UInt16) {cp : VecCp}, Between cp →
    (∃ j b, Reaches T j j ∧ T[j]? = some b ∧ b ∈ cp.bsm) → ∀ r, writeBatchesInW T fuel i cp ≠ .ok r
  | 0, _, _, _, _, _, e => by cases e
  | fuel + 1, i, cp, hc, ⟨j, b, h1, h2, h3⟩, r, e => by
    rw [writeBatchesInW] at e
    split at e
    · rename_i h0
      rw [List.length_eq_zero_iff] at h0
      rw [h0] at h3
      cases h3
    · split at e
      · cases e
      · rename_i hw
        split at e
        · cases e
        · rename_i hr
          obtain ⟨j', b', h4, h5, k, n, t, h6, h7⟩ := circular_step h1 h2
          refine circular_batchesW hT fuel _ (round_between hT hc hw) ⟨j', b', h4, h5, ?_⟩ _ hr
          rw [round_look hw]
          exact (next_mem fun b hb => (hc.bsm b hb).2).mpr ⟨b, h3, k, n, t, h6, by rw [h7]; exact h5⟩

theorem rewriteW_circular {x : Class} (h : SharedClass x) (hT : Circular (bsmTable x.attrs)) (fuel : Nat) (out : Bytes) :
    x.rewriteW fuel ≠ .ok out := by
  intro e
  unfold ClassOf.rewriteW ClassOf.writeInW at e
  rw [← bootstrapTable_eq] at e
  split at e
  · cases e
  · rename_i buf cp he
    obtain ⟨b1, cp1, e1, e⟩ := Ins.bind_ok he
    obtain ⟨b2', cp2, e2, e⟩ := Ins.bind_ok e
    cases e
    obtain ⟨b2, cp2', e2, e⟩ := Ins.bind_ok e2
    cases e
    obtain ⟨hb, hown⟩ := body_between h e1
    obtain ⟨i, hi⟩ := hT
    obtain ⟨b, hbi⟩ : ∃ b, (bsmTable x.attrs)[i]? = some b := by
      cases hi with
      | one h => exact ⟨_, h.choose_spec.choose_spec.choose_spec.choose_spec.1⟩
      | step h _ => exact ⟨_, h.choose_spec.choose_spec.choose_spec.choose_spec.1⟩
    have hm : b ∈ cp1.bsm := hown b (by rw [ownBsms_eq]; exact table_given _ _ (List.mem_of_getElem? hbi))
    unfold wBootstrapInW at e2
    split at e2
    · rename_i h0
      rw [List.length_eq_zero_iff] at h0
      rw [h0] at hm
      cases hm
    · split at e2
      · cases e2
      · rename_i hw
        exact circular_batchesW (table_shared h) _ _ hb ⟨i, b, hi, hbi, hm⟩ _ hw

/-! ## Tables that are not circular -/

/-- Entries of the table, each used by the one before. -/
def Path (T : List Bsm) : Bsm → List Nat → Prop
  | _, [] => True
  | b, k :: ks => (∃ k' n t, Arg.dynamic (.pending k') n t ∈ b.arguments ∧ k'.toNat = k) ∧
      ∃ b', T[k]? = some b' ∧ Path T b' ks

theorem path_reaches {T : List Bsm} : ∀ (ks : List Nat) (i : Nat) (b : Bsm), T[i]? = some b → Path T b ks →
    (i :: ks).Pairwise (Reaches T) ∧ ∀ k ∈ i :: ks, k < T.length
  | [], i, b, hb, _ => ⟨by simp, fun k hk => by
      rw [List.mem_singleton.mp hk]
      exact (List.getElem?_eq_some_iff.mp hb).1⟩
  | k :: ks, i, b, hb, ⟨⟨k', n, t, h1, h2⟩, b', h3, h4⟩ => by
    obtain ⟨h5, h6⟩ := path_reaches ks k b' h3 h4
    have hu : UsesEntry T i k := ⟨b, k', n, t, hb, h1, h2⟩
    refine ⟨List.pairwise_cons.mpr ⟨fun x hx => ?_, h5⟩, fun x hx => ?_⟩
    · rcases List.mem_cons.mp hx with rfl | hx
      · exact .one hu
      · exact .step hu ((List.pairwise_cons.mp h5).1 x hx)
    · rcases List.mem_cons.mp hx with rfl | hx
      · exact (List.getElem?_eq_some_iff.mp hb).1
      · exact h6 x hx

theorem path_short {T : List Bsm} (hT : ¬ Circular T) {b : Bsm} {ks : List Nat} (h : Path T b ks) : ks.length ≤ T.length := by
  cases ks with
  | nil => exact Nat.zero_le _
  | cons k ks =>
    obtain ⟨_, b', h1, h2⟩ := h
    obtain ⟨h3, h4⟩ := path_reaches ks k b' h1 h2
    exact nodup_below T.length _ (h3.imp fun {a b} h (e : a = b) => hT ⟨a, by
      rw [← e] at h
      exact h⟩) h4

theorem batchesW_path {T : List Bsm} (hT : ∀ b ∈ T, SharedBsm b) : ∀ (fuel : Nat) (i : UInt16) (cp : VecCp), Between cp →
    writeBatchesInW T (fuel + 1) i cp = .error .diverge → ∃ b ∈ cp.bsm, ∃ ks, ks.length = fuel ∧ Path T b ks := by
  haveI : Usual (fun e => e ≠ Err.diverge) := ⟨nofun, nofun⟩
  intro fuel
  induction fuel with
  | zero =>
    intro i cp hc h
    rw [writeBatchesInW] at h
    split at h
    · cases h
    · rename_i h0
      obtain ⟨b, l, hb⟩ := List.exists_cons_of_ne_nil fun e => h0 (List.length_eq_zero_iff.mpr e)
      exact ⟨b, by rw [hb]; exact .head _, [], rfl, trivial⟩
  | succ fuel ih =>
    intro i cp hc h
    rw [writeBatchesInW] at h
    split at h
    · cases h
    · split at h
      · rename_i e hw
        cases h
        exact absurd rfl (Ends.all (U := fun e => e ≠ Err.diverge) (fun _ _ => ends_bsm) _ _ hw)
      · rename_i hw
        split at h
        · rename_i e hr
          cases h
          obtain ⟨b', hb', ks, hk, hp⟩ := ih _ _ (round_between hT hc hw) hr
          rw [round_look hw] at hb'
          obtain ⟨b, hb, k, n, t, ha, hk'⟩ := (next_mem fun b hb => (hc.bsm b hb).2).mp hb'
          exact ⟨b, hb, k.toNat :: ks, by rw [List.length_cons, hk], ⟨k, n, t, ha, rfl⟩, b', hk', hp⟩
        · cases h

theorem rewriteW_ends {x : Class} (h : SharedClass x) (hT : ¬ Circular (bsmTable x.attrs)) {fuel : Nat}
    (hf : (bsmTable x.attrs).length + 2 ≤ fuel) : x.rewriteW fuel ≠ .error .diverge := by
  haveI : Usual (fun e => e ≠ Err.diverge) := ⟨nofun, nofun⟩
  obtain ⟨f, rfl⟩ : ∃ f, fuel = f + 1 := ⟨fuel - 1, by omega⟩
  intro hd
  unfold ClassOf.rewriteW ClassOf.writeInW at hd
  rw [← bootstrapTable_eq] at hd
  split at hd
  · rename_i e he
    cases hd
    have he : Ins.bind _ _ _ = _ := he
    unfold Ins.bind at he
    split at he
    · rename_i b1 cp1 e1
      have he : Ins.bind (Ins.bind _ _) _ _ = _ := he
      unfold Ins.bind at he
      rcases e2 : wBootstrapInW (bsmTable x.attrs) (f + 1) cp1 with e' | ⟨b2, cp2⟩
      · rw [e2] at he
        cases he
        unfold wBootstrapInW at e2
        split at e2
        · cases e2
        · split at e2
          · rename_i hw
            cases e2
            obtain ⟨b, _, ks, h1, h2⟩ := batchesW_path (table_shared h) f 0 cp1 (body_between h e1).1 hw
            have := path_short hT h2
            omega
          · split at e2
            · rename_i hn
              cases e2
              exact absurd rfl (Ends.wutf8 (U := fun e => e ≠ Err.diverge) _ _ hn)
            · cases e2
      · rw [e2] at he
        cases he
    · rename_i e1
      cases he
      refine ends_body (U := fun e => e ≠ Err.diverge) (fun s hs hc => nofun) _ _ e1 rfl
  · split at hd
    · rename_i e hp
      cases hd
      exact ends_pool (U := fun e => e ≠ Err.diverge) (.inl nofun) _ hp rfl
    · cases hd

/-- If the loop does not end then neither does writing. -/
theorem rewriteW_stuck {x : Class} {T : List Bsm} (hT : bootstrapTable x.attrs = some T) {fuel : Nat} {b1 : Bytes} {cp1 : VecCp}
    (h1 : (x.look T).writeBody { VecCp.new with bsm := ownBsms x.attrs } = .ok (b1, cp1)) (hn : cp1.bsm.length ≠ 0)
    (h2 : writeBatchesInW T fuel 0 cp1 = .error .diverge) : x.rewriteW fuel = .error .diverge := by
  unfold ClassOf.rewriteW
  rw [hT]
  show x.writeInW T fuel = _
  have hw : wBootstrapInW T fuel cp1 = .error .diverge := by
    rw [wBootstrapInW, if_neg hn, h2]
  have hs : wSeq [(x.look T).writeBody, wBootstrapInW T fuel] { VecCp.new with bsm := ownBsms x.attrs } = .error .diverge := by
    show Ins.bind _ _ _ = _
    unfold Ins.bind
    rw [h1]
    show Ins.bind (Ins.bind _ _) _ _ = _
    unfold Ins.bind
    rw [hw]
  rw [ClassOf.writeInW, hs]

end Verif
