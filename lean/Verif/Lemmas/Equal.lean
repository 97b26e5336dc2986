import Verif.Spec.Equal
import Verif.Lemmas.Rename
import Verif.Lemmas.SharedEnds

/-! # Equality of classes -/

namespace Verif
open Spec Sig

/-! ## Annotations -/

theorem eqEntries_iff : ∀ (es m : Elems), EqEntries es m ↔ ∀ k v, (k, v) ∈ es → ∃ w, m.lookup k = some w ∧ EqValue v w
  | [], m => by simp [EqEntries]
  | (k, v) :: es, m => by
    rw [EqEntries, eqEntries_iff es m]
    constructor
    · rintro ⟨h1, h2⟩ k' v' hm
      rcases List.mem_cons.mp hm with h | h
      · cases h
        exact h1
      · exact h2 k' v' h
    · exact fun h => ⟨h k v (.head _), fun k' v' hm => h k' v' (.tail _ hm)⟩

theorem distinct_of_mem : ∀ {es : Elems}, DistinctPairs es → ∀ k v, (k, v) ∈ es → Distinct v
  | (k', v') :: es, h, k, v, hm => by
    rw [DistinctPairs] at h
    rcases List.mem_cons.mp hm with e | e
    · cases e
      exact h.1
    · exact distinct_of_mem h.2 k v e

mutual
theorem eqValue_refl : ∀ v, Distinct v → EqValue v v
  | .annotation t es, h => by
    rw [Distinct] at h
    rw [EqValue]
    refine ⟨es, rfl, rfl, (eqEntries_iff es es).mpr fun k v hm => ⟨v, lookup_of_mem h.1 hm, ?_⟩⟩
    exact eqPairs_refl es h.2 k v hm
  | .array vs, h => by
    rw [Distinct] at h
    rw [EqValue]
    exact ⟨vs, rfl, eqValues_refl vs h⟩
  | .byte _, _ | .char _, _ | .double _, _ | .float _, _ | .int _, _ | .long _, _ | .short _, _ | .boolean _, _
  | .string _, _ | .enum .., _ | .cls _, _ => by rw [EqValue] <;> intros <;> contradiction
theorem eqValues_refl : ∀ vs, DistinctAll vs → EqValues vs vs
  | [], _ => by rw [EqValues]
  | v :: vs, h => by
    rw [DistinctAll] at h
    rw [EqValues]
    exact ⟨v, vs, rfl, eqValue_refl v h.1, eqValues_refl vs h.2⟩
theorem eqPairs_refl : ∀ (es : List (Bytes × AnnValue)), DistinctPairs es → ∀ k v, (k, v) ∈ es → EqValue v v
  | (k', v') :: es, h, k, v, hm => by
    rw [DistinctPairs] at h
    rcases List.mem_cons.mp hm with e | e
    · cases e
      exact eqValue_refl _ h.1
    · exact eqPairs_refl es h.2 k v e
end

/-- A map with as many entries, in which all keys are found, has no other keys. -/
theorem keys_back {α β : Type} [BEq α] [LawfulBEq α] {es : List (α × β)} {m : List (α × β)} (h1 : (es.map Prod.fst).Nodup)
    (hl : m.length = es.length) (h : ∀ e ∈ es, ∃ w, m.lookup e.1 = some w) {k : α} {w : β} (hm : (k, w) ∈ m) :
    ∃ v, (k, v) ∈ es := by
  refine Classical.byContradiction fun hn => ?_
  have hk : k ∉ es.map Prod.fst := fun hk => by
    obtain ⟨⟨k', v⟩, h2, rfl⟩ := List.mem_map.mp hk
    exact hn ⟨v, h2⟩
  letI : DecidableEq α := fun a b => Classical.propDecidable (a = b)
  have := nodup_subset (k :: es.map Prod.fst) (m.map Prod.fst) (List.nodup_cons.mpr ⟨hk, h1⟩) fun a ha => by
    rcases List.mem_cons.mp ha with rfl | ha
    · exact List.mem_map.mpr ⟨_, hm, rfl⟩
    · obtain ⟨e, h2, rfl⟩ := List.mem_map.mp ha
      obtain ⟨w', h3⟩ := h e h2
      exact List.mem_map.mpr ⟨_, mem_of_lookup h3, rfl⟩
  simp only [List.length_cons, List.length_map] at this
  omega

theorem mem_eqEntries {es es' : Elems} (h : EqEntries es es') : ∀ e ∈ es, ∃ w, es'.lookup e.1 = some w := fun e he => by
  obtain ⟨w, h1, _⟩ := (eqEntries_iff es es').mp h e.1 e.2 he
  exact ⟨w, h1⟩

mutual
theorem eqValue_symm : ∀ v w, Distinct v → Distinct w → EqValue v w → EqValue w v
  | .annotation t es, w, hv, hw, h => by
    rw [EqValue] at h
    obtain ⟨es', rfl, hl, he⟩ := h
    rw [Distinct] at hv hw
    rw [EqValue]
    refine ⟨es, rfl, hl.symm, (eqEntries_iff es' es).mpr fun k w hm => ?_⟩
    obtain ⟨v, hv'⟩ := keys_back hv.1 hl (mem_eqEntries he) hm
    exact ⟨v, lookup_of_mem hv.1 hv', eqPairs_symm es es' hv.2 hw.2 he k v w hv' (lookup_of_mem hw.1 hm)⟩
  | .array vs, w, hv, hw, h => by
    rw [EqValue] at h
    obtain ⟨vs', rfl, he⟩ := h
    rw [Distinct] at hv hw
    rw [EqValue]
    exact ⟨vs, rfl, eqValues_symm vs vs' hv hw he⟩
  | .byte _, _, _, _, h | .char _, _, _, _, h | .double _, _, _, _, h | .float _, _, _, _, h | .int _, _, _, _, h
  | .long _, _, _, _, h | .short _, _, _, _, h | .boolean _, _, _, _, h | .string _, _, _, _, h | .enum .., _, _, _, h
  | .cls _, _, _, _, h => by
    rw [EqValue] at h
    · subst h
      rw [EqValue] <;> intros <;> contradiction
    all_goals intros; contradiction
theorem eqValues_symm : ∀ vs ws, DistinctAll vs → DistinctAll ws → EqValues vs ws → EqValues ws vs
  | [], ws, _, _, h => by
    rw [EqValues] at h
    subst h
    rw [EqValues]
  | v :: vs, ws, hv, hw, h => by
    rw [EqValues] at h
    obtain ⟨w, ws, rfl, h1, h2⟩ := h
    rw [DistinctAll] at hv hw
    rw [EqValues]
    exact ⟨v, vs, rfl, eqValue_symm v w hv.1 hw.1 h1, eqValues_symm vs ws hv.2 hw.2 h2⟩
theorem eqPairs_symm : ∀ (es m : List (Bytes × AnnValue)), DistinctPairs es → DistinctPairs m → EqEntries es m →
    ∀ k v w, (k, v) ∈ es → m.lookup k = some w → EqValue w v
  | (k', v') :: es, m, he, hm, h, k, v, w, h1, h2 => by
    rw [DistinctPairs] at he
    rw [EqEntries] at h
    obtain ⟨⟨w', h3, h4⟩, h5⟩ := h
    rcases List.mem_cons.mp h1 with e | e
    · cases e
      cases h3.symm.trans h2
      exact eqValue_symm _ _ he.1 (distinct_of_mem hm _ _ (mem_of_lookup h3)) h4
    · exact eqPairs_symm es m he.2 hm h5 k v w e h2
end

mutual
theorem eqValue_trans : ∀ u v w, EqValue u v → EqValue v w → EqValue u w
  | .annotation t es, v, w, h, h' => by
    rw [EqValue] at h
    obtain ⟨es', rfl, hl, he⟩ := h
    rw [EqValue] at h'
    obtain ⟨es'', rfl, hl', he'⟩ := h'
    rw [EqValue]
    refine ⟨es'', rfl, hl'.trans hl, (eqEntries_iff _ _).mpr fun k u hm => ?_⟩
    exact eqPairs_trans es es' es'' he ((eqEntries_iff _ _).mp he') k u hm
  | .array vs, v, w, h, h' => by
    rw [EqValue] at h
    obtain ⟨vs', rfl, he⟩ := h
    rw [EqValue] at h'
    obtain ⟨vs'', rfl, he'⟩ := h'
    rw [EqValue]
    exact ⟨vs'', rfl, eqValues_trans vs vs' vs'' he he'⟩
  | .byte _, _, _, h, h' | .char _, _, _, h, h' | .double _, _, _, h, h' | .float _, _, _, h, h' | .int _, _, _, h, h'
  | .long _, _, _, h, h' | .short _, _, _, h, h' | .boolean _, _, _, h, h' | .string _, _, _, h, h' | .enum .., _, _, h, h'
  | .cls _, _, _, h, h' => by
    rw [EqValue] at h
    · subst h
      exact h'
    all_goals intros; contradiction
theorem eqValues_trans : ∀ us vs ws, EqValues us vs → EqValues vs ws → EqValues us ws
  | [], vs, ws, h, h' => by
    rw [EqValues] at h
    subst h
    exact h'
  | u :: us, vs, ws, h, h' => by
    rw [EqValues] at h
    obtain ⟨v, vs, rfl, h1, h2⟩ := h
    rw [EqValues] at h'
    obtain ⟨w, ws, rfl, h3, h4⟩ := h'
    rw [EqValues]
    exact ⟨w, ws, rfl, eqValue_trans u v w h1 h3, eqValues_trans us vs ws h2 h4⟩
theorem eqPairs_trans : ∀ (es m m' : List (Bytes × AnnValue)), EqEntries es m →
    (∀ k v, (k, v) ∈ m → ∃ w, m'.lookup k = some w ∧ EqValue v w) →
    ∀ k u, (k, u) ∈ es → ∃ w, m'.lookup k = some w ∧ EqValue u w
  | (k', u') :: es, m, m', h, h', k, u, hm => by
    rw [EqEntries] at h
    obtain ⟨⟨v, h3, h4⟩, h5⟩ := h
    rcases List.mem_cons.mp hm with e | e
    · cases e
      obtain ⟨w, h6, h7⟩ := h' _ _ (mem_of_lookup h3)
      exact ⟨w, h6, eqValue_trans _ _ _ h4 h7⟩
    · exact eqPairs_trans es m m' h5 h' k u e
end

/-! ## Maps with one entry -/

/-- No map among these has more than one entry. -/
abbrev Singles (ps : List Part) : Prop := ∀ p ∈ ps, p.kind = .elements → p.count ≤ 1

theorem singles_append {ps qs : List Part} (h : Singles (ps ++ qs)) : Singles ps ∧ Singles qs :=
  ⟨fun p hp => h p (List.mem_append_left _ hp), fun p hp => h p (List.mem_append_right _ hp)⟩

theorem singles_tail {p : Part} {ps : List Part} (h : Singles (p :: ps)) : Singles ps := fun q hq => h q (.tail _ hq)

theorem singles_flat {α : Type} {f : α → List Part} {xs : List α} (h : Singles (xs.flatMap f)) : ∀ x ∈ xs, Singles (f x) :=
  fun x hx p hp => h p (List.mem_flatMap.mpr ⟨x, hx, hp⟩)

mutual
theorem one_value : ∀ v w, EqValue v w → Singles (partsValue v) → w = v
  | .annotation t es, w, h, hs => by
    rw [EqValue] at h
    obtain ⟨es', rfl, hl, he⟩ := h
    rw [partsValue] at hs
    rw [one_map es es' hl he (hs _ (.head _) rfl) (singles_tail hs)]
  | .array vs, w, h, hs => by
    rw [EqValue] at h
    obtain ⟨vs', rfl, he⟩ := h
    rw [partsValue] at hs
    rw [one_values vs vs' he (singles_tail hs)]
  | .byte _, _, h, _ | .char _, _, h, _ | .double _, _, h, _ | .float _, _, h, _ | .int _, _, h, _ | .long _, _, h, _
  | .short _, _, h, _ | .boolean _, _, h, _ | .string _, _, h, _ | .enum .., _, h, _ | .cls _, _, h, _ => by
    rw [EqValue] at h
    · exact h
    all_goals intros; contradiction
theorem one_values : ∀ vs ws, EqValues vs ws → Singles (partsValues vs) → ws = vs
  | [], ws, h, _ => by rwa [EqValues] at h
  | v :: vs, ws, h, hs => by
    rw [EqValues] at h
    obtain ⟨w, ws, rfl, h1, h2⟩ := h
    rw [partsValues] at hs
    rw [one_value v w h1 (singles_append hs).1, one_values vs ws h2 (singles_append hs).2]
theorem one_map : ∀ (es es' : List (Bytes × AnnValue)), es'.length = es.length → EqEntries es es' → es.length ≤ 1 →
    Singles (partsElems es) → es' = es
  | [], es', hl, _, _, _ => List.length_eq_zero_iff.mp hl
  | (k, v) :: es, es', hl, he, h1, hs => by
    obtain rfl : es = [] := List.length_eq_zero_iff.mp (by rw [List.length_cons] at h1; omega)
    obtain ⟨⟨k', w⟩, rfl⟩ := List.length_eq_one_iff.mp hl
    rw [EqEntries] at he
    obtain ⟨w', h2, h3⟩ := he.1
    rw [partsElems] at hs
    have h4 := mem_of_lookup h2
    rw [List.mem_singleton] at h4
    cases h4
    rw [one_value v _ h3 (singles_append hs).1]
end

theorem one_elems {es es' : Elems} (h : EqMap es es') (hs : Singles (partsMap es)) : es' = es :=
  one_map es es' h.1 h.2 (hs _ (.head _) rfl) (singles_tail hs)

theorem matched_same {α : Type} {R : α → α → Prop} {xs ys : List α} (h : Matched R xs ys) (hi : ∀ x ∈ xs, ∀ y, R x y → y = x) :
    ys = xs := by
  induction h with
  | nil => rfl
  | cons h _ ih => rw [hi _ (.head _) _ h, ih fun x hx => hi x (.tail _ hx)]

theorem one_anns {as bs : List Annotation} (h : Matched EqAnn as bs) (hs : Singles (partsAnns as)) : bs = as :=
  matched_same h fun a ha b hab => by
    obtain ⟨t, vs⟩ := a
    obtain ⟨t', vs'⟩ := b
    obtain ⟨h1, h2⟩ := hab
    obtain rfl : t' = t := h1
    rw [show vs' = vs from one_elems h2 (singles_flat (singles_tail hs) _ ha)]

theorem one_params {ps qs : List (List Annotation)} (h : Matched (Matched EqAnn) ps qs) (hs : Singles (partsParams ps)) :
    qs = ps :=
  matched_same h fun _ ha _ hab => one_anns hab (singles_flat (singles_tail hs) _ ha)

theorem one_typeAnns {T : Type} {f : T → List Part} {as bs : List (TypeAnnotation T)} (h : Matched EqTypeAnn as bs)
    (hs : Singles (partsTypeAnns f as)) : bs = as :=
  matched_same h fun a ha b hab => by
    obtain ⟨x, p, t, vs⟩ := a
    obtain ⟨x', p', t', vs'⟩ := b
    obtain ⟨h1, h2, h3, h4⟩ := hab
    obtain rfl : x' = x := h1
    obtain rfl : p' = p := h2
    obtain rfl : t' = t := h3
    rw [show vs' = vs from one_elems h4 (singles_tail (singles_append (singles_flat (singles_tail hs) _ ha)).2)]

/-! ## Tables of instructions -/

theorem perm_of_found {α β : Type} [DecidableEq α] [DecidableEq β] {t t' : List (α × β)} (hn : (t.map Prod.fst).Nodup)
    (hl : t'.length = t.length) (h : ∀ e ∈ t, t'.lookup e.1 = some e.2) : t'.Perm t := by
  induction t generalizing t' with
  | nil => rw [List.length_eq_zero_iff.mp hl]
  | cons e t ih =>
    have hm : e ∈ t' := mem_of_lookup (h e (.head _))
    rw [List.map_cons, List.nodup_cons] at hn
    refine (List.perm_cons_erase hm).trans (.cons e (ih hn.2 ?_ fun e' he' => ?_))
    · rw [List.length_erase_of_mem hm, hl, List.length_cons, Nat.add_sub_cancel]
    · have hne : e'.1 ≠ e.1 := fun hc => hn.1 (hc ▸ List.mem_map.mpr ⟨e', he', rfl⟩)
      have := h e' (.tail _ he')
      clear h ih hl hn he' hm
      induction t' with
      | nil => cases this
      | cons a t' ih =>
        by_cases ha : a = e
        · subst ha
          rw [List.erase_cons_head]
          rwa [List.lookup_cons, beq_false_of_ne hne] at this
        · rw [List.erase_cons_tail (by simpa using ha)]
          rw [List.lookup_cons] at this ⊢
          split at this
          · exact this
          · exact ih this

theorem sort_perm {t t' : List (Int32 × Label)} (hn : (t.map Prod.fst).Nodup) (h : t'.Perm t) :
    t'.mergeSort (fun a b => decide (a.1.toInt ≤ b.1.toInt)) = t.mergeSort fun a b => decide (a.1.toInt ≤ b.1.toInt) := by
  have hs := List.pairwise_mergeSort (le := fun a b : Int32 × Label => decide (a.1.toInt ≤ b.1.toInt))
      (by intro a b c; simp; omega) (by intro a b; simp; omega)
  refine List.Perm.eq_of_pairwise (fun a b ha hb h1 h2 => ?_) (hs t') (hs t)
    ((List.mergeSort_perm _ _).trans (h.trans (List.mergeSort_perm _ _).symm))
  have ha : a ∈ t := h.mem_iff.mp ((List.mergeSort_perm _ _).mem_iff.mp ha)
  have hb : b ∈ t := (List.mergeSort_perm _ _).mem_iff.mp hb
  have hk : a.1 = b.1 := Int32.toInt_inj.mp (by have := of_decide_eq_true h1; have := of_decide_eq_true h2; omega)
  have e1 := lookup_of_mem hn (a := a.1) (b := a.2) ha
  have e2 := lookup_of_mem hn (a := b.1) (b := b.2) hb
  rw [hk, e2] at e1
  exact Prod.ext hk (Option.some.inj e1).symm

/-- No key occurs twice. -/
def KeyedTable (i : Insn) : Prop := match i with
  | .lookupSwitch _ t => (t.map Prod.fst).Nodup
  | _ => True

theorem eq_normal {i j : Insn} (h : EqInsn i j) (hk : KeyedTable i) : normal j = normal i := by
  cases h with
  | lookup hl h => rw [normal, normal, sort_perm hk (perm_of_found hk hl h)]
  | same => rfl

theorem eq_insns {is js : List Insn} (h : Matched EqInsn is js) (hk : ∀ i ∈ is, KeyedTable i) :
    js.filterMap normal = is.filterMap normal ∧ ∀ l, lastPlace l js = lastPlace l is := by
  induction h with
  | nil => exact ⟨rfl, fun _ => rfl⟩
  | @cons i j is js h _ ih =>
    obtain ⟨h1, h2⟩ := ih fun i hi => hk i (.tail _ hi)
    have hn := eq_normal h (hk _ (.head _))
    refine ⟨by rw [List.filterMap_cons, List.filterMap_cons, hn, h1], fun l => ?_⟩
    cases h with
    | lookup hl h =>
      rw [lastPlace_other (fun _ e => by cases e), lastPlace_other (fun _ e => by cases e), h2, hn]
    | same =>
      by_cases hi : ∃ l', i = .label l'
      · obtain ⟨l', rfl⟩ := hi
        rw [lastPlace, lastPlace, h2]
      · rw [lastPlace_other (fun l' e => hi ⟨l', e⟩), lastPlace_other (fun l' e => hi ⟨l', e⟩), h2]

/-! ## Classes -/

theorem one_codeAttrs {as bs : List CodeAttribute} (h : Matched EqCodeAttr as bs)
    (hs : Singles (as.flatMap partsCodeAttr)) : bs = as :=
  matched_same h fun a ha b hab => by
    have hs := singles_flat hs a ha
    cases hab with
    | visibleType h => rw [one_typeAnns (f := partsTarget) h hs]
    | invisibleType h => rw [one_typeAnns (f := partsTarget) h hs]
    | same => rfl

theorem eq_code {x y : Code} (h : EqCode x y) (hk : ∀ i ∈ x.code, KeyedTable i) (hs : Singles (partsCode x)) :
    y.write = x.write := by
  obtain ⟨h1, h2⟩ := eq_insns h.code hk
  have ha := one_codeAttrs h.attrs (singles_tail (singles_tail hs))
  have hy : y = { x with code := y.code } := by
    obtain ⟨a, b, c, d, e⟩ := x
    obtain ⟨a', b', c', d', e'⟩ := y
    obtain rfl : a' = a := h.maxStack
    obtain rfl : b' = b := h.maxLocals
    obtain rfl : d' = d := h.catches
    obtain rfl : e' = e := ha
    rfl
  rw [hy]
  exact same_places (unmarked_places h1 fun l _ => h2 l)

theorem one_fieldAttr {a b : FieldAttr} (h : EqFieldAttr a b) (hs : Singles (partsFieldAttr a)) : b = a := by
  cases h with
  | visible h => rw [one_anns h hs]
  | invisible h => rw [one_anns h hs]
  | visibleType h => rw [one_typeAnns (f := fun _ => []) h hs]
  | invisibleType h => rw [one_typeAnns (f := fun _ => []) h hs]
  | same => rfl

theorem one_classAttr {a b : ClassAttr} (h : EqClassAttr a b) (hs : Singles (partsClassAttr a)) : b = a := by
  cases h with
  | visible h => rw [one_anns h hs]
  | invisible h => rw [one_anns h hs]
  | visibleType h => rw [one_typeAnns (f := fun _ => []) h hs]
  | invisibleType h => rw [one_typeAnns (f := fun _ => []) h hs]
  | same => rfl

theorem one_field {f g : Field} (h : EqField f g) (hs : Singles (partsField f)) : g = f := by
  obtain ⟨a, b, c, d⟩ := f
  obtain ⟨a', b', c', d'⟩ := g
  obtain ⟨h1, h2, h3, h4⟩ := h
  obtain rfl : a' = a := h1
  obtain rfl : b' = b := h2
  obtain rfl : c' = c := h3
  rw [show d' = d from matched_same h4 fun a ha b hab => one_fieldAttr hab (singles_flat (singles_tail hs) a ha)]

theorem sameAttr_refl {C : Type} {R : C → C → Prop} (hr : ∀ x, R x x) (a : MethodAttrOf C) : SameAttr R a a := by
  cases a <;> first | exact hr _ | rfl | trivial

theorem eq_methodAttr {a b : MethodAttr} (h : EqMethodAttr a b) (hs : Singles (partsMethodAttr a))
    (hk : ∀ x : Code, a = .code x → ∀ i ∈ x.code, KeyedTable i) :
    SameAttr (fun x y : Code => y.write = x.write) a b := by
  cases h with
  | code h => exact eq_code h (hk _ rfl) hs
  | visible h => rw [one_anns h hs]; exact sameAttr_refl (R := fun x y : Code => y.write = x.write) (fun _ => rfl) _
  | invisible h => rw [one_anns h hs]; exact sameAttr_refl (R := fun x y : Code => y.write = x.write) (fun _ => rfl) _
  | visibleType h => rw [one_typeAnns (f := fun _ => []) h hs]; exact sameAttr_refl (R := fun x y : Code => y.write = x.write) (fun _ => rfl) _
  | invisibleType h => rw [one_typeAnns (f := fun _ => []) h hs]; exact sameAttr_refl (R := fun x y : Code => y.write = x.write) (fun _ => rfl) _
  | visibleParams h => rw [one_params h hs]; exact sameAttr_refl (R := fun x y : Code => y.write = x.write) (fun _ => rfl) _
  | invisibleParams h => rw [one_params h hs]; exact sameAttr_refl (R := fun x y : Code => y.write = x.write) (fun _ => rfl) _
  | annotationDefault h => rw [one_value _ _ h hs]; exact sameAttr_refl (R := fun x y : Code => y.write = x.write) (fun _ => rfl) _
  | same => exact sameAttr_refl (R := fun x y : Code => y.write = x.write) (fun _ => rfl) _

theorem eq_class {x y : Class} (h : EqClass x y) (hk : TablesOnly x) (hs : OneElement x) : y.write = x.write := by
  have hs := singles_tail (singles_tail (singles_tail (singles_tail (singles_tail hs))))
  obtain ⟨hf, hs⟩ := singles_append hs
  obtain ⟨hm, hs⟩ := singles_append hs
  obtain ⟨ha, _⟩ := singles_append hs
  refine class_bodies h.version h.access h.name h.superName h.interfaces
    (matched_same h.fields fun f hf' g hfg => one_field hfg (singles_flat hf f hf'))
    (matched_impl h.methods fun m hm' n hmn => ⟨hmn.access, hmn.name, hmn.descriptor, ?_⟩)
    (matched_same h.attrs fun a ha' b hab => one_classAttr hab (singles_flat ha a ha'))
  refine matched_impl hmn.attrs fun a ha' b hab =>
    eq_methodAttr hab (singles_flat (singles_tail (singles_flat hm m hm')) a ha') fun x hx i hi => ?_
  subst hx
  exact hk m hm' x ha' i hi

end Verif
