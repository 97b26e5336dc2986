import Verif.Lemmas.Io

/-! # Lemmas about the numbering of positions -/

namespace Verif

theorem nodup_bound : ∀ {n : Nat} {l : List Nat}, l.Nodup → (∀ x ∈ l, x < n) → l.length ≤ n
  | 0, l, _, h => by
    cases l with
    | nil => simp
    | cons a l => exact absurd (h a (by simp)) (by omega)
  | n + 1, l, hl, h => by
    have h1 := nodup_bound (n := n) (hl.erase n) (by
      intro x hx
      have := (hl.mem_erase_iff).mp hx
      have := h x this.2
      omega)
    rw [List.length_erase] at h1
    split at h1 <;> omega

namespace LabelMap

/-- What holds of every numbering that was made by `get_label`. -/
structure Ok (m : LabelMap) : Prop where
  keys : (m.map Prod.fst).Nodup
  vals : ∀ i e, m[i]? = some e → e.2 = UInt32.ofNat i

theorem Ok.nil : Ok [] := ⟨by simp, by simp⟩

theorem Ok.length {m : LabelMap} (h : m.Ok) : m.length ≤ 4294967296 := by
  have := nodup_bound (n := 4294967296) (l := (m.map Prod.fst).map UInt32.toNat) ?_ ?_
  · simpa using this
  · exact List.Pairwise.map _ (fun a b hab h => hab (UInt32.toNat_inj.mp h)) h.keys
  · intro x hx
    obtain ⟨o, _, rfl⟩ := List.mem_map.mp hx
    exact o.toNat_lt

theorem lookup_mem {m : LabelMap} {o : UInt32} {l : Label} (h : m.lookup o = some l) : (o, l) ∈ m := by
  induction m with
  | nil => cases h
  | cons e m ih =>
    obtain ⟨k, v⟩ := e
    rw [List.lookup_cons] at h
    split at h
    · rename_i hk
      cases h
      rw [beq_iff_eq] at hk
      rw [hk]
      exact List.mem_cons_self
    · exact List.mem_cons_of_mem _ (ih h)

theorem lookup_isSome {m : LabelMap} {o : UInt32} : (m.lookup o).isSome ↔ o ∈ m.map Prod.fst := by
  induction m with
  | nil => simp
  | cons e m ih =>
    obtain ⟨k, v⟩ := e
    rw [List.lookup_cons]
    split
    · rename_i hk
      rw [beq_iff_eq] at hk
      simp [hk]
    · rename_i hk
      have hk : o ≠ k := by simpa using hk
      simp only [List.map_cons, List.mem_cons, hk, false_or]
      exact ih

theorem Ok.lookup {m : LabelMap} (h : m.Ok) {o : UInt32} {l : Label} (hm : (o, l) ∈ m) :
    m.lookup o = some l := by
  have hk := h.keys
  clear h
  induction m with
  | nil => cases hm
  | cons e m ih =>
    obtain ⟨k, v⟩ := e
    rw [List.lookup_cons]
    rcases List.mem_cons.mp hm with e | hm'
    · cases e
      simp
    · simp only [List.map_cons, List.nodup_cons] at hk
      have : (o == k) = false := by
        rw [beq_eq_false_iff_ne]
        rintro rfl
        exact hk.1 (List.mem_map.mpr ⟨(_, l), hm', rfl⟩)
      simp only [this]
      exact ih hm' hk.2

theorem Ok.inj {m : LabelMap} (h : m.Ok) {o o' : UInt32} {l : Label} (h1 : m.lookup o = some l)
    (h2 : m.lookup o' = some l) : o = o' := by
  obtain ⟨i, hi, e1⟩ := List.getElem_of_mem (lookup_mem h1)
  obtain ⟨j, hj, e2⟩ := List.getElem_of_mem (lookup_mem h2)
  have v1 := h.vals i _ (List.getElem?_eq_some_iff.mpr ⟨hi, e1⟩)
  have v2 := h.vals j _ (List.getElem?_eq_some_iff.mpr ⟨hj, e2⟩)
  have hlen := h.length
  have : i = j := by
    have h3 : UInt32.ofNat i = UInt32.ofNat j := by rw [← v1, ← v2]
    have h4 := congrArg UInt32.toNat h3
    rw [UInt32.toNat_ofNat', UInt32.toNat_ofNat', Nat.mod_eq_of_lt (by omega),
      Nat.mod_eq_of_lt (by omega)] at h4
    exact h4
  subst this
  rw [e1] at e2
  exact congrArg Prod.fst e2

theorem Ok.add {m : LabelMap} (h : m.Ok) (o : UInt32) : (m.add o).Ok := by
  unfold LabelMap.add
  split
  · exact h
  · rename_i hn
    refine ⟨?_, ?_⟩
    · rw [List.map_append, List.nodup_append]
      refine ⟨h.keys, by simp, ?_⟩
      intro a ha b hb
      obtain rfl : b = o := by simpa using hb
      rintro rfl
      exact hn (lookup_isSome.mpr ha)
    · intro i e hi
      rw [List.getElem?_append] at hi
      split at hi
      · exact h.vals i e hi
      · rename_i hlt
        have : i - m.length = 0 := by
          have := (List.getElem?_eq_some_iff.mp hi).1
          simp at this
          omega
        rw [this] at hi
        simp at hi
        subst hi
        simp only
        congr 1
        omega

theorem Ok.addAll {m : LabelMap} (h : m.Ok) (os : List UInt32) : (m.addAll os).Ok := by
  induction os generalizing m with
  | nil => exact h
  | cons o os ih => exact ih (h.add o)

theorem keys_add (m : LabelMap) (o k : UInt32) :
    k ∈ (m.add o).map Prod.fst ↔ k ∈ m.map Prod.fst ∨ k = o := by
  unfold add
  split
  · rename_i h
    constructor
    · exact .inl
    · rintro (h' | rfl)
      · exact h'
      · exact lookup_isSome.mp h
  · simp only [List.map_append, List.mem_append, List.map_cons, List.map_nil, List.mem_singleton]

theorem keys_addAll (m : LabelMap) (os : List UInt32) (k : UInt32) :
    k ∈ (m.addAll os).map Prod.fst ↔ k ∈ m.map Prod.fst ∨ k ∈ os := by
  induction os generalizing m with
  | nil => simp [addAll]
  | cons o os ih =>
    rw [addAll, ih, keys_add]
    simp only [List.mem_cons, or_assoc]

end LabelMap
end Verif
