import Verif.Spec.Circular
import Verif.Spec.Rewrite

/-! # Filling the cells of a table that is not circular comes to an end -/

namespace Verif
open Spec

/-- There are no more than `n` different numbers below `n`. -/
theorem nodup_below : ∀ (n : Nat) (l : List Nat), l.Nodup → (∀ x ∈ l, x < n) → l.length ≤ n
  | 0, [], _, _ => Nat.le_refl _
  | 0, x :: l, _, h => absurd (h x (by simp)) (Nat.not_lt_zero _)
  | n + 1, l, hd, h => by
    have h1 := nodup_below n (l.erase n) (hd.erase n) fun x hx => by
      rcases (hd.mem_erase_iff).mp hx with ⟨h2, h3⟩
      have := h x h3
      omega
    by_cases hm : n ∈ l
    · rw [List.length_erase_of_mem hm] at h1
      omega
    · rw [List.erase_of_not_mem hm] at h1
      omega

theorem Spec.Reaches.trans {T : List Bsm} {i j k : Nat} (h1 : Reaches T i j) (h2 : Reaches T j k) : Reaches T i k := by
  induction h1 with
  | one h => exact .step h h2
  | step h _ ih => exact .step h (ih h2)

theorem map_ne {α β : Type} {f g : α → β} : ∀ {l : List α}, l.map f ≠ l.map g → ∃ a ∈ l, f a ≠ g a
  | [], h => absurd rfl h
  | a :: l, h => by
    by_cases e : f a = g a
    · obtain ⟨b, hb, hn⟩ := map_ne (f := f) (g := g) (l := l) fun e2 => h (by rw [List.map_cons, List.map_cons, e, e2])
      exact ⟨b, by simp [hb], hn⟩
    · exact ⟨a, by simp, e⟩

/-- Where filling one level deeper makes a difference there is a path through the table. -/
theorem fill_path {T : List Bsm} : ∀ (n : Nat) (a : Arg), fillArg T n a ≠ fillArg T (n + 1) a →
    ∃ k nm t, a = .dynamic (.pending k) nm t ∧ ∃ ks : List Nat, ks.length = n ∧
      (k.toNat :: ks).Pairwise (Reaches T) ∧ ∀ x ∈ k.toNat :: ks, x < T.length
  | n, .static c, h => by cases n <;> exact absurd rfl h
  | n, .dynamic (.filled hd as) nm t, h => by cases n <;> exact absurd rfl h
  | 0, .dynamic (.pending k) nm t, h => by
    refine ⟨k, nm, t, rfl, [], rfl, by simp, fun x hx => ?_⟩
    rw [List.mem_singleton.mp hx]
    refine Nat.lt_of_not_le fun hle => h ?_
    rw [fillArg, fillArg, List.getElem?_eq_none hle]
  | n + 1, .dynamic (.pending k) nm t, h => by
    rcases hk : T[k.toNat]? with _ | b
    · exact absurd (by rw [fillArg, fillArg, hk]) h
    · rw [fillArg, fillArg, hk] at h
      obtain ⟨a, ha, hne⟩ := map_ne (f := fillArg T n) (g := fillArg T (n + 1)) (l := b.arguments) fun e =>
        h (by simp only; rw [e])
      obtain ⟨k', nm', t', rfl, ks, h1, h2, h3⟩ := fill_path n a hne
      have hr : UsesEntry T k.toNat k'.toNat := ⟨b, k', nm', t', hk, ha, rfl⟩
      refine ⟨k, nm, t, rfl, k'.toNat :: ks, by simp [h1], List.pairwise_cons.mpr ⟨fun x hx => ?_, h2⟩, fun x hx => ?_⟩
      · rcases List.mem_cons.mp hx with rfl | hx
        · exact .one hr
        · exact .step hr ((List.pairwise_cons.mp h2).1 x hx)
      · rcases List.mem_cons.mp hx with rfl | hx
        · exact (List.getElem?_eq_some_iff.mp hk).1
        · exact h3 x hx

/-- In a table that is not circular no argument needs to be filled to a depth of more than one less than the
number of entries. -/
theorem fill_stable {T : List Bsm} (hT : ¬ Circular T) {i : Nat} {b : Bsm} (hb : T[i]? = some b) {a : Arg}
    (ha : a ∈ b.arguments) {n : Nat} (hn : T.length = n + 1) : fillArg T n a = fillArg T (n + 1) a := by
  refine Classical.byContradiction fun hne => ?_
  obtain ⟨k, nm, t, rfl, ks, h1, h2, h3⟩ := fill_path n a hne
  have hr : UsesEntry T i k.toNat := ⟨b, k, nm, t, hb, ha, rfl⟩
  have hp : (i :: k.toNat :: ks).Pairwise (Reaches T) := List.pairwise_cons.mpr ⟨fun x hx => by
    rcases List.mem_cons.mp hx with rfl | hx
    · exact .one hr
    · exact .step hr ((List.pairwise_cons.mp h2).1 x hx), h2⟩
  have hd : (i :: k.toNat :: ks).Nodup := hp.imp fun {a b} h (e : a = b) => hT ⟨a, by
    rw [← e] at h
    exact h⟩
  have := nodup_below T.length _ hd fun x hx => by
    rcases List.mem_cons.mp hx with rfl | hx
    · exact (List.getElem?_eq_some_iff.mp hb).1
    · exact h3 x hx
  simp only [List.length_cons] at this
  omega

end Verif
