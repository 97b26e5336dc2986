import Verif.Lemmas.Heap
import Verif.Props.Shared

/-! # Comparing and hashing dynamic constants: C74 -/

namespace Verif.Props
open Spec

/-! ## C74 -/

/-- The cells of a class that was read. -/
abbrev cellsOf (x : Class) : Heap (Nat × Nat) := readHeap (bsmTable x.attrs) (classDynamics x)

/-- Full claim: two dynamic constants of a class that was read can be compared. -/
def C74_full : Prop := ∀ (ord : Order) (input rest : Bytes) (x : Class),
  (∀ k n l, (ord k n l).Perm l) → Class.read ord input = .ok (x, rest) →
  ∀ p q, ∃ fuel r, (cellsOf x).eq fuel p q = .ok r

/-- Two entries whose only argument is made with the other entry, and that differ in nothing else. -/
def mirrored : List Bsm → Bool
  | [⟨h, [.dynamic (.pending i) n t]⟩, ⟨h', [.dynamic (.pending j) n' t']⟩] =>
    h.eq h' && i == 1 && j == 0 && n == n' && t.eq t'
  | _ => false

theorem mirrored_endless {T : List Bsm} {ds : List Dynamic} (h : mirrored T = true) : ∀ (fuel : Nat) (r : Bool),
    (readHeap T ds).eq fuel (0, 0) (1, 0) ≠ .ok r ∧ (readHeap T ds).eq fuel (1, 0) (0, 0) ≠ .ok r := by
  unfold mirrored at h
  split at h
  · rename_i h0 i n t h1 j n' t'
    simp only [Bool.and_eq_true, beq_iff_eq, MethodHandle.eq_iff, JType.eq_iff] at h
    obtain ⟨⟨⟨⟨rfl, rfl⟩, rfl⟩, rfl⟩, rfl⟩ := h
    have ha : readHeap [⟨h0, [.dynamic (.pending 1) n t]⟩, ⟨h0, [.dynamic (.pending 0) n t]⟩] ds (0, 0) =
      some ⟨h0, [.dynamic ⟨(1, 0), n, t⟩]⟩ := rfl
    have hb : readHeap [⟨h0, [.dynamic (.pending 1) n t]⟩, ⟨h0, [.dynamic (.pending 0) n t]⟩] ds (1, 0) =
      some ⟨h0, [.dynamic ⟨(0, 0), n, t⟩]⟩ := rfl
    generalize readHeap _ ds = H at ha hb
    have hh := (MethodHandle.eq_iff h0 h0).mpr rfl
    have key : ∀ (c : Nat × Nat → Nat × Nat → Res Bool) (p q : Nat × Nat) (r : Bool), (∀ r, c p q ≠ .ok r) →
        HBsm.eq c ⟨h0, [.dynamic ⟨p, n, t⟩]⟩ ⟨h0, [.dynamic ⟨q, n, t⟩]⟩ ≠ .ok r := by
      intro c p q r hc
      rw [HBsm.eq, if_pos hh]
      show HArg.eqs c [.dynamic ⟨p, n, t⟩] [.dynamic ⟨q, n, t⟩] ≠ .ok r
      rw [HArg.eqs, HArg.eq, HDynamic.eq]
      cases he : c p q with
      | error e => exact fun h => nomatch h
      | ok r' => exact absurd he (hc r')
    intro fuel
    induction fuel with
    | zero => exact fun r => ⟨fun h => (nomatch h), fun h => (nomatch h)⟩
    | succ fuel ih =>
      intro r
      refine ⟨?_, ?_⟩
      · rw [Heap.eq, if_neg (by decide), ha, hb]
        exact key _ _ _ r fun r => (ih r).2
      · rw [Heap.eq, if_neg (by decide), ha, hb]
        exact key _ _ _ r fun r => (ih r).1
  · cases h

/-- Violated: the two entries of the table have arguments made with each other, and comparing these arguments goes
from one pair to the other and back for ever. -/
theorem C74_violated : ¬ C74_full := by
  intro h
  have hr : (match Class.read (fun _ _ l => l) (tableFile [0, 12] [0, 11]) with
    | .ok (x, _) => mirrored (bsmTable x.attrs)
    | .error _ => false) = true := by decide +kernel
  split at hr
  · rename_i x rest hx
    obtain ⟨fuel, r, he⟩ := h _ _ _ x (fun _ _ l => List.Perm.refl l) hx (0, 0) (1, 0)
    exact (mirrored_endless hr fuel r).1 he
  · cases hr

section
variable {α : Type} [DecidableEq α]

/-- Proved, for every state of the cells, circular or not: a comparison that ends says whether the two are the same. -/
theorem C74_decides_partial (H : Heap α) (fuel : Nat) (a b : α) (r : Bool) (h : H.eq fuel a b = .ok r) :
    r = true ↔ SameCells H a b :=
  ⟨fun e => alike_of_eq (e ▸ h), fun e => not_alike_of_eq h e⟩

/-- Proved: a comparison ends if one cannot go from cell to cell for ever from one of the two; no matter how much room
there is beyond that, the answer stays. -/
theorem C74_ends_partial (H : Heap α) (a b : α) (h : ¬ Endless H a ∨ ¬ Endless H b) :
    ∃ n r, ∀ fuel, n ≤ fuel → H.eq fuel a b = .ok r := by
  have : ∃ n r, H.eq n a b = .ok r := by
    rcases h with h | h
    · exact heapEq_left (acc_of h) b
    · exact heapEq_right (acc_of h) a
  obtain ⟨n, r, h⟩ := this
  exact ⟨n, r, fun fuel hf => heapEq_mono hf h⟩

/-- Proved: comparing is an equivalence. A cell equals itself at once, the order does not matter, and what equals the
same is equal; in each case the comparison ends. -/
theorem C74_equivalence (H : Heap α) :
    (∀ a, H.eq 1 a a = .ok true) ∧
    (∀ n a b r, H.eq n a b = .ok r → H.eq n b a = .ok r) ∧
    (∀ n m a b c, H.eq n a b = .ok true → H.eq m b c = .ok true → H.eq (n + m) a c = .ok true) :=
  ⟨heapEq_refl 0, fun _ _ _ _ h => heapEq_symm h, fun _ _ _ _ _ h1 h2 => heapEq_trans h1 h2⟩

/-- Proved: constants that are equal are hashed alike, if they can be hashed. -/
theorem C74_hash (H : Heap α) (n m : Nat) (d e : HDynamic α) (h : d.eq (H.eq n) e = .ok true) :
    d.hash (H.hash m) = e.hash (H.hash m) := by
  have : (HArg.dynamic d).eq (H.eq n) (.dynamic e) = .ok true := h
  cases argEq_true.mp this with
  | dynamic nm t hab => rw [HDynamic.hash, HDynamic.hash, heapHash_same m (alike_of_eq hab)]

end

/-- Proved: hashing ends exactly if one cannot go from cell to cell for ever. -/
theorem C74_hash_ends_partial {α : Type} (H : Heap α) (a : α) : (∃ n ts, H.hash n a = .ok ts) ↔ ¬ Endless H a :=
  ⟨fun ⟨_, h⟩ => not_endless_of_acc (acc_heapHash h), fun h => heapHash_acc (acc_of h)⟩

/-- Proved, for classes that were read: if their tables are not circular then all of their dynamic constants can be
compared, within a class and between the two, and hashed. -/
theorem C74_read_partial (ord ord' : Order) (input rest input' rest' : Bytes) (x y : Class)
    (_ : Class.read ord input = .ok (x, rest)) (_ : Class.read ord' input' = .ok (y, rest'))
    (hx : ¬ Circular (bsmTable x.attrs)) (hy : ¬ Circular (bsmTable y.attrs)) (p q : (Nat × Nat) ⊕ (Nat × Nat)) :
    (∃ n r, ((cellsOf x).both (cellsOf y)).eq n p q = .ok r) ∧
    ∃ n ts, ((cellsOf x).both (cellsOf y)).hash n p = .ok ts := by
  have hacc : ∀ p, Acc (fun b a => Uses ((cellsOf x).both (cellsOf y)) a b) p := by
    rintro (p | p)
    · exact acc_inl (acc_of (readHeap_ends hx p))
    · exact acc_inr (acc_of (readHeap_ends hy p))
  exact ⟨heapEq_left (hacc p) q, heapHash_acc (hacc p)⟩

/-- Proved: if the table is circular then the argument of some entry cannot be hashed. -/
theorem C74_circular_partial (ord : Order) (input rest : Bytes) (x : Class)
    (_ : Class.read ord input = .ok (x, rest)) (hx : Circular (bsmTable x.attrs)) :
    ∃ p : Nat × Nat, p.1 < (bsmTable x.attrs).length ∧ ∀ n ts, (cellsOf x).hash n p ≠ .ok ts := by
  obtain ⟨p, hp, h⟩ := readHeap_endless (ds := classDynamics x) hx
  exact ⟨p, hp, fun n ts e => (C74_hash_ends_partial _ p).mp ⟨n, ts, e⟩ h⟩

/-- Cells for an example: 0 and 1 hold methods whose argument has cell 2; 3 holds one whose argument has cell 3 itself, so
has 4; 2 is empty. -/
def someCells : Heap Nat := fun a =>
  let h : MethodHandle := ⟨.invokeStatic, ⟨[0x41], [0x62], .method [] none, false⟩⟩
  match a with
  | 0 | 1 => some ⟨h, [.static (.i32 7), .dynamic ⟨2, [0x63], .int⟩]⟩
  | 3 | 4 => some ⟨h, [.static (.i32 7), .dynamic ⟨3, [0x63], .int⟩]⟩
  | _ => none

example : someCells.eq 2 0 1 = .ok true ∧ someCells.eq 2 0 3 = .ok false ∧ someCells.eq 2 3 4 = .ok true ∧
    someCells.eq 2 0 2 = .ok false ∧ (someCells.hash 2 0).isOk = true := by decide

example : ¬ Endless someCells 0 ∧ Endless someCells 3 := by
  refine ⟨(C74_hash_ends_partial _ 0).mp ⟨2, ?_⟩, fun _ => 3, rfl, fun _ => ⟨_, [0x63], .int, rfl, by simp⟩⟩
  exact ⟨_, rfl⟩

/-- A class with a table that is not circular is in the examples of C66. -/
example : ∃ x rest, Class.read (fun _ _ l => l) (tableFile [0, 12] [0, 11]) = .ok (x, rest) ∧ Circular (bsmTable x.attrs) := by
  obtain ⟨x, h, hc⟩ := circular_read
  exact ⟨x, [], h, hc⟩

end Verif.Props
