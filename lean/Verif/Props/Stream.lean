import Verif.Lemmas.Stream
import Verif.Props.Input

/-! # C76: a class is read from exactly its bytes -/

namespace Verif.Props
open Spec

/-- What follows a class is not looked at, and left: the class is the same (if its variables are listed in
the same order; `ord` tells how, at every place counted from the end of the input). -/
theorem C76_more (ord ord' : Order) (bs t : Bytes) (c : Class) (rest : Bytes)
    (ho : ∀ n, ord' (n + t.length) = ord n) (h : Class.read ord bs = .ok (c, rest)) :
    Class.read ord' (bs ++ t) = .ok (c, rest ++ t) := by
  rcases class_flows (R := Eq) (t := t) (ord := ord) (ord' := ord')
    (fun n => by rw [ho]; exact .refl (fun _ => rfl) _) bs with h1 | ⟨e, h1, _⟩ | ⟨c1, c2, r, h1, h2, h3⟩
  · rw [h] at h1; cases h1
  · rw [h] at h1; cases h1
  · rw [h] at h1
    cases h1
    rw [h2, similarClass_eq h3]

theorem par_any (o o' : Nat → List LocalVariable → List LocalVariable) :
    Par (fun _ _ => True) (Code.read o) (Code.read o') :=
  .code (fun _ _ _ _ _ _ _ => trivial) (fun _ => trivial)

/-- A file that ends too early is always refused, because of its end: if a class is read from an input,
then from every part of the input that does not reach the end of the class nothing is read. -/
theorem C76_truncated (ord ord' : Order) (p q : Bytes) (c : Class) (rest : Bytes)
    (h : Class.read ord (p ++ q) = .ok (c, rest)) (hq : rest.length < q.length) :
    Class.read ord' p = .error .io := by
  rcases class_flows (t := q) (fun n => par_any (ord' n) (ord (n + q.length))) p with
    h1 | ⟨e, _, h1⟩ | ⟨c1, c2, r, _, h1, _⟩
  · exact h1
  · rw [h] at h1; cases h1
  · rw [h] at h1
    cases h1
    simp only [List.length_append] at hq
    omega

/-- An input that is refused for another reason is refused for that reason whatever comes after it. -/
theorem C76_refused (ord ord' : Order) (bs t : Bytes) (e : Err) (h : Class.read ord bs = .error e)
    (he : e ≠ .io) : Class.read ord' (bs ++ t) = .error e := by
  rcases class_flows (t := t) (fun n => par_any (ord n) (ord' (n + t.length))) bs with
    h1 | ⟨e', h1, h2⟩ | ⟨c1, c2, r, h1, _, _⟩
  · rw [h] at h1
    cases h1
    exact absurd rfl he
  · rw [h] at h1
    cases h1
    exact h2
  · rw [h] at h1; cases h1

/-- Class files in one stream are read one after the other. -/
theorem C76_in_turn (f : List LocalVariable → List LocalVariable) (xs : List (Bytes × Class))
    (h : ∀ x ∈ xs, Class.read (fun _ _ => f) x.1 = .ok (x.2, [])) :
    ReadInTurn (Class.read fun _ _ => f) (xs.flatMap Prod.fst) (xs.map Prod.snd) := by
  induction xs with
  | nil => exact .done
  | cons x xs ih =>
    exact .next (C76_more _ _ _ _ _ _ (fun _ => rfl) (h x (.head _))) (ih fun y hy => h y (.tail _ hy))

/-- Whether an input is accepted, the error and the end of the class do not depend on the order in which
a hash map lists the local variables; the class depends on it in nothing but that order. -/
theorem C76_order (ord ord' : Order) (ho : ∀ n k vs, (ord n k vs).Perm (ord' n k vs)) (bs : Bytes) :
    (∃ e, Class.read ord bs = .error e ∧ Class.read ord' bs = .error e) ∨
    ∃ c c' rest, Class.read ord bs = .ok (c, rest) ∧ Class.read ord' bs = .ok (c', rest) ∧
      ShuffledClass c c' := by
  have key : ∀ n, Par ShuffledCode (Code.read (ord n)) (Code.read (ord' (n + ([] : Bytes).length))) := fun n =>
    .code (fun k s l is cs as vs => ⟨_, rfl, each_append (each_refl (fun _ => .inl rfl) as)
      (.cons (.inr ⟨_, _, rfl, rfl, ho n k vs⟩) .nil)⟩) shuffledCode_refl
  have flip := class_flows (t := []) (fun n => par_any (ord' n) (ord (n + ([] : Bytes).length))) bs
  have h := class_flows (t := []) key bs
  simp only [List.append_nil] at h flip
  rcases h with h | h | h
  · rcases flip with h' | ⟨e, h', h2⟩ | ⟨c, c', r, _, h2, _⟩
    · exact .inl ⟨_, h, h'⟩
    · exact .inl ⟨e, h2, h'⟩
    · rw [h] at h2; cases h2
  · exact .inl h
  · exact .inr h

/-! ### A class with two local variables -/

def varsFile : Bytes :=
  tinyFile noArgs [utf8Bytes N.localVariableTable, utf8Bytes [0x49]] [0xB1]
    [[0, 5, 0, 0, 0, 22, 0, 2, 0, 0, 0, 1, 0, 1, 0, 6, 0, 0, 0, 0, 0, 1, 0, 1, 0, 6, 0, 1]]

def varsOf : Res (Class × Bytes) → List (List UInt16)
  | .ok (c, _) => c.methods.flatMap fun m => m.attrs.flatMap fun a =>
    match a with
    | .code x => x.attrs.map fun b =>
      match b with
      | .locals vs => vs.map LocalVariable.index
      | _ => []
    | _ => []
  | .error _ => []

theorem varsFile_read : ∃ c, Class.read (fun _ _ l => l) varsFile = .ok (c, []) ∧
    varsOf (.ok (c, [])) = [[0, 1]] := by
  have h : (match Class.read (fun _ _ l => l) varsFile with
    | .ok (c, rest) => rest.isEmpty && varsOf (.ok (c, [])) == [[0, 1]]
    | .error _ => false) = true := by decide +kernel
  split at h
  · rename_i c rest hr
    simp only [Bool.and_eq_true, List.isEmpty_iff, beq_iff_eq] at h
    exact ⟨c, by rw [hr, h.1], h.2⟩
  · cases h

/-- Without its last byte it is refused; followed by other bytes it is read; twice in a stream it is read
twice. -/
example : ∃ c, Class.read (fun _ _ l => l) varsFile.dropLast = .error .io ∧
    Class.read (fun _ _ l => l) (varsFile ++ [1, 2, 3]) = .ok (c, [1, 2, 3]) ∧
    ReadInTurn (Class.read fun _ _ l => l) (varsFile ++ varsFile) [c, c] := by
  obtain ⟨c, h, _⟩ := varsFile_read
  have hl : varsFile = varsFile.dropLast ++ [0] := by decide +kernel
  refine ⟨c, C76_truncated (fun _ _ l => l) _ _ [0] c [] (by rw [← hl]; exact h) (by decide),
    C76_more (fun _ _ l => l) _ _ _ _ _ (fun _ => rfl) h, ?_⟩
  have := C76_in_turn (fun l => l) [(varsFile, c), (varsFile, c)] (by
    intro x hx
    simp only [List.mem_cons, List.not_mem_nil, or_false, or_self] at hx
    rw [hx]
    exact h)
  simpa using this

/-- Another order of a hash map gives another order of variables. -/
example : varsOf (Class.read (fun _ _ l => l) varsFile) = [[0, 1]] ∧
    varsOf (Class.read (fun _ _ l => l.reverse) varsFile) = [[1, 0]] := by decide +kernel

/-- A wrong magic number is refused whatever follows. -/
example (t : Bytes) : Class.read (fun _ _ l => l) ([0xCA, 0xFE, 0xBA, 0xBF] ++ t) = .error .invalid :=
  C76_refused (fun _ _ l => l) _ _ t _ rfl (by decide)

end Verif.Props
