import Verif.Props.Stream
import Verif.Props.Shared

/-! # C77: reading and writing a class is reproducible -/

namespace Verif.Props
open Spec

/-- What a program gets that reads a class and writes what it has read. -/
def copy (ord : Order) (fuel : Nat) (input : Bytes) : Res Bytes :=
  match Class.read ord input with
  | .error e => .error e
  | .ok (x, _) => x.rewrite fuel

/-- Full claim: it is the same in every run, however the hash map of a run lists its entries. -/
def C77_full : Prop := ∀ (ord ord' : Order), (∀ k n l, (ord k n l).Perm l) → (∀ k n l, (ord' k n l).Perm l) →
  ∀ (fuel : Nat) (input : Bytes), copy ord fuel input = copy ord' fuel input

/-- A method with two variables gives two different files. -/
theorem C77_violated : ¬ C77_full := by
  intro h
  have h1 := h (fun _ _ l => l) (fun _ _ l => l.reverse) (fun _ _ _ => .refl _) (fun _ _ l => l.reverse_perm) 1
    varsFile
  have h2 : (match copy (fun _ _ l => l) 1 varsFile, copy (fun _ _ l => l.reverse) 1 varsFile with
    | .ok a, .ok b => a != b
    | _, _ => false) = true := by decide +kernel
  rw [h1] at h2
  split at h2
  · rename_i h3 h4
    rw [h3] at h4
    cases h4
    simp at h2
  · cases h2

/-- No body has a list of two or more variables. -/
def FewVariables (c : Class) : Prop :=
  ∀ m ∈ c.methods, ∀ x, .code x ∈ m.attrs → ∀ vs, .locals vs ∈ x.attrs → vs.length ≤ 1

theorem each_forall {α : Type} {R : α → α → Prop} {as bs : List α} (h : Each R as bs)
    (hR : ∀ a ∈ as, ∀ b, R a b → a = b) : as = bs := by
  induction h with
  | nil => rfl
  | cons h _ ih => rw [hR _ (.head _) _ h, ih fun a ha => hR a (.tail _ ha)]

theorem perm_small {α : Type} {as bs : List α} (h : as.Perm bs) (hl : as.length ≤ 1) : as = bs := by
  match as, hl with
  | [], _ => exact (List.nil_perm.mp h).symm
  | [a], _ => exact List.singleton_perm.mp h

theorem shuffled_few {c d : Class} (h : ShuffledClass c d) (hc : FewVariables c) : c = d := by
  obtain ⟨ms, rfl, h⟩ := h
  rw [← each_forall h fun m hm n hn => ?_]
  obtain ⟨as, rfl, ha⟩ := hn
  rw [← each_forall ha fun a hma b hb => ?_]
  rcases hb with hb | ⟨x, y, rfl, rfl, bs, rfl, hb⟩
  · exact hb
  rw [← each_forall hb fun u hu v hv => ?_]
  rcases hv with hv | ⟨vs, ws, rfl, rfl, hp⟩
  · exact hv
  · rw [perm_small hp (hc m hm x hma vs hu)]

/-- Proved: the file is the same in every run if no method has two variables or more; and in every run an
input is refused with the same error. -/
theorem C77_copy_partial (ord ord' : Order) (ho : ∀ k n l, (ord k n l).Perm l)
    (ho' : ∀ k n l, (ord' k n l).Perm l) (fuel : Nat) (input : Bytes)
    (h : ∀ c rest, Class.read ord input = .ok (c, rest) → FewVariables c) :
    copy ord fuel input = copy ord' fuel input := by
  unfold copy
  rcases C76_order ord ord' (fun k n l => (ho k n l).trans (ho' k n l).symm) input with
    ⟨e, h1, h2⟩ | ⟨c, c', rest, h1, h2, h3⟩
  · rw [h1, h2]
  · rw [h1, h2, shuffled_few h3 (h c rest h1)]

/-- One variable: the same file for all orders. -/
example (ord : Order) (ho : ∀ k n l, (ord k n l).Perm l) :
    let file := tinyFile noArgs [utf8Bytes N.localVariableTable, utf8Bytes [0x49]] [0xB1]
      [[0, 5, 0, 0, 0, 12, 0, 1, 0, 0, 0, 1, 0, 1, 0, 6, 0, 0]]
    copy ord 1 file = copy (fun _ _ l => l) 1 file ∧ ∃ out, copy ord 1 file = .ok out ∧ out.length = 114 := by
  intro file
  have h1 : copy (fun _ _ l => l) 1 file = copy ord 1 file := by
    refine C77_copy_partial _ _ (fun _ _ _ => .refl _) ho 1 file fun c rest h => ?_
    have h2 : (match Class.read (fun _ _ l => l) file with
      | .ok (c, _) => c.methods.all fun m => m.attrs.all fun a =>
        match a with
        | .code x => x.attrs.all fun b =>
          match b with
          | .locals vs => vs.length ≤ 1
          | _ => true
        | _ => true
      | .error _ => false) = true := by decide +kernel
    rw [h] at h2
    intro m hm x hx vs hv
    have h3 := List.all_eq_true.mp (List.all_eq_true.mp (List.all_eq_true.mp h2 m hm) _ hx) _ hv
    simpa using h3
  refine ⟨h1.symm, ?_⟩
  rw [← h1]
  have h2 : (match copy (fun _ _ l => l) 1 file with
    | .ok out => out.length == 114
    | .error _ => false) = true := by decide +kernel
  split at h2
  · rename_i out h3
    exact ⟨out, h3, by simpa using h2⟩
  · cases h2

end Verif.Props
