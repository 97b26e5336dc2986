import Verif.Lemmas.Equal
import Verif.Props.Class

/-! # Equal classes (C90)

A class has two kinds of maps, which are equal if they have the same entries in whatever order: the elements of an
annotation, and the table of a `lookupswitch`. -/

namespace Verif.Props
open Spec Sig

/-! ## Equality -/

/-- For maps, in which no key occurs twice, equality of annotation values is what its name says. -/
theorem C90_equality (u v w : AnnValue) (hu : Distinct u) (hv : Distinct v) :
    EqValue u u ∧ (EqValue u v → EqValue v u) ∧ (EqValue u v → EqValue v w → EqValue u w) :=
  ⟨eqValue_refl u hu, eqValue_symm u v hu hv, eqValue_trans u v w⟩

/-- Two orders of the same elements are equal, but not two different elements. -/
theorem C90_elements (t t' : JType) (es es' : Elems) (h : (es.map Prod.fst).Nodup) (hd : DistinctPairs es)
    (hp : es'.Perm es) : EqValue (.annotation t es) (.annotation t' es') ↔ t' = t := by
  rw [EqValue]
  constructor
  · rintro ⟨_, e, _⟩
    cases e
    rfl
  · rintro rfl
    refine ⟨es', rfl, hp.length_eq, (eqEntries_iff es es').mpr fun k v hm => ⟨v, ?_, eqPairs_refl es hd k v hm⟩⟩
    exact lookup_of_mem ((hp.map Prod.fst).nodup_iff.mpr h) (hp.mem_iff.mpr hm)

/-! ## C90 -/

/-- Full claim: equal classes are written as the same bytes, or both refused. -/
def C90_full : Prop := ∀ x y : Class, MapsOnly x → MapsOnly y → TablesOnly x → TablesOnly y → EqClass x y →
  y.write = x.write

/-- `@A(a = 1, b = 2)` and `@A(b = 2, a = 1)`. -/
def pairElements : Elems := [([97], .int 1), ([98], .int 2)]
def pairClass (es : Elems) : Class := smallClass [] [.visible [⟨.ref [65], es⟩]]

theorem pair_equal : EqClass (pairClass pairElements) (pairClass pairElements.reverse) := by
  refine ⟨rfl, rfl, rfl, rfl, rfl, .nil, .nil, .cons (.visible (.cons ⟨rfl, rfl, ?_⟩ .nil)) .nil⟩
  refine (eqEntries_iff _ _).mpr fun k v hm => ?_
  rcases List.mem_cons.mp hm with h | h
  · cases h
    exact ⟨_, rfl, eqValue_refl _ (by simp [Distinct])⟩
  · rcases List.mem_singleton.mp h with h
    cases h
    exact ⟨_, rfl, eqValue_refl _ (by simp [Distinct])⟩

/-- Two orders of the elements of an annotation give two different files. -/
theorem C90_violated : ¬ C90_full := fun h => by
  have h1 := h (pairClass pairElements) (pairClass pairElements.reverse) (by unfold MapsOnly; decide +kernel)
    (by unfold MapsOnly; decide +kernel) (fun _ hm => nomatch hm) (fun _ hm => nomatch hm) pair_equal
  have h2 : (match (pairClass pairElements).write, (pairClass pairElements.reverse).write with
    | .ok a, .ok b => a != b
    | _, _ => false) = true := by decide +kernel
  rw [h1] at h2
  revert h2
  cases (pairClass pairElements).write <;> simp

/-- Proved: if no annotation has more than one element, equal classes are written as the same bytes, or both refused with
an error of the same kind. The order of the entries of `lookupswitch` tables does not matter. -/
theorem C90_bytes_partial (x y : Class) (ht : TablesOnly x) (h1 : OneElement x) (h : EqClass x y) : y.write = x.write :=
  eq_class h ht h1

/-- The same for a body, whatever is in the constant pool before. -/
theorem C90_body_partial (x y : Code) (ht : ∀ i ∈ x.code, ∀ d t, i = .lookupSwitch d t → (t.map Prod.fst).Nodup)
    (h1 : ∀ p ∈ partsCode x, p.kind = .elements → p.count ≤ 1) (h : EqCode x y) : ∀ cp, y.write cp = x.write cp :=
  fun cp => congrFun (eq_code h (fun i hi => by
    unfold KeyedTable
    split
    · exact ht _ hi _ _ rfl
    · trivial) h1) cp

/-- A method with a switch. -/
def switchClass (t : List (Int32 × Label)) : Class := smallClass
  [⟨⟨0⟩, [109], .method [] none, [.code ⟨1, 1, [.label 0, .push (.static (.i32 0)), .lookupSwitch 1 t, .label 1, .noOp], [], []⟩]⟩]
  [.visible [⟨.ref [65], [([97], .int 1)]⟩]]

/-- The entries in one order and in the other. -/
example : (switchClass [(3, 0), (-7, 1)]).write = (switchClass [(-7, 1), (3, 0)]).write := by
  refine C90_bytes_partial _ _ ?_ (by unfold OneElement; decide +kernel) ?_
  · intro m hm b hb i hi
    cases List.mem_singleton.mp hm
    cases List.mem_singleton.mp hb
    rcases hi with _ | ⟨_, _ | ⟨_, _ | ⟨_, _ | ⟨_, _ | ⟨_, hi⟩⟩⟩⟩⟩
    · trivial
    · trivial
    · show ([-7, 3] : List Int32).Nodup
      decide
    · trivial
    · trivial
    · cases hi
  · refine ⟨rfl, rfl, rfl, rfl, rfl, .nil, .cons ⟨rfl, rfl, rfl, .cons (.code ⟨rfl, rfl, ?_, rfl, .nil⟩) .nil⟩ .nil,
      .cons (.same _) .nil⟩
    refine .cons (.same _) (.cons (.same _) (.cons (.lookup rfl ?_) (.cons (.same _) (.cons (.same _) .nil))))
    decide

/-- The element maps of the counterexample. -/
example : EqValue (.annotation (.ref [65]) pairElements) (.annotation (.ref [65]) pairElements.reverse) :=
  (C90_elements _ _ _ _ (by decide) (by
    unfold pairElements
    rw [DistinctPairs, DistinctPairs, DistinctPairs, Distinct, Distinct] <;> simp) (List.reverse_perm _)).mpr rfl

/-- A map with an element less is not equal. -/
example : ¬ EqValue (.annotation (.ref [65]) pairElements) (.annotation (.ref [65]) [([97], .int 1)]) := fun h => by
  rw [EqValue] at h
  obtain ⟨es, e, h, _⟩ := h
  cases e
  cases h

end Verif.Props
