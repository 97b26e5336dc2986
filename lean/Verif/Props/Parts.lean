import Verif.Lemmas.Parts
import Verif.Props.Stream

/-! # C98: a class file is read part by part -/

namespace Verif.Props
open Verif Spec

/-- A byte string is accepted if and only if it begins with parts that are accepted one by one, each with nothing but
the pool known of the rest, and every bootstrap method the class asks for is in its table. The class consists of what
the parts give, and what comes after the parts is left. -/
theorem C98_parts (f : List LocalVariable → List LocalVariable) (input rest : Bytes) (c : Class) :
    Class.read (fun _ _ => f) input = .ok (c, rest) ↔ ∃ x : Parts, input = x.bytes ++ rest ∧ x.Gives f c :=
  ⟨read_parts, fun ⟨_, e, h⟩ => e ▸ parts_read h rest⟩

/-- There is only one way to cut a byte string into such parts. -/
theorem C98_unique (f : List LocalVariable → List LocalVariable) (x y : Parts) (c d : Class) (t t' : Bytes)
    (hx : x.Gives f c) (hy : y.Gives f d) (h : x.bytes ++ t = y.bytes ++ t') : x = y ∧ t = t' ∧ c = d := by
  obtain rfl := parts_same hx hy h
  obtain rfl := List.append_cancel_left h
  have h1 := parts_read hx t
  rw [parts_read hy t] at h1
  cases h1
  exact ⟨rfl, rfl, rfl⟩

/-- Whatever the order in which a hash map lists the local variables, the same inputs are accepted, and the class
differs in nothing but that order. -/
theorem C98_any_order (ord : Order) (ho : ∀ n k vs, (ord n k vs).Perm vs) (input rest : Bytes) :
    (∀ c, Class.read ord input = .ok (c, rest) →
      ∃ (x : Parts) (c' : Class), input = x.bytes ++ rest ∧ x.Gives id c' ∧ ShuffledClass c c') ∧
    ∀ (x : Parts) (c' : Class), input = x.bytes ++ rest → x.Gives id c' →
      ∃ c, Class.read ord input = .ok (c, rest) ∧ ShuffledClass c c' := by
  have key := C76_order ord (fun _ _ => id) ho input
  constructor
  · intro c h
    rcases key with ⟨e, h2, _⟩ | ⟨c1, c2, r, h2, h3, h4⟩
    · rw [h] at h2; cases h2
    · rw [h] at h2
      cases h2
      obtain ⟨x, h5, h6⟩ := read_parts h3
      exact ⟨x, c2, h5, h6, h4⟩
  · rintro x c' rfl hx
    have h1 := parts_read hx rest
    rcases key with ⟨e, _, h2⟩ | ⟨c, c2, r, h2, h3, h4⟩
    · rw [h1] at h2; cases h2
    · rw [h1] at h3
      cases h3
      exact ⟨c, h2, h4⟩

theorem matched_set {α β : Type} {R : α → β → Prop} {a : α} {b : β} (hab : R a b) {as : List α} {bs : List β}
    (h : Matched R as bs) : ∀ i, Matched R (as.set i a) (bs.set i b) := by
  induction h with
  | nil => exact fun _ => .nil
  | cons h1 h2 ih =>
    intro i
    cases i with
    | zero => exact .cons hab h2
    | succ i => exact .cons h1 (ih i)

theorem eachAlone_set {α : Type} {r : Rd α} {P : Pool} {b : Bytes} {a : α} (hab : Alone r P b a) {bs : List Bytes}
    {as : List α} (h : EachAlone r P bs as) (i : Nat) : EachAlone r P (bs.set i b) (as.set i a) :=
  ⟨by rw [List.length_set]; exact h.1, matched_set hab h.2 i⟩

/-- The bytes of one method are replaced by bytes that are accepted as a method: this method is another, nothing else
in the class is. -/
theorem C98_method (f : List LocalVariable → List LocalVariable) (x : Parts) (c : Class) (rest : Bytes) (cp : MapCp)
    (hx : x.Gives f c) (hcp : MapCp.read x.pool = .ok (cp, [])) (i : Nat) (b : Bytes) (m : Method)
    (hb : Alone (Method.read fun _ _ => f) cp.get b m) (hf : EntriesFound { c with methods := c.methods.set i m }) :
    Class.read (fun _ _ => f) ({ x with methods := x.methods.set i b }.bytes ++ rest) =
      .ok ({ c with methods := c.methods.set i m }, rest) := by
  obtain ⟨cp', hv, hp, a1, a2, a3, a4, a5, a6, a7, _⟩ := hx
  rw [hcp] at hp
  cases hp
  exact parts_read (x := { x with methods := x.methods.set i b }) (c := { c with methods := c.methods.set i m })
    ⟨cp, hv, hcp, a1, a2, a3, a4, a5, eachAlone_set hb a6 i, a7, hf⟩ rest

/-- The same for a field. -/
theorem C98_field (f : List LocalVariable → List LocalVariable) (x : Parts) (c : Class) (rest : Bytes) (cp : MapCp)
    (hx : x.Gives f c) (hcp : MapCp.read x.pool = .ok (cp, [])) (i : Nat) (b : Bytes) (d : Field)
    (hb : Alone Field.read cp.get b d) :
    Class.read (fun _ _ => f) ({ x with fields := x.fields.set i b }.bytes ++ rest) =
      .ok ({ c with fields := c.fields.set i d }, rest) := by
  obtain ⟨cp', hv, hp, a1, a2, a3, a4, a5, a6, a7, h⟩ := hx
  rw [hcp] at hp
  cases hp
  exact parts_read (x := { x with fields := x.fields.set i b }) (c := { c with fields := c.fields.set i d })
    ⟨cp, hv, hcp, a1, a2, a3, a4, eachAlone_set hb a5 i, a6, a7, h⟩ rest

/-- The same for an attribute of the class. -/
theorem C98_attribute (f : List LocalVariable → List LocalVariable) (x : Parts) (c : Class) (rest : Bytes) (cp : MapCp)
    (hx : x.Gives f c) (hcp : MapCp.read x.pool = .ok (cp, [])) (i : Nat) (b : Bytes) (a : ClassAttr)
    (hb : Alone ClassAttr.read cp.get b a) (hf : EntriesFound { c with attrs := c.attrs.set i a }) :
    Class.read (fun _ _ => f) ({ x with attrs := x.attrs.set i b }.bytes ++ rest) =
      .ok ({ c with attrs := c.attrs.set i a }, rest) := by
  obtain ⟨cp', hv, hp, a1, a2, a3, a4, a5, a6, a7, _⟩ := hx
  rw [hcp] at hp
  cases hp
  exact parts_read (x := { x with attrs := x.attrs.set i b }) (c := { c with attrs := c.attrs.set i a })
    ⟨cp, hv, hcp, a1, a2, a3, a4, a5, a6, eachAlone_set hb a7 i, hf⟩ rest

theorem matched_perm {α β : Type} {R : α → β → Prop} {as as' : List α} (hp : as.Perm as') : ∀ {bs : List β},
    Matched R as bs → ∃ bs', bs.Perm bs' ∧ Matched R as' bs' := by
  induction hp with
  | nil => exact fun h => ⟨_, .refl _, h⟩
  | cons x _ ih =>
    intro bs h
    cases h with
    | cons h1 h2 =>
      obtain ⟨bs', h3, h4⟩ := ih h2
      exact ⟨_, .cons _ h3, .cons h1 h4⟩
  | swap x y l =>
    intro bs h
    cases h with
    | cons h1 h2 =>
      cases h2 with
      | cons h2 h3 => exact ⟨_, .swap _ _ _, .cons h2 (.cons h1 h3)⟩
  | trans _ _ ih1 ih2 =>
    intro bs h
    obtain ⟨b1, p1, h1⟩ := ih1 h
    obtain ⟨b2, p2, h2⟩ := ih2 h1
    exact ⟨b2, p1.trans p2, h2⟩

/-- The methods of a class file can be put in any order: the class has the same methods in another order, and nothing
else in it is changed. -/
theorem C98_reordered (f : List LocalVariable → List LocalVariable) (x : Parts) (c : Class) (rest : Bytes)
    (hx : x.Gives f c) (bs : List Bytes) (hb : x.methods.Perm bs) :
    ∃ ms, c.methods.Perm ms ∧ Class.read (fun _ _ => f) ({ x with methods := bs }.bytes ++ rest) =
      .ok ({ c with methods := ms }, rest) := by
  obtain ⟨cp, hv, hp, a1, a2, a3, a4, a5, a6, a7, h⟩ := hx
  obtain ⟨ms, h1, h2⟩ := matched_perm hb a6.2
  refine ⟨ms, h1, parts_read (x := { x with methods := bs }) (c := { c with methods := ms }) ⟨cp, hv, hp, a1, a2, a3, a4, a5,
    ⟨by rw [← hb.length_eq]; exact a6.1, h2⟩, a7, ?_⟩ rest⟩
  intro pre t post e hpre k hk
  refine h pre t post e hpre k ?_
  rcases List.mem_append.mp hk with hk | hk
  · obtain ⟨m, hm, hk⟩ := List.mem_flatMap.mp hk
    exact List.mem_append.mpr (.inl (List.mem_flatMap.mpr ⟨m, h1.mem_iff.mpr hm, hk⟩))
  · exact List.mem_append.mpr (.inr hk)

/-! ### The parts of a class file -/

/-- A class with two methods, the second of which is deprecated. -/
def twoMethods : Parts where
  version := [0, 0, 0, 52]
  pool := [0, 5, 1, 0, 1, 0x41, 7, 0, 1] ++ utf8Bytes noArgs ++ utf8Bytes N.deprecated
  access := [0, 0x21]
  name := [0, 2]
  super := [0, 0]
  interfaces := [[0, 2]]
  fields := []
  methods := [[0, 1, 0, 1, 0, 3, 0, 0], [0, 1, 0, 4, 0, 3, 0, 1, 0, 4, 0, 0, 0, 0]]
  attrs := [[0, 4, 0, 0, 0, 0]]

def twoPool : Pool := match MapCp.read twoMethods.pool with
  | .ok (cp, _) => cp.get
  | .error _ => fun _ => none

theorem twoPool_read : ∃ cp, MapCp.read twoMethods.pool = .ok (cp, []) ∧ cp.get = twoPool := by
  have h : (match MapCp.read twoMethods.pool with
    | .ok (_, rest) => rest.isEmpty
    | .error _ => false) = true := by decide +kernel
  unfold twoPool
  split at h
  · rename_i hr
    rw [hr]
    exact ⟨_, by rw [List.isEmpty_iff.mp h], rfl⟩
  · cases h

theorem alone_of {α : Type} {r : Rd α} {P : Pool} {b : Bytes} (h : (match r ⟨P, none⟩ ⟨[], none⟩ b with
    | .ok (_, _, rest) => rest.isEmpty
    | .error _ => false) = true) : ∃ a, Alone r P b a := by
  split at h
  · rename_i hr
    exact ⟨_, _, by rw [hr, List.isEmpty_iff.mp h]⟩
  · cases h

theorem twoMethods_gives : ∃ c, twoMethods.Gives id c ∧ c.methods.length = 2 := by
  obtain ⟨cp, h1, h2⟩ := twoPool_read
  obtain ⟨acc, h3⟩ := alone_of (r := rFlags .cls) (P := twoPool) (b := twoMethods.access) (by decide +kernel)
  obtain ⟨nm, h4⟩ := alone_of (r := rStr 7) (P := twoPool) (b := twoMethods.name) (by decide +kernel)
  obtain ⟨sup, h5⟩ := alone_of (r := rClsOpt) (P := twoPool) (b := twoMethods.super) (by decide +kernel)
  obtain ⟨m1, h6⟩ := alone_of (r := Method.read fun _ _ => id) (P := twoPool) (b := [0, 1, 0, 1, 0, 3, 0, 0])
    (by decide +kernel)
  obtain ⟨m2, h7⟩ := alone_of (r := Method.read fun _ _ => id) (P := twoPool)
    (b := [0, 1, 0, 4, 0, 3, 0, 1, 0, 4, 0, 0, 0, 0]) (by decide +kernel)
  have h8 : Alone ClassAttr.read twoPool [0, 4, 0, 0, 0, 0] .deprecated := ⟨_, by with_unfolding_all rfl⟩
  refine ⟨⟨⟨0, .j8⟩, acc, nm, sup, [nm], [], [m1, m2], [.deprecated]⟩, ⟨cp, by with_unfolding_all rfl, h1, ?_⟩, rfl⟩
  rw [h2]
  refine ⟨h3, h4, h5, ⟨by decide, .cons h4 .nil⟩, ⟨by decide, .nil⟩, ⟨by decide, .cons h6 (.cons h7 .nil)⟩,
    ⟨by decide, .cons h8 .nil⟩, ?_⟩
  intro pre ms post e
  cases pre with
  | nil => cases e
  | cons a pre => exact absurd (List.cons.inj e).2 (by cases pre <;> exact nofun)

/-- It is read; with its methods in the other order it is read; with the second method replaced by the first it is
read, and the class has the first method twice. -/
example : ∃ (c : Class) (m1 m2 : Method), c.methods = [m1, m2] ∧
    Class.read (fun _ _ => id) twoMethods.bytes = .ok (c, []) := by
  obtain ⟨c, h, hl⟩ := twoMethods_gives
  obtain ⟨m1, m2, hm⟩ : ∃ m1 m2, c.methods = [m1, m2] := by
    match hc : c.methods, hl with
    | [m1, m2], _ => exact ⟨m1, m2, rfl⟩
  exact ⟨c, m1, m2, hm, (C98_parts id _ _ c).mpr ⟨twoMethods, (List.append_nil _).symm, h⟩⟩

example : ∃ c, Class.read (fun _ _ => id) { twoMethods with methods := twoMethods.methods.reverse }.bytes = .ok (c, []) := by
  obtain ⟨c, h, _⟩ := twoMethods_gives
  obtain ⟨ms, _, h⟩ := C98_reordered id twoMethods c [] h _ (List.reverse_perm _).symm
  rw [List.append_nil] at h
  exact ⟨_, h⟩

example : ∃ c, Class.read (fun _ _ => id)
    { twoMethods with methods := [[0, 1, 0, 1, 0, 3, 0, 0], [0, 1, 0, 1, 0, 3, 0, 0]] }.bytes = .ok (c, []) := by
  obtain ⟨c, hc, _⟩ := twoMethods_gives
  obtain ⟨cp, h1, h2⟩ := twoPool_read
  obtain ⟨m, h⟩ := alone_of (r := Method.read fun _ _ => id) (P := twoPool) (b := [0, 1, 0, 1, 0, 3, 0, 0])
    (by decide +kernel)
  rw [← h2] at h
  have hf : EntriesFound { c with methods := c.methods.set 1 m } := by
    obtain ⟨cp', _, hp, _, _, _, _, _, _, h9, _⟩ := hc
    have h8 : Alone ClassAttr.read twoPool [0, 4, 0, 0, 0, 0] .deprecated := ⟨_, by with_unfolding_all rfl⟩
    rw [h1] at hp
    cases hp
    rw [h2] at h9
    have ha : c.attrs = [.deprecated] := by
      obtain ⟨_, h9⟩ := h9
      cases hx : c.attrs with
      | nil => rw [hx] at h9; cases h9
      | cons a as =>
        rw [hx] at h9
        cases h9 with
        | cons h9 h10 =>
          cases h10
          obtain ⟨st, h9⟩ := h9
          obtain ⟨st', h8⟩ := h8
          rw [h8] at h9
          cases h9
          rfl
    intro pre ms post e
    have e : c.attrs = _ := e
    rw [ha] at e
    cases pre with
    | nil => cases e
    | cons a pre => exact absurd (List.cons.inj e).2 (by cases pre <;> exact nofun)
  have := C98_method id twoMethods c [] cp hc h1 1 _ m h hf
  rw [List.append_nil] at this
  exact ⟨_, this⟩

end Verif.Props
