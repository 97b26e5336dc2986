import Verif.Lemmas.Fresh
import Verif.Props.Again

/-! # Properties of labels (C86, C87)

A label is a number that a program may choose as it likes. -/

namespace Verif.Props
open Spec Sig

/-! ## C86 -/

/-- Only the places of labels matter: two bodies that differ in names of labels, in labels that are not used, in line
numbers and in all but the last place of a label are written as the same bytes with the same constant pool, or refused
with an error of the same kind, whatever the size of the body and whatever is in the pool before. -/
theorem C86_places (f : Label → Label) (x y : Code) (h : SamePlaces f x y) : ∀ cp, y.write cp = x.write cp :=
  fun _ => congrFun (same_places h) _

/-- Names can be changed in any way that keeps different labels different. -/
theorem C86_rename (f : Label → Label) (x : Code)
    (h : ∀ l ∈ allLabels x, ∀ l' ∈ allLabels x, f l = f l' → l = l') : ∀ cp, (renBody f x).write cp = x.write cp :=
  C86_places f x _ (renamed_places h)

/-- A label that nothing refers to can stand anywhere. -/
theorem C86_unused (x : Code) (as bs : List Insn) (hx : x.code = as ++ bs) (l : Label) (hl : l ∉ codeLabels x) :
    ∀ cp, Code.write { x with code := as ++ .label l :: bs } cp = x.write cp :=
  C86_places _ _ _ (idle_places hx (.inl hl))

/-- If a label is placed twice, the first place does not count. -/
theorem C86_twice (x : Code) (as bs : List Insn) (hx : x.code = as ++ bs) (l : Label) (hl : l ∈ placed bs) :
    ∀ cp, Code.write { x with code := as ++ .label l :: bs } cp = x.write cp :=
  C86_places _ _ _ (idle_places hx (.inr hl))

/-- Nothing is written for a line number. -/
theorem C86_line (x : Code) (as bs : List Insn) (hx : x.code = as ++ bs) (n : UInt16) :
    ∀ cp, Code.write { x with code := as ++ .lineNumber n :: bs } cp = x.write cp :=
  C86_places _ _ _ (lined_places hx)

/-- The same for the bodies of a class, each with its own names: the files are equal. -/
theorem C86_class (x y : Class) (hv : y.version = x.version) (ha : y.access = x.access) (hn : y.name = x.name)
    (hs : y.superName = x.superName) (hi : y.interfaces = x.interfaces) (hf : y.fields = x.fields)
    (hm : Matched (SameMethod fun b b' : Code => ∃ f, SamePlaces f b b') x.methods y.methods) (hat : y.attrs = x.attrs) :
    y.write = x.write := by
  refine class_bodies hv ha hn hs hi hf (matched_impl hm fun m _ m' h => ?_) hat
  refine ⟨h.access, h.name, h.descriptor, matched_impl h.attrs fun a _ a' haa => ?_⟩
  cases a <;> cases a' <;> first | (exact False.elim haa) | skip
  case code.code =>
    obtain ⟨f, h⟩ := haa
    exact same_places h
  all_goals exact haa

/-- A loop with a handler, an annotation of the handler and a variable. -/
def loopBody (a b : Label) : Code :=
  ⟨1, 1, [.label a, .noOp, .jump .always a, .label b], [⟨a, b, a, none⟩],
    [.visibleType [⟨.catchParam ⟨a, b, a, none⟩, [], .int, []⟩], .locals [⟨a, b, [105], some .int, none, 0⟩]]⟩

/-- Different labels are to stay different in `loopBody 3 8`. -/
example : ∀ l ∈ allLabels (loopBody 3 8), ∀ l' ∈ allLabels (loopBody 3 8),
    (fun l : Label => 100 - l) l = (fun l : Label => 100 - l) l' → l = l' := by decide

example : renBody (fun l => 100 - l) (loopBody 3 8) = loopBody 97 92 := rfl

/-- It is written, with either name. -/
example : (∃ r, (loopBody 3 8).write VecCp.new = .ok r) ∧
    ∀ cp, (loopBody 97 92).write cp = (loopBody 3 8).write cp :=
  ⟨⟨_, rfl⟩, C86_rename (fun l => 100 - l) (loopBody 3 8) (by decide)⟩

example : ∀ cp, Code.write { loopBody 3 8 with code := [.label 3, .noOp, .label 5, .jump .always 3, .label 8] } cp =
    (loopBody 3 8).write cp :=
  C86_unused _ [.label 3, .noOp] [.jump .always 3, .label 8] rfl 5 (by decide)

example : ∀ cp, Code.write { loopBody 3 8 with code := [.label 8, .label 3, .noOp, .jump .always 3, .label 8] } cp =
    (loopBody 3 8).write cp :=
  C86_twice _ [] [.label 3, .noOp, .jump .always 3, .label 8] rfl 8 (by decide)

example : ∀ cp, Code.write { loopBody 3 8 with code := [.label 3, .noOp, .jump .always 3, .lineNumber 7, .label 8] } cp =
    (loopBody 3 8).write cp :=
  C86_line _ [.label 3, .noOp, .jump .always 3] [.label 8] rfl 7

def firstBytes (r : Res (Bytes × VecCp)) : Option Bytes := match r with
  | .ok (bs, _) => some bs
  | .error _ => none

/-- If different labels get the same name, the bytes may be others: here the jump has another target. -/
theorem C86_merged : ∃ (f : Label → Label) (x : Code),
    firstBytes ((renBody f x).write VecCp.new) ≠ firstBytes (x.write VecCp.new) :=
  ⟨fun _ => 0, ⟨0, 0, [.label 1, .noOp, .jump .always 1, .label 2], [⟨1, 2, 1, none⟩], []⟩, by decide +kernel⟩

/-- A label that is placed twice is not refused. -/
example : ∃ r, Code.write ⟨0, 0, [.label 1, .noOp, .label 1, .jump .always 1], [], []⟩ VecCp.new = .ok r := ⟨_, rfl⟩

/-! ## C87 -/

/-- The labels of a body that was read are the numbers from 0 up to their number; each is placed once, and all labels
that occur anywhere in the body are among them. (For input below 2 GiB.) -/
theorem C87_body (ord : Nat → List LocalVariable → List LocalVariable) (hord : ∀ n l, (ord n l).Perm l)
    (env : REnv) (st st' : RSt) (bs rest : Bytes) (y : Code) (h : Code.read ord env st bs = .ok (y, st', rest))
    (hlen : bs.length < 2 ^ 31) :
    (placed y.code).Nodup ∧ (∀ l, l ∈ placed y.code ↔ l.toNat < (placed y.code).length) ∧
      (∀ l ∈ allLabels y, l ∈ placed y.code) ∧ (placed y.code).length < 2 ^ 31 := by
  obtain ⟨_, body, code, prs, ν, hb, hrec⟩ := read_sound hord h hlen
  have := congrArg List.length hb
  rw [List.length_append] at this
  obtain ⟨h1, h2, h3, h4⟩ := counted (by omega) hrec
  exact ⟨h1, h2, h3, h4⟩

/-- The same for the bodies of a class that was read. -/
theorem C87_class (ord : Order) (ho : ∀ k n l, (ord k n l).Perm l) (bs rest : Bytes) (x : Class)
    (h : Class.read ord bs = .ok (x, rest)) (hlen : bs.length < 2 ^ 31) :
    ∀ m ∈ x.methods, ∀ b : Code, .code b ∈ m.attrs →
      (placed b.code).Nodup ∧ (∀ l, l ∈ placed b.code ↔ l.toNat < (placed b.code).length) ∧
        (∀ l ∈ allLabels b, l ∈ placed b.code) ∧ (placed b.code).length < 2 ^ 31 := fun m hm b hb => by
  obtain ⟨h1, h2, h3, h4⟩ := read_bodies under_counted ho h hlen m hm b hb
  exact ⟨h1, h2, h3, h4⟩

/-- So a program that changes a body it has read gets a new label by counting those that are placed: no label of the body
is equal to it or to a greater number, and placing it anywhere leaves the bytes that are written as they are. -/
theorem C87_fresh (ord : Order) (ho : ∀ k n l, (ord k n l).Perm l) (bs rest : Bytes) (x : Class)
    (h : Class.read ord bs = .ok (x, rest)) (hlen : bs.length < 2 ^ 31) (m : Method) (hm : m ∈ x.methods) (b : Code)
    (hb : .code b ∈ m.attrs) (l : Label) (hl : (placed b.code).length ≤ l.toNat) :
    l ∉ allLabels b ∧ ∀ as cs, b.code = as ++ cs →
      ∀ cp, Code.write { b with code := as ++ .label l :: cs } cp = b.write cp := by
  have hf := counted_fresh (read_bodies under_counted ho h hlen m hm b hb) hl
  exact ⟨hf, fun as cs e => C86_unused b as cs e l fun h => hf (List.mem_append_left _ (List.mem_append_right _ h))⟩

/-- There is such a label. -/
theorem C87_next (ord : Order) (ho : ∀ k n l, (ord k n l).Perm l) (bs rest : Bytes) (x : Class)
    (h : Class.read ord bs = .ok (x, rest)) (hlen : bs.length < 2 ^ 31) (m : Method) (hm : m ∈ x.methods) (b : Code)
    (hb : .code b ∈ m.attrs) : UInt32.ofNat (placed b.code).length ∉ allLabels b := by
  have := (C87_class ord ho bs rest x h hlen m hm b hb).2.2.2
  refine (C87_fresh ord ho bs rest x h hlen m hm b hb _ ?_).1
  rw [UInt32.toNat_ofNat', Nat.mod_eq_of_lt (by omega)]
  exact Nat.le_refl _

/-- A class with a body that has a jump is read. -/
example : ∃ m ∈ plainClass.methods, ∃ b : Code, .code b ∈ m.attrs ∧ placed b.code = [0] ∧
    UInt32.ofNat 1 ∉ allLabels b := by
  refine ⟨_, .head _, _, .head _, rfl, ?_⟩
  exact C87_next (fun _ _ l => l) (fun _ _ _ => .refl _) plainFile [] plainClass plainClass_read (by decide) _ (.head _) _ (.head _)

end Verif.Props
