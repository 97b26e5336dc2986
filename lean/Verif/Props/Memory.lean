import Verif.Lemmas.Memory
import Verif.Props.Input

/-! # C85: how much memory reading a class asks for at once

`Class.readM g` reads with an allocator that grants the requests `n` (in bytes) with `g n`; a refused one aborts the
process (`diverge`). -/

namespace Verif.Props
open Spec

/-- Full claim: an allocator that grants every request of at most the length of the file is enough. -/
def C85_full : Prop := ∀ (ord : Order) (g : Grants) (bs : Bytes), (∀ n ≤ bs.length, g n = true) →
  Class.readM g ord bs = Class.read ord bs

/-- A class with one method, whose only instruction is a `tableswitch` from 0 to `0x7FFFFFFE` without its table. -/
def hugeSwitch : Bytes := tinyFile noArgs [] [0xAA, 0, 0, 0, 0, 0, 0, 0, 0, 0, 0, 0, 0x7F, 0xFF, 0xFF, 0xFE] []

/-- A class with one attribute, of `0xFFFFFFFF` bytes that are not there. -/
def hugeAttribute : Bytes := tinyFile noArgs [] [0xB1] [] [[0, 1, 0xFF, 0xFF, 0xFF, 0xFF]]

theorem hugeSwitch_length : hugeSwitch.length = 86 := by decide +kernel
theorem hugeAttribute_length : hugeAttribute.length = 77 := by decide +kernel

/-- Whatever the allocator refuses: the answer is that of the reader, or the process is aborted; and it is aborted only
after a request that was refused, of at most 8 GiB less 4 bytes. -/
theorem C85_same_partial (ord : Order) (g : Grants) (bs : Bytes) :
    Class.readM g ord bs = Class.read ord bs ∨
      (Class.readM g ord bs = .error .diverge ∧ ∃ n, n ≠ 0 ∧ n ≤ 8589934588 ∧ g n = false) := by
  rw [← class_always]
  rcases class_asks (g := g) (g' := always) (fun _ _ => rfl) ord bs with h | ⟨h, n, h1, h2, _⟩
  · exact .inl h
  · unfold Grants.gives at h1
    rw [Bool.or_eq_false_iff] at h1
    exact .inr ⟨h, n, by simpa using h1.1, h2, h1.2⟩

/-- The reader itself never answers `diverge`, so that the two cases exclude each other. -/
theorem C85_apart (ord : Order) (bs : Bytes) : Class.read ord bs ≠ .error .diverge := by
  intro h
  have := read_class ord bs
  rw [h] at this
  exact this.2.1 rfl

/-- Proved: 8 GiB less 4 bytes at once are enough for every input. -/
theorem C85_bound_partial (ord : Order) (g : Grants) (hg : ∀ n ≤ 8589934588, g n = true) (bs : Bytes) :
    Class.readM g ord bs = Class.read ord bs := by
  rcases C85_same_partial ord g bs with h | ⟨_, n, _, h1, h2⟩
  · exact h
  · rw [hg n h1] at h2; cases h2

/-- Proved: for a file that is accepted the full claim holds. -/
theorem C85_accepted_partial (ord : Order) (g : Grants) (bs : Bytes) (hg : ∀ n ≤ bs.length, g n = true)
    {x : Class} {rest : Bytes} (h : Class.read ord bs = .ok (x, rest)) : Class.readM g ord bs = .ok (x, rest) := by
  rw [← h, ← class_always]
  rcases class_asks (g := g) (g' := always) (fun _ _ => rfl) ord bs with h' | ⟨_, n, h1, _, h3⟩
  · exact h'
  · unfold Grants.gives at h1
    rw [Bool.or_eq_false_iff, hg n (h3 _ (by rw [class_always]; exact h))] at h1
    cases h1.2

/-- An allocator that grants more does not make reading fail. -/
theorem C85_mono (ord : Order) {g g' : Grants} (hg : ∀ n, g n = true → g' n = true) (bs : Bytes)
    (h : Class.readM g' ord bs = .error .diverge) : Class.readM g ord bs = .error .diverge := by
  rcases class_asks hg ord bs with h' | ⟨h', _⟩
  · rw [h', h]
  · exact h'

theorem refuses {g : Grants} {k : Nat} (h : g k = false) : ∀ n, g n = true → (n != k) = true := by
  intro n hn
  rw [bne_iff_ne]
  rintro rfl
  rw [h] at hn
  cases hn

set_option maxRecDepth 100000 in
/-- The bound is reached: this file asks for 8 GiB less 4 bytes, and is then refused for being too short. -/
theorem C85_reached (ord : Order) (g : Grants) (hg : g 8589934588 = false) :
    Class.readM g ord hugeSwitch = .error .diverge ∧ Class.read ord hugeSwitch = .error .io :=
  ⟨C85_mono ord (refuses hg) _ (by with_unfolding_all rfl), by with_unfolding_all rfl⟩

set_option maxRecDepth 100000 in
/-- An attribute asks for up to 4 GiB less 1 byte. -/
theorem C85_attribute_reached (ord : Order) (g : Grants) (hg : g 4294967295 = false) :
    Class.readM g ord hugeAttribute = .error .diverge ∧ Class.read ord hugeAttribute = .error .io :=
  ⟨C85_mono ord (refuses hg) _ (by with_unfolding_all rfl), by with_unfolding_all rfl⟩

theorem C85_violated : ¬ C85_full := by
  intro h
  have h1 := h (fun _ _ l => l) (fun n => n != 8589934588) hugeSwitch (by
    intro n hn
    rw [hugeSwitch_length] at hn
    rw [bne_iff_ne]
    omega)
  rw [(C85_reached _ (fun n => n != 8589934588) (by decide)).1, (C85_reached _ (fun n => n != 8589934588) (by decide)).2] at h1
  cases h1

theorem attr_header {α : Type} (table : Bytes → Option (Rd α)) (raw : RawAttribute → α) {P : Pool}
    {cs : Option (List Catch)} {name rest : Bytes} {i : UInt16} (hi : IsUtf8 P i name) {n : Nat} (h0 : n ≠ 0)
    (hn : n < 4294967296) {g : Grants} (hg : g n = false) (st : RSt) :
    rAttrM g table raw ⟨P, cs⟩ st (U2 i.toNat ++ U4 n ++ rest) = .error .diverge := by
  have hgive : g.gives (UInt32.ofNat n).toNat = false := by
    simp only [UInt32.toNat_ofNat', Nat.mod_eq_of_lt (show n < 2 ^ 32 by omega)]
    unfold Grants.gives
    rw [hg, Bool.or_false]
    simpa using h0
  unfold rAttrM Rd.bind
  rw [List.append_assoc, show rUtf8 ⟨P, cs⟩ st (U2 i.toNat ++ (U4 n ++ rest)) = .ok (name, st, U4 n ++ rest) from
    PReads.idx (wtf8_of hi) st _]
  simp only
  rcases table name with _ | r
  · simp only [Rd.map, Rd.bind]
    unfold rRawBodyM
    rw [readsU4' _ hn]
    simp only [hgive]
    rfl
  · simp only
    unfold rFramedM
    rw [readsU4' _ hn]
    simp only [hgive]
    rfl

/-- Six bytes are enough to ask for any `n` below 4 GiB: an attribute of a class, a field, a method or a code array whose
length is given as `n`, whatever follows. -/
theorem C85_header {P : Pool} {cs : Option (List Catch)} {name rest : Bytes} {i : UInt16} (hi : IsUtf8 P i name)
    {n : Nat} (h0 : n ≠ 0) (hn : n < 4294967296) {g : Grants} (hg : g n = false) (st : RSt) (ord : Order) :
    ClassAttr.readM g ⟨P, cs⟩ st (U2 i.toNat ++ U4 n ++ rest) = .error .diverge ∧
    FieldAttr.readM g ⟨P, cs⟩ st (U2 i.toNat ++ U4 n ++ rest) = .error .diverge ∧
    MethodAttr.readM g ord ⟨P, cs⟩ st (U2 i.toNat ++ U4 n ++ rest) = .error .diverge ∧
    CodeAttr.readM g ⟨P, cs⟩ st (U2 i.toNat ++ U4 n ++ rest) = .error .diverge :=
  ⟨attr_header _ _ hi h0 hn hg st, attr_header _ _ hi h0 hn hg st, attr_header _ _ hi h0 hn hg st,
    attr_header _ _ hi h0 hn hg st⟩

/-- A pool with one name, and an allocator with 16 MiB: the header asks for 3 GiB. -/
example : ClassAttr.readM (fun n => n ≤ 16777216) ⟨fun i => if i = 1 then some (.utf8 [0x41]) else none, none⟩
    ⟨[], none⟩ (U2 (1 : UInt16).toNat ++ U4 3221225472 ++ []) = .error .diverge :=
  (C85_header (name := [0x41]) (i := 1) (by rfl) (by decide) (by decide) (by decide) _ (fun _ _ l => l)).1

/-- A file with a method, an attribute and a table of two offsets is read with room for no more than its length. -/
def smallSwitch : Bytes := tinyFile noArgs []
  [0xAA, 0, 0, 0, 0, 0, 0, 0, 0, 0, 0, 0, 0, 0, 0, 1, 0, 0, 0, 0, 0, 0, 0, 0] [] [[0, 1, 0, 0, 0, 2, 7, 7]]

set_option maxRecDepth 100000 in
example : ∃ x, Class.readM (fun n => n ≤ smallSwitch.length) (fun _ _ l => l) smallSwitch = .ok (x, []) := by
  obtain ⟨x, h⟩ : ∃ x, Class.read (fun _ _ l => l) smallSwitch = .ok (x, []) := ⟨_, by with_unfolding_all rfl⟩
  exact ⟨x, C85_accepted_partial _ _ _ (fun n hn => by simpa using hn) h⟩

set_option maxRecDepth 100000 in
/-- It asks for less than that: but with room for 7 bytes reading is aborted. -/
example : Class.readM (fun n => n ≤ 7) (fun _ _ l => l) smallSwitch = .error .diverge := by with_unfolding_all rfl

end Verif.Props
