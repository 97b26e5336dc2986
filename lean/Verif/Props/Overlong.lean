import Verif.Spec.Overlong
import Verif.Props.Framing
import Verif.Props.Input

/-! # Property C97: the length error names an attribute of the file and the length it should have -/

namespace Verif.Props
open Spec

/-- What the error says is used is what the content takes up. -/
theorem used_part {w b left : Bytes} (e : w = b ++ left) (hn : left ≠ []) (hw : w.length < 4294967296) :
    let u := UInt32.ofNat w.length - UInt32.ofNat left.length
    u < UInt32.ofNat w.length ∧ u.toNat = b.length ∧ w.take u.toNat = b := by
  subst e
  have hl : 0 < left.length := by
    cases left with
    | nil => exact absurd rfl hn
    | cons => simp
  simp only [used_length]
  simp only [List.length_append] at hw
  have h1 : (UInt32.ofNat b.length).toNat = b.length := by simp; omega
  refine ⟨UInt32.lt_iff_toNat_lt.mpr ?_, h1, by rw [h1, List.take_left]⟩
  rw [h1]
  simp only [List.length_append, UInt32.toNat_ofNat']
  omega

theorem only_length {α : Type} {read : Rd α} {P : Pool} {i : UInt16} {w b left : Bytes} (e : w = b ++ left)
    (hw : w.length < 4294967296) {cs : Option (List Catch)} {st st' : RSt} {a : α}
    (h : read ⟨P, cs⟩ st (U2 i.toNat ++ U4 b.length ++ b) = .ok (a, st', []))
    (h1 : ∀ more, more ≠ [] → (b ++ more).length < 4294967296 →
      ∃ e, read ⟨P, cs⟩ st (U2 i.toNat ++ U4 (b ++ more).length ++ (b ++ more)) = .error e)
    (h2 : ∀ less more, b = less ++ more → more ≠ [] →
      ∃ e, read ⟨P, cs⟩ st (U2 i.toNat ++ U4 less.length ++ less) = .error e) : OnlyLength read P i w b.length := by
  subst e
  refine ⟨cs, st, ⟨a, st', by rw [List.take_left]; exact h⟩, fun k hk hne => ?_⟩
  simp only [List.length_append] at hk hw
  by_cases hlt : k < b.length
  · have hd := (List.take_append_drop k b).symm
    have := h2 (b.take k) (b.drop k) hd (fun h0 => by
      have := congrArg List.length h0
      simp at this
      omega)
    rw [List.length_take, Nat.min_eq_left (by omega)] at this
    rw [List.take_append_of_le_length (by omega)]
    exact this
  · have := h1 (left.take (k - b.length)) (fun h0 => by
      have := congrArg List.length h0
      rw [List.length_take, List.length_nil] at this
      omega) (by simp only [List.length_append, List.length_take]; omega)
    rw [List.length_append, List.length_take, Nat.min_eq_left (by omega),
      show b.length + (k - b.length) = k by omega] at this
    rw [List.take_append, List.take_of_length_le (by omega)]
    exact this

theorem only_table {α : Type} {table : Bytes → Option (Rd α)} (raw : RawAttribute → α) {P : Pool} {i : UInt16}
    {name w left : Bytes} {r : Rd α} {cs : Option (List Catch)} {st st' : RSt} {a : α} (hi : IsUtf8 P i name)
    (ht : table name = some r) (hr : Local r) (h : r ⟨P, cs⟩ st w = .ok (a, st', left)) (hn : left ≠ [])
    (hw : w.length < 4294967296) {u : UInt32} (hu : u = UInt32.ofNat w.length - UInt32.ofNat left.length) :
    u < UInt32.ofNat w.length ∧ OnlyLength (rAttr table raw) P i w u.toNat := by
  obtain ⟨b, e, h'⟩ := hr _ _ _ _ _ _ h
  obtain ⟨h1, h2, h3⟩ := used_part e hn hw
  subst hu
  refine ⟨h1, ?_⟩
  rw [h2]
  have hb : b.length < 4294967296 := by
    have := congrArg List.length e
    simp only [List.length_append] at this
    omega
  have hb0 := h' []
  rw [List.append_nil] at hb0
  have h4 := rAttr_eq table raw (rest := []) (cs := cs) hi ht hb st
  rw [hb0, List.append_nil] at h4
  refine only_length e hw h4 (fun more hm hl => ?_) fun less more el hm => ?_
  · have := attr_longer (raw := raw) (rest := []) hi ht hr hb0 hm hl
    rw [List.append_nil] at this
    exact ⟨_, this⟩
  · have := attr_shorter (raw := raw) (rest := []) (body := less) (more := more) hi ht hr (el ▸ hb0) hm (by
      have := congrArg List.length el
      simp only [List.length_append] at this
      omega)
    rw [List.append_nil] at this
    exact this

theorem some_names {α : Type} {t : Bytes → Option (Rd α)} {names : List Bytes} {n : Bytes} {r : Rd α}
    (h : t n = some r) (hn : n ∉ names → t n = none) : n ∈ names :=
  Classical.byContradiction fun h' => by rw [hn h'] at h; cases h

/-- C97. When reading a class file ends with the error about the length of an attribute, then that attribute is in the
file with the length that is reported, and cut to the length that the error says is used it would be accepted. -/
theorem C97_points (ord : Order) (ho : ∀ n k vs, (ord n k vs).Perm vs) (input : Bytes) (claimed used : UInt32)
    (name : Bytes) (h : Class.read ord input = .error (.attrLen claimed used name)) :
    Overlong input claimed used name := by
  have hc := read_class ord input
  rw [h] at hc
  obtain ⟨cp, rest, i, w, left, h1, h2, h3, h4, h5, h6, h7, h8⟩ := hc.1.2 _ _ _ rfl
  have hlen : claimed.toNat = w.length := by rw [h6]; simp; omega
  have fin : used < UInt32.ofNat w.length ∧ RightLength cp.get i name w used.toNat →
      Overlong input claimed used name := fun ⟨ha, hb⟩ =>
    ⟨cp, rest, i, w, h1, h2, by rw [hlen, List.append_assoc]; exact h3, hlen.symm, h6 ▸ ha, hb⟩
  refine fin ?_
  rcases h8 with ⟨r, cs, st, a, st', ht, hr⟩ | ⟨r, cs, st, a, st', ht, hr⟩ | ⟨n, r, cs, st, a, st', ht, hr⟩ |
    ⟨r, cs, st, a, st', ht, hr⟩
  · have hx : name ≠ N.sourceDebugExtension := by
      rintro rfl
      cases ht
      obtain ⟨x, st1, bs1, k1, k2⟩ := Rd.bind_ok hr
      cases k2
      unfold rDebugExt at k1
      split at k1 <;> cases k1
      exact h5 rfl
    have k := only_table ClassAttr.raw h2 ht (Local.classTable hx r ht) hr h5 h4 h7
    exact ⟨k.1, .inl ⟨some_names ht classTable_none, k.2⟩⟩
  · have k := only_table FieldAttr.raw h2 ht (Local.fieldTable r ht) hr h5 h4 h7
    exact ⟨k.1, .inr (.inl ⟨some_names ht fieldTable_none, k.2⟩)⟩
  · have hm := some_names ht methodTable_none
    have key : ∀ ord' : Order, (∀ n k vs, (ord' n k vs).Perm vs) → ∀ m, ∃ r' x, MethodAttr.table (ord' m) name = some r' ∧
        ∃ b, w = b ++ left ∧ r' ⟨cp.get, cs⟩ st b = .ok (x, st', []) := by
      intro ord' ho' m
      obtain ⟨r1, r0, r', e1, e0, e', hloc, hp, hp', _⟩ := method_readers ho ho' n m hm
      rw [ht] at e1
      cases e1
      rcases hp ⟨cp.get, cs⟩ st w with ⟨_, k1, _⟩ | ⟨x, y, s, l, k1, k2, k3⟩
      · rw [hr] at k1; cases k1
      rw [hr] at k1
      cases k1
      obtain ⟨b, e, hb⟩ := hloc _ _ _ _ _ _ k2
      have hb := hb []
      rw [List.append_nil] at hb
      rcases hp' ⟨cp.get, cs⟩ st b with ⟨_, k4, _⟩ | ⟨x', y', s', l', k4, k5, k6⟩
      · rw [hb] at k4; cases k4
      rw [hb] at k4
      cases k4
      exact ⟨r', y', e', b, e, k5⟩
    obtain ⟨_, _, _, b, e, _⟩ := key ord ho 0
    obtain ⟨u1, u2, _⟩ := used_part e h5 h4
    have hb : b.length < 4294967296 := by
      have := congrArg List.length e
      simp only [List.length_append] at this
      omega
    rw [h7]
    refine ⟨u1, .inr (.inr (.inl ⟨hm, fun ord' ho' => ?_⟩))⟩
    rw [u2]
    obtain ⟨r', x, e', b', eb, hx⟩ := key ord' ho' (U2 i.toNat ++ U4 b.length ++ b).length
    rw [e] at eb
    cases List.append_cancel_right eb
    have k : MethodAttr.read ord' ⟨cp.get, cs⟩ st (U2 i.toNat ++ U4 b.length ++ b) = .ok (x, st', []) := by
      have k := rAttr_eq (MethodAttr.table (ord' (U2 i.toNat ++ U4 b.length ++ b).length)) .raw (rest := [])
        (cs := cs) h2 e' hb st
      rw [hx, List.append_nil] at k
      exact k
    obtain ⟨_, c1, c2⟩ := C42_method_length ord' ord' ho' ho' cp.get cs st st' i name b x h2 hm hb k
    exact only_length e h4 k (fun more hm hl => ⟨_, by simpa using c1 more [] hm hl⟩)
      fun less more el hm => by simpa using c2 less more [] el hm
  · have k := only_table CodeAttr.raw h2 ht (Local.codeTable r ht) hr h5 h4 h7
    exact ⟨k.1, .inr (.inr (.inr ⟨some_names ht codeTable_none, k.2⟩))⟩

/-- A line number table that claims one byte too many, in a body whose own length is right. -/
def longTable : Bytes :=
  tinyFile noArgs [utf8Bytes N.lineNumberTable] [0xB1] [[0, 5, 0, 0, 0, 7, 0, 1, 0, 0, 0, 9, 0xEE]]

theorem longTable_error : Class.read (fun _ _ l => l) longTable = .error (.attrLen 7 6 N.lineNumberTable) := by
  with_unfolding_all rfl

example : Overlong longTable 7 6 N.lineNumberTable :=
  C97_points _ (fun _ _ _ => .refl _) _ _ _ _ longTable_error

end Verif.Props
