import Verif.Lemmas.ReleaseBulk
import Verif.Props.ReleaseRead
import Verif.Props.Bulk

/-! # Property C106 in a build without overflow checks -/

namespace Verif.Props
open Spec Sig

/-- C106. In a build without overflow checks a class is bounded in the same way, also if it was read from a
file on which a build with checks panics. -/
theorem C106_unchecked {ord : Order} (ho : ∀ k n l, (ord k n l).Perm l) {used rest : Bytes} {x : Class}
    (h : Class.readW ord (used ++ rest) = .ok (x, rest)) :
    bulkClass x ≤ 16 * (min 65535 used.length + 1) * used.length := by
  have := class_bulkW ho h
  simp only [List.length_append, Nat.add_sub_cancel] at this
  unfold price at this
  rw [Nat.mul_add]
  exact this

/-- C106. So are types and signatures. -/
theorem C106_unchecked_text {d : Bytes} {s : Str} :
    (∀ t, JType.parseTypeW d = .ok t → bulkType t ≤ 8 * d.length) ∧
    (∀ t, Sig.parseRefW s = .ok t → bulkRef t ≤ 8 * s.length) ∧
    (∀ t, Sig.parseMethodW s = .ok t → bulkMethodSig t ≤ 8 * s.length) ∧
    (∀ t, Sig.parseClassW s = .ok t → bulkClassSig t ≤ 8 * s.length + 1) :=
  ⟨fun _ h => parseType_bulkW h, fun _ h => parseRef_bulkW h, fun _ h => parseMethod_bulkW h,
    fun _ h => parseClass_bulkW h⟩

/-- C106. And the classes are as large: more than 21000 times the size of the file. -/
theorem C106_unchecked_amplifies (ord : Order) : ∃ input x, Class.readW ord input = .ok (x, []) ∧
    21000 * input.length < bulkClass x := by
  obtain ⟨input, x, h1, h2⟩ := C106_amplifies ord
  exact ⟨input, x, C103_accepted_partial ord input [] x h1, h2⟩

/-- The `tableswitch` over all keys: with checks the reader panics, without it is read and has no branches. -/
example :
    let used := tinyFile noArgs [] [0xAA, 0, 0, 0, 0, 0, 0, 0, 0x80, 0, 0, 0, 0x7F, 0xFF, 0xFF, 0xFF] []
    Class.read (fun _ _ l => l) (used ++ [1, 2]) = .error .panic ∧
    (match Class.readW (fun _ _ l => l) (used ++ [1, 2]) with
    | .ok (x, rest) => rest == [1, 2] && x.methods.length == 1 && decide (bulkClass x < used.length)
    | .error _ => false) = true :=
  ⟨panics_iff (by decide +kernel), by decide +kernel⟩

/-- 256 brackets, which are counted from 0 again. -/
example : (match JType.parseTypeW (List.replicate 256 0x5B ++ [0x49]) with
    | .ok t => decide (bulkType t ≤ 2)
    | .error _ => false) = true := by decide +kernel

end Verif.Props
