import Verif.Lemmas.ReleaseHeft
import Verif.Lemmas.EncodeLen
import Verif.Props.ReleaseWrite
import Verif.Props.Bulk
import Verif.Props.ReleaseBulk
import Verif.Props.Growth

/-! # Property C111: the size of what is written, against what a class holds -/

namespace Verif.Props
open Spec

/-- C111. The file of a class is bounded by what the class holds. A bootstrap method counts wherever a cell
refers to it, also within the arguments of others (`bulkCell`), because it is written as often (C83). -/
theorem C111_class {x : Class} {out : Bytes} (h : x.write = .ok out) : out.length ≤ 8192 * bulkClass x :=
  class_heft h

/-- C111. The copy of a file is bounded by what the class holds with its bootstrap methods filled in. -/
theorem C111_rewritten {ord : Order} (ho : ∀ k n l, (ord k n l).Perm l) {input rest out : Bytes} {x : Class}
    (h : Class.read ord input = .ok (x, rest)) (hw : x.rewrite 65538 = .ok out) :
    out.length ≤ 8192 * bulkClass (completed x) :=
  class_heft ((C66_iff_partial ord ho input rest out x h).mp hw).2

/-- C111. Without uses of bootstrap methods (`Class.write` of the class as it was read does not come upon an empty
cell), the copy is bounded by the file. -/
theorem C111_copy {ord : Order} (ho : ∀ k n l, (ord k n l).Perm l) {used rest out : Bytes} {x : Class}
    (h : Class.read ord (used ++ rest) = .ok (x, rest)) (hw : x.write = .ok out) :
    out.length ≤ 8192 * (16 * (min 65535 used.length + 1) * used.length) :=
  Nat.le_trans (class_heft hw) (Nat.mul_le_mul_left _ (C106_class ho h))

/-- C111. The body of a method: at most this much, in bytes and in entries of the pool. -/
theorem C111_code {x : Code} {cp cp' : VecCp} {out : Bytes} (h : x.write cp = .ok (out, cp')) :
    out.length + heft cp' ≤ 8192 * bulkCode x + heft cp := weighs_code _ _ _ h

/-- C111. A type becomes a descriptor of at most 1024 bytes for every part of it, with and without loss. -/
theorem C111_type (t : JType) :
    (JType.toWtf8 t).length ≤ 1024 * bulkType t ∧ (JType.display t).length ≤ 1024 * bulkType t :=
  ⟨toWtf8_len t, display_len t⟩

/-- C111. A signature is printed with at most 256 chars for every part of it. -/
theorem C111_signature : (∀ r, (Sig.showR r).length ≤ 256 * bulkRef r) ∧
    (∀ m, (Sig.showMethod m).length ≤ 256 * bulkMethodSig m) ∧ (∀ c, (Sig.showClass c).length ≤ 256 * bulkClassSig c) :=
  ⟨fun r => Nat.le_of_succ_le (showR_len r), showMethod_len, showClass_len⟩

/-- C111. A string is encoded with at most twice its bytes. -/
theorem C111_string {s out : Bytes} (h : Mutf8.encode s = .ok out) : out.length ≤ 2 * s.length := encode_double h

/-- C111. It can take as many: every U+0000 takes two bytes. -/
theorem C111_string_tight (n : Nat) : ∃ out, Mutf8.encode (List.replicate n 0) = .ok out ∧ out.length = 2 * n := by
  have h : Wtf8.codepoints (List.replicate n 0) = some (List.replicate n 0) := by
    induction n with
    | zero => rw [List.replicate_zero, List.replicate_zero, Wtf8.codepoints]; rfl
    | succ n ih =>
      rw [List.replicate_succ, List.replicate_succ, Wtf8.codepoints]
      split
      · rename_i h; cases h
      · rename_i h; cases h
      · rename_i c rest h
        cases h
        rw [ih]
        rfl
  refine ⟨(List.replicate n 0).flatMap Mutf8.encodeCp, by rw [Mutf8.encode, h], ?_⟩
  clear h
  induction n with
  | zero => rfl
  | succ n ih =>
    rw [List.replicate_succ, List.flatMap_cons, List.length_append, ih]
    have : (Mutf8.encodeCp 0).length = 2 := rfl
    omega

/-- C111. In a build without overflow checks, too: where a class is written of which another build would panic, with an
index, a length or a key that wraps, the file is no larger for it. -/
theorem C111_unchecked {x : Class} {out : Bytes} (h : Class.writeW x = .ok out) : out.length ≤ 8192 * bulkClass x :=
  class_heftW h

/-- C111. The body of a method in a build without overflow checks. -/
theorem C111_unchecked_code {x : Code} {cp cp' : VecCp} {out : Bytes} (h : x.writeW cp = .ok (out, cp')) :
    out.length + heft cp' ≤ 8192 * bulkCode x + heft cp := weighs_codeW _ _ _ h

/-- C111. What is read and written in a build without overflow checks is bounded by the file that was read, also if a
build with checks panics on it. -/
theorem C111_unchecked_copy {ord : Order} (ho : ∀ k n l, (ord k n l).Perm l) {used rest out : Bytes} {x : Class}
    (h : Class.readW ord (used ++ rest) = .ok (x, rest)) (hw : Class.writeW x = .ok out) :
    out.length ≤ 8192 * (16 * (min 65535 used.length + 1) * used.length) :=
  Nat.le_trans (class_heftW hw) (Nat.mul_le_mul_left _ (C106_unchecked ho h))

/-- The `tableswitch` over all keys is read and written again, with checks it is not read. -/
example :
    let used := tinyFile noArgs [] [0xAA, 0, 0, 0, 0, 0, 0, 0, 0x80, 0, 0, 0, 0x7F, 0xFF, 0xFF, 0xFF] []
    Class.read (fun _ _ l => l) used = .error .panic ∧
    (match Class.readW (fun _ _ l => l) used with
    | .ok (x, rest) => rest == [] && (match Class.writeW x with | .ok out => out.length == used.length | .error _ => false)
    | .error _ => false) = true :=
  ⟨panics_iff (by decide +kernel), by decide +kernel⟩

/-- The method with `n` parameters that are arrays with 255 dimensions. -/
def deep (n : Nat) : JType := .method (List.replicate n (.array 255 .byte)) none

/-- C111. The factor must be large: a type of two parts can take 256 bytes, any number of times. -/
theorem C111_deep (n : Nat) : bulkType (deep n) = 2 * n + 2 ∧ (JType.display (deep n)).length = 256 * n + 3 := by
  have h1 : ∀ n, bulkTypes (List.replicate n (.array 255 .byte)) = 2 * n + 1 := by
    intro n
    induction n with
    | zero => rfl
    | succ n ih =>
      rw [List.replicate_succ, bulkTypes, ih, bulkType, bulkType]
      omega
  have h2 : ∀ n, (JType.displayAll (List.replicate n (.array 255 .byte))).length = 256 * n := by
    intro n
    induction n with
    | zero => rfl
    | succ n ih =>
      rw [List.replicate_succ, JType.displayAll, List.length_append, ih, JType.display, JType.display,
        List.length_append, List.length_replicate]
      simp only [List.length_singleton]
      have : (255 : UInt8).toNat = 255 := rfl
      omega
  constructor
  · rw [deep, bulkType, h1]
    omega
  · rw [deep, JType.display]
    simp only [List.length_append, h2, List.length_cons, List.length_nil]
    omega

/-- A class with a field, bodies, a call site and a bootstrap table. -/
example : ∃ bs, sampleClass.write = .ok bs ∧ bs.length = 426 ∧ bulkClass sampleClass = 114 := by
  obtain ⟨bs, hw, hl⟩ := written_of (x := sampleClass) (n := 426) (by decide +kernel)
  exact ⟨bs, hw, hl, by decide +kernel⟩

/-- Classes whose bootstrap methods have arguments with bootstrap methods of their own, which are written later: with
the inner one given, and after being read (`tableFile`). -/
example : ∃ bs, (smallClass [] [.bootstrapMethods [innerBsm, outerBsm]]).write = .ok bs ∧
    bs.length = 150 ∧ bulkClass (smallClass [] [.bootstrapMethods [innerBsm, outerBsm]]) = 55 := by
  obtain ⟨bs, hw, hl⟩ := written_of (x := smallClass [] [.bootstrapMethods [innerBsm, outerBsm]]) (n := 150) (by
    decide +kernel)
  exact ⟨bs, hw, hl, by decide +kernel⟩

example : (match Class.read (fun _ _ l => l) (tableFile [0, 12] []) with
    | .ok (x, rest) => rest == [] && bulkClass (completed x) == 85 && (match x.rewrite 65538 with
      | .ok out => out.length == 165
      | .error _ => false)
    | .error _ => false) = true := by decide +kernel

/-- A class without uses of bootstrap methods, which is copied byte for byte although it holds much more. -/
example : (match Class.read (fun _ _ l => l) (interfaceFile 100 100) with
    | .ok (x, rest) => rest == [] && bulkClass x == 10206 && (match x.write with
      | .ok out => out.length == 330
      | .error _ => false)
    | .error _ => false) = true := by decide +kernel

/-- The body of a method, written to an empty pool. -/
example : (match sampleBody.write VecCp.new with
    | .ok (out, cp) => out.length != 0 && out.length + heft cp ≤ 8192 * bulkCode sampleBody
    | .error _ => false) = true := by decide +kernel

/-- A class that only a build without overflow checks writes. -/
example : Class.write emptySwitch = .error .panic ∧ ∃ bs, Class.writeW emptySwitch = .ok bs ∧ bs.length = 90 ∧
    bulkClass emptySwitch = 21 := by
  obtain ⟨h, bs, hw, hl, _⟩ := C104_violated_switch
  exact ⟨h, bs, hw, hl, by decide +kernel⟩

/-- U+0000 takes two bytes, U+10000 six. -/
example : Mutf8.encode [0, 0xF0, 0x90, 0x80, 0x80] = .ok [0xC0, 0x80, 0xED, 0xA0, 0x80, 0xED, 0xB0, 0x80] := by
  decide +kernel

end Verif.Props
