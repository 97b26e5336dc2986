import Verif.Lemmas.BulkFile

/-! # Property C106: how much a class holds, against the size of its file -/

namespace Verif.Props
open Spec

/-- C106. What a class holds is bounded by what was read of its input: the bytes that were taken, each at
the price of sixteen bytes for every byte of the longest string that the pool can have. -/
theorem C106_class {ord : Order} (ho : ∀ k n l, (ord k n l).Perm l) {used rest : Bytes} {x : Class}
    (h : Class.read ord (used ++ rest) = .ok (x, rest)) :
    bulkClass x ≤ 16 * (min 65535 used.length + 1) * used.length := by
  have := class_bulk ho h
  simp only [List.length_append, Nat.add_sub_cancel] at this
  unfold price at this
  rw [Nat.mul_add]
  exact this

/-- C106. In other words it grows linearly with the file: no node of the model is paid with less than a
byte of the file, and a string of the pool has at most 65535 bytes. -/
theorem C106_linear {ord : Order} (ho : ∀ k n l, (ord k n l).Perm l) {used rest : Bytes} {x : Class}
    (h : Class.read ord (used ++ rest) = .ok (x, rest)) : bulkClass x ≤ 1048576 * used.length := by
  refine Nat.le_trans (C106_class ho h) (Nat.mul_le_mul_right _ ?_)
  omega

theorem bulkL_len {α : Type} {f : α → Nat} (hf : ∀ a, 1 ≤ f a) : ∀ xs : List α, xs.length + 1 ≤ bulkL f xs
  | [] => Nat.le_refl _
  | x :: xs => by
    have := bulkL_len hf xs
    have := hf x
    simp only [bulkL, List.length_cons]
    omega

theorem bulkL_mem {α : Type} {f : α → Nat} {a : α} : ∀ {xs : List α}, a ∈ xs → f a ≤ bulkL f xs
  | x :: xs, h => by
    rcases List.mem_cons.mp h with rfl | h
    · simp only [bulkL]
      omega
    · have := bulkL_mem (f := f) h
      simp only [bulkL]
      omega

theorem bulkInsn_pos (i : Insn) : 1 ≤ bulkInsn i := by
  cases i <;> simp only [bulkInsn] <;> omega

/-- C106. In particular for the number of instructions in the body of any method. -/
theorem C106_code {ord : Order} (ho : ∀ k n l, (ord k n l).Perm l) {used rest : Bytes} {x : Class}
    (h : Class.read ord (used ++ rest) = .ok (x, rest)) {m : Method} (hm : m ∈ x.methods) {c : Code}
    (hc : MethodAttrOf.code c ∈ m.attrs) : c.code.length < 1048576 * used.length := by
  have h1 := C106_linear ho h
  have h2 := bulkL_mem (f := bulkMethod) hm
  have h3 := bulkL_mem (f := bulkMethodAttr) hc
  have h4 := bulkL_len (f := bulkInsn) bulkInsn_pos c.code
  simp only [bulkClass, bulkMethod, bulkMethodAttr, bulkCode] at h1 h2 h3
  omega

/-- C106. A type that is parsed from a descriptor holds at most eight times the descriptor. -/
theorem C106_type {s : Bytes} {t : JType} (h : JType.parseType s = .ok t) : bulkType t ≤ 8 * s.length :=
  parseType_bulk h

/-- C106. The same for the three kinds of signatures. -/
theorem C106_signature {s : Str} :
    (∀ t, Sig.parseRef s = .ok t → bulkRef t ≤ 8 * s.length) ∧
    (∀ t, Sig.parseMethod s = .ok t → bulkMethodSig t ≤ 8 * s.length) ∧
    (∀ t, Sig.parseClass s = .ok t → bulkClassSig t ≤ 8 * s.length + 1) :=
  ⟨fun _ h => Sig.parseRef_bulk h, fun _ h => Sig.parseMethod_bulk h, fun _ h => Sig.parseClass_bulk h⟩

/-- C106. A string of the pool is never longer in memory than in the file. -/
theorem C106_string {bs s rest : Bytes} (h : readString bs = .ok (s, rest)) :
    s.length + rest.length < bs.length ∧ s.length ≤ 65535 := by
  have h1 : rest.length + (s.length + 1) ≤ bs.length := fans_string _ _ _ h
  exact ⟨by omega, string_short h⟩

/-- C106. The price of a string cannot be left out: every interface is given its own copy of its name. A
file in which `n` interfaces have the same name of `l` bytes has `30 + l + 2 * n` bytes, but the class
holds more than `n * l`. -/
theorem C106_grows (ord : Order) {l n : Nat} (hl : l ≤ 65535) (hn : n ≤ 65535) : ∃ x,
    Class.read ord (interfaceFile l n) = .ok (x, []) ∧ (interfaceFile l n).length = 30 + l + 2 * n ∧
    n * l < bulkClass x := by
  refine ⟨_, interfaces_read ord hl hn, interfaceFile_length l n, ?_⟩
  have h : ∀ n, bulkL bulkS (List.replicate n (List.replicate l (0x41 : UInt8))) = n * (l + 1) + 1 := by
    intro n
    induction n with
    | zero => simp [bulkL]
    | succ n ih =>
      rw [List.replicate_succ, bulkL, ih, bulkS, List.length_replicate, Nat.succ_mul]
      omega
  simp only [bulkClass, interfaceClass, h, Nat.mul_add]
  omega

/-- C106. With the largest `l` and `n` the class holds more than 21000 times the size of the file. -/
theorem C106_amplifies (ord : Order) : ∃ input x, Class.read ord input = .ok (x, []) ∧
    21000 * input.length < bulkClass x := by
  obtain ⟨x, h1, h2, h3⟩ := C106_grows ord (l := 65535) (n := 65535) (Nat.le_refl _) (Nat.le_refl _)
  exact ⟨_, x, h1, by omega⟩

/-- The file is read to its end, and the bound of `C106_class` is not far away from what it holds. -/
example : (match Class.read (fun _ _ l => l) (interfaceFile 100 100 ++ [1, 2, 3]) with
    | .ok (x, rest) => rest == [1, 2, 3] && x.interfaces.length == 100 && bulkClass x == 10206
    | .error _ => false) = true := by decide +kernel

/-- A method with a body. -/
example : (match Class.read (fun _ _ l => l) (tinyFile noArgs [] [0, 0, 0, 0xB1] []) with
    | .ok (x, _) => x.methods.any fun m => m.attrs.any fun
      | .code c => c.code.length == 4
      | _ => false
    | .error _ => false) = true := by decide +kernel

/-- `(I[LA;)V`. -/
example : (match JType.parseType [0x28, 0x49, 0x5B, 0x4C, 0x41, 0x3B, 0x29, 0x56] with
    | .ok t => bulkType t == 7
    | .error _ => false) = true := by decide +kernel

/-- `LA<TB;>;`. -/
example : (match Sig.parseRef [0x4C, 0x41, 0x3C, 0x54, 0x42, 0x3B, 0x3E, 0x3B] with
    | .ok t => bulkRef t == 18
    | .error _ => false) = true := by decide +kernel

/-- A string of two bytes in the file that has one byte. -/
example : readString [0, 2, 0xC0, 0x80, 7] = .ok ([0], [7]) := by decide +kernel

end Verif.Props
