import Verif.Lemmas.Class
import Verif.Lemmas.Size
import Verif.Lemmas.BulkText
import Verif.Spec.Heft

/-! # The size of what is written

What a writer appends, and what the entries that it adds to the pool and the bootstrap methods that it leaves for later
will take, is bounded by a multiple of what it is given. -/

namespace Verif
open Spec Sig

/-- A writer that appends, in bytes or in debts, at most `n`. -/
def Weighs {α : Type} (sz : α → Nat) (n : Nat) (w : Ins α) : Prop :=
  ∀ cp a cp', w cp = .ok (a, cp') → sz a + heft cp' ≤ n + heft cp

/-- A writer of bytes. -/
abbrev WeighsB (n : Nat) (w : Ins Bytes) : Prop := Weighs List.length n w

/-- An insertion. -/
abbrev WeighsI (n : Nat) (w : Ins UInt16) : Prop := Weighs (fun _ => 0) n w

namespace Weighs
variable {α β : Type} {sz : α → Nat} {sz' : β → Nat}

theorem mono {n m : Nat} {w : Ins α} (h : Weighs sz n w) (hn : n ≤ m) : Weighs sz m w := fun cp a cp' e => by
  have := h cp a cp' e
  omega

theorem pure (a : α) : Weighs sz (sz a) (Pure.pure a : Ins α) := by
  intro cp b cp' h
  cases h
  exact Nat.le_refl _

theorem fail {e : Err} {n : Nat} : Weighs sz n (Ins.fail e : Ins α) := by
  intro cp b cp' h
  cases h

theorem lift_bind {r : Res α} {f : α → Ins β} {n : Nat} (h : ∀ a, r = .ok a → Weighs sz' n (f a)) :
    Weighs sz' n (Ins.lift r >>= f) := by
  intro cp b cp' e
  rcases r with e' | a
  · cases e
  · exact h a rfl _ _ _ e

theorem bind {m : Ins α} {f : α → Ins β} {n k : Nat} (h1 : Weighs sz n m) (h2 : ∀ a, Weighs sz' (sz a + k) (f a)) :
    Weighs sz' (n + k) (m >>= f) := by
  intro cp b cp' e
  obtain ⟨a, cp1, e1, e2⟩ := Ins.bind_ok e
  have := h1 _ _ _ e1
  have := h2 a _ _ _ e2
  omega

theorem raw (e : Entry) : WeighsI (heftEntry e) (insertRaw e) := by
  intro cp a cp' h
  unfold insertRaw at h
  split at h
  · cases h
    show 0 + heft cp ≤ _
    omega
  · split at h
    · cases h
      simp only [heft, List.map_append, List.sum_append, List.map_cons, List.map_nil, List.sum_cons, List.sum_nil]
      omega
    · cases h

theorem bsm (b : Bsm) : WeighsI (8192 * bulkBsm b) (insertBsm b) := by
  intro cp a cp' h
  cases h
  simp only [heft, List.map_append, List.sum_append, List.map_cons, List.map_nil, List.sum_cons, List.sum_nil]
  omega

theorem u16_len (x : UInt16) : (u16.write x).length = 2 := toBe_length 2 _

theorem idx {i : Ins UInt16} {n : Nat} (h : WeighsI n i) : WeighsB (n + 2) (wIdx i) :=
  bind h fun a => (pure (u16.write a)).mono (by rw [u16_len]; omega)

theorem nil : WeighsB 0 (wSeq []) := pure _

theorem cons {w : Ins Bytes} {ws : List (Ins Bytes)} {n k : Nat} (h : WeighsB n w) (hs : WeighsB k (wSeq ws)) :
    WeighsB (n + k) (wSeq (w :: ws)) :=
  bind h fun a => (bind hs fun b => (pure (a ++ b)).mono (by
    rw [List.length_append]
    exact Nat.le_of_eq (Nat.add_comm _ _))).mono (by exact Nat.le_of_eq (Nat.add_comm _ _))

theorem all {w : α → Ins Bytes} {f : α → Nat} {xs : List α} (h : ∀ x ∈ xs, WeighsB (8192 * f x) (w x)) {n : Nat}
    (hn : 8192 * bulkL f xs ≤ n + 8192) : WeighsB n (wAll w xs) := by
  induction xs generalizing n with
  | nil => exact (pure []).mono (Nat.zero_le _)
  | cons x xs ih =>
    rw [bulkL] at hn
    have hb : 1 ≤ bulkL f xs := by
      clear ih hn h
      induction xs with
      | nil => exact Nat.le_refl _
      | cons y ys ih => rw [bulkL]; omega
    exact (cons (h x (by simp)) (ih (n := n - 8192 * f x) (fun y hy => h y (by simp [hy])) (by omega))).mono (by omega)

theorem num {c : NumCodec α} {x : α} : WeighsB c.size (wNum c x) := (pure (c.write x)).mono (by
  show (toBe _ _).length ≤ _
  rw [toBe_length]
  exact Nat.le_refl _)

theorem u8n {x : UInt8} : WeighsB 1 (wNum u8 x) := num
theorem u16n {x : UInt16} : WeighsB 2 (wNum u16 x) := num
theorem flags {t : FlagType} {f : Flags t} : WeighsB 2 (wFlags f) := num (c := u16) (x := f.bits)

theorem cut {w : α → Ins Bytes} {f : α → Nat} {xs : List α} (h : ∀ x ∈ xs, WeighsB (8192 * f x) (w x)) :
    WeighsB (8192 * bulkL f xs) (wCut w xs) := by
  have hb : 1 ≤ bulkL f xs := by
    clear h
    induction xs with
    | nil => exact Nat.le_refl _
    | cons y ys ih => rw [bulkL]; omega
  exact (cons u16n (cons (all h (n := 8192 * bulkL f xs - 8192) (by omega)) nil)).mono (by omega)

theorem vec {ℓ : Type} {c : NumCodec ℓ} (hc : c.size ≤ 8) {w : α → Ins Bytes} {f : α → Nat} {xs : List α}
    (h : ∀ x ∈ xs, WeighsB (8192 * f x) (w x)) : WeighsB (8192 * bulkL f xs) (wVec c w xs) := by
  have hb : 1 ≤ bulkL f xs := by
    clear h
    induction xs with
    | nil => exact Nat.le_refl _
    | cons y ys ih => rw [bulkL]; omega
  unfold wVec
  split
  · refine (bind (k := 8) (all h (n := 8192 * bulkL f xs - 8192) (by omega)) fun bs => (pure _).mono ?_).mono (by omega)
    have : (c.write (c.ofBits xs.length)).length = c.size := toBe_length _ _
    rw [List.length_append]
    omega
  · exact fail

theorem vec16 {w : α → Ins Bytes} {f : α → Nat} {xs : List α} (h : ∀ x ∈ xs, WeighsB (8192 * f x) (w x)) :
    WeighsB (8192 * bulkL f xs) (wVec u16 w xs) := vec (by decide) h

theorem utf8 {s : Bytes} : WeighsI (3 + 6 * s.length) (insertWtf8 s) := raw _

theorem raw9 {e : Entry} (h : ∀ s, e ≠ .utf8 s) : WeighsI 9 (insertRaw e) := (raw e).mono (by
  cases e with
  | utf8 s => exact absurd rfl (h s)
  | _ => exact Nat.le_refl _)

theorem cls {s : Bytes} : WeighsI (12 + 6 * s.length) (insertClass s) :=
  (bind (k := 9) utf8 fun i => raw9 (by intro s h; cases h)).mono (by omega)

theorem indirect {tag : UInt8} {s : Bytes} : WeighsI (12 + 6 * s.length) (insertIndirect tag s) := by
  refine (bind (k := 9) utf8 fun i => ?_).mono (by omega)
  split
  · exact raw9 (by intro s h; cases h)
  · exact raw9 (by intro s h; cases h)
  · exact raw9 (by intro s h; cases h)
  · exact raw9 (by intro s h; cases h)
  · exact fail

theorem nat {n d : Bytes} : WeighsI (15 + 6 * n.length + 6 * d.length) (insertNameAndType n d) :=
  (bind utf8 fun i => (bind (k := 9) utf8 fun j => raw9 (by intro s h; cases h)).mono
    (by exact Nat.le_of_eq (Nat.zero_add _).symm)).mono (by omega)

end Weighs

/-! ## Text -/

theorem encode_len {s out : Bytes} (h : Mutf8.encode s = .ok out) : out.length ≤ 6 * s.length := by
  unfold Mutf8.encode at h
  split at h
  · rename_i cs hc
    cases h
    have h1 := codepoints_len hc
    have h2 : ∀ cs : List Nat, (cs.flatMap Mutf8.encodeCp).length ≤ 6 * cs.length := by
      intro cs
      induction cs with
      | nil => simp
      | cons c cs ih =>
        have : (Mutf8.encodeCp c).length ≤ 6 := by
          unfold Mutf8.encodeCp
          repeat' split
          all_goals simp
        rw [List.flatMap_cons, List.length_append, List.length_cons]
        omega
    have := h2 cs
    omega
  · cases h

theorem pushChar_len (s : Bytes) (c : Nat) : (JType.pushChar s c).length ≤ s.length + 4 := by
  have := encodeRaw_len c
  unfold JType.pushChar Wtf8.pushUnchecked
  rw [List.length_append]
  omega

theorem pushChars_len : ∀ (cs : List Nat) (s : Bytes), (cs.foldl JType.pushChar s).length ≤ s.length + 4 * cs.length
  | [], s => Nat.le_refl _
  | c :: cs, s => by
    have h1 := pushChars_len cs (JType.pushChar s c)
    have h2 := pushChar_len s c
    simp only [List.foldl_cons, List.length_cons]
    omega

theorem pushWtf8_len (s o : Bytes) : (Wtf8.pushWtf8 s o).length ≤ s.length + o.length + 4 := by
  unfold Wtf8.pushWtf8
  split
  · rename_i lead trail _ _
    rw [List.length_append, List.length_drop]
    unfold Wtf8.pushUnchecked
    rw [List.length_append, List.length_take]
    have := encodeRaw_len (Wtf8.decodeSurrogatePair lead trail)
    omega
  · rw [List.length_append]
    omega

mutual
theorem writeType_len : (t : JType) → (s : Bytes) → (JType.writeType t s).length ≤ s.length + 1024 * bulkType t
  | .byte, s => by rw [JType.writeType, bulkType]; have := pushChar_len s 0x42; omega
  | .char, s => by rw [JType.writeType, bulkType]; have := pushChar_len s 0x43; omega
  | .double, s => by rw [JType.writeType, bulkType]; have := pushChar_len s 0x44; omega
  | .float, s => by rw [JType.writeType, bulkType]; have := pushChar_len s 0x46; omega
  | .int, s => by rw [JType.writeType, bulkType]; have := pushChar_len s 0x49; omega
  | .long, s => by rw [JType.writeType, bulkType]; have := pushChar_len s 0x4A; omega
  | .boolean, s => by rw [JType.writeType, bulkType]; have := pushChar_len s 0x5A; omega
  | .short, s => by rw [JType.writeType, bulkType]; have := pushChar_len s 0x53; omega
  | .ref n, s => by
    rw [JType.writeType, bulkType, bulkS]
    have h1 := pushChar_len s 0x4C
    have h2 := pushWtf8_len (JType.pushChar s 0x4C) n
    have h3 := pushChar_len (Wtf8.pushWtf8 (JType.pushChar s 0x4C) n) 0x3B
    omega
  | .array d t, s => by
    rw [JType.writeType, bulkType]
    have h1 := writeType_len t ((List.replicate d.toNat 0x5B).foldl JType.pushChar s)
    have h2 := pushChars_len (List.replicate d.toNat 0x5B) s
    rw [List.length_replicate] at h2
    have h3 := d.toNat_lt
    omega
  | .method ps none, s => by
    rw [JType.writeType, bulkType]
    have h1 := pushChar_len s 0x28
    have h2 := writeTypes_len ps (JType.pushChar s 0x28)
    have h3 := pushChar_len (JType.writeTypes ps (JType.pushChar s 0x28)) 0x29
    have h4 := pushChar_len (JType.pushChar (JType.writeTypes ps (JType.pushChar s 0x28)) 0x29) 0x56
    omega
  | .method ps (some t), s => by
    rw [JType.writeType, bulkType]
    have h1 := pushChar_len s 0x28
    have h2 := writeTypes_len ps (JType.pushChar s 0x28)
    have h3 := pushChar_len (JType.writeTypes ps (JType.pushChar s 0x28)) 0x29
    have h4 := writeType_len t (JType.pushChar (JType.writeTypes ps (JType.pushChar s 0x28)) 0x29)
    omega
theorem writeTypes_len : (ts : List JType) → (s : Bytes) → (JType.writeTypes ts s).length ≤ s.length + 1024 * bulkTypes ts
  | [], s => by rw [JType.writeTypes]; omega
  | t :: ts, s => by
    rw [JType.writeTypes, bulkTypes]
    have h1 := writeType_len t s
    have h2 := writeTypes_len ts (JType.writeType t s)
    omega
end

theorem toWtf8_len (t : JType) : (JType.toWtf8 t).length ≤ 1024 * bulkType t := by
  have := writeType_len t []
  rw [List.length_nil] at this
  unfold JType.toWtf8
  omega

mutual
theorem display_len : (t : JType) → (JType.display t).length ≤ 1024 * bulkType t
  | .byte => by rw [JType.display, bulkType]; decide
  | .char => by rw [JType.display, bulkType]; decide
  | .double => by rw [JType.display, bulkType]; decide
  | .float => by rw [JType.display, bulkType]; decide
  | .int => by rw [JType.display, bulkType]; decide
  | .long => by rw [JType.display, bulkType]; decide
  | .boolean => by rw [JType.display, bulkType]; decide
  | .short => by rw [JType.display, bulkType]; decide
  | .ref n => by
    rw [JType.display, bulkType, bulkS]
    have h : (Wtf8.toStringLossy n).length ≤ n.length := by
      have := lossy_len n _ 0 rfl
      unfold Wtf8.toStringLossy
      omega
    simp only [List.length_append, List.length_cons, List.length_nil]
    omega
  | .array d t => by
    rw [JType.display, bulkType, List.length_append, List.length_replicate]
    have h1 := display_len t
    have h3 := d.toNat_lt
    omega
  | .method ps none => by
    rw [JType.display, bulkType]
    have h2 := displayAll_len ps
    simp only [List.length_append, List.length_cons, List.length_nil]
    omega
  | .method ps (some t) => by
    rw [JType.display, bulkType]
    have h2 := displayAll_len ps
    have h4 := display_len t
    simp only [List.length_append, List.length_cons, List.length_nil]
    omega
theorem displayAll_len : (ts : List JType) → (JType.displayAll ts).length ≤ 1024 * bulkTypes ts
  | [] => by rw [JType.displayAll]; exact Nat.zero_le _
  | t :: ts => by
    rw [JType.displayAll, bulkTypes, List.length_append]
    have h1 := display_len t
    have h2 := displayAll_len ts
    omega
end

theorem bulkType_pos (t : JType) : 1 ≤ bulkType t := by
  cases t with
  | method ps r => cases r <;> rw [bulkType] <;> omega
  | _ => rw [bulkType] <;> omega

theorem flatMap_len {α : Type} {f : α → Str} {g : α → Nat} {k : Nat} (xs : List α) (h : ∀ x ∈ xs, (f x).length ≤ k * g x) :
    (xs.flatMap f).length ≤ k * bulkL g xs := by
  induction xs with
  | nil => exact Nat.zero_le _
  | cons x xs ih =>
    have h1 := h x (by simp)
    have h2 := ih fun y hy => h y (by simp [hy])
    rw [List.flatMap_cons, List.length_append, bulkL, Nat.mul_add]
    omega

mutual
theorem showT_len : (t : TypeSig) → (showT t).length ≤ 256 * bulkTySig t
  | .byte => by rw [showT, bulkTySig]; decide
  | .char => by rw [showT, bulkTySig]; decide
  | .double => by rw [showT, bulkTySig]; decide
  | .float => by rw [showT, bulkTySig]; decide
  | .int => by rw [showT, bulkTySig]; decide
  | .long => by rw [showT, bulkTySig]; decide
  | .boolean => by rw [showT, bulkTySig]; decide
  | .short => by rw [showT, bulkTySig]; decide
  | .ref r => by rw [showT, bulkTySig]; have := showR_len r; omega
theorem showR_len : (t : RefSig) → (showR t).length + 1 ≤ 256 * bulkRef t
  | .typeVar n => by
    rw [showR, bulkRef, bulkT]
    simp only [List.length_append, List.length_cons, List.length_nil]
    omega
  | .array d t => by
    rw [showR, bulkRef, List.length_append, List.length_replicate]
    have h1 := showT_len t
    have h3 := d.toNat_lt
    omega
  | .cls c => by rw [showR, bulkRef]; have := showC_len c; omega
theorem showC_len : (t : ClassTySig) → (showC t).length ≤ 256 * bulkClsSig t
  | .mk ps n ss => by
    rw [showC, bulkClsSig]
    have h1 := flatMap_len (f := fun s : Str => s ++ [0x2F]) (g := bulkT) (k := 256) ps fun x _ => by
      rw [List.length_append, bulkT, List.length_singleton]
      omega
    have h2 := showS_len n
    have h3 := showSuffix_len ss
    simp only [List.length_append, List.length_cons, List.length_nil]
    omega
theorem showSuffix_len : (t : List SimpleSig) → (showSuffix t).length + 256 ≤ 256 * bulkSimples t
  | [] => by rw [showSuffix, bulkSimples]; decide
  | s :: ss => by
    rw [showSuffix, bulkSimples]
    have h2 := showS_len' s
    have h3 := showSuffix_len ss
    simp only [List.length_append, List.length_cons, List.length_nil]
    omega
theorem showS_len' : (t : SimpleSig) → (showS t).length + 1 ≤ 256 * bulkSimple t
  | .mk n [] => by
    rw [showS, bulkSimple, bulkT]
    simp only [List.length_append, List.length_nil]
    omega
  | .mk n (a :: as) => by
    rw [showS, bulkSimple, bulkT, bulkArgs]
    have h2 := showA_len a
    have h3 := showArgs_len as
    simp only [List.length_append, List.length_cons, List.length_nil]
    omega
theorem showS_len : (t : SimpleSig) → (showS t).length ≤ 256 * bulkSimple t
  | .mk n [] => by
    rw [showS, bulkSimple, bulkT]
    simp only [List.length_append, List.length_nil]
    omega
  | .mk n (a :: as) => by
    rw [showS, bulkSimple, bulkT, bulkArgs]
    have h2 := showA_len a
    have h3 := showArgs_len as
    simp only [List.length_append, List.length_cons, List.length_nil]
    omega
theorem showArgs_len : (t : List TypeArg) → (showArgs t).length ≤ 256 * bulkArgs t
  | [] => by rw [showArgs]; exact Nat.zero_le _
  | a :: as => by
    rw [showArgs, bulkArgs, List.length_append]
    have h2 := showA_len a
    have h3 := showArgs_len as
    omega
theorem showA_len : (t : TypeArg) → (showA t).length ≤ 256 * bulkTyArg t
  | .ext r => by rw [showA, bulkTyArg, List.length_cons]; have := showR_len r; omega
  | .sup r => by rw [showA, bulkTyArg, List.length_cons]; have := showR_len r; omega
  | .any => by rw [showA, bulkTyArg]; decide
  | .exact r => by rw [showA, bulkTyArg]; have := showR_len r; omega
end

theorem showParam_len (p : TypeParam) : (showParam p).length ≤ 256 * bulkParam p := by
  have h1 : (p.classBound.elim [] showR).length ≤ 256 * bulkO bulkRef p.classBound := by
    cases p.classBound with
    | none => exact Nat.zero_le _
    | some r => exact Nat.le_of_succ_le (showR_len r)
  have h2 := flatMap_len (f := fun b => 0x3A :: showR b) (g := bulkRef) (k := 256) p.interfaceBounds
    fun b _ => showR_len b
  unfold showParam bulkParam bulkT
  simp only [List.length_append, List.length_cons]
  omega

theorem showParams_len (ps : List TypeParam) : (showParams ps).length ≤ 256 * bulkL bulkParam ps + 2 := by
  cases ps with
  | nil => exact Nat.zero_le _
  | cons p ps =>
    have h1 := showParam_len p
    have h2 := flatMap_len (f := showParam) (g := bulkParam) (k := 256) ps fun b _ => showParam_len b
    rw [showParams, bulkL]
    simp only [List.length_append, List.length_cons, List.length_nil]
    omega

theorem showMethod_len (m : MethodSig) : (showMethod m).length ≤ 256 * bulkMethodSig m := by
  have h1 := showParams_len m.typeParams
  have h2 := flatMap_len (f := showT) (g := bulkTySig) (k := 256) m.params fun b _ => showT_len b
  have h3 : (m.ret.elim [0x56] showT).length ≤ 256 * bulkO bulkTySig m.ret + 1 := by
    cases m.ret with
    | none => exact Nat.le_refl _
    | some r => exact Nat.le_succ_of_le (showT_len r)
  have h4 := flatMap_len (f := showThrows) (g := bulkThrows) (k := 256) m.throws fun b _ => by
    cases b with
    | typeParam n =>
      rw [showThrows, bulkThrows, bulkT]
      simp only [List.length_append, List.length_cons, List.length_nil]
      omega
    | cls c =>
      have := showC_len c
      rw [showThrows, bulkThrows, List.length_cons]
      omega
  unfold showMethod bulkMethodSig
  simp only [List.length_append, List.length_cons]
  omega

theorem showClass_len (c : ClassSig) : (showClass c).length ≤ 256 * bulkClassSig c := by
  have h1 := showParams_len c.typeParams
  have h2 := showC_len c.superClass
  have h3 := flatMap_len (f := showC) (g := bulkClsSig) (k := 256) c.interfaces fun b _ => showC_len b
  unfold showClass bulkClassSig
  simp only [List.length_append]
  omega

/-! ## Parts -/

namespace Weighs

theorem member {m : MemberRef} : WeighsI (8192 * bulkMember m) (insertMember m) := by
  refine (bind cls fun i => (bind (k := 9) nat fun j => raw9 ?_).mono (by exact Nat.le_of_eq (Nat.zero_add _).symm)).mono ?_
  · intro s
    split
    · split <;> nofun
    · nofun
  · have := display_len m.descriptor
    have := bulkType_pos m.descriptor
    simp only [bulkMember, bulkS]
    omega

theorem handle {h : MethodHandle} : WeighsI (8192 * bulkHandle h) (insertMethodHandle h) :=
  (bind (k := 9) member fun i => raw9 (by intro s h; cases h)).mono (by rw [bulkHandle]; omega)

theorem const {k : Constant} : WeighsI (8192 * bulkConst k) (insertConstant k) := by
  cases k with
  | string s => exact (indirect (tag := 8) (s := s)).mono (by rw [bulkConst, bulkS]; omega)
  | cls s => exact (indirect (tag := 7) (s := s)).mono (by rw [bulkConst, bulkS]; omega)
  | member m => exact member.mono (by rw [bulkConst]; omega)
  | methodType t =>
    exact (bind (k := 9) utf8 fun i => raw9 (by intro s h; cases h)).mono (by have := display_len t; rw [bulkConst]; omega)
  | methodHandle h' => exact handle.mono (by rw [bulkConst]; omega)
  | _ => exact (raw _).mono (by simp [heftEntry, bulkConst])

theorem cellArgs : ∀ as : List Arg, bulkCellArgs as = bulkL bulkArg as
  | [] => by rw [bulkCellArgs, bulkL]
  | a :: as => by rw [bulkCellArgs, bulkL, cellArgs as]

theorem dynamic {d : Dynamic} : WeighsI (8192 * bulkDynamic d - 8192) (insertDynamic d) := by
  refine lift_bind fun b hb => ?_
  have hb' : bulkBsm b = bulkCell d.bsm := by
    unfold Dynamic.getBsm at hb
    split at hb
    · cases hb
    · rename_i h as hc
      cases hb
      rw [hc, bulkCell, bulkBsm, cellArgs]
  refine (bind (bsm b) fun i => (bind (k := 9) nat fun j => raw9 ?_).mono
    (by exact Nat.le_of_eq (Nat.zero_add _).symm)).mono ?_
  · intro s
    split <;> nofun
  · have := display_len d.descriptor
    have := bulkType_pos d.descriptor
    simp only [bulkDynamic, bulkS]
    omega

theorem orDynamic {α : Type} {f : α → Ins UInt16} {g : α → Nat} (hf : ∀ a, WeighsI (8192 * g a) (f a)) {x : OrDynamic α} :
    WeighsI (8192 * bulkOrDyn g x - 8192) (insertOrDynamic f x) := by
  cases x with
  | dynamic d => exact dynamic.mono (by rw [bulkOrDyn]; omega)
  | static a => exact (hf a).mono (by rw [bulkOrDyn]; omega)

theorem opt {α : Type} {f : α → Ins UInt16} {g : α → Nat} (hf : ∀ a, WeighsI (8192 * g a) (f a)) {x : Option α} :
    WeighsB (8192 * bulkO g x + 2) (wOpt f x) := by
  cases x with
  | none => exact (pure _).mono (by rw [u16_len]; omega)
  | some a => exact (idx (hf a)).mono (by rw [bulkO]; omega)

theorem wutf8 {s : Bytes} : WeighsB (8192 * bulkS s) (wUtf8 s) := (idx utf8).mono (by rw [bulkS]; omega)
theorem wstr {tag : UInt8} {s : Bytes} : WeighsB (8192 * bulkS s) (wStr tag s) := (idx indirect).mono (by rw [bulkS]; omega)
theorem wcls {s : Bytes} : WeighsB (8192 * bulkS s) (wIdx (insertClass s)) := (idx cls).mono (by rw [bulkS]; omega)
theorem wtype {t : JType} : WeighsB (8192 * bulkType t) (wType t) := (idx utf8).mono (by
  have := toWtf8_len t
  have := bulkType_pos t
  omega)
theorem wsig {t : Str} {n : Nat} (h : t.length ≤ 256 * n) : WeighsB (6144 * n + 5) (wSig t) := (idx utf8).mono (by
  have := pushChars_len t []
  rw [List.length_nil] at this
  omega)
theorem clsS {s : Bytes} : WeighsI (8192 * bulkS s) (insertClass s) := cls.mono (by rw [bulkS]; omega)
theorem utf8Opt {x : Option Bytes} : WeighsB (8192 * bulkO bulkS x + 2) (wUtf8Opt x) :=
  opt fun s => utf8.mono (by rw [bulkS]; omega)
theorem clsOpt {x : Option Bytes} : WeighsB (8192 * bulkO bulkS x + 2) (wClsOpt x) :=
  opt fun s => indirect.mono (by rw [bulkS]; omega)

theorem attr {n : Bytes} (hn : n.length ≤ 100) {w : Ins Bytes} {k : Nat} (h : WeighsB k w) : WeighsB (k + 1000) (wAttr n w) :=
  (bind (utf8 (s := n)) fun i => (bind (k := 6) h fun b => (pure _).mono (by
    have h1 := u16_len i
    have h2 : (u32.write (UInt32.ofNat b.length)).length = 4 := toBe_length 4 _
    simp only [List.length_append]
    omega)).mono (by exact Nat.le_of_eq (Nat.zero_add _).symm)).mono (by omega)

theorem rawAttr {a : RawAttribute} : WeighsB (8192 * bulkRaw a) (wRaw a) :=
  (bind (k := 6 + a.inner.length) utf8 fun i => (pure _).mono (by
    have h1 := u16_len i
    have h2 : (u32.write (UInt32.ofNat a.inner.length)).length = 4 := toBe_length 4 _
    simp only [List.length_append]
    omega)).mono (by rw [bulkRaw, bulkS, bulkS]; omega)

end Weighs

end Verif
