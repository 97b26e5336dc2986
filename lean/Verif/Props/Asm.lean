import Verif.Lemmas.Asm
import Verif.Props.Instr

/-! # Properties C36 and C37: the code array of a method body -/

namespace Verif.Props
open Verif Spec

/-! ## C37: branches hit their labels and the declared length is exact -/

/-- What is asked of an instruction list: everything but array creation and static stores (C34), and
lookup tables without repeated keys (which `IndexMap` guarantees); no label is placed twice. -/
structure BodyOk (is : List Insn) : Prop where
  insns : ∀ i ∈ is, CodeOk i
  labels : (marks is).Nodup

/-- Full claim: the declared length is the number of bytes, and the bytes are an encoding of the
instructions in which every label is at the position that is used for it. -/
def C37_full : Prop := ∀ (is : List Insn) (cp cp' : VecCp) (a : Assembled), BodyOk is →
  Steps VecCp.new cp → writeCode is cp = .ok (a, cp') → a.len.toNat = a.code.length ∧
  ∀ (W : World) (env : WEnv), W.Fits cp' → env.label = a.label → Layout (env.ctx W) 0 is a.code

/-- Proved: this holds for all code of at most 24575 bytes. -/
theorem C37_layout_partial (is : List Insn) (cp cp' : VecCp) (a : Assembled) (hi : BodyOk is)
    (h0 : Steps VecCp.new cp) (h : writeCode is cp = .ok (a, cp')) (hs : a.code.length ≤ 24575) :
    a.len.toNat = a.code.length ∧
    ∀ (W : World) (env : WEnv), W.Fits cp' → env.label = a.label → Layout (env.ctx W) 0 is a.code := by
  obtain ⟨_, h1, h2⟩ := writeCode_ok hi.insns hi.labels (steps_ok h0 VecCp.inv_new).1 h
  obtain ⟨_, h3, h4⟩ := h2 (by omega)
  exact ⟨h3 (by omega), h4 (h3 (by omega))⟩

/-- Proved: for larger code with not too many branches; above 32767 bytes it is enough that the
declared length is right. -/
theorem C37_large_partial (is : List Insn) (cp cp' : VecCp) (a : Assembled) (hi : BodyOk is)
    (h0 : Steps VecCp.new cp) (h : writeCode is cp = .ok (a, cp'))
    (hs : a.code.length + 5 * branches is ≤ 65535)
    (hl : a.code.length ≤ 32767 ∨ a.len.toNat = a.code.length) :
    a.len.toNat = a.code.length ∧
    ∀ (W : World) (env : WEnv), W.Fits cp' → env.label = a.label → Layout (env.ctx W) 0 is a.code := by
  obtain ⟨_, h1, h2⟩ := writeCode_ok hi.insns hi.labels (steps_ok h0 VecCp.inv_new).1 h
  obtain ⟨_, h3, h4⟩ := h2 hs
  have : a.len.toNat = a.code.length := hl.elim h3 id
  exact ⟨this, h4 this⟩

/-! ### Code that is too large -/

theorem writeInsns_append {b b1 : CodeBuf} {xs ys : List Insn} {cp cp1 : VecCp}
    (h : writeInsns b xs cp = .ok (b1, cp1)) : writeInsns b (xs ++ ys) cp = writeInsns b1 ys cp1 := by
  induction xs generalizing b cp with
  | nil => cases h; rfl
  | cons x xs ih =>
    obtain ⟨b2, cp2, h1, h2⟩ := Ins.bind_ok h
    rw [List.cons_append, writeInsns]
    show Ins.bind _ _ cp = _
    rw [Ins.bind, h1]
    exact ih h2

theorem writeInsns_nops (b : CodeBuf) (n : Nat) (cp : VecCp) :
    writeInsns b (List.replicate n .noOp) cp = .ok ({ b with cur := b.cur ++ List.replicate n 0 }, cp) := by
  induction n generalizing b with
  | zero =>
    rw [List.replicate_zero, List.replicate_zero, List.append_nil]
    rfl
  | succ n ih =>
    rw [List.replicate_succ, writeInsns]
    show writeInsns { b with cur := b.cur ++ [0] } (List.replicate n .noOp) cp = _
    rw [ih]
    simp [List.replicate_succ]

/-- A branch over `n` instructions of one byte. -/
def farBranch (j : Insn) (n : Nat) : List Insn := j :: (List.replicate n .noOp ++ [.label 0])

theorem farBranch_ok {j : Insn} (hj : CodeOk j) (hl : ∀ l, j ≠ .label l) (n : Nat) : BodyOk (farBranch j n) := by
  have hm : ∀ n, marks (List.replicate n .noOp ++ [.label 0]) = [0] := by
    intro n
    induction n with
    | zero => rfl
    | succ n ih => exact ih
  refine ⟨?_, ?_⟩
  · intro i hi
    simp only [farBranch, List.mem_cons, List.mem_append, List.mem_replicate] at hi
    rcases hi with rfl | ⟨_, rfl⟩ | rfl | hi
    · exact hj
    · trivial
    · trivial
    · cases hi
  · have : marks (farBranch j n) = [0] := by
      rw [farBranch]
      cases j <;> first | exact hm n | exact absurd rfl (hl _)
    rw [this]
    decide

theorem farBranch_write {j : Insn} {k : Branch} (hj : ∀ b, writeInsn b j = pure (b.branch k)) {n s : Nat}
    {o : Bytes} (hs : k.size [(0, (1, n))] [k.maxSize] 0 = .ok s)
    (he : k.emit [(0, (1, n))] [s] s s = .ok o) (cp : VecCp) :
    writeCode (farBranch j n) cp = .ok (⟨UInt32.ofNat (n + s), o ++ List.replicate n 0,
      labelPos [(0, (1, n))] [s]⟩, cp) := by
  have h : writeInsns .empty (farBranch j n) cp =
      .ok (⟨[[]], List.replicate n 0, [k], [(0, (1, n))]⟩, cp) := by
    rw [farBranch, writeInsns, hj]
    show writeInsns (CodeBuf.empty.branch k) _ cp = _
    rw [writeInsns_append (writeInsns_nops _ n cp)]
    show Except.ok _ = _
    simp [CodeBuf.empty, CodeBuf.branch]
  unfold writeCode
  show Ins.bind _ _ cp = _
  rw [Ins.bind, h]
  show Ins.lift _ cp = _
  unfold Ins.lift
  have : assemble ⟨[[]], List.replicate n 0, [k], [(0, (1, n))]⟩ =
      .ok ⟨UInt32.ofNat (n + s), o ++ List.replicate n 0, labelPos [(0, (1, n))] [s]⟩ := by
    simp [assemble, hintsFrom, layoutFrom, hs, emitFrom, he]
  rw [this]

theorem farBranch_resolve {n s : Nat} (h : n + s < 2 ^ 30) :
    resolveLabel [(0, (1, n))] [s] s s 0 = .ok (Int32.ofInt (n + s)) := by
  have e1 : UInt32.ofNat s + UInt32.ofNat n = UInt32.ofNat (s + n) := by rw [UInt32.ofNat_add]
  have e2 : (UInt32.ofNat s).toNat + (UInt32.ofNat n).toNat < 2 ^ 32 := by
    rw [UInt32.toNat_ofNat', UInt32.toNat_ofNat', Nat.mod_eq_of_lt (by omega), Nat.mod_eq_of_lt (by omega)]
    omega
  have hf : findLabel [(0, (1, n))] 0 = .ok (1, n) := rfl
  have hs : startOf [s] 1 = .ok s := rfl
  simp only [resolveLabel, hf, hs]
  rw [if_pos e2, e1, Int32.toInt_sub_small (toInt32_small (by omega)) (toInt32_small (by omega)) (by omega)
    (by omega), toInt32_small (by omega), if_pos (by omega)]
  congr 2
  omega

theorem farBranch_fits {n s : Nat} (h : 32767 < n + s) (h' : n + s < 2 ^ 30) :
    fitsI16 (Int32.ofInt (n + s)) = false := by
  unfold fitsI16
  rw [Int32.toInt_ofInt_small (by omega) (by omega)]
  simp only [Bool.and_eq_false_iff, decide_eq_false_iff_not]
  omega

/-- A `goto` over more than 32764 bytes is written in its wide form, for which no room was allotted: two
bytes more than declared are written. -/
theorem C37_violated_goto (n : Nat) (h : 32765 ≤ n) (h' : n ≤ 65530) (cp : VecCp) :
    ∃ a, writeCode (farBranch (.jump .always 0) n) cp = .ok (a, cp) ∧ a.len.toNat = n + 3 ∧
      a.code.length = n + 5 := by
  have hs : (Branch.jump .always 0).size [(0, (1, n))] [(Branch.jump .always 0).maxSize] 0 = .ok 3 := by
    show (Except.ok (1 + if 1 + 4 + n ≤ 65535 then 2 else 4) : Res Nat) = _
    rw [if_pos (by omega)]
  have he : (Branch.jump .always 0).emit [(0, (1, n))] [3] 3 3 =
      .ok (u8.write opc.GOTO_W ++ i32.write (Int32.ofInt (n + (3 : Nat)))) := by
    rw [Branch.emit, farBranch_resolve (by omega)]
    show (Except.ok (if _ then _ else _) : Res Bytes) = _
    rw [farBranch_fits (by omega) (by omega)]
    rfl
  refine ⟨_, farBranch_write (fun _ => rfl) hs he cp, ?_, ?_⟩
  · show (UInt32.ofNat (n + 3)).toNat = n + 3
    rw [UInt32.toNat_ofNat', Nat.mod_eq_of_lt (by omega)]
  · simp only [List.length_append, i32_write_length, u8_write_length, List.length_replicate]
    omega

/-- A conditional branch over more than 32764 bytes has ten bytes (its own offset, in a 16-bit field, is
written with 32 bits), whether three or eight were allotted to it. -/
theorem C37_violated_conditional (n : Nat) (h : 32765 ≤ n) (h' : n ≤ 2 ^ 20) (cp : VecCp) :
    ∃ a, writeCode (farBranch (.jump .eqZ 0) n) cp = .ok (a, cp) ∧
      a.len.toNat = (if n ≤ 65527 then n + 3 else n + 8) ∧ a.code.length = n + 10 := by
  have hs : (Branch.jump .eqZ 0).size [(0, (1, n))] [(Branch.jump .eqZ 0).maxSize] 0 =
      .ok (if n ≤ 65527 then 3 else 8) := by
    show (Except.ok (1 + if 1 + 7 + n ≤ 65535 then 2 else 7) : Res Nat) = _
    split <;> split <;> first | rfl | omega
  have hk : (if n ≤ 65527 then 3 else 8) ≤ 8 := by split <;> omega
  have hk' : 3 ≤ (if n ≤ 65527 then 3 else 8) := by split <;> omega
  have he : ∀ s, 3 ≤ s → s ≤ 8 → (Branch.jump .eqZ 0).emit [(0, (1, n))] [s] s s =
      .ok (u8.write Cond.neZ.opcode ++ i32.write 5 ++ u8.write opc.GOTO_W ++ i32.write (Int32.ofInt (n + s))) := by
    intro s hs1 hs2
    rw [Branch.emit_cond (by decide), farBranch_resolve (by omega)]
    show (if fitsI16 _ = true then _ else _) = _
    rw [farBranch_fits (by omega) (by omega)]
    rfl
  refine ⟨_, farBranch_write (fun _ => rfl) hs (he _ hk' hk) cp, ?_, ?_⟩
  · show (UInt32.ofNat (n + _)).toNat = _
    rw [UInt32.toNat_ofNat', Nat.mod_eq_of_lt (by omega)]
    split <;> rfl
  · simp only [List.length_append, i32_write_length, u8_write_length, List.length_replicate]
    omega

theorem C37_violated : ¬ C37_full := by
  intro h
  obtain ⟨a, h1, h2, h3⟩ := C37_violated_goto 40000 (by decide) (by decide) VecCp.new
  have := (h _ _ _ a (farBranch_ok (by trivial) (by intro l hl; cases hl) _) (.refl _) h1).1
  omega

/-! ### Code with many branches -/

/-- `n` conditional branches to the beginning, and a `goto` to itself. -/
def crowded (n : Nat) : List Insn :=
  .label 0 :: (List.replicate n (.jump .eqZ 0) ++ [.label 1, .jump .always 1])

theorem crowded_ok (n : Nat) : BodyOk (crowded n) := by
  have hm : ∀ n, marks (List.replicate n (.jump .eqZ 0) ++ [.label 1, .jump .always 1]) = [1] := by
    intro n
    induction n with
    | zero => rfl
    | succ n ih => exact ih
  refine ⟨?_, ?_⟩
  · intro i hi
    simp only [crowded, List.mem_cons, List.mem_append, List.mem_replicate] at hi
    rcases hi with rfl | ⟨_, rfl⟩ | rfl | rfl | hi
    · trivial
    · trivial
    · trivial
    · trivial
    · cases hi
  · show (0 :: marks _).Nodup
    rw [hm]
    decide

theorem writeInsns_jumps (b : CodeBuf) (hb : b.cur = []) (n : Nat) (cp : VecCp) :
    writeInsns b (List.replicate n (.jump .eqZ 0)) cp =
      .ok ({ b with buf := b.buf ++ List.replicate n [], jumps := b.jumps ++ List.replicate n (.jump .eqZ 0) }, cp) := by
  induction n generalizing b with
  | zero =>
    simp only [List.replicate_zero, List.append_nil]
    rfl
  | succ n ih =>
    rw [List.replicate_succ, writeInsns]
    show writeInsns (b.branch (.jump .eqZ 0)) (List.replicate n (.jump .eqZ 0)) cp = _
    rw [ih _ rfl]
    simp [CodeBuf.branch, List.replicate_succ, hb]

def ramp (last d : Nat) : Nat → List Nat
  | 0 => []
  | n + 1 => (last + d) :: ramp (last + d) d n

theorem ramp_length (last d n : Nat) : (ramp last d n).length = n := by
  induction n generalizing last with
  | zero => rfl
  | succ n ih => simp [ramp, ih]

theorem ramp_get (last d n i : Nat) (h : i < n) : (ramp last d n)[i]? = some (last + d * (i + 1)) := by
  induction n generalizing last i with
  | zero => omega
  | succ n ih =>
    cases i with
    | zero => simp [ramp]
    | succ i =>
      rw [ramp, List.getElem?_cons_succ, ih _ _ (by omega), Nat.mul_add d (i + 1)]
      congr 1
      omega

theorem crowded_hints (last n : Nat) (js : List Branch) (bs : List Bytes) (hs : List Nat)
    (h : hintsFrom (last + 8 * n) js bs = .ok hs) :
    hintsFrom last (List.replicate n (.jump .eqZ 0) ++ js) (List.replicate n [] ++ bs) =
      .ok (ramp last 8 n ++ hs) := by
  induction n generalizing last with
  | zero => exact h
  | succ n ih =>
    have e : (Branch.jump .eqZ 0).maxSize + ([] : Bytes).length = 8 := rfl
    rw [List.replicate_succ, List.replicate_succ, List.cons_append, List.cons_append, hintsFrom, e,
      ih (last + 8) (by rw [← h]; congr 1; omega)]
    rfl

theorem crowded_layout {L : List (Label × (Nat × Nat))} {H : List Nat}
    (hz : ∀ p, (Branch.jump .eqZ 0).size L H p = .ok 3) (last n : Nat) (js : List Branch) (bs : List Bytes)
    (r : List (Nat × Nat)) (h : layoutFrom L H (last + 3 * n) js bs = .ok r) :
    layoutFrom L H last (List.replicate n (.jump .eqZ 0) ++ js) (List.replicate n [] ++ bs) =
      .ok ((ramp last 3 n).map (fun x => (3, x)) ++ r) := by
  induction n generalizing last with
  | zero => exact h
  | succ n ih =>
    rw [List.replicate_succ, List.replicate_succ, List.cons_append, List.cons_append, layoutFrom, hz]
    simp only [List.length_nil, Nat.add_zero]
    rw [ih (last + 3) (by rw [← h]; congr 1; omega)]
    rfl

theorem crowded_emit {L : List (Label × (Nat × Nat))} {I : List Nat} (n last : Nat)
    (he : ∀ idx, idx ≤ last + 3 * n → ∃ o, (Branch.jump .eqZ 0).emit L I 3 idx = .ok o ∧ o.length = 3)
    (js : List Branch) (bs : List Bytes) (r : List (Nat × Nat)) (rest : Bytes)
    (h : emitFrom L I js bs r = .ok rest) :
    ∃ code, emitFrom L I (List.replicate n (.jump .eqZ 0) ++ js) (List.replicate n [] ++ bs)
      ((ramp last 3 n).map (fun x => (3, x)) ++ r) = .ok code ∧ code.length = 3 * n + rest.length := by
  induction n generalizing last with
  | zero => exact ⟨rest, h, by omega⟩
  | succ n ih =>
    obtain ⟨o, h1, h2⟩ := he (last + 3) (by omega)
    obtain ⟨code, h3, h4⟩ := ih (last + 3) (fun idx hi => he idx (by omega))
    refine ⟨o ++ [] ++ code, ?_, ?_⟩
    · rw [List.replicate_succ, List.replicate_succ, List.cons_append, List.cons_append, ramp, List.map_cons,
        List.cons_append, emitFrom, h1, h3]
    · simp only [List.append_nil, List.length_append]
      omega

/-- Code below 32 KiB with 8192 conditional branches: room is allotted for a wide `goto`, since the
target might have been far away, but a narrow one is written: two bytes are missing. -/
theorem C37_violated_crowded (n : Nat) (h : 8192 ≤ n) (h' : n ≤ 10000) (cp : VecCp) :
    ∃ a, writeCode (crowded n) cp = .ok (a, cp) ∧ a.len.toNat = 3 * n + 5 ∧ a.code.length = 3 * n + 3 := by
  let L : List (Label × (Nat × Nat)) := [(1, (n, 0)), (0, (0, 0))]
  let js : List Branch := List.replicate n (.jump .eqZ 0) ++ [.jump .always 1]
  let bs : List Bytes := List.replicate n [] ++ [[], []]
  have hw : writeInsns .empty (crowded n) cp = .ok (⟨List.replicate n [] ++ [[]], [], js, L⟩, cp) := by
    rw [crowded, writeInsns]
    show writeInsns ⟨[], [], [], [(0, (0, 0))]⟩ _ cp = _
    rw [writeInsns_append (writeInsns_jumps _ rfl n cp)]
    show Except.ok _ = _
    simp [CodeBuf.branch, js, L]
  have hH : hintsFrom 0 js bs = .ok (ramp 0 8 n ++ [8 * n + 5]) := crowded_hints 0 n _ _ _ (by simp [hintsFrom, Branch.maxSize])
  have hz : ∀ p, (Branch.jump .eqZ 0).size L (ramp 0 8 n ++ [8 * n + 5]) p = .ok 3 := fun p => rfl
  have ht : targetOff L (ramp 0 8 n ++ [8 * n + 5]) 1 = .ok (8 * n) := by
    have : findLabel L 1 = .ok (n, 0) := rfl
    have hn : n - 1 < n := by omega
    simp only [targetOff, this, startOf]
    rw [if_neg (by omega)]
    simp only [indexOrPanic]
    rw [List.getElem?_append_left (by rw [ramp_length]; omega), ramp_get _ _ _ _ hn]
    simp only [Nat.zero_add, Nat.add_zero]
    congr 2
    omega
  have hr : layoutFrom L (ramp 0 8 n ++ [8 * n + 5]) 0 js bs =
      .ok ((ramp 0 3 n).map (fun x => (3, x)) ++ [(5, 3 * n + 5)]) := by
    refine crowded_layout hz 0 n _ _ _ ?_
    simp only [layoutFrom, Branch.size, ht]
    rw [if_neg (by omega)]
    simp
  have hI : ((ramp 0 3 n).map (fun x => (3, x)) ++ [(5, 3 * n + 5)]).map Prod.snd = ramp 0 3 n ++ [3 * n + 5] := by
    simp [Function.comp_def]
  have hs0 : startOf (ramp 0 3 n ++ [3 * n + 5]) 0 = .ok 0 := rfl
  have hs1 : startOf (ramp 0 3 n ++ [3 * n + 5]) n = .ok (3 * n) := by
    simp only [startOf]
    rw [if_neg (by omega)]
    simp only [indexOrPanic]
    rw [List.getElem?_append_left (by rw [ramp_length]; omega), ramp_get _ _ _ _ (by omega)]
    simp only [Nat.zero_add]
    congr 2
    omega
  have hres : ∀ idx, idx ≤ 0 + 3 * n →
      resolveLabel L (ramp 0 3 n ++ [3 * n + 5]) 3 idx 0 = .ok (Int32.ofInt (3 - idx)) := by
    intro idx hi
    have hf : findLabel L 0 = .ok (0, 0) := rfl
    simp only [resolveLabel, hf, hs0]
    rw [if_pos (by decide), show UInt32.ofNat 0 + UInt32.ofNat 0 = UInt32.ofNat 0 from rfl,
      Int32.toInt_sub_small (toInt32_small (by omega)) (toInt32_small (by omega)) (by omega)
      (by omega), toInt32_small (by omega), if_pos (by omega)]
    congr 2
    omega
  have hres1 : resolveLabel L (ramp 0 3 n ++ [3 * n + 5]) 5 (3 * n + 5) 1 = .ok 0 := by
    have hf : findLabel L 1 = .ok (n, 0) := rfl
    simp only [resolveLabel, hf, hs1]
    have e2 : (UInt32.ofNat (3 * n)).toNat + (UInt32.ofNat 0).toNat < 2 ^ 32 := by
      rw [UInt32.toNat_ofNat', UInt32.toNat_ofNat', Nat.mod_eq_of_lt (by omega), Nat.mod_eq_of_lt (by omega)]
      omega
    have e1 : UInt32.ofNat (3 * n) + UInt32.ofNat 0 = UInt32.ofNat (3 * n) := by
      rw [← UInt32.ofNat_add, Nat.add_zero]
    rw [if_pos e2, e1,
      Int32.toInt_sub_small (toInt32_small (by omega)) (toInt32_small (by omega)) (by omega)
      (by omega), toInt32_small (by omega), if_pos (by omega)]
    have : ((3 * n : Nat) : Int) - ((3 * n + 5 : Nat) : Int) + ((5 : Nat) : Int) = 0 := by omega
    rw [this]
    rfl
  obtain ⟨code, he, hl⟩ := crowded_emit (L := L) (I := ramp 0 3 n ++ [3 * n + 5]) n 0
    (fun idx hi => by
      rw [Branch.emit_cond (by decide), hres idx hi]
      refine ⟨u8.write Cond.eqZ.opcode ++ i16.write (Int32.ofInt (3 - idx)).toInt16, ?_, ?_⟩
      · show (if fitsI16 _ = true then _ else _) = _
        rw [if_pos]
        · rfl
        · unfold fitsI16
          rw [Int32.toInt_ofInt_small (by omega) (by omega)]
          simp only [Bool.and_eq_true, decide_eq_true_eq]
          omega
      · simp only [List.length_append, i16_write_length, u8_write_length])
    [.jump .always 1] [[]] [(5, 3 * n + 5)] (u8.write opc.GOTO ++ i16.write 0) (by
      rw [emitFrom, Branch.emit, hres1]
      rfl)
  refine ⟨⟨UInt32.ofNat (3 * n + 5), code, labelPos L (ramp 0 3 n ++ [3 * n + 5])⟩, ?_, ?_, ?_⟩
  · unfold writeCode
    show Ins.bind _ _ cp = _
    rw [Ins.bind, hw]
    show Ins.lift _ cp = _
    unfold Ins.lift
    have hbs : List.replicate n ([] : Bytes) ++ [[]] ++ [[]] = bs := by simp [bs]
    have hbs' : bs = [] :: (List.replicate n [] ++ [[]]) := by
      show List.replicate n ([] : Bytes) ++ List.replicate 2 [] = [] :: (List.replicate n [] ++ List.replicate 1 [])
      rw [List.replicate_append_replicate, List.replicate_append_replicate]
      rfl
    have hlast : bs[js.length]? = some [] := by
      have : bs = List.replicate (n + 2) [] := by
        rw [← List.replicate_append_replicate]
        rfl
      rw [this, List.getElem?_replicate, if_pos (by simp [js])]
    have hg : (ramp 0 3 n ++ [3 * n + 5]).getLast?.getD 0 = 3 * n + 5 := by simp
    have : assemble ⟨List.replicate n [] ++ [[]], [], js, L⟩ =
        .ok ⟨UInt32.ofNat (3 * n + 5), code, labelPos L (ramp 0 3 n ++ [3 * n + 5])⟩ := by
      simp only [assemble, hbs, hH, hr, hlast, hI, hg, List.length_nil, Nat.zero_add]
      rw [hbs']
      simp only
      rw [show js = List.replicate n (.jump .eqZ 0) ++ [.jump .always 1] from rfl, he]
      simp
    rw [this]
  · show (UInt32.ofNat (3 * n + 5)).toNat = _
    rw [UInt32.toNat_ofNat', Nat.mod_eq_of_lt (by omega)]
  · rw [hl]
    simp only [List.length_append, i16_write_length, u8_write_length]

/-- So the claim fails below 32 KiB as well; the bound of `C37_layout_partial` is sharp up to a few
bytes. -/
theorem C37_violated_small : ¬ ∀ (is : List Insn) (cp cp' : VecCp) (a : Assembled), BodyOk is →
    Steps VecCp.new cp → writeCode is cp = .ok (a, cp') → a.code.length ≤ 24579 →
    a.len.toNat = a.code.length := by
  intro h
  obtain ⟨a, h1, h2, h3⟩ := C37_violated_crowded 8192 (by decide) (by decide) VecCp.new
  have := h _ _ _ a (crowded_ok _) (.refl _) h1 (by omega)
  omega

/-! ### Labels that are not there -/

/-- Code in which some branch refers to a label that is not placed is refused, whatever its size. -/
theorem C37_missing (is : List Insn) (cp : VecCp) (hi : BodyOk is) (h0 : Steps VecCp.new cp)
    (i : Insn) (hm : i ∈ is) (l : Label) (hl : l ∈ targets i) (hn : l ∉ marks is) :
    ∃ e, writeCode is cp = .error e := by
  cases h : writeCode is cp with
  | error e => exact ⟨e, rfl⟩
  | ok r =>
    obtain ⟨a, cp'⟩ := r
    exact absurd (writeCode_targets hi.insns (steps_ok h0 VecCp.inv_new).1 h i hm l hl) hn

/-! ## C36: switches -/

def IsSwitch : Insn → Prop
  | .tableSwitch _ _ _ | .lookupSwitch _ _ => True
  | _ => False

/-- Full claim, writing: the bytes of every switch are an encoding of it at the position where they are:
operands at the next multiple of four, all targets at their distances, keys in ascending order. -/
def C36_full : Prop := ∀ (pre post : List Insn) (i : Insn) (cp cp' : VecCp) (a : Assembled), IsSwitch i →
  BodyOk (pre ++ i :: post) → Steps VecCp.new cp → writeCode (pre ++ i :: post) cp = .ok (a, cp') →
  ∀ (W : World) (env : WEnv), W.Fits cp' → env.label = a.label →
  ∃ b1 b b2, a.code = b1 ++ b ++ b2 ∧ Enc (env.ctx W) b1.length i b

theorem layout_split {c : Ctx} {p : Nat} {pre post : List Insn} {i : Insn} {bs : Bytes}
    (h : Layout c p (pre ++ i :: post) bs) :
    ∃ b1 b b2, bs = b1 ++ b ++ b2 ∧ Layout c p pre b1 ∧ Enc c (p + b1.length) i b ∧
      Layout c (p + b1.length + b.length) post b2 := by
  induction pre generalizing p bs with
  | nil =>
    cases h with
    | @cons _ _ _ b bs h1 h2 => exact ⟨[], b, bs, rfl, .nil, h1, h2⟩
  | cons x pre ih =>
    cases h with
    | @cons _ _ _ b bs h1 h2 =>
      obtain ⟨b1, b', b2, rfl, h3, h4, h5⟩ := ih h2
      refine ⟨b ++ b1, b', b2, by simp, .cons h1 h3, ?_, ?_⟩
      · rw [List.length_append, ← Nat.add_assoc]
        exact h4
      · rw [List.length_append, ← Nat.add_assoc]
        exact h5

/-- Proved: in code of at most 24575 bytes (or wherever C37 holds). -/
theorem C36_write_partial (pre post : List Insn) (i : Insn) (cp cp' : VecCp) (a : Assembled)
    (_ : IsSwitch i) (hb : BodyOk (pre ++ i :: post)) (h0 : Steps VecCp.new cp)
    (h : writeCode (pre ++ i :: post) cp = .ok (a, cp')) (hs : a.code.length ≤ 24575)
    (W : World) (env : WEnv) (hW : W.Fits cp') (he : env.label = a.label) :
    ∃ b1 b b2, a.code = b1 ++ b ++ b2 ∧ Enc (env.ctx W) b1.length i b := by
  have h1 := (C37_layout_partial _ cp cp' a hb h0 h hs).2 W env hW he
  obtain ⟨b1, b, b2, h2, _, h3, _⟩ := layout_split h1
  rw [Nat.zero_add] at h3
  exact ⟨b1, b, b2, h2, h3⟩

/-- What the encoding of a switch means. -/
theorem C36_meaning (c : Ctx) (p : Nat) (d : Label) (t : List (Int32 × Label)) (bs : Bytes)
    (h : Enc c p (.lookupSwitch d t) bs) :
    ∃ pad rest, bs = 0xAB :: (pad ++ rest) ∧ pad.length ≤ 3 ∧ 4 ∣ p + 1 + pad.length ∧
      rest.length = 8 + 8 * t.length := by
  generalize hi : Insn.lookupSwitch d t = i at h
  cases h with
  | @noArg o _ h => cases o <;> cases h <;> cases hi
  | @lookupSwitch _ _ es pad b b' h1 h2 h3 h4 h5 h6 h7 =>
    cases hi
    refine ⟨pad, b ++ U4 es.length ++ b', by simp [U1, Op.code]; rfl, h1, Nat.dvd_of_mod_eq_zero h2, ?_⟩
    obtain ⟨n, _, _, _, rfl⟩ := h6
    have : b'.length = 8 * es.length := by
      clear h3 h4 h5
      induction es generalizing b' with
      | nil => rw [show b' = [] from h7]; rfl
      | cons e es ih =>
        obtain ⟨x, y, rfl, ⟨z, rfl, n, _, _, _, rfl⟩, h8⟩ := h7
        have := ih h8
        simp only [List.length_append, List.length_cons, this, S4, U4, U2, U1, List.length_nil]
        omega
    rw [← h3.length_eq]
    simp only [List.length_append, this, S4, U4, U2, U1, List.length_cons, List.length_nil]
  | _ => cases hi

theorem C36_meaning_table (c : Ctx) (p : Nat) (d : Label) (low : Int32) (ls : List Label) (bs : Bytes)
    (h : Enc c p (.tableSwitch d low ls) bs) :
    ∃ pad rest, bs = 0xAA :: (pad ++ rest) ∧ pad.length ≤ 3 ∧ 4 ∣ p + 1 + pad.length ∧
      rest.length = 12 + 4 * ls.length := by
  generalize hi : Insn.tableSwitch d low ls = i at h
  cases h with
  | @noArg o _ h => cases o <;> cases h <;> cases hi
  | @tableSwitch _ _ _ pad b b' h1 h2 h3 h4 h5 h6 h7 =>
    cases hi
    refine ⟨pad, b ++ S4 low.toInt ++ S4 (low.toInt + ls.length - 1) ++ b', by simp [U1, Op.code]; rfl, h1,
      Nat.dvd_of_mod_eq_zero h2, ?_⟩
    obtain ⟨n, _, _, _, rfl⟩ := h6
    have : b'.length = 4 * ls.length := by
      clear h3 h4 h5
      induction ls generalizing b' with
      | nil => rw [show b' = [] from h7]; rfl
      | cons e ls ih =>
        obtain ⟨x, y, rfl, ⟨n, _, _, _, rfl⟩, h8⟩ := h7
        have := ih h8
        simp only [List.length_append, List.length_cons, this, S4, U4, U2, U1, List.length_nil]
        omega
    simp only [List.length_append, this, S4, U4, U2, U1, List.length_cons, List.length_nil]
  | _ => cases hi

/-- In a method with a long `goto` a later switch is misplaced. (If the distance contains the opcode of
the switch then something else might be mistaken for it.) -/
theorem C36_violated_far (n : Nat) (h : 32765 ≤ n) (h' : n ≤ 65530) (hn : n % 4 = 0)
    (hab : 0xAB ∉ i32.write (Int32.ofInt (n + (3 : Nat)))) (cp : VecCp) :
    ∃ a, writeCode (farBranch (.jump .always 0) n ++ [.lookupSwitch 0 []]) cp = .ok (a, cp) ∧
      ∀ (c : Ctx) (b1 b b2 : Bytes), a.code = b1 ++ b ++ b2 → ¬ Enc c b1.length (.lookupSwitch 0 []) b := by
  have hw : writeInsns .empty (farBranch (.jump .always 0) n ++ [.lookupSwitch 0 []]) cp =
      .ok (⟨[[], List.replicate n 0], [], [.jump .always 0, .lookup 0 []], [(0, (1, n))]⟩, cp) := by
    rw [farBranch, List.cons_append, writeInsns]
    show writeInsns (CodeBuf.empty.branch (.jump .always 0)) _ cp = _
    rw [List.append_assoc, writeInsns_append (writeInsns_nops _ n cp)]
    show Except.ok _ = _
    simp [CodeBuf.empty, CodeBuf.branch]
  have hr1 : (Branch.jump .always 0).size [(0, (1, n))] [5, 5 + 12 + n] 0 = .ok 3 := by
    show (Except.ok (1 + if 5 + n ≤ 65535 then 2 else 4) : Res Nat) = _
    rw [if_pos (by omega)]
  have hpad : padding (3 + n + 1) = 0 := by
    unfold padding
    rw [if_pos (by omega)]
  have hr2 : (Branch.lookup 0 []).size [(0, (1, n))] [5, 5 + 12 + n] (3 + n) = .ok 9 := by
    rw [Branch.size, hpad]
    rfl
  have hres : ∀ s idx, s ≤ idx → idx ≤ n + 12 →
      resolveLabel [(0, (1, n))] [3, n + 12] s idx 0 = .ok (Int32.ofInt ((n : Int) + 3 - idx + s)) := by
    intro s idx hs hi
    have e1 : UInt32.ofNat 3 + UInt32.ofNat n = UInt32.ofNat (3 + n) := by rw [UInt32.ofNat_add]
    have e2 : (UInt32.ofNat 3).toNat + (UInt32.ofNat n).toNat < 2 ^ 32 := by
      rw [UInt32.toNat_ofNat', UInt32.toNat_ofNat', Nat.mod_eq_of_lt (by omega), Nat.mod_eq_of_lt (by omega)]
      omega
    have hf : findLabel [(0, (1, n))] 0 = .ok (1, n) := rfl
    have hs : startOf [3, n + 12] 1 = .ok 3 := rfl
    simp only [resolveLabel, hf, hs]
    rw [if_pos e2, e1, Int32.toInt_sub_small (toInt32_small (by omega)) (toInt32_small (by omega)) (by omega)
      (by omega), toInt32_small (by omega), if_pos (by omega)]
    congr 2
    omega
  have he1 : (Branch.jump .always 0).emit [(0, (1, n))] [3, n + 12] 3 3 =
      .ok (u8.write opc.GOTO_W ++ i32.write (Int32.ofInt (n + (3 : Nat)))) := by
    rw [Branch.emit, hres 3 3 (by omega) (by omega),
      show (n : Int) + 3 - (3 : Nat) + (3 : Nat) = n + (3 : Nat) from by omega]
    show (Except.ok (if _ then _ else _) : Res Bytes) = _
    rw [farBranch_fits (by omega) (by omega)]
    rfl
  have he2 : (Branch.lookup 0 []).emit [(0, (1, n))] [3, n + 12] 9 (n + 12) =
      .ok [0xAB, 0, 0, 0, 0, 0, 0, 0, 0] := by
    rw [Branch.emit, hres 9 (n + 12) (by omega) (by omega),
      show (n : Int) + 3 - ((n + 12 : Nat) : Int) + (9 : Nat) = 0 from by omega,
      show n + 12 - 9 + 1 = 3 + n + 1 from by omega, hpad, List.mergeSort_nil]
    rfl
  have ha : assemble ⟨[[], List.replicate n 0], [], [.jump .always 0, .lookup 0 []], [(0, (1, n))]⟩ =
      .ok ⟨UInt32.ofNat (n + 12), u8.write opc.GOTO_W ++ i32.write (Int32.ofInt (n + (3 : Nat))) ++
        List.replicate n 0 ++ [0xAB, 0, 0, 0, 0, 0, 0, 0, 0], labelPos [(0, (1, n))] [3, n + 12]⟩ := by
    have hH : hintsFrom 0 [.jump .always 0, .lookup 0 []] [[], List.replicate n 0, []] = .ok [5, 5 + 12 + n] := by
      simp [hintsFrom, Branch.maxSize]
      omega
    have hr : layoutFrom [(0, (1, n))] [5, 5 + 12 + n] 0 [.jump .always 0, .lookup 0 []] [[], List.replicate n 0, []] =
        .ok [(3, 3), (9, n + 12)] := by
      simp only [layoutFrom, List.length_nil, Nat.add_zero, hr1, Nat.zero_add, List.length_replicate, hr2]
      rw [show 3 + n + 9 = n + 12 from by omega]
    simp only [assemble, List.cons_append, List.nil_append, hH, hr, List.map_cons, List.map_nil, emitFrom, he1, he2]
    simp
  refine ⟨⟨UInt32.ofNat (n + 12), u8.write opc.GOTO_W ++ i32.write (Int32.ofInt (n + (3 : Nat))) ++
        List.replicate n 0 ++ [0xAB, 0, 0, 0, 0, 0, 0, 0, 0], labelPos [(0, (1, n))] [3, n + 12]⟩, ?_, ?_⟩
  · unfold writeCode
    show Ins.bind _ _ cp = _
    rw [Ins.bind, hw]
    show Ins.lift _ cp = _
    unfold Ins.lift
    rw [ha]
  · intro c b1 b b2 hc henc
    obtain ⟨pad, rest, rfl, h1, h2, h3⟩ := C36_meaning c _ _ _ _ henc
    have hlen := congrArg List.length hc
    simp only [List.length_append, List.length_cons, List.length_replicate, i32_write_length, u8_write_length,
      List.length_nil] at hlen h3
    -- the only byte 0xAB is the opcode of the switch
    have hx : (b1 ++ 0xAB :: (pad ++ rest) ++ b2)[b1.length]? = some 0xAB := by simp
    rw [← hc] at hx
    have hb : b1.length = n + 5 := by
      rw [List.append_assoc, List.append_assoc] at hx
      by_cases h5 : b1.length < 5
      · rw [← List.append_assoc, List.getElem?_append_left (by
          simp only [List.length_append, i32_write_length, u8_write_length]; omega)] at hx
        have := List.mem_of_getElem? hx
        rcases List.mem_append.mp this with h | h
        · exact absurd h (by decide)
        · exact absurd h hab
      · rw [← List.append_assoc, List.getElem?_append_right (by
          simp only [List.length_append, i32_write_length, u8_write_length]; omega)] at hx
        simp only [List.length_append, i32_write_length, u8_write_length] at hx
        by_cases hn : b1.length < n + 5
        · rw [List.getElem?_append_left (by rw [List.length_replicate]; omega), List.getElem?_replicate,
            if_pos (by omega)] at hx
          cases hx
        · rw [List.getElem?_append_right (by rw [List.length_replicate]; omega), List.length_replicate] at hx
          generalize hk : b1.length - (1 + 4) - n = k at hx
          match k, hx with
          | 0, _ => omega
          | 1, hx | 2, hx | 3, hx | 4, hx | 5, hx | 6, hx | 7, hx | 8, hx => cases hx
          | k + 9, hx => cases hx
    omega

theorem marks_append (xs ys : List Insn) : marks (xs ++ ys) = marks xs ++ marks ys := by
  induction xs with
  | nil => rfl
  | cons x xs ih => cases x <;> simp [marks, ih]

theorem C36_violated : ¬ C36_full := by
  intro h
  obtain ⟨a, h1, h2⟩ := C36_violated_far 40000 (by decide) (by decide) (by decide) (by decide) VecCp.new
  obtain ⟨P, hP⟩ := agrees_exists VecCp.new.entries
  have hb := farBranch_ok (j := .jump .always 0) (by trivial) (by intro l hl; cases hl) 40000
  obtain ⟨b1, b, b2, h3, h4⟩ := h _ [] (.lookupSwitch 0 []) VecCp.new VecCp.new a trivial
    ⟨fun i hi => by
      rcases List.mem_append.mp hi with hi | hi
      · exact hb.insns i hi
      · obtain rfl : i = .lookupSwitch 0 [] := by simpa using hi
        exact List.nodup_nil, by
      rw [marks_append]
      simpa [marks] using hb.labels⟩ (.refl _) h1 ⟨P, []⟩ ⟨a.label, WEnv.outside.catch_⟩
    ⟨hP, List.prefix_refl _⟩ rfl
  exact h2 _ b1 b b2 h3 h4

/-! ### Reading -/

theorem lookup_perm {α β : Type} [BEq α] [LawfulBEq α] {l l' : List (α × β)} (h : l.Perm l')
    (hn : (l.map Prod.fst).Nodup) (a : α) : l.lookup a = l'.lookup a := by
  have hn' : (l'.map Prod.fst).Nodup := (h.map Prod.fst).nodup_iff.mp hn
  cases h1 : l.lookup a with
  | some b => exact (lookup_of_mem hn' (h.mem_iff.mp (mem_of_lookup h1))).symm
  | none =>
    cases h2 : l'.lookup a with
    | none => rfl
    | some b => rw [lookup_of_mem hn (h.mem_iff.mpr (mem_of_lookup h2))] at h1; cases h1

theorem lookup_map {α β γ : Type} [BEq α] (f : β → γ) (l : List (α × β)) (a : α) :
    (l.map fun e => (e.1, f e.2)).lookup a = (l.lookup a).map f := by
  induction l with
  | nil => rfl
  | cons e l ih =>
    rw [List.map_cons, List.lookup_cons, List.lookup_cons, ih]
    split <;> rfl

theorem lookup_keys {c : Ctx} {p : Nat} {d : Label} {t : List (Int32 × Label)} {bs : Bytes}
    (h : Enc c p (.lookupSwitch d t) bs) : (t.map Prod.fst).Nodup := by
  generalize hi : Insn.lookupSwitch d t = i at h
  cases h with
  | @noArg o _ h => cases o <;> cases h <;> cases hi
  | @lookupSwitch _ _ es pad b b' h1 h2 h3 h4 h5 h6 h7 =>
    cases hi
    refine (h3.map Prod.fst).nodup_iff.mp ?_
    rw [List.Nodup, List.pairwise_map]
    exact h4.imp (fun {x y} hl he => by rw [he] at hl; omega)
  | _ => cases hi

/-- A lookup switch at any position is read with the same default and the same target for every key,
where targets are labels of the same positions; what follows is left alone. -/
theorem C36_read (c : Ctx) (cs : Option (List Catch)) (p : Nat) (d : Label) (t : List (Int32 × Label)) (bs : Bytes)
    (h : Enc c p (.lookupSwitch d t) bs) (hT : c.bsm.length ≤ 65536)
    (q : List UInt16) (m : LabelMap) (rest : Bytes) :
    ∃ (ρ : Label → Label) (t' : List (Int32 × Label)) (q' : List UInt16) (m' : LabelMap),
      rInsn p ⟨c.pool, cs⟩ ⟨q, some m⟩ (bs ++ rest) = .ok (.lookupSwitch (ρ d) t', ⟨q', some m'⟩, rest) ∧
      (∀ key, t'.lookup key = (t.lookup key).map ρ) ∧ m <+: m' ∧
      ∀ l ∈ d :: t.map Prod.snd, ∃ o, c.pos l = some o ∧ m'.lookup (UInt32.ofNat o) = some (ρ l) := by
  have hk := lookup_keys h
  obtain ⟨k, ρ, q', m', h1, h2, h3, h4⟩ := C34_read_partial c cs p _ _ bs h rfl trivial hT q m rest
  have hp := List.mergeSort_perm t fun a b => decide (a.1.toInt ≤ b.1.toInt)
  have : k = .lookupSwitch (ρ d) ((t.mergeSort fun a b => a.1.toInt ≤ b.1.toInt).map fun e => (e.1, ρ e.2)) := by
    cases k <;> first | cases h2 | exact h2
    rfl
  subst this
  refine ⟨ρ, _, q', m', h1, ?_, h3, ?_⟩
  · intro key
    rw [lookup_map, ← lookup_perm hp.symm hk]
  · intro l hl
    refine h4 l ?_
    rcases List.mem_cons.mp hl with rfl | hl
    · exact List.mem_cons_self
    · refine List.mem_cons_of_mem _ ?_
      exact (hp.map Prod.snd).mem_iff.mpr hl

/-- Likewise a table switch. -/
theorem C36_read_table (c : Ctx) (cs : Option (List Catch)) (p : Nat) (d : Label) (low : Int32) (ls : List Label)
    (bs : Bytes) (h : Enc c p (.tableSwitch d low ls) bs) (hT : c.bsm.length ≤ 65536)
    (q : List UInt16) (m : LabelMap) (rest : Bytes) :
    ∃ (ρ : Label → Label) (q' : List UInt16) (m' : LabelMap),
      rInsn p ⟨c.pool, cs⟩ ⟨q, some m⟩ (bs ++ rest) =
        .ok (.tableSwitch (ρ d) low (ls.map ρ), ⟨q', some m'⟩, rest) ∧ m <+: m' ∧
      ∀ l ∈ d :: ls, ∃ o, c.pos l = some o ∧ m'.lookup (UInt32.ofNat o) = some (ρ l) := by
  obtain ⟨k, ρ, q', m', h1, h2, h3, h4⟩ := C34_read_partial c cs p _ _ bs h rfl trivial hT q m rest
  have : k = .tableSwitch (ρ d) low (ls.map ρ) := by
    cases k <;> first | cases h2 | exact h2
    rfl
  subst this
  exact ⟨ρ, q', m', h1, h3, h4⟩

/-! ## Cases -/

/-- A loop with a forward and a backward branch, a table switch and straight code. -/
def loop : List Insn :=
  [.label 7, .push (.static (.i32 1)), .jump .eqZ 9, .tableSwitch 9 3 [7, 8], .label 8, .lineNumber 5,
   .jump .always 7, .label 9, .return none]

theorem loop_ok : BodyOk loop := by
  refine ⟨?_, by decide⟩
  intro i hi
  simp only [loop, List.mem_cons, List.not_mem_nil, or_false] at hi
  rcases hi with rfl | rfl | rfl | rfl | rfl | rfl | rfl | rfl | rfl <;>
    first | trivial | exact ⟨trivial, trivial⟩

/-- It is written, so that C36 and C37 apply to it. -/
example : ∃ a, writeCode loop VecCp.new = .ok (a, VecCp.new) ∧ a.len = 32 ∧
    a.code = [4, 0x99, 0, 30, 0xAA, 0, 0, 0, 0, 0, 0, 27, 0, 0, 0, 3, 0, 0, 0, 4, 255, 255, 255, 252, 0, 0, 0, 24,
      0xA7, 255, 228, 0xB1] :=
  ⟨_, rfl, rfl, rfl⟩

/-- A label that is not placed. -/
example : ∃ e, writeCode [.jump .always 3, .label 4] VecCp.new = .error e :=
  C37_missing _ _ ⟨by
    intro i hi
    simp only [List.mem_cons, List.not_mem_nil, or_false] at hi
    rcases hi with rfl | rfl <;> trivial, by decide⟩ (.refl _) _ List.mem_cons_self 3 (by decide) (by decide)

/-- The encoding of a lookup switch at position 2. -/
def sampleCtx : Ctx := ⟨fun _ => none, [], fun l => some (10 * l.toNat), fun _ => none⟩

example : Enc sampleCtx 2 (.lookupSwitch 1 [(9, 2), (-4, 1)])
    ([0xAB, 0] ++ S4 8 ++ U4 2 ++ (S4 (-4) ++ S4 8 ++ (S4 9 ++ S4 18))) :=
  .lookupSwitch (pad := [0]) (es := [(-4, 1), (9, 2)]) (by decide) (by decide) (List.Perm.swap _ _ _) (by decide)
    (by decide) ⟨8, ⟨10, rfl, by decide⟩, by decide, by decide, rfl⟩
    ⟨_, _, rfl, ⟨_, rfl, 8, ⟨10, rfl, by decide⟩, by decide, by decide, rfl⟩, _, _, (List.append_nil _).symm,
      ⟨_, rfl, 18, ⟨20, rfl, by decide⟩, by decide, by decide, rfl⟩, rfl⟩

end Verif.Props
