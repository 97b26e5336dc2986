import Verif.Lemmas.WrAttr
import Verif.Lemmas.Size

/-! # Success of writing: bodies of methods -/

namespace Verif
open Spec Sig

/-! ## Lengths of instructions -/

/-- A writer that gives at most `n` bytes. -/
def Brief (n : Nat) (w : Ins Bytes) : Prop := ∀ cp bs cp', w cp = .ok (bs, cp') → bs.length ≤ n

namespace Brief

theorem pure {n : Nat} (bs : Bytes) (h : bs.length ≤ n) : Brief n (Pure.pure bs) := by
  rintro cp b cp' ⟨⟩
  exact h

theorem bind {α : Type} {n : Nat} {m : Ins α} {f : α → Ins Bytes} (h : ∀ a, Brief n (f a)) : Brief n (m >>= f) := by
  intro cp bs cp' e
  obtain ⟨a, cp1, _, e2⟩ := Ins.bind_ok e
  exact h a _ _ _ e2

theorem num {α : Type} (c : NumCodec α) (x : α) : Brief c.size (wNum c x) :=
  pure _ (by simp [NumCodec.write, toBe_length])

theorem code (b : UInt8) : Brief 1 (op b) := num u8 b
theorem n8 (b : UInt8) : Brief 1 (wNum u8 b) := num u8 b
theorem s8 (b : Int8) : Brief 1 (wNum i8 b) := num i8 b
theorem n16 (b : UInt16) : Brief 2 (wNum u16 b) := num u16 b
theorem s16 (b : Int16) : Brief 2 (wNum i16 b) := num i16 b
theorem idx (i : Ins UInt16) : Brief 2 (wIdx i) := bind fun a => pure _ (by simp [u16_write, U2])
theorem nil : Brief 0 (wSeq []) := pure _ (Nat.le_refl _)

theorem cons {n m : Nat} {w : Ins Bytes} {ws : List (Ins Bytes)} (h : Brief n w) (hs : Brief m (wSeq ws)) :
    Brief (n + m) (wSeq (w :: ws)) := by
  intro cp bs cp' e
  obtain ⟨a, cp1, e1, e⟩ := Ins.bind_ok e
  obtain ⟨b, cp2, e2, e⟩ := Ins.bind_ok e
  cases e
  have := h _ _ _ e1
  have := hs _ _ _ e2
  rw [List.length_append]
  omega

theorem le {n m : Nat} {w : Ins Bytes} (h : Brief n w) (hm : n ≤ m) : Brief m w :=
  fun cp bs cp' e => Nat.le_trans (h cp bs cp' e) hm

end Brief

open Brief in
theorem brief_ldc (c : OrDynamic Constant) : Brief 6 (writeLdc c) := by
  refine Brief.bind fun i => ?_
  have h1 : Brief 6 (wSeq [op opc.LDC2_W, wNum u16 i]) := (cons (code _) (cons (n16 _) nil)).le (by decide)
  have h2 : Brief 6 (wSeq [op opc.LDC, wNum u8 i.toUInt8]) := (cons (code _) (cons (n8 _) nil)).le (by decide)
  have h3 : Brief 6 (wSeq [op opc.LDC_W, wNum u16 i]) := (cons (code _) (cons (n16 _) nil)).le (by decide)
  split
  all_goals
    simp only
    split
    · exact h1
    · split
      · exact h2
      · exact h3

open Brief in
theorem brief_push (c : OrDynamic Constant) : Brief 6 (writePush c) := by
  have o : ∀ b, Brief 6 (op b) := fun b => (code b).le (by decide)
  have o8 : ∀ b x, Brief 6 (wSeq [op b, wNum i8 x]) := fun b x => (cons (code b) (cons (s8 x) nil)).le (by decide)
  have o16 : ∀ b x, Brief 6 (wSeq [op b, wNum i16 x]) := fun b x => (cons (code b) (cons (s16 x) nil)).le (by decide)
  unfold writePush
  repeat' split
  all_goals first
    | with_reducible exact brief_ldc _
    | with_reducible exact o _
    | with_reducible exact o8 _ _
    | with_reducible exact o16 _ _

open Brief in
theorem brief_insn (i : Insn) : Brief 6 i.encode := by
  have o : ∀ b, Brief 6 (op b) := fun b => (code b).le (by decide)
  have o2 : ∀ b i, Brief 6 (wSeq [op b, wIdx i]) := fun b i => (cons (code b) (cons (idx i) nil)).le (by decide)
  have p0 : Brief 6 (Pure.pure []) := pure _ (by simp)
  have wd : ∀ b l, Brief 6 (wideOrNormal b l) := fun b l => by
    unfold wideOrNormal
    split
    · exact (cons (code _) (cons (n8 _) nil)).le (by decide)
    · exact (cons (code _) (cons (code _) (cons (n16 _) nil))).le (by decide)
  cases i with
  | push c => exact brief_push c
  | localVariable m t l => exact wd _ _
  | ret l => exact wd _ _
  | intIncrement l n =>
    show Brief 6 (if _ then _ else _)
    split
    · exact (cons (code _) (cons (n8 _) (cons (s8 _) nil))).le (by decide)
    · exact (cons (code _) (cons (code _) (cons (n16 _) (cons (s16 _) nil)))).le (by decide)
  | monitor m => cases m <;> exact o _
  | conversion a b =>
    show Brief 6 (match conversionOp a b with | some o => op o | none => Pure.pure [])
    split
    · exact o _
    · exact p0
  | convertInt a =>
    show Brief 6 (match convertIntOp a with | some o => op o | none => Pure.pure [])
    split
    · exact o _
    · exact p0
  | invokeExact a m => cases a <;> exact o2 _ _
  | invokeInterface m n =>
    exact (cons (code _) (cons (idx _) (cons (n8 _) (cons (pure (n := 1) _ (by simp)) nil)))).le (by decide)
  | invokeDynamic d => exact (cons (code _) (cons (idx _) (cons (pure (n := 2) _ (by simp)) nil))).le (by decide)
  | _ => first | exact o _ | exact o2 _ _ | exact p0

/-! ## Pieces -/

/-- Straight code within its room. -/
def Within (i : Insn) (b : Bytes) : Prop := b.length ≤ room i ∧ ∀ l, i ≠ .label l

theorem split_within {is : List Insn} {b b' : CodeBuf} {cp cp' : VecCp} (h : writeInsns b is cp = .ok (b', cp')) :
    Split Within b b' is := by
  induction is generalizing b cp with
  | nil =>
    cases h
    exact ⟨[], [], [], .nil, by simp, by simp, by simp⟩
  | cons i is ih =>
    rw [writeInsns] at h
    obtain ⟨b1, cp1, h1, h2⟩ := Ins.bind_ok h
    have st : room i = 6 → (∀ l, i ≠ .label l) → writeInsn b i = (do
          let bs ← i.encode
          pure { b with cur := b.cur ++ bs }) → Split Within b b' (i :: is) := by
      intro hr hl hw
      rw [hw] at h1
      obtain ⟨bs, cp2, e1, e2⟩ := Ins.bind_ok h1
      cases e2
      obtain ⟨first, rest, ls, h2, h3, h4, h5⟩ := ih h2
      refine ⟨bs ++ first, rest, ls, .straight ⟨by rw [hr]; exact brief_insn i _ _ _ e1, hl⟩ ?_, ?_, h4, h5⟩
      · simpa using h2
      · simpa using h3
    have br : ∀ j : Branch, i = j.insn → writeInsn b i = pure (b.branch j) → Split Within b b' (i :: is) := by
      intro j hj hw
      subst hj
      rw [hw] at h1
      cases h1
      exact (ih h2).branch j
    cases i with
    | label l =>
      cases h1
      obtain ⟨first, rest, ls, h2, h3, h4, h5⟩ := ih h2
      exact ⟨first, rest, _ :: ls, .label h2, h3, h4, by simpa using h5⟩
    | lineNumber n =>
      cases h1
      obtain ⟨first, rest, ls, h2, h3, h4, h5⟩ := ih h2
      exact ⟨first, rest, ls, .line h2, h3, h4, h5⟩
    | lookupSwitch d t => exact br (.lookup d t) rfl rfl
    | tableSwitch d low ls => exact br (.table d low ls) rfl rfl
    | jump c l => exact br (.jump c l) rfl rfl
    | jsr l => exact br (.jsr l) rfl rfl
    | _ => exact st rfl (fun _ h => Insn.noConfusion h) rfl

/-- One place is before another or the same. -/
def Before (a b : Nat × Nat) : Prop := a.1 < b.1 ∨ a.1 = b.1 ∧ a.2 ≤ b.2

theorem Pieces.after {enc : Insn → Bytes → Prop} {k off : Nat} {is : List Insn} {first : Bytes}
    {rest : List (Branch × Bytes)} {ls : List (Label × (Nat × Nat))} (h : Pieces enc k off is first rest ls) :
    ∀ e ∈ ls, Before (k, off) e.2 := by
  induction h with
  | nil => simp
  | straight _ _ ih =>
    intro e he
    have := ih e he
    unfold Before at this ⊢
    simp only at this ⊢
    omega
  | label _ ih =>
    intro e he
    rcases List.mem_cons.mp he with rfl | he
    · exact .inr ⟨rfl, Nat.le_refl _⟩
    · exact ih e he
  | line _ ih => exact ih
  | branch _ _ ih =>
    intro e he
    have := ih e he
    unfold Before at this ⊢
    simp only at this ⊢
    omega

theorem Pieces.order {enc : Insn → Bytes → Prop} (henc : ∀ l b, ¬ enc (.label l) b) {k off : Nat} {is : List Insn}
    {first : Bytes} {rest : List (Branch × Bytes)} {ls : List (Label × (Nat × Nat))}
    (h : Pieces enc k off is first rest ls) {n m : Nat} {s t : Label} (hn : is[n]? = some (.label s))
    (hm : is[m]? = some (.label t)) (hle : n ≤ m) : ∃ a b, (s, a) ∈ ls ∧ (t, b) ∈ ls ∧ Before a b := by
  induction h generalizing n m s with
  | nil => simp at hn
  | @straight k off i is b first rest ls h1 h2 ih =>
    cases n with
    | zero =>
      simp only [List.getElem?_cons_zero, Option.some.injEq] at hn
      subst hn
      exact absurd h1 (henc _ _)
    | succ n =>
      cases m with
      | zero => omega
      | succ m => exact ih (by simpa using hn) (by simpa using hm) (by omega)
  | @label k off l is first rest ls h2 ih =>
    have later : ∀ {m : Nat}, is[m]? = some (.label t) → ∃ b, (t, b) ∈ ls := fun {m} hm => by
      obtain ⟨_, b, _, hb, _⟩ := ih (n := m) (m := m) (s := t) hm hm (Nat.le_refl _)
      exact ⟨b, hb⟩
    cases n with
    | zero =>
      simp only [List.getElem?_cons_zero, Option.some.injEq, Insn.label.injEq] at hn
      subst hn
      cases m with
      | zero =>
        simp only [List.getElem?_cons_zero, Option.some.injEq, Insn.label.injEq] at hm
        subst hm
        exact ⟨_, _, List.mem_cons_self, List.mem_cons_self, .inr ⟨rfl, Nat.le_refl _⟩⟩
      | succ m =>
        obtain ⟨b, hb⟩ := later (m := m) (by simpa using hm)
        exact ⟨_, b, List.mem_cons_self, List.mem_cons_of_mem _ hb, h2.after _ hb⟩
    | succ n =>
      cases m with
      | zero => omega
      | succ m =>
        obtain ⟨a, b, h1, h2, h3⟩ := ih (by simpa using hn) (by simpa using hm) (by omega)
        exact ⟨a, b, by simp [h1], by simp [h2], h3⟩
  | line h2 ih =>
    cases n with
    | zero => simp at hn
    | succ n =>
      cases m with
      | zero => omega
      | succ m => exact ih (by simpa using hn) (by simpa using hm) (by omega)
  | branch j h2 ih =>
    cases n with
    | zero => cases j <;> simp [Branch.insn] at hn
    | succ n =>
      cases m with
      | zero => omega
      | succ m => exact ih (by simpa using hn) (by simpa using hm) (by omega)

/-! ## Assembling succeeds -/

theorem starts_ge {last : Nat} {ss : List Nat} {bs : List Bytes} {k s : Nat}
    (h : (last :: starts last ss bs)[k]? = some s) : last ≤ s := by
  induction ss generalizing last bs k with
  | nil =>
    cases k with
    | zero => simp at h; omega
    | succ k => simp [starts] at h
  | cons t ss ih =>
    cases k with
    | zero => simp at h; omega
    | succ k =>
      cases bs with
      | nil => simp [starts] at h
      | cons b bs =>
        rw [starts] at h
        have := ih (last := last + b.length + t) (bs := bs) (k := k) (by simpa using h)
        omega

theorem starts_mono {last : Nat} {ss : List Nat} {bs : List Bytes} {k k' s s' : Nat} {b : Bytes}
    (h : (last :: starts last ss bs)[k]? = some s) (hb : bs[k]? = some b)
    (h' : (last :: starts last ss bs)[k']? = some s') (hk : k < k') : s + b.length ≤ s' := by
  induction ss generalizing last bs k k' with
  | nil =>
    cases k' with
    | zero => omega
    | succ k' => simp [starts] at h'
  | cons t ss ih =>
    cases bs with
    | nil => simp at hb
    | cons b0 bs =>
      rw [starts] at h h'
      cases k' with
      | zero => omega
      | succ k' =>
        simp only [List.getElem?_cons_succ] at h'
        cases k with
        | zero =>
          simp only [List.getElem?_cons_zero, Option.some.injEq] at h hb
          subst h hb
          have := starts_ge h'
          omega
        | succ k =>
          exact ih (by simpa using h) (by simpa using hb) h' (by omega)

theorem hints_total {last : Nat} {js : List Branch} {bs : List Bytes} (h : js.length ≤ bs.length) :
    ∃ hs, hintsFrom last js bs = .ok hs := by
  induction js generalizing last bs with
  | nil => exact ⟨_, rfl⟩
  | cons j js ih =>
    cases bs with
    | nil => simp at h
    | cons b bs =>
      obtain ⟨hs, e⟩ := ih (last := last + (j.maxSize + b.length)) (bs := bs) (by simpa using h)
      exact ⟨_, by rw [hintsFrom, e]⟩

/-- The label has a place, in one of the first `n` pieces or the one after them. -/
def Known (L : List (Label × (Nat × Nat))) (n : Nat) (l : Label) : Prop :=
  ∃ k o, L.lookup l = some (k, o) ∧ k ≤ n

theorem startOf_total {v : List Nat} {k : Nat} (h : k ≤ v.length) : ∃ s, startOf v k = .ok s := by
  have : k < (0 :: v).length := by simp; omega
  exact ⟨_, startOf_eq.mpr (List.getElem?_eq_getElem this)⟩

theorem targetOff_total {L : List (Label × (Nat × Nat))} {H : List Nat} {l : Label} (h : Known L H.length l) :
    ∃ t, targetOff L H l = .ok t := by
  obtain ⟨k, o, h1, h2⟩ := h
  obtain ⟨s, h3⟩ := startOf_total h2
  exact ⟨s + o, by simp only [targetOff, findLabel, h1, h3]⟩

theorem Branch.size_total {L : List (Label × (Nat × Nat))} {H : List Nat} {p : Nat} {j : Branch}
    (h : ∀ l ∈ targets j.insn, Known L H.length l) : ∃ s, j.size L H p = .ok s ∧ s ≤ room j.insn := by
  have hp := padding_le (p + 1)
  cases j with
  | lookup d t => exact ⟨_, rfl, by simp only [Branch.insn, room]; omega⟩
  | table d low ls => exact ⟨_, rfl, by simp only [Branch.insn, room]; omega⟩
  | jsr l =>
    obtain ⟨t, ht⟩ := targetOff_total (h l (by simp [Branch.insn, targets]))
    refine ⟨_, by rw [Branch.size, ht], ?_⟩
    simp only [Branch.insn, room]
    split <;> omega
  | jump c l =>
    obtain ⟨t, ht⟩ := targetOff_total (h l (by simp [Branch.insn, targets]))
    by_cases hc : c = .always
    · subst hc
      refine ⟨_, by rw [Branch.size, ht], ?_⟩
      simp only [Branch.insn, room]
      split <;> omega
    · refine ⟨_, by rw [Branch.size_cond hc, ht], ?_⟩
      simp only [Branch.insn, room]
      split <;> omega

theorem layout_total {L : List (Label × (Nat × Nat))} {H : List Nat} {rest : List (Branch × Bytes)}
    (h : ∀ e ∈ rest, ∀ l ∈ targets e.1.insn, Known L H.length l) (first : Bytes) (last : Nat) :
    ∃ r, layoutFrom L H last (rest.map Prod.fst) (first :: rest.map Prod.snd) = .ok r ∧
      fin last r (first :: rest.map Prod.snd) ≤
        last + first.length + (rest.map fun e => room e.1.insn + e.2.length).sum ∧
      ∀ e ∈ r, e.1 ≤ e.2 ∧ e.2 ≤ fin last r (first :: rest.map Prod.snd) := by
  induction rest generalizing first last with
  | nil => exact ⟨[], rfl, by simp [fin], by simp⟩
  | cons e rest ih =>
    obtain ⟨j, b⟩ := e
    obtain ⟨s, h1, h2⟩ := Branch.size_total (p := last + first.length) (h _ List.mem_cons_self)
    obtain ⟨r, h3, h4, h5⟩ := ih (fun e he => h e (by simp [he])) b (last + first.length + s)
    refine ⟨(s, last + first.length + s) :: r, ?_, ?_, ?_⟩
    · simp only [List.map_cons, layoutFrom, h1, h3]
    · simp only [fin, List.map_cons, List.sum_cons]
      simp only [] at h2
      omega
    · intro e he
      have hge := fin_ge h3
      simp only [fin, List.map_cons]
      rcases List.mem_cons.mp he with rfl | he
      · exact ⟨Nat.le_add_left _ _, hge⟩
      · exact h5 e he

theorem resolve_total {L : List (Label × (Nat × Nat))} {I : List Nat} {size idx k o s : Nat} {l : Label}
    (h1 : L.lookup l = some (k, o)) (h2 : startOf I k = .ok s) (h3 : s + o ≤ 65535) (h4 : size ≤ idx)
    (h5 : idx ≤ 65535) : ∃ x, resolveLabel L I size idx l = .ok x := by
  have e1 : (UInt32.ofNat s).toNat = s := by rw [UInt32.toNat_ofNat']; omega
  have e2 : (UInt32.ofNat o).toNat = o := by rw [UInt32.toNat_ofNat']; omega
  have e3 : UInt32.ofNat s + UInt32.ofNat o = UInt32.ofNat (s + o) := by
    apply UInt32.toNat_inj.mp
    rw [UInt32.toNat_add, e1, e2, UInt32.toNat_ofNat']
  have d : ((UInt32.ofNat (s + o)).toInt32 - (UInt32.ofNat idx).toInt32).toInt = ((s + o : Nat) : Int) - idx :=
    Int32.toInt_sub_small (toInt32_small (by omega)) (toInt32_small (by omega)) (by omega) (by omega)
  have e4 : (UInt32.ofNat size).toInt32.toInt = size := toInt32_small (by omega)
  simp only [resolveLabel, findLabel, h1, h2, e1, e2, e3, d, e4]
  rw [if_pos (by omega), if_pos (by omega)]
  exact ⟨_, rfl⟩

section
variable {L : List (Label × (Nat × Nat))} {I : List Nat} {size idx : Nat}

theorem resolveAll_total {ls : List Label} (h : ∀ l ∈ ls, ∃ x, resolveLabel L I size idx l = .ok x) :
    ∃ bs, resolveAll L I size idx ls = .ok bs := by
  induction ls with
  | nil => exact ⟨_, rfl⟩
  | cons l ls ih =>
    obtain ⟨x, hx⟩ := h l (by simp)
    obtain ⟨bs, hb⟩ := ih fun l hl => h l (by simp [hl])
    exact ⟨_, by rw [resolveAll, hx, hb]; rfl⟩

theorem resolvePairs_total {es : List (Int32 × Label)} (h : ∀ e ∈ es, ∃ x, resolveLabel L I size idx e.2 = .ok x) :
    ∃ bs, resolvePairs L I size idx es = .ok bs := by
  induction es with
  | nil => exact ⟨_, rfl⟩
  | cons e es ih =>
    obtain ⟨k, l⟩ := e
    obtain ⟨x, hx⟩ := h (k, l) (by simp)
    obtain ⟨bs, hb⟩ := ih fun l hl => h l (by simp [hl])
    exact ⟨_, by rw [resolvePairs, hx, hb]; rfl⟩

theorem Branch.emit_total {j : Branch} (h : ∀ l ∈ targets j.insn, ∃ x, resolveLabel L I size idx l = .ok x)
    (ht : ∀ d low ls, j = .table d low ls → ls ≠ [] ∧ low.toInt + ls.length ≤ 2 ^ 31) (hr : room j.insn < 65536) :
    ∃ o, j.emit L I size idx = .ok o := by
  cases j with
  | lookup d t =>
    obtain ⟨o, ho⟩ := h d (by simp [Branch.insn, targets])
    obtain ⟨es, hes⟩ := resolvePairs_total (L := L) (I := I) (size := size) (idx := idx)
      (es := t.mergeSort fun a b => a.1.toInt ≤ b.1.toInt) fun e he =>
        h e.2 (by
          simp only [Branch.insn, targets, List.mem_cons]
          exact .inr (List.mem_map.mpr ⟨e, (List.mem_mergeSort.mp he), rfl⟩))
    exact ⟨_, by rw [Branch.emit, ho, show ∀ (f : Int32 → Res Bytes), (Except.ok o >>= f) = f o from fun _ => rfl, hes]; rfl⟩
  | table d low ls =>
    obtain ⟨o, ho⟩ := h d (by simp [Branch.insn, targets])
    obtain ⟨os, hos⟩ := resolveAll_total (L := L) (I := I) (size := size) (idx := idx) (ls := ls) fun l hl =>
        h l (by simp [Branch.insn, targets, hl])
    obtain ⟨t1, t2⟩ := ht d low ls rfl
    have hl : ls.length ≠ 0 := fun h0 => t1 (List.length_eq_zero_iff.mp h0)
    have hb := low.le_toInt
    simp only [Branch.insn, room] at hr
    rw [Branch.emit, ho, show ∀ (f : Int32 → Res Bytes), (Except.ok o >>= f) = f o from fun _ => rfl, if_neg hl]
    simp only
    rw [toInt32_small (by omega), if_pos (by omega), hos]
    exact ⟨_, rfl⟩
  | jsr l =>
    obtain ⟨o, ho⟩ := h l (by simp [Branch.insn, targets])
    exact ⟨_, by rw [Branch.emit, ho]; rfl⟩
  | jump c l =>
    obtain ⟨o, ho⟩ := h l (by simp [Branch.insn, targets])
    by_cases hc : c = .always
    · subst hc
      exact ⟨_, by rw [Branch.emit, ho]; rfl⟩
    · have : ∃ n, c.neg = some n := by cases c <;> first | exact ⟨_, rfl⟩ | exact absurd rfl hc
      obtain ⟨n, hn⟩ := this
      rw [Branch.emit_cond hc, ho]
      show ∃ o', (if fitsI16 o then _ else _) = _
      split
      · exact ⟨_, rfl⟩
      · rw [hn]
        exact ⟨_, rfl⟩

theorem emitFrom_total {js : List Branch} {bs : List Bytes} {r : List (Nat × Nat)} (hb : bs.length = js.length)
    (hr : r.length = js.length) (h : ∀ j ∈ js, ∀ e ∈ r, ∃ o, j.emit L I e.1 e.2 = .ok o) :
    ∃ code, emitFrom L I js bs r = .ok code := by
  induction js generalizing bs r with
  | nil =>
    obtain rfl := List.length_eq_zero_iff.mp hb
    exact ⟨_, rfl⟩
  | cons j js ih =>
    cases bs with
    | nil => simp at hb
    | cons b bs =>
      cases r with
      | nil => simp at hr
      | cons e r =>
        obtain ⟨s, idx⟩ := e
        obtain ⟨o, ho⟩ := h j (by simp) (s, idx) (by simp)
        obtain ⟨code, hc⟩ := ih (bs := bs) (r := r) (by simpa using hb) (by simpa using hr)
          fun j hj e he => h j (by simp [hj]) e (by simp [he])
        exact ⟨_, by simp only [emitFrom, ho, hc]; rfl⟩

end

theorem marks_placed (is : List Insn) : marks is = placed is := by
  induction is with
  | nil => rfl
  | cons i is ih => cases i <;> simp [marks, placed, ih]

theorem Pieces.branch_mem {enc : Insn → Bytes → Prop} {k off : Nat} {is : List Insn} {first : Bytes}
    {rest : List (Branch × Bytes)} {ls : List (Label × (Nat × Nat))} (h : Pieces enc k off is first rest ls) :
    ∀ e ∈ rest, e.1.insn ∈ is := by
  induction h with
  | nil => simp
  | straight _ _ ih => exact fun e he => List.mem_cons_of_mem _ (ih e he)
  | label _ ih => exact fun e he => List.mem_cons_of_mem _ (ih e he)
  | line _ ih => exact fun e he => List.mem_cons_of_mem _ (ih e he)
  | branch j _ ih =>
    intro e he
    rcases List.mem_cons.mp he with rfl | he
    · exact List.mem_cons_self
    · exact List.mem_cons_of_mem _ (ih e he)

theorem le_sum {α : Type} {f : α → Nat} {l : List α} {a : α} (h : a ∈ l) : f a ≤ (l.map f).sum := by
  induction l with
  | nil => cases h
  | cons b l ih =>
    rw [List.map_cons, List.sum_cons]
    rcases List.mem_cons.mp h with rfl | h
    · omega
    · have := ih h
      omega

/-- Assembling code in which every target is placed once. -/
theorem assemble_total {is : List Insn} {b : CodeBuf} {cp cp' : VecCp} (h : writeInsns .empty is cp = .ok (b, cp'))
    (hp : (placed is).Nodup) (ht : ∀ i ∈ is, ∀ l ∈ targets i, .label l ∈ is)
    (hs : (is.map room).sum < 65536)
    (htab : ∀ d low ls, Insn.tableSwitch d low ls ∈ is → ls ≠ [] ∧ low.toInt + ls.length ≤ 2 ^ 31) :
    ∃ a, assemble b = .ok a ∧ (∀ l, .label l ∈ is → ∃ o, a.label l = .ok o) ∧
      ∀ s t, Precedes is s t → ∃ o o', a.label s = .ok o ∧ a.label t = .ok o' ∧ o.toNat ≤ o'.toNat := by
  obtain ⟨first, rest, ls, hP, e1, e2, e3⟩ := split_within h
  simp only [CodeBuf.empty, List.nil_append, List.append_nil] at e1 e2 e3
  have hlab : ∀ l b, ¬ Within (.label l) b := fun l b hw => hw.2 l rfl
  have hmarks := hP.marks hlab
  have hnd : (ls.map Prod.fst).Nodup := by rw [hmarks, marks_placed]; exact hp
  have hlook : ∀ l p, (l, p) ∈ ls → b.labels.lookup l = some p := fun l p hm => by
    rw [e3]
    exact lookup_of_mem (by rw [List.map_reverse, (List.reverse_perm _).nodup_iff]; exact hnd) (by simpa using hm)
  have hbound := hP.bound [] [] rfl rfl
  simp only [List.nil_append] at hbound
  have hin : ∀ l, .label l ∈ is → ∃ p, (l, p) ∈ ls := fun l hl => by
    have : l ∈ ls.map Prod.fst := by rw [hmarks]; exact mem_marks.mpr hl
    obtain ⟨⟨_, p⟩, h1, rfl⟩ := List.mem_map.mp this
    exact ⟨p, h1⟩
  have hpiece : ∀ l p, (l, p) ∈ ls → p.1 ≤ rest.length := fun l p hm => by
    obtain ⟨b', hb, _⟩ := hbound _ hm
    have := (List.getElem?_eq_some_iff.mp hb).1
    simp at this
    omega
  have hroom := hP.room fun i b hw => hw.1
  have hbr := hP.branch_mem
  obtain ⟨H, hH⟩ := hints_total (last := 0) (js := rest.map Prod.fst) (bs := first :: rest.map Prod.snd) (by simp)
  have hHl : H.length = rest.length := by
    rw [hints_starts hH, starts_length (by simp)]
    simp
  obtain ⟨r, h1, h2, h3⟩ := layout_total (L := b.labels) (H := H) (rest := rest) (fun e he l hl => by
    obtain ⟨⟨k, o⟩, hm⟩ := hin l (ht _ (hbr e he) l hl)
    exact ⟨k, o, hlook _ _ hm, by have := hpiece _ _ hm; simp only at this; omega⟩) first 0
  obtain ⟨s1, s2⟩ := layout_starts h1
  have hlast : ∃ final, (first :: rest.map Prod.snd)[(rest.map Prod.fst).length]? = some final :=
    ⟨_, List.getElem?_eq_getElem (by simp)⟩
  obtain ⟨final, hfinal⟩ := hlast
  have hfin := fin_eq h1 hfinal
  have htot : fin 0 r (first :: rest.map Prod.snd) < 65536 := by omega
  -- where the labels are
  have hpos : ∀ l k o, (l, (k, o)) ∈ ls → ∃ s, startOf (r.map Prod.snd) k = .ok s ∧ s + o ≤ 65535 := by
    intro l k o hm
    have hk := hpiece _ _ hm
    simp only at hk
    obtain ⟨b', hb, hle⟩ := hbound _ hm
    simp only at hb hle
    obtain ⟨s, hs⟩ := startOf_total (v := r.map Prod.snd) (k := k) (by simp at s2 ⊢; omega)
    have hs' := startOf_eq.mp hs
    rw [s1] at hs'
    have := starts_bound (last := 0) (ss := r.map Prod.fst) (bs := first :: rest.map Prod.snd) (final := final)
      (by simpa [s2] using hfinal) hs' hb (by simp at s2 ⊢; omega)
    rw [← s1, ← hfin] at this
    exact ⟨s, hs, by omega⟩
  have hlabel : ∀ l k o, (l, (k, o)) ∈ ls → ∃ s x, startOf (r.map Prod.snd) k = .ok s ∧
      labelPos b.labels (r.map Prod.snd) l = .ok x ∧ x.toNat = s + o := by
    intro l k o hm
    obtain ⟨s, h1, h2⟩ := hpos l k o hm
    have n1 : (UInt16.ofNat s).toNat = s := by rw [UInt16.toNat_ofNat']; omega
    have n2 : (UInt16.ofNat o).toNat = o := by rw [UInt16.toNat_ofNat']; omega
    refine ⟨s, UInt16.ofNat s + UInt16.ofNat o, h1, ?_, ?_⟩
    · simp only [labelPos, hlook _ _ hm, h1, n1, n2]
      rw [if_pos (by omega)]
    · rw [UInt16.toNat_add, n1, n2, Nat.mod_eq_of_lt (by omega)]
  obtain ⟨code, hcode⟩ := emitFrom_total (L := b.labels) (I := r.map Prod.snd) (js := rest.map Prod.fst)
    (bs := rest.map Prod.snd) (r := r) (by simp) s2 fun j hj e he => by
      obtain ⟨e', he', rfl⟩ := List.mem_map.mp hj
      have hin' := hbr e' he'
      obtain ⟨x1, x2⟩ := h3 e he
      refine Branch.emit_total (fun l hl => ?_) (fun d low ls hj => htab d low ls ?_) ?_
      · obtain ⟨⟨k, o⟩, hm⟩ := hin l (ht _ hin' l hl)
        obtain ⟨s, h1, h2⟩ := hpos l k o hm
        exact resolve_total (hlook _ _ hm) h1 h2 x1 (by omega)
      · have : e'.1.insn = Insn.tableSwitch d low ls := by rw [hj]; rfl
        rwa [← this]
      · have : room e'.1.insn ≤ (is.map room).sum := le_sum hin'
        omega
  refine ⟨⟨UInt32.ofNat (final.length + (r.map Prod.snd).getLast?.getD 0), first ++ code,
    labelPos b.labels (r.map Prod.snd)⟩, ?_, ?_, ?_⟩
  · unfold assemble
    simp only [e1, e2, hH, h1, hfinal, hcode]
  · intro l hl
    obtain ⟨⟨k, o⟩, hm⟩ := hin l hl
    obtain ⟨_, x, _, hx, _⟩ := hlabel l k o hm
    exact ⟨x, hx⟩
  · rintro s t ⟨n, m, hn, hm, hle⟩
    obtain ⟨⟨k, o⟩, ⟨k', o'⟩, m1, m2, hB⟩ := hP.order hlab hn hm hle
    obtain ⟨p1, x1, q1, r1, v1⟩ := hlabel _ _ _ m1
    obtain ⟨p2, x2, q2, r2, v2⟩ := hlabel _ _ _ m2
    refine ⟨x1, x2, r1, r2, ?_⟩
    rw [v1, v2]
    rcases hB with hB | ⟨rfl, hB⟩
    · obtain ⟨b', hb, hle'⟩ := hbound _ m1
      simp only at hb hle' hB
      have a1 := startOf_eq.mp q1
      have a2 := startOf_eq.mp q2
      rw [s1] at a1 a2
      have := starts_mono a1 hb a2 hB
      omega
    · rw [q1] at q2
      cases q2
      simp only at hB
      omega

end Verif
