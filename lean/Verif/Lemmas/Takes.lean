import Verif.Lemmas.Insn

/-! # What readers of raw instructions accept -/

namespace Verif
open Spec

/-- What a reader reads is what the value is written as. -/
def Takes {α : Type} (r : Reader α) (P : α → Bytes → Prop) : Prop :=
  ∀ bs x rest, r bs = .ok (x, rest) → ∃ b, bs = b ++ rest ∧ P x b

theorem Reader.bind_ok {α β : Type} {x : Reader α} {f : α → Reader β} {bs rest : Bytes} {b : β}
    (h : Reader.bind x f bs = .ok (b, rest)) : ∃ a bs1, x bs = .ok (a, bs1) ∧ f a bs1 = .ok (b, rest) := by
  unfold Reader.bind at h
  split at h
  · exact ⟨_, _, by assumption, h⟩
  · cases h

theorem readExact_parts {n : Nat} {bs a rest : Bytes} (h : readExact n bs = .ok (a, rest)) :
    bs = a ++ rest ∧ a.length = n := by
  unfold readExact at h
  split at h <;> cases h
  exact ⟨(List.take_append_drop _ _).symm, by simp; omega⟩

theorem lookup_in {α : Type} {l : List (Nat × α)} {a : Nat} {b : α} (h : l.lookup a = some b) : (a, b) ∈ l := by
  induction l with
  | nil => cases h
  | cons e l ih =>
    obtain ⟨a', b'⟩ := e
    rw [List.lookup_cons] at h
    split at h
    · rename_i hk
      cases h
      rw [beq_iff_eq] at hk
      rw [hk]
      exact List.mem_cons_self
    · exact List.mem_cons_of_mem _ (ih h)

theorem takes_num {α : Type} {c : NumCodec α} (hc : c.Lawful) : Takes c.read fun x b => b = c.write x := by
  intro bs x rest h
  unfold NumCodec.read at h
  split at h
  · rename_i b r hb
    cases h
    obtain ⟨h1, h2⟩ := readExact_parts hb
    refine ⟨b, h1, ?_⟩
    unfold NumCodec.write
    have hlt : fromBe b < 256 ^ c.size := by
      have := fromBe_lt b
      rwa [h2] at this
    show b = toBe c.size (c.bits (c.ofBits (fromBe b)))
    rw [hc.right _ hlt, ← h2, toBe_fromBe]
  · cases h

theorem takes_pure {α : Type} (a : α) : Takes (Reader.pure a) fun x b => x = a ∧ b = [] := by
  intro bs x rest h
  cases h
  exact ⟨[], rfl, rfl, rfl⟩

theorem Takes.of1 {α β : Type} {f : α → β} {r : Reader α} {P : α → Bytes → Prop} (h : Takes r P) :
    Takes (Reader.of1 f r) fun y b => ∃ x, y = f x ∧ P x b := by
  intro bs x rest hr
  obtain ⟨a, bs1, h1, h2⟩ := Reader.bind_ok hr
  obtain ⟨b, rfl, hb⟩ := h _ _ _ h1
  cases h2
  exact ⟨b, rfl, a, rfl, hb⟩

theorem Takes.bind {α β : Type} {f : α → Reader β} {r : Reader α} {P : α → Bytes → Prop} {Q : α → β → Bytes → Prop}
    (h : Takes r P) (hf : ∀ a, Takes (f a) (Q a)) :
    Takes (Reader.bind r f) fun y b => ∃ x b1 b2, b = b1 ++ b2 ∧ P x b1 ∧ Q x y b2 := by
  intro bs x rest hr
  obtain ⟨a, bs1, h1, h2⟩ := Reader.bind_ok hr
  obtain ⟨b, rfl, hb⟩ := h _ _ _ h1
  obtain ⟨b', rfl, hb'⟩ := hf a _ _ _ h2
  exact ⟨b ++ b', by simp, a, b, b', rfl, hb, hb'⟩

theorem Takes.of2 {α β γ : Type} {f : α → β → γ} {r : Reader α} {s : Reader β} {P : α → Bytes → Prop}
    {Q : β → Bytes → Prop} (h : Takes r P) (h' : Takes s Q) :
    Takes (Reader.of2 f r s) fun z b => ∃ x y b1 b2, z = f x y ∧ b = b1 ++ b2 ∧ P x b1 ∧ Q y b2 := by
  intro bs x rest hr
  obtain ⟨b, e, x, b1, b2, rfl, p1, y, rfl, p2⟩ := h.bind (fun a => h'.of1 (f := f a)) bs x rest hr
  exact ⟨_, e, x, y, b1, b2, rfl, rfl, p1, p2⟩

theorem Takes.of3 {α β γ δ : Type} {f : α → β → γ → δ} {r : Reader α} {s : Reader β} {t : Reader γ} {P : α → Bytes → Prop}
    {Q : β → Bytes → Prop} {R : γ → Bytes → Prop} (h : Takes r P) (h' : Takes s Q) (h'' : Takes t R) :
    Takes (Reader.of3 f r s t) fun w b => ∃ x y z b1 b2 b3, w = f x y z ∧ b = b1 ++ b2 ++ b3 ∧
      P x b1 ∧ Q y b2 ∧ R z b3 := by
  intro bs x rest hr
  obtain ⟨b, e, x, b1, b2, rfl, p1, y, z, b3, b4, rfl, rfl, p2, p3⟩ :=
    h.bind (fun a => h'.of2 (f := f a) h'') bs x rest hr
  exact ⟨_, e, x, y, z, b1, b3, b4, rfl, by simp, p1, p2, p3⟩

theorem Takes.mono {α : Type} {r : Reader α} {P Q : α → Bytes → Prop} (h : Takes r P) (hq : ∀ x b, P x b → Q x b) :
    Takes r Q := by
  intro bs x rest hr
  obtain ⟨b, e, hb⟩ := h bs x rest hr
  exact ⟨b, e, hq _ _ hb⟩

theorem Takes.replicate {α : Type} {r : Reader α} {f : α → Bytes} (h : Takes r fun x b => b = f x) :
    ∀ n, Takes (Reader.replicate n r) fun xs b => xs.length = n ∧ b = xs.flatMap f
  | 0 => (takes_pure []).mono (by rintro x b ⟨rfl, rfl⟩; exact ⟨rfl, rfl⟩)
  | n + 1 => by
    refine (Takes.bind h (fun a => (Takes.replicate h n).of1 (f := fun as => a :: as))).mono ?_
    rintro x b ⟨a, b1, b2, rfl, rfl, as, rfl, rfl, rfl⟩
    exact ⟨rfl, rfl⟩

theorem Takes.tagged {α : Type} {table : List (Nat × Reader α)} {P : Nat → α → Bytes → Prop}
    (h : ∀ e ∈ table, Takes e.2 (P e.1)) :
    Takes (Reader.tagged table) fun x b => ∃ (t : UInt8) (b' : Bytes), b = U1 t.toNat ++ b' ∧ P t.toNat x b' := by
  refine (Takes.bind (Q := fun t x b => P t.toNat x b) (takes_num u8_lawful) (fun t => ?_)).mono ?_
  · intro bs x rest hr
    rcases hl : table.lookup t.toNat with _ | r
    · rw [hl] at hr
      cases hr
    · rw [hl] at hr
      exact h _ (lookup_in hl) _ _ _ hr
  · rintro x b ⟨t, b1, b2, rfl, rfl, hp⟩
    exact ⟨t, b2, by rw [u8_write], hp⟩

theorem takes_wide : Takes Wide.read fun w b => b = U1 (wideOp w).code ++ wideArgs w := by
  refine (Takes.tagged (P := fun t w b => (wideOp w).code = t ∧ b = wideArgs w) ?_).mono ?_
  · intro e he
    have h16 := takes_num u16_lawful
    have hs16 := takes_num i16_lawful
    simp only [List.mem_cons, List.not_mem_nil, or_false] at he
    rcases he with rfl | rfl | rfl | rfl | rfl | rfl | rfl | rfl | rfl | rfl | rfl | rfl <;> first
      | (refine (Takes.of1 h16).mono ?_; rintro x b ⟨a, rfl, rfl⟩; exact ⟨rfl, by rw [u16_write]; rfl⟩)
      | (refine (Takes.of2 h16 hs16).mono ?_; rintro x b ⟨a, c, b1, b2, rfl, rfl, rfl, rfl⟩
         exact ⟨rfl, by rw [u16_write, i16_write]; rfl⟩)
  · rintro x b ⟨t, b', rfl, h, rfl⟩
    rw [h]

theorem takes_tbl : Takes TblSwitch.read fun t b => ((t.offsets.length : Int) = t.high.toInt - t.low.toInt + 1 ∧
    t.offsets.length < 2 ^ 31) ∧ b = S4 t.low.toInt ++ S4 t.high.toInt ++ t.offsets.flatMap fun x => S4 x.toInt := by
  have h32 : Takes i32.read fun x b => b = S4 x.toInt :=
    (takes_num i32_lawful).mono (by rintro x b rfl; rw [i32_write'])
  refine (Takes.bind (Q := fun low t b => t.low = low ∧ ((t.offsets.length : Int) = t.high.toInt - t.low.toInt + 1 ∧
    t.offsets.length < 2 ^ 31) ∧ b = S4 t.high.toInt ++ t.offsets.flatMap fun x => S4 x.toInt) h32 fun low => ?_).mono ?_
  · refine (Takes.bind (Q := fun high t b => t.low = low ∧ t.high = high ∧
      ((t.offsets.length : Int) = high.toInt - low.toInt + 1 ∧
      t.offsets.length < 2 ^ 31) ∧ b = t.offsets.flatMap fun x => S4 x.toInt) h32 fun high => ?_).mono ?_
    · intro bs x rest hr
      simp only at hr
      split at hr
      · rename_i hlen
        obtain ⟨b, e, os, rfl, hl, rfl⟩ := ((Takes.replicate h32 _).of1 (f := TblSwitch.mk low high)) _ _ _ hr
        exact ⟨_, e, rfl, rfl, ⟨by simp only; omega, by simp only; omega⟩, rfl⟩
      · cases hr
    · rintro t b ⟨high, b1, b2, rfl, rfl, rfl, rfl, h, rfl⟩
      exact ⟨rfl, h, rfl⟩
  · rintro t b ⟨low, b1, b2, rfl, rfl, rfl, h, rfl⟩
    exact ⟨h, by simp⟩

theorem takes_entries : Takes (readVec u32 SwitchEntry.read) fun es b => es.length < 2 ^ 32 ∧
    b = U4 es.length ++ es.flatMap fun e => S4 e.key.toInt ++ S4 e.off.toInt := by
  have h32 : Takes i32.read fun x b => b = S4 x.toInt :=
    (takes_num i32_lawful).mono (by rintro x b rfl; rw [i32_write'])
  have he : Takes SwitchEntry.read fun e b => b = S4 e.key.toInt ++ S4 e.off.toInt :=
    (Takes.of2 h32 h32).mono (by rintro x b ⟨a, c, b1, b2, rfl, rfl, rfl, rfl⟩; rfl)
  refine (Takes.bind (takes_num u32_lawful) fun n => Takes.replicate he (u32.bits n)).mono ?_
  rintro es b ⟨n, b1, b2, rfl, rfl, hl, rfl⟩
  have hl : es.length = n.toNat := hl
  exact ⟨by rw [hl]; exact n.toNat_lt, by rw [u32_write, hl]⟩

set_option maxRecDepth 8000 in
theorem takes_raw : Takes RInsn.read fun i b => RawOk i ∧ b = U1 (rawOp i).code ++ rawArgs i := by
  refine (Takes.tagged (P := fun t i b => (rawOp i).code = t ∧ RawOk i ∧ b = rawArgs i) ?_).mono ?_
  · have p : ∀ i : RInsn, rawArgs i = [] → RawOk i →
        Takes (Reader.pure i) fun j b => (rawOp j).code = (rawOp i).code ∧ RawOk j ∧ b = rawArgs j := by
      intro i h1 h2
      refine (takes_pure i).mono ?_
      rintro x b ⟨rfl, rfl⟩
      exact ⟨rfl, h2, h1.symm⟩
    have one : ∀ {α : Type} {r : Reader α} {g : α → Bytes} (f : α → RInsn) (t : Nat), Takes r (fun x b => b = g x) →
        (∀ x, (rawOp (f x)).code = t ∧ RawOk (f x) ∧ g x = rawArgs (f x)) →
        Takes (Reader.of1 f r) fun j b => (rawOp j).code = t ∧ RawOk j ∧ b = rawArgs j := by
      intro α r g f t hr h
      refine hr.of1.mono ?_
      rintro x b ⟨a, rfl, rfl⟩
      exact h a
    have b1 : Takes u8.read fun x b => b = U1 x.toNat := (takes_num u8_lawful).mono (by rintro x b rfl; rw [u8_write])
    have b2 : Takes u16.read fun x b => b = U2 x.toNat := (takes_num u16_lawful).mono (by rintro x b rfl; rw [u16_write])
    have s1 : Takes i8.read fun x b => b = S1 x.toInt := (takes_num i8_lawful).mono (by rintro x b rfl; rw [i8_write])
    have s2 : Takes i16.read fun x b => b = S2 x.toInt := (takes_num i16_lawful).mono (by rintro x b rfl; rw [i16_write])
    have s4 : Takes i32.read fun x b => b = S4 x.toInt := (takes_num i32_lawful).mono (by rintro x b rfl; rw [i32_write'])
    unfold RInsn.table
    repeat' (refine List.forall_mem_cons.mpr ⟨?_, ?_⟩)
    all_goals first
      | exact p _ rfl trivial
      | exact one _ _ b1 (fun _ => ⟨rfl, trivial, rfl⟩)
      | exact one _ _ b2 (fun _ => ⟨rfl, trivial, rfl⟩)
      | exact one _ _ s1 (fun _ => ⟨rfl, trivial, rfl⟩)
      | exact one _ _ s2 (fun _ => ⟨rfl, trivial, rfl⟩)
      | exact one _ _ s4 (fun _ => ⟨rfl, trivial, rfl⟩)
      | exact one _ _ takes_wide (fun _ => ⟨rfl, trivial, rfl⟩)
      | (refine (Takes.of2 b1 s1).mono ?_; rintro x b ⟨a, c, b1, b2, rfl, rfl, rfl, rfl⟩; exact ⟨rfl, trivial, rfl⟩)
      | (refine (Takes.of2 b2 b2).mono ?_; rintro x b ⟨a, c, b1, b2, rfl, rfl, rfl, rfl⟩; exact ⟨rfl, trivial, rfl⟩)
      | (refine (Takes.of2 b2 b1).mono ?_; rintro x b ⟨a, c, b1, b2, rfl, rfl, rfl, rfl⟩; exact ⟨rfl, trivial, rfl⟩)
      | (refine (Takes.of3 b2 b1 b1).mono ?_; rintro x b ⟨a, c, d, b1, b2, b3, rfl, rfl, rfl, rfl, rfl⟩
         exact ⟨rfl, trivial, rfl⟩)
      | (refine (Takes.of2 s4 takes_tbl).mono ?_; rintro x b ⟨a, c, b1, b2, rfl, rfl, rfl, h, rfl⟩
         exact ⟨rfl, h, by simp only [rawArgs, List.append_assoc]⟩)
      | (refine (Takes.of2 s4 takes_entries).mono ?_; rintro x b ⟨a, c, b1, b2, rfl, rfl, rfl, h, rfl⟩
         exact ⟨rfl, h, by simp only [rawArgs, List.append_assoc]⟩)
      | (intro e he; cases he)
  · rintro x b ⟨t, b', rfl, h, h', rfl⟩
    rw [h]
    exact ⟨h', rfl⟩

end Verif
