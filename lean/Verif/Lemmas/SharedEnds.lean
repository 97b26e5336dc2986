import Verif.Lemmas.Shared

/-! # Writing a class whose cells are shared comes to an end -/

namespace Verif
open Spec Sig

/-! ## How many bootstrap methods are registered in one round -/

theorem nodup_subset {α : Type} [DecidableEq α] : ∀ (l l' : List α), l.Nodup → (∀ x ∈ l, x ∈ l') → l.length ≤ l'.length
  | [], _, _, _ => Nat.zero_le _
  | x :: l, l', hd, h => by
    obtain ⟨hx, hd⟩ := List.nodup_cons.mp hd
    have hm := h x (by simp)
    have := nodup_subset l (l'.erase x) hd fun y hy =>
      (List.mem_erase_of_ne fun e : y = x => hx (e ▸ hy)).mpr (h y (by simp [hy]))
    rw [List.length_erase_of_mem hm] at this
    have := List.length_pos_of_mem hm
    rw [List.length_cons]
    omega

theorem length_slots : ∀ es : List Entry, es.length ≤ slotsAll es
  | [] => Nat.le_refl _
  | e :: es => by
    have := length_slots es
    have : 1 ≤ slots e := by cases e <;> simp [slots]
    rw [slotsAll_cons, List.length_cons]
    omega

/-- The number of the bootstrap method that an entry of the pool refers to. -/
def bsmNumber : Entry → Nat
  | .dyn b _ => b.toNat
  | .indy b _ => b.toNat
  | _ => 65536

/-- Each bootstrap method that has been registered, up to the number 65535, is that of some entry of the pool. -/
def Numbered (cp : VecCp) : Prop := ∀ j, j < cp.bsm.length → j < 65536 → j ∈ cp.entries.map bsmNumber

theorem numbered_short {cp : VecCp} (hi : cp.Inv) (h : Numbered cp) : cp.bsm.length < 65536 := by
  refine Nat.lt_of_not_le fun hle => ?_
  have h1 := nodup_subset (List.range 65536) (cp.entries.map bsmNumber) List.nodup_range fun j hj =>
    h j (by have := List.mem_range.mp hj; omega) (List.mem_range.mp hj)
  rw [List.length_range, List.length_map] at h1
  have h2 := length_slots cp.entries
  have h3 := hi.len
  have h4 := cp.len.toNat_lt
  omega

/-- A writer that keeps this up. -/
def Reg {α : Type} (w : Ins α) : Prop :=
  ∀ cp a cp', w cp = .ok (a, cp') → cp.Inv → Numbered cp → cp'.Inv ∧ Numbered cp'

namespace Reg
variable {α β : Type}

theorem of_eff {w : Ins α} (h : Eff (fun _ => True) w []) : Reg w := by
  intro cp a cp' e hi hn
  obtain ⟨h1, _, h2⟩ := h _ _ _ e
  refine ⟨(h2 hi).1, fun j hj hl => ?_⟩
  rw [h1, List.append_nil] at hj
  obtain ⟨e, he, hb⟩ := List.mem_map.mp (hn j hj hl)
  exact List.mem_map.mpr ⟨e, (h2 hi).2.subset he, hb⟩

theorem bind {m : Ins α} {f : α → Ins β} (h1 : Reg m) (h2 : ∀ a, Reg (f a)) : Reg (m >>= f) := by
  intro cp b cp' h hi hn
  obtain ⟨a, cp1, e1, e2⟩ := Ins.bind_ok h
  obtain ⟨hi, hn⟩ := h1 _ _ _ e1 hi hn
  exact h2 a _ _ _ e2 hi hn

theorem pure (a : α) : Reg (Pure.pure a : Ins α) := of_eff (.pure a)
theorem nil : Reg (wSeq []) := pure _

theorem cons {w : Ins Bytes} {ws : List (Ins Bytes)} (h : Reg w) (hs : Reg (wSeq ws)) : Reg (wSeq (w :: ws)) :=
  bind h fun _ => bind hs fun _ => pure _

theorem all {w : α → Ins Bytes} {xs : List α} (h : ∀ x ∈ xs, Reg (w x)) : Reg (wAll w xs) := by
  induction xs with
  | nil => exact pure _
  | cons x xs ih => exact cons (h x (by simp)) (ih fun y hy => h y (by simp [hy]))

theorem dynamic {d : Dynamic} : Reg (insertDynamic d) := by
  intro cp a cp' h1 hi hn
  obtain ⟨b, cp1, e0, h2⟩ := Ins.bind_ok h1
  obtain ⟨_, rfl⟩ := Ins.lift_ok e0
  obtain ⟨k, cp2, e1, h2⟩ := Ins.bind_ok h2
  obtain ⟨nt, cp3, e2, e3⟩ := Ins.bind_ok h2
  obtain ⟨hi2, hx2, rfl, hb2⟩ := insertBsm_ok hi e1
  have he2 : cp2.entries = cp1.entries := by
    unfold insertBsm at e1
    cases e1
    rfl
  have f := Eff.nat (S := fun _ => True) trivial trivial _ _ _ e2
  obtain ⟨hi3, hx3⟩ := f.2.2 hi2
  obtain ⟨hi', hx, ⟨pre, suf, hat, _⟩, hb⟩ := insertRaw_ok hi3 e3
  refine ⟨hi', fun j hj hl => ?_⟩
  rw [hb, f.1, List.append_nil, hb2, List.length_append, List.length_singleton] at hj
  by_cases hlt : j < cp1.bsm.length
  · obtain ⟨e, he, hb⟩ := List.mem_map.mp (hn j hlt hl)
    exact List.mem_map.mpr ⟨e, hx.entries.subset (hx3.subset (he2 ▸ he)), hb⟩
  · have hj : j = cp1.bsm.length := by omega
    refine List.mem_map.mpr ⟨_, by rw [hat]; exact List.mem_append_right _ (List.mem_cons_self ..), ?_⟩
    have : (UInt16.ofNat cp1.bsm.length).toNat = j := by
      rw [UInt16.toNat_ofNat', ← hj, Nat.mod_eq_of_lt hl]
    split <;> exact this

end Reg

theorem allMember_true (m : MemberRef) : AllMember (fun _ => True) m := ⟨trivial, trivial, trivial⟩
theorem allConst_true (c : Constant) : AllConst (fun _ => True) c := by cases c <;> first | trivial | exact allMember_true _

theorem reg_bsm {b : Bsm} : Reg b.write := by
  refine Reg.cons (.of_eff (Eff.idx (Eff.handle (allMember_true _)))) (Reg.cons (.pure _) (Reg.cons (Reg.all fun a _ => ?_) .nil))
  refine Reg.bind (f := fun i => Pure.pure (u16.write i)) ?_ fun _ => .pure _
  cases a with
  | static c => exact .of_eff (Eff.const (allConst_true c))
  | dynamic c n t => exact Reg.dynamic

theorem round_short {T bs : List Bsm} {cp cp' : VecCp} {out : Bytes} (hi : cp.Inv)
    (h : wAll (fun b => (b.look T).write) bs { cp with bsm := [] } = .ok (out, cp')) :
    cp'.Inv ∧ cp'.bsm.length < 65536 := by
  have hr : ∀ b ∈ bs, Reg (b.look T).write := fun b _ => reg_bsm
  have := Reg.all hr _ _ _ h ⟨hi.len, hi.cache⟩ fun j hj => by cases hj
  exact ⟨this.1, numbered_short this.1 this.2⟩

/-! ## The loop ends -/

theorem batches_end {T : List Bsm} : ∀ (fuel i : Nat) (cp : VecCp), cp.Inv → cp.bsm.length < 65536 → i < 65536 →
    65536 - i < fuel → writeBatchesIn T fuel i cp ≠ .error .diverge ∧
      writeBatchesIn T (fuel + 1) i cp = writeBatchesIn T fuel i cp
  | 0, i, cp, _, _, _, hf => by omega
  | fuel + 1, i, cp, hc, hl, hi, hf => by
    by_cases h0 : cp.bsm.length = 0
    · rw [writeBatchesIn, if_pos h0, writeBatchesIn, if_pos h0]
      exact ⟨nofun, rfl⟩
    · by_cases h1 : i + cp.bsm.length % 65536 < 65536
      · rw [writeBatchesIn, if_neg h0, if_pos h1, writeBatchesIn, if_neg h0, if_pos h1]
        have he := ends_looked (T := T) cp.bsm { cp with bsm := [] }
        rcases hw : wAll (fun b => (b.look T).write) cp.bsm { cp with bsm := [] } with e | ⟨bs, cp'⟩
        · rw [hw]
          refine ⟨fun h => ?_, rfl⟩
          have : e = .diverge := Except.error.inj h
          exact he _ hw this
        · obtain ⟨hc', hl'⟩ := round_short hc hw
          have ih := batches_end (T := T) fuel (i + cp.bsm.length % 65536) cp' hc' hl' h1 (by
            rw [Nat.mod_eq_of_lt hl]
            omega)
          rw [hw]
          simp only
          rw [ih.2]
          refine ⟨fun h => ?_, rfl⟩
          rcases hr : writeBatchesIn T fuel (i + cp.bsm.length % 65536) cp' with e | ⟨n, bs', cp''⟩ <;> rw [hr] at h
          · have : e = .diverge := Except.error.inj h
            exact ih.1 (by rw [hr, this])
          · cases h
      · rw [writeBatchesIn, if_neg h0, if_neg h1, writeBatchesIn, if_neg h0, if_neg h1]
        exact ⟨nofun, rfl⟩
where
  ends_looked {T : List Bsm} (bs : List Bsm) (cp : VecCp) :
      REnds (fun e => e ≠ .diverge) (wAll (fun b => (b.look T).write) bs cp) :=
    haveI : Usual (fun e => e ≠ Err.diverge) := ⟨nofun, nofun⟩
    Ends.all (fun _ _ => ends_bsm) cp

theorem batches_stable {T : List Bsm} {i : Nat} {cp : VecCp} (hc : cp.Inv) (hl : cp.bsm.length < 65536) (hi : i < 65536)
    {f : Nat} (hf : 65536 - i < f) (k : Nat) : writeBatchesIn T (f + k) i cp = writeBatchesIn T f i cp := by
  induction k with
  | zero => rfl
  | succ k ih => rw [← ih, ← (batches_end (f + k) i cp hc hl hi (by omega)).2]; rfl

/-- The number of entries in the first round does not matter. -/
theorem batches_first {T : List Bsm} {cp : VecCp} (hc : cp.Inv) :
    writeBatchesIn T 65538 0 cp ≠ .error .diverge ∧
      ∀ fuel, 65538 ≤ fuel → writeBatchesIn T fuel 0 cp = writeBatchesIn T 65538 0 cp := by
  have key : ∀ f, 65537 ≤ f → writeBatchesIn T (f + 1) 0 cp ≠ .error .diverge ∧
      writeBatchesIn T (f + 1) 0 cp = writeBatchesIn T (65537 + 1) 0 cp := by
    intro f hf
    by_cases h0 : cp.bsm.length = 0
    · rw [writeBatchesIn, if_pos h0, writeBatchesIn, if_pos h0]
      exact ⟨nofun, rfl⟩
    · have hlt : cp.bsm.length % 65536 < 65536 := Nat.mod_lt _ (by decide)
      have h1 : 0 + cp.bsm.length % 65536 < 65536 := by rw [Nat.zero_add]; exact hlt
      rw [writeBatchesIn, if_neg h0, if_pos h1, writeBatchesIn, if_neg h0, if_pos h1]
      have he := batches_end.ends_looked (T := T) cp.bsm { cp with bsm := [] }
      rcases hw : wAll (fun b => (b.look T).write) cp.bsm { cp with bsm := [] } with e | ⟨bs, cp'⟩
      · rw [hw]
        refine ⟨fun h => ?_, rfl⟩
        have : e = .diverge := Except.error.inj h
        exact he _ hw this
      · obtain ⟨hc', hl'⟩ := round_short hc hw
        obtain ⟨k, rfl⟩ := Nat.exists_eq_add_of_le hf
        rw [hw]
        simp only
        have h2 : 65536 - (0 + cp.bsm.length % 65536) < 65537 := Nat.lt_succ_of_le (Nat.sub_le _ _)
        rw [batches_stable hc' hl' h1 h2 k]
        refine ⟨fun h => ?_, rfl⟩
        have ih := (batches_end (T := T) 65537 (0 + cp.bsm.length % 65536) cp' hc' hl' h1 h2).1
        rcases hr : writeBatchesIn T 65537 (0 + cp.bsm.length % 65536) cp' with e | ⟨n, bs', cp''⟩ <;> rw [hr] at h
        · have : e = .diverge := Except.error.inj h
          exact ih (by rw [hr, this])
        · cases h
  refine ⟨(key 65537 (Nat.le_refl _)).1, fun fuel hf => ?_⟩
  obtain ⟨f, rfl⟩ : ∃ f, fuel = f + 1 := ⟨fuel - 1, by omega⟩
  exact (key f (by omega)).2

theorem bootstrap_first {T : List Bsm} {cp : VecCp} (hc : cp.Inv) :
    wBootstrapIn T 65538 cp ≠ .error .diverge ∧
      ∀ fuel, 65538 ≤ fuel → wBootstrapIn T fuel cp = wBootstrapIn T 65538 cp := by
  obtain ⟨h1, h2⟩ := batches_first (T := T) hc
  refine ⟨?_, fun fuel hf => ?_⟩
  · unfold wBootstrapIn
    split
    · nofun
    · split
      · rename_i e he
        rintro ⟨⟩
        exact h1 he
      · split
        · rename_i e he
          rintro ⟨⟩
          haveI : Usual (fun e => e ≠ Err.diverge) := ⟨nofun, nofun⟩
          exact Ends.wutf8 (U := fun e => e ≠ Err.diverge) _ _ he rfl
        · split <;> nofun
  · unfold wBootstrapIn
    rw [h2 fuel hf]

end Verif
