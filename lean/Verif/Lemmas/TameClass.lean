import Verif.Lemmas.TameCode

/-! Pools and class files of unknown origin. -/

namespace Verif
open Spec

variable {α β : Type} {H : Harm}

theorem plain_string_ok : ∀ bs, match readString bs with
    | .error e => Calm False e
    | .ok (s, rest) => rest <:+ bs ∧ ∃ buf, buf <:+: bs ∧ Mutf8.decode buf = .ok s := by
  intro bs
  unfold readString
  have h1 := plain_num u16 bs
  rcases hr : u16.read bs with e | ⟨n, bs1⟩
  · rw [hr] at h1; exact h1
  rw [hr] at h1
  simp only at h1 ⊢
  have h2 := plain_readExact n.toNat bs1
  rcases hr2 : readExact n.toNat bs1 with e | ⟨b, bs2⟩
  · rw [hr2] at h2; exact h2
  rw [hr2] at h2
  simp only at h2 ⊢
  obtain ⟨he, _⟩ := readExact_parts hr2
  rcases Mutf8.decode_total b with ⟨r, h⟩ | h
  · rw [h]
    refine ⟨h2.trans h1, b, ?_, h⟩
    obtain ⟨t, ht⟩ := h1
    exact ⟨t, bs2, by rw [← ht, he, List.append_assoc]⟩
  · rw [h]; exact calm_mutf

theorem entry_ok (bs : Bytes) : match Entry.read bs with
    | .error e => Calm False e
    | .ok (e, rest) => rest <:+ bs ∧ ∀ s, e = .utf8 s → ∃ buf, buf <:+: bs ∧ Mutf8.decode buf = .ok s := by
  unfold Entry.read Reader.bind
  have h1 := plain_num u8 bs
  rcases hr : u8.read bs with e | ⟨t, bs1⟩
  · rw [hr] at h1; exact h1
  rw [hr] at h1
  simp only at h1 ⊢
  have key : ∀ {α : Type} {r : Reader α} {f : α → Entry}, Plain r → (∀ a s, f a ≠ .utf8 s) →
      match Reader.map f r bs1 with
      | .error e => Calm False e
      | .ok (e, rest) => rest <:+ bs ∧ ∀ s, e = .utf8 s → ∃ buf, buf <:+: bs ∧ Mutf8.decode buf = .ok s := by
    intro α r f h hf
    have h2 := h bs1
    unfold Reader.map Reader.bind
    rcases hr2 : r bs1 with e | ⟨a, bs2⟩
    · rw [hr2] at h2; exact h2
    · rw [hr2] at h2
      exact ⟨List.IsSuffix.trans h2 h1, fun s hs => (hf a s hs).elim⟩
  have key2 : ∀ {α β : Type} {r : Reader α} {q : Reader β} {f : α → β → Entry}, Plain r → Plain q →
      (∀ a b s, f a b ≠ .utf8 s) →
      match Reader.map2 f r q bs1 with
      | .error e => Calm False e
      | .ok (e, rest) => rest <:+ bs ∧ ∀ s, e = .utf8 s → ∃ buf, buf <:+: bs ∧ Mutf8.decode buf = .ok s := by
    intro α β r q f h h' hf
    have h2 := plain_map2 (f := fun a b => (a, b)) h h' bs1
    unfold Reader.map2 Reader.bind at h2 ⊢
    rcases hr2 : r bs1 with e | ⟨a, bs2⟩
    · rw [hr2] at h2; exact h2
    · rw [hr2] at h2
      simp only at h2 ⊢
      rcases hr3 : q bs2 with e | ⟨b, bs3⟩
      · rw [hr3] at h2; exact h2
      · rw [hr3] at h2
        exact ⟨List.IsSuffix.trans h2 h1, fun s hs => (hf a b s hs).elim⟩
  let Ok (r : Reader Entry) : Prop := match r bs1 with
      | .error e => Calm False e
      | .ok (e, rest) => rest <:+ bs ∧ ∀ s, e = .utf8 s → ∃ buf, buf <:+: bs ∧ Mutf8.decode buf = .ok s
  show Ok (Entry.readPayload t)
  unfold Entry.readPayload
  split
  case h_1 =>
    have h2 := plain_string_ok bs1
    show match Reader.map Entry.utf8 readString bs1 with
      | .error e => Calm False e
      | .ok (e, rest) => rest <:+ bs ∧ ∀ s, e = .utf8 s → ∃ buf, buf <:+: bs ∧ Mutf8.decode buf = .ok s
    unfold Reader.map Reader.bind
    rcases hr2 : readString bs1 with e | ⟨s, bs2⟩
    · rw [hr2] at h2; exact h2
    · rw [hr2] at h2
      obtain ⟨h3, buf, h4, h5⟩ := h2
      refine ⟨List.IsSuffix.trans h3 h1, fun s' hs => ?_⟩
      cases hs
      exact ⟨buf, List.IsInfix.trans h4 h1.isInfix, h5⟩
  all_goals first
    | exact key (plain_num _) (fun _ _ h => nomatch h)
    | exact key2 (plain_num _) (plain_num _) (fun _ _ _ h => nomatch h)
    | exact calm_invalid

/-- Strings of a pool that was read from `input`. -/
def Origin (input : Bytes) (es : List (UInt16 × Entry)) : Prop :=
  ∀ i s, (i, Entry.utf8 s) ∈ es → ∃ buf, buf <:+: input ∧ Mutf8.decode buf = .ok s

theorem loop_ok {input : Bytes} {count : UInt16} : ∀ (n : Nat) {i : UInt16} {acc : List (UInt16 × Entry)} {bs : Bytes},
    65536 - i.toNat = n → bs <:+: input → Origin input acc →
    match MapCp.readLoop count i acc bs with
    | .error e => Calm (count = 0xFFFF) e
    | .ok (m, rest) => rest <:+ bs ∧ Origin input m.entries := by
  intro n
  induction n using Nat.strongRecOn with
  | _ n ih =>
    intro i acc bs hn hb ho
    rw [MapCp.readLoop]
    by_cases hc : i < count
    · rw [if_pos hc]
      have h1 := entry_ok bs
      rcases hr : Entry.read bs with e | ⟨e, rest⟩
      · rw [hr] at h1; exact Calm.of_false h1
      · rw [hr] at h1
        obtain ⟨h2, h3⟩ := h1
        simp only
        have hs : 1 ≤ e.size.toNat ∧ e.size.toNat ≤ 2 := by cases e <;> simp [Entry.size]
        by_cases hl : i.toNat + e.size.toNat < 65536
        · rw [if_pos hl]
          have ht : (i + e.size).toNat = i.toNat + e.size.toNat := by
            rw [UInt16.toNat_add, Nat.mod_eq_of_lt hl]
          have h4 := ih (65536 - (i + e.size).toNat) (by rw [ht]; omega) (i := i + e.size) (acc := (i, e) :: acc)
            (bs := rest) rfl (List.IsInfix.trans h2.isInfix hb) (by
              intro j s hm
              rcases List.mem_cons.mp hm with hm | hm
              · cases hm
                obtain ⟨buf, h5, h6⟩ := h3 s rfl
                exact ⟨buf, h5.trans hb, h6⟩
              · exact ho j s hm)
          rcases hr2 : MapCp.readLoop count (i + e.size) ((i, e) :: acc) rest with e' | ⟨m, rest'⟩
          · rw [hr2] at h4; exact h4
          · rw [hr2] at h4; exact ⟨List.IsSuffix.trans h4.1 h2, h4.2⟩
        · rw [if_neg hl]
          refine calm_panic (UInt16.toNat_inj.mp ?_)
          have := UInt16.lt_iff_toNat_lt.mp hc
          have := count.toNat_lt
          show count.toNat = 65535
          omega
    · rw [if_neg hc]
      exact ⟨List.suffix_refl _, ho⟩

theorem read_pool {input bs : Bytes} (hb : bs <:+: input) :
    match MapCp.read bs with
    | .error e => Calm (∃ rest, bs = [0xFF, 0xFF] ++ rest) e
    | .ok (m, rest) => rest <:+ bs ∧ Origin input m.entries := by
  unfold MapCp.read Reader.bind
  have h1 := plain_num u16 bs
  rcases hr : u16.read bs with e | ⟨n, bs1⟩
  · rw [hr] at h1; exact Calm.of_false h1
  rw [hr] at h1
  have h1 : bs1 <:+ bs := h1
  simp only
  have h2 := loop_ok (input := input) (count := n) _ (i := 1) (acc := []) (bs := bs1) rfl (List.IsInfix.trans h1.isInfix hb)
    (fun _ _ h => nomatch h)
  rcases hr2 : MapCp.readLoop n 1 [] bs1 with e | ⟨m, rest⟩
  · rw [hr2] at h2
    refine h2.mono fun _ he => ⟨bs1, ?_⟩
    obtain ⟨b, e1, rfl⟩ := takes_num u16_lawful _ _ _ hr
    rw [e1, he]
    rfl
  · rw [hr2] at h2
    exact ⟨List.IsSuffix.trans h2.1 h1, h2.2⟩

theorem plain7_run : Mutf8.Plain7 (List.replicate 256 (0x5B : UInt8)) := by
  intro b hb
  rw [List.eq_of_mem_replicate hb]
  decide

theorem pool_fine {input : Bytes} {m : MapCp} (h : Origin input m.entries) : PoolFine (Hazard input) m.get := by
  intro i s hi
  obtain ⟨buf, hb, hd⟩ := h i s (lookup_mem hi)
  obtain ⟨h1, h2⟩ := Mutf8.decode_loose hd
  exact ⟨h1, fun hr => .brackets ((h2 _ plain7_run hr).trans hb)⟩

/-- Behind the pool. -/
def behind (cp : MapCp) (rest : Bytes) : Place := ⟨fun bs => bs <:+: rest, cp.get⟩

instance site {cp : MapCp} {rest : Bytes} : Site (behind cp rest) where
  part h hi := List.IsInfix.trans h hi

theorem plain_version : Plain Version.read :=
  plain_map2 (plain_num _) (plain_bind (plain_num _) fun t => by
    split
    · exact plain_pure _
    · exact plain_fail calm_invalid)

theorem version_size {bs rest : Bytes} {v : Version} (h : Version.read bs = .ok (v, rest)) :
    ∃ b, bs = b ++ rest ∧ b.length = 4 := by
  obtain ⟨x, bs1, h1, h2⟩ := Reader.bind_ok h
  obtain ⟨y, bs2, h3, h4⟩ := Reader.bind_ok h2
  obtain ⟨z, bs3, h5, h6⟩ := Reader.bind_ok h3
  obtain ⟨b1, e1, rfl⟩ := takes_num u16_lawful _ _ _ h1
  obtain ⟨b2, e2, rfl⟩ := takes_num u16_lawful _ _ _ h5
  have e3 : bs3 = rest := by
    cases h4
    rcases hm : Major.ofTag z with _ | m
    · rw [hm] at h6; cases h6
    · rw [hm] at h6; cases h6; rfl
  subst e3
  exact ⟨u16.write x ++ u16.write z, by rw [e1, e2, List.append_assoc], rfl⟩

theorem resolve_calm {p : List UInt16} {as : List ClassAttr} {e : Err} (h : resolveCells p as = .error e) :
    Calm False e := by
  unfold resolveCells at h
  split at h
  · cases h
  · split at h
    · cases h
    · rename_i he
      cases h
      unfold bootstrapMethods at he
      split at he
      · cases he
      · cases he; exact calm_invalid

/-- A table of attribute readers of one kind reads the payload `w` of `name` and leaves `left`. -/
def Leaves {α : Type} (table : Bytes → Option (Rd α)) (P : Pool) (name w left : Bytes) : Prop :=
  ∃ r cs st a st', table name = some r ∧ r ⟨P, cs⟩ st w = .ok (a, st', left)

/-- Behind its pool the class file holds an attribute whose payload is longer than its content. -/
def Leftover (ord : Order) (input : Bytes) (claimed used : UInt32) (name : Bytes) : Prop :=
  ∃ cp rest i w left, MapCp.read (input.drop 8) = .ok (cp, rest) ∧ IsUtf8 cp.get i name ∧
    U2 i.toNat ++ (U4 w.length ++ w) <:+: rest ∧ w.length < 4294967296 ∧ left ≠ [] ∧
    claimed = UInt32.ofNat w.length ∧ used = UInt32.ofNat w.length - UInt32.ofNat left.length ∧
    (Leaves ClassAttr.table cp.get name w left ∨ Leaves FieldAttr.table cp.get name w left ∨
      (∃ n, Leaves (MethodAttr.table (ord n)) cp.get name w left) ∨ Leaves CodeAttr.table cp.get name w left)

theorem fair_of {α : Type} {ord : Order} {input : Bytes} {H : Prop} {cp : MapCp} {rest : Bytes}
    (hcp : MapCp.read (input.drop 8) = .ok (cp, rest)) {table : Bytes → Option (Rd α)}
    (h : ∀ {name w left}, Leaves table cp.get name w left →
      Leaves ClassAttr.table cp.get name w left ∨ Leaves FieldAttr.table cp.get name w left ∨
      (∃ n, Leaves (MethodAttr.table (ord n)) cp.get name w left) ∨ Leaves CodeAttr.table cp.get name w left) :
    Fair (behind cp rest) ⟨H, Leftover ord input, H⟩ table := by
  rintro name r ht ⟨P, cs⟩ st w a st' left rfl hr hn hl ⟨i, h1, h2⟩
  exact ⟨cp, rest, i, w, left, hcp, h1, h2, hl, hn, rfl, rfl, h ⟨r, cs, st, a, st', ht, hr⟩⟩

theorem Hazard.fine {ord : Order} {input : Bytes} {P : Pool} (h : PoolFine (Hazard input) P) :
    PoolFine ⟨Hazard input, Leftover ord input, Hazard input⟩ P := fun i s hi => ⟨(h i s hi).1, (h i s hi).2⟩

/-- Reading a class file. -/
theorem read_class (ord : Order) (input : Bytes) :
    match Class.read ord input with
    | .error e => Calm ⟨Hazard input, Leftover ord input, Hazard input⟩ e
    | .ok (x, rest) => rest <:+ input ∧ resolveCells (openClass x) x.attrs = .ok () := by
  unfold Class.read
  have h1 := plain_num u32 input
  rcases hr : u32.read input with e | ⟨magic, bs1⟩
  · rw [hr] at h1; exact Calm.of_false h1
  rw [hr] at h1
  have h1 : bs1 <:+ input := h1
  simp only
  by_cases hm : magic = jvmMagic
  · rw [if_pos hm]
    have h2 := plain_version bs1
    rcases hr2 : Version.read bs1 with e | ⟨v, bs2⟩
    · rw [hr2] at h2; exact Calm.of_false h2
    rw [hr2] at h2
    have h2 : bs2 <:+ bs1 := h2
    have h12 := h2.trans h1
    simp only
    have h3 := read_pool (input := input) (bs := bs2) h12.isInfix
    rcases hr3 : MapCp.read bs2 with e | ⟨cp, bs3⟩
    · rw [hr3] at h3
      refine h3.mono fun _ ⟨rest, hrest⟩ => ?_
      obtain ⟨b1, e1, rfl⟩ := takes_num u32_lawful _ _ _ hr
      obtain ⟨b2, e2, hl⟩ := version_size hr2
      refine .pool (u32.write magic ++ b2) rest ?_ ?_
      · rw [e1, e2, hrest, List.append_assoc, List.append_assoc]
      · rw [List.length_append, hl]
        rfl
    rw [hr3] at h3
    have h13 := List.IsSuffix.trans h3.1 h12
    simp only
    have hd : input.drop 8 = bs2 := by
      obtain ⟨b1, e1, rfl⟩ := takes_num u32_lawful _ _ _ hr
      obtain ⟨b2, e2, hl⟩ := version_size hr2
      rw [e1, e2, ← List.append_assoc, List.drop_left' (by rw [List.length_append, hl]; rfl)]
    have hcp : MapCp.read (input.drop 8) = .ok (cp, bs3) := by rw [hd, hr3]
    have h4 := tame_class (I := behind cp bs3) (H := ⟨Hazard input, Leftover ord input, Hazard input⟩) (body := false) ord v
      (fun w ⟨i, hw1, hw2⟩ hbad => .body cp bs3 i w (by rw [hd, hr3]) hw1 hw2 hbad)
      (fair_of hcp fun h => .inr (.inr (.inr h))) (fun n => fair_of hcp fun h => .inr (.inr (.inl ⟨n, h⟩)))
      (fair_of hcp .inl) (fair_of hcp fun h => .inr (.inl h)) ⟨cp.get, none⟩
      ⟨[], none⟩ bs3 (Hazard.fine (pool_fine h3.2)) ⟨rfl, fun h => nomatch h⟩ (List.infix_refl _)
    rcases hr4 : Class.readBody ord v ⟨cp.get, none⟩ ⟨[], none⟩ bs3 with e | ⟨x, st, bs4⟩
    · rw [hr4] at h4; exact h4
    rw [hr4] at h4
    obtain ⟨h5, _, p, h6, h7⟩ := h4
    have h8 : st.pending = openClass x := by rw [h6, h7]; rfl
    simp only
    rw [h8]
    rcases hr5 : resolveCells (openClass x) x.attrs with e | ⟨⟩
    · exact Calm.of_false (resolve_calm hr5)
    · exact ⟨h5.trans h13, hr5⟩
  · rw [if_neg hm]; exact calm_invalid

end Verif
