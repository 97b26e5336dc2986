import Verif.Lemmas.BulkCode

/-! How long the strings of a pool that was read are. -/

namespace Verif
open Spec Sig

variable {α β γ δ : Type} {B : Nat}

def Entry.textLen : Entry → Nat
  | .utf8 s => s.length
  | _ => 0

theorem fans_string : Fans (fun s : Bytes => s.length + 1) readString := by
  intro bs s rest h
  unfold readString at h
  split at h
  · rename_i len bs1 h1
    split at h
    · rename_i buf bs2 h2
      split at h
      · rename_i h3
        cases h
        have e1 := fans_num (c := u16) (by decide) _ _ _ h1
        obtain ⟨rfl, _⟩ := readExact_parts h2
        have e3 := decode_len h3
        simp only [List.length_append] at *
        omega
      · cases h
    · cases h
  · cases h

theorem string_short {bs s rest : Bytes} (h : readString bs = .ok (s, rest)) : s.length ≤ 65535 := by
  unfold readString at h
  split at h
  · rename_i len bs1 h1
    split at h
    · rename_i buf bs2 h2
      split at h
      · rename_i h3
        cases h
        obtain ⟨rfl, hl⟩ := readExact_parts h2
        have e3 := decode_len h3
        have := len.toNat_lt
        omega
      · cases h
    · cases h
  · cases h

theorem fans_map {f : α → β} {x : Reader α} {g : α → Nat} {k : β → Nat} (h : Fans g x) (hk : ∀ a, k (f a) ≤ g a) :
    Fans k (Reader.map f x) := fans_bind h fun a => fans_pure (by have := hk a; omega)

theorem fans_map2 {f : α → β → γ} {x : Reader α} {y : Reader β} {g : α → Nat} {g' : β → Nat} {k : γ → Nat} (h : Fans g x)
    (h' : Fans g' y) (hk : ∀ a b, k (f a b) = 0) : Fans k (Reader.map2 f x y) :=
  fans_bind h fun a => fans_bind (g := g') h' fun b => fans_pure (by have := hk a b; omega)

theorem fans_fail {f : α → Nat} {e : Err} : Fans f (Reader.fail e) := fun _ _ _ h => by cases h

theorem fans_entry' : Fans Entry.textLen Entry.read := by
  refine fans_bind (g := fun _ => 0) (Fans.less fans_num fun _ => Nat.zero_le _) fun t => ?_
  simp only [Nat.sub_zero]
  unfold Entry.readPayload
  split
  all_goals first
    | exact fans_map fans_string fun _ => Nat.le_succ _
    | exact fans_map fans_num fun _ => Nat.zero_le _
    | exact fans_map2 fans_num fans_num fun _ _ => rfl
    | exact fans_fail

theorem entry_short {bs rest : Bytes} {e : Entry} (h : Entry.read bs = .ok (e, rest)) : e.textLen ≤ 65535 := by
  obtain ⟨t, bs1, _, h⟩ := Reader.bind_ok h
  have k0 : ∀ {α : Type} {r : Reader α} {f : α → Entry}, (∀ a, (f a).textLen = 0) →
      Reader.map f r bs1 = .ok (e, rest) → e.textLen ≤ 65535 := by
    intro α r f hf h
    obtain ⟨x, bs2, _, h⟩ := Reader.bind_ok h
    cases h
    rw [hf]
    omega
  have k2 : ∀ {α β : Type} {r : Reader α} {q : Reader β} {f : α → β → Entry}, (∀ a b, (f a b).textLen = 0) →
      Reader.map2 f r q bs1 = .ok (e, rest) → e.textLen ≤ 65535 := by
    intro α β r q f hf h
    obtain ⟨x, bs2, _, h⟩ := Reader.bind_ok h
    obtain ⟨y, bs3, _, h⟩ := Reader.bind_ok h
    cases h
    rw [hf]
    omega
  unfold Entry.readPayload at h
  split at h
  · obtain ⟨x, bs2, h1, h⟩ := Reader.bind_ok h
    cases h
    exact string_short h1
  all_goals first
    | exact k0 (fun _ => rfl) h
    | exact k2 (fun _ _ => rfl) h
    | cases h

theorem pool_loop {N : Nat} {count : UInt16} : ∀ (n : Nat) {i : UInt16} {acc : List (UInt16 × Entry)} {bs rest : Bytes} {m : MapCp},
    65536 - i.toNat = n → (∀ p ∈ acc, p.2.textLen + bs.length ≤ N ∧ p.2.textLen ≤ 65535) → bs.length ≤ N →
    MapCp.readLoop count i acc bs = .ok (m, rest) →
    (∀ p ∈ m.entries, p.2.textLen + rest.length ≤ N ∧ p.2.textLen ≤ 65535) ∧ rest.length ≤ N := by
  intro n
  induction n using Nat.strongRecOn with
  | _ n ih =>
    intro i acc bs rest m hn ha hb h
    rw [MapCp.readLoop] at h
    split at h
    · split at h
      · rename_i e bs1 h1
        have e1 := fans_entry' _ _ _ h1
        have e2 := entry_short h1
        split at h
        · rename_i hl
          have hs : 1 ≤ e.size.toNat ∧ e.size.toNat ≤ 2 := by cases e <;> simp [Entry.size]
          have ht : (i + e.size).toNat = i.toNat + e.size.toNat := by
            rw [UInt16.toNat_add, Nat.mod_eq_of_lt hl]
          refine ih _ (by rw [ht]; omega) rfl ?_ (by omega) h
          intro p hp
          rcases List.mem_cons.mp hp with rfl | hp
          · exact ⟨by dsimp only; omega, e2⟩
          · have := ha p hp
            exact ⟨by omega, this.2⟩
        · cases h
      · cases h
    · cases h
      exact ⟨ha, hb⟩

theorem pool_bulk {bs rest : Bytes} {m : MapCp} (h : MapCp.read bs = .ok (m, rest)) :
    PoolB (min 65535 (bs.length - rest.length)) m.get ∧ rest.length ≤ bs.length := by
  obtain ⟨c, bs1, h1, h2⟩ := Reader.bind_ok h
  have e1 := fans_num (c := u16) (by decide) _ _ _ h1
  have e1 : bs1.length + 1 ≤ bs.length := e1
  obtain ⟨e2, e3⟩ := pool_loop (N := bs.length) _ rfl (fun p hp => absurd hp List.not_mem_nil) (by omega) h2
  refine ⟨fun i s hs => ?_, e3⟩
  have := e2 _ (lookup_mem hs)
  simp only [Entry.textLen] at this
  omega

theorem PoolB.mono {b c : Nat} {P : Pool} (h : PoolB b P) (hb : b ≤ c) : PoolB c P := fun i s hs => Nat.le_trans (h i s hs) hb

theorem fans_version : Fans (fun _ => 0) Version.read := fun bs v rest h => by
  obtain ⟨b, rfl, _⟩ := version_size h
  simp

/-- What a class file costs. -/
theorem class_bulk {ord : Order} (ho : ∀ k n l, (ord k n l).Perm l) {input rest : Bytes} {x : Class}
    (h : Class.read ord input = .ok (x, rest)) :
    bulkClass x ≤ price (min 65535 (input.length - rest.length)) * (input.length - rest.length) := by
  unfold Class.read at h
  split at h
  · cases h
  · rename_i magic bs1 h1
    split at h
    · split at h
      · cases h
      · rename_i v bs2 h2
        split at h
        · cases h
        · rename_i cp bs3 h3
          split at h
          · cases h
          · rename_i c st bs4 h4
            split at h
            · cases h
            · cases h
              have e1 : bs1.length + 1 ≤ input.length := fans_num (c := u32) (by decide) _ _ _ h1
              have e2 : bs2.length + 0 ≤ bs1.length := fans_version _ _ _ h2
              obtain ⟨e3, e4⟩ := pool_bulk h3
              have key : ∀ B, PoolB B cp.get → bulkClass x + price B * rest.length ≤ price B * bs3.length := by
                intro B hB
                obtain ⟨n, e5, e6⟩ := costs_class (B := B) ho v _ _ _ _ _ _ ⟨hB, fun _ h => Option.noConfusion rfl (heq_of_eq h)⟩ h4
                simp only [W, RSt.count] at e5 e6
                omega
              have hle : rest.length ≤ bs3.length := by
                rcases Nat.lt_or_ge bs3.length rest.length with hlt | hge
                · have e7 := key _ e3
                  have e8 := Nat.mul_le_mul_left (price (min 65535 (bs2.length - bs3.length))) (Nat.succ_le_of_lt hlt)
                  rw [Nat.mul_succ] at e8
                  have : 0 < price (min 65535 (bs2.length - bs3.length)) := by unfold price; omega
                  omega
                · exact hge
              have e7 := key (min 65535 (input.length - rest.length)) (e3.mono (by omega))
              generalize price (min 65535 (input.length - rest.length)) = p at e7 ⊢
              have e8 : p * bs3.length ≤ p * ((input.length - rest.length) + rest.length) := Nat.mul_le_mul_left _ (by omega)
              rw [Nat.mul_add] at e8
              omega
    · cases h

end Verif
