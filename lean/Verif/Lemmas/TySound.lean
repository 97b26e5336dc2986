import Verif.Lemmas.Ty

namespace Verif.JType
open Verif.Spec Verif.Wtf8

/-- The text of `t` was consumed, except for the marker `V` of a void method. -/
def Consumed (t : JType) (used rest : List Nat) : Prop :=
  Desc t used ∨ (rest.head? = some 0x56 ∧ Desc t (used ++ [0x56]))

theorem countBrackets_spec (cs : List Nat) :
    cs = List.replicate (countBrackets cs).1 0x5B ++ (countBrackets cs).2 := by
  induction cs with
  | nil => rfl
  | cons c cs ih =>
    rw [countBrackets]
    split
    · rename_i h; subst h
      simp only [List.replicate_succ, List.cons_append]
      rw [← ih]
    · rfl

/-- Suffixes of valid sequences are valid. -/
theorem valid_of_append {a b : List Nat} (h : ValidCps (a ++ b)) : ValidCps b := (ValidCps_append h).2

theorem dropWhile_head (cs : List Nat) {c : Nat} {rest : List Nat}
    (h : cs.dropWhile (· ≠ 0x3B) = c :: rest) : c = 0x3B := by
  induction cs with
  | nil => simp at h
  | cons d cs ih =>
    rw [List.dropWhile_cons] at h
    split at h
    · exact ih h
    · rename_i hd
      simp at hd
      rw [List.cons.injEq] at h
      omega

/-- The branches of `getType` on a non-empty input. -/
theorem getType_cases (n c : Nat) (cs : List Nat) :
    (∃ t, Desc t [c] ∧ getType (n + 1) (c :: cs) = .ok (t, cs)) ∨
    (c = 0x4C ∧ getType (n + 1) (c :: cs) =
      match cs.dropWhile (· ≠ 0x3B) with
      | [] => .error .invalid
      | _ :: rest => .ok (.ref ((cs.takeWhile (· ≠ 0x3B)).foldl push []), rest)) ∨
    (c = 0x5B ∧ getType (n + 1) (c :: cs) =
      if 1 + (countBrackets cs).1 < 256 then
        match getType n (countBrackets cs).2 with
        | .ok (t, rest) => .ok (.array (UInt8.ofNat (1 + (countBrackets cs).1)) t, rest)
        | .error e => .error e
      else .error .panic) ∨
    (c = 0x28 ∧ getType (n + 1) (c :: cs) =
      match getParams n cs with
      | .ok (ts, rest) =>
        match rest with
        | [] => .error .invalid
        | _ :: rest =>
          if rest.head? = some 0x56 then .ok (.method ts none, rest)
          else match getType n rest with
            | .ok (t, rest) => .ok (.method ts (some t), rest)
            | .error e => .error e
      | .error e => .error e) ∨
    getType (n + 1) (c :: cs) = .error .invalid := by
  rw [getType]
  by_cases h1 : c = 0x42
  · rw [if_pos h1]; exact .inl ⟨_, h1 ▸ .byte, rfl⟩
  rw [if_neg h1]
  by_cases h2 : c = 0x43
  · rw [if_pos h2]; exact .inl ⟨_, h2 ▸ .char, rfl⟩
  rw [if_neg h2]
  by_cases h3 : c = 0x44
  · rw [if_pos h3]; exact .inl ⟨_, h3 ▸ .double, rfl⟩
  rw [if_neg h3]
  by_cases h4 : c = 0x46
  · rw [if_pos h4]; exact .inl ⟨_, h4 ▸ .float, rfl⟩
  rw [if_neg h4]
  by_cases h5 : c = 0x49
  · rw [if_pos h5]; exact .inl ⟨_, h5 ▸ .int, rfl⟩
  rw [if_neg h5]
  by_cases h6 : c = 0x4A
  · rw [if_pos h6]; exact .inl ⟨_, h6 ▸ .long, rfl⟩
  rw [if_neg h6]
  by_cases h7 : c = 0x5A
  · rw [if_pos h7]; exact .inl ⟨_, h7 ▸ .boolean, rfl⟩
  rw [if_neg h7]
  by_cases h8 : c = 0x53
  · rw [if_pos h8]; exact .inl ⟨_, h8 ▸ .short, rfl⟩
  rw [if_neg h8]
  by_cases h9 : c = 0x4C
  · rw [if_pos h9]; exact .inr (.inl ⟨h9, rfl⟩)
  rw [if_neg h9]
  by_cases h10 : c = 0x5B
  · rw [if_pos h10]; exact .inr (.inr (.inl ⟨h10, rfl⟩))
  rw [if_neg h10]
  by_cases h11 : c = 0x28
  · rw [if_pos h11]; exact .inr (.inr (.inr (.inl ⟨h11, rfl⟩)))
  rw [if_neg h11]
  exact .inr (.inr (.inr (.inr rfl)))

mutual
theorem getType_sound : (n : Nat) → (cs : List Nat) → (t : JType) → (rest : List Nat) →
    ValidCps cs → getType n cs = .ok (t, rest) →
    ∃ used, cs = used ++ rest ∧ used ≠ [] ∧ Consumed t used rest
  | 0, _, _, _, _, h => by simp [getType] at h
  | n + 1, [], _, _, _, h => by simp [getType] at h
  | n + 1, c :: cs, t, rest, hv, h => by
    have hvc : ValidCps cs := valid_of_append (a := [c]) hv
    rcases getType_cases n c cs with ⟨t0, hd0, h0⟩ | ⟨hc, h0⟩ | ⟨hc, h0⟩ | ⟨hc, h0⟩ | h0 <;> rw [h0] at h <;> clear h0
    · cases h; exact ⟨[c], rfl, by simp, .inl hd0⟩
    · subst hc
      split at h
      · cases h
      · rename_i e rest' hd
        have hcs := List.takeWhile_append_dropWhile (p := (· ≠ 0x3B)) (l := cs)
        have he := dropWhile_head cs hd
        subst he
        rw [hd] at hcs
        have hvn : ValidCps (cs.takeWhile (· ≠ 0x3B)) := by
          rw [← hcs] at hvc; exact (ValidCps_append hvc).1
        have hfo := foldl_push [] (cs.takeWhile (· ≠ 0x3B)) hvn
        have h0 : encodeCps [] = [] := rfl
        rw [List.nil_append, h0] at hfo
        rw [hfo] at h
        cases h
        refine ⟨0x4C :: (cs.takeWhile (· ≠ 0x3B) ++ [0x3B]), ?_, by simp, .inl (.ref hvn)⟩
        simp only [List.cons_append, List.append_assoc, List.nil_append]
        rw [hcs]
    · subst hc
      split at h
      · rename_i hk
        split at h
        · rename_i t' rest' hg
          cases h
          have hsp := countBrackets_spec cs
          obtain ⟨used, hu, hne, hcons⟩ := getType_sound n _ _ _
            (by rw [hsp] at hvc; exact valid_of_append hvc) hg
          have hk' : (UInt8.ofNat (1 + (countBrackets cs).1)).toNat = (countBrackets cs).1 + 1 := by
            rw [UInt8.toNat_ofNat']; omega
          refine ⟨List.replicate ((countBrackets cs).1 + 1) 0x5B ++ used, ?_, ?_, ?_⟩
          · rw [List.replicate_succ, List.append_assoc, ← hu, List.cons_append, ← hsp]
          · simp
          · rcases hcons with hd | ⟨hr, hd⟩
            · left
              have := Desc.array (d := UInt8.ofNat (1 + (countBrackets cs).1)) hd
              rwa [hk'] at this
            · right
              refine ⟨hr, ?_⟩
              have := Desc.array (d := UInt8.ofNat (1 + (countBrackets cs).1)) hd
              rwa [hk', ← List.append_assoc] at this
        · cases h
      · cases h
    · subst hc
      split at h
      · rename_i ts rest1 hp
        obtain ⟨used, hu, hdl, hhead⟩ := getParams_sound n _ _ _ hvc hp
        split at h
        · cases h
        · rename_i e rest2
          have he : e = 0x29 := by simpa using hhead
          subst he
          have hv2 : ValidCps rest2 := by
            rw [hu] at hvc; exact valid_of_append (a := [_]) (valid_of_append hvc)
          split at h
          · rename_i hV
            cases h
            refine ⟨0x28 :: (used ++ [0x29]), by simp [hu], by simp, .inr ⟨hV, ?_⟩⟩
            simpa using Desc.void hdl
          · split at h
            · rename_i r rest3 hg
              cases h
              obtain ⟨ur, hur, hne, hcons⟩ := getType_sound n _ _ _ hv2 hg
              refine ⟨0x28 :: (used ++ 0x29 :: ur), by simp [hu, hur], by simp, ?_⟩
              rcases hcons with hd | ⟨hr, hd⟩
              · exact .inl (.method hdl hd)
              · right
                refine ⟨hr, ?_⟩
                simpa using Desc.method hdl hd
            · cases h
      · cases h
    · cases h
theorem getParams_sound : (n : Nat) → (cs : List Nat) → (ts : List JType) → (rest : List Nat) →
    ValidCps cs → getParams n cs = .ok (ts, rest) →
    ∃ used, cs = used ++ rest ∧ DescList ts used ∧ rest.head?.getD 0x29 = 0x29
  | 0, _, _, _, _, h => by simp [getParams] at h
  | n + 1, cs, ts, rest, hv, h => by
    rw [getParams] at h
    split at h
    · rename_i hh; cases h; exact ⟨[], rfl, .nil, hh⟩
    · split at h
      · rename_i t rest1 hg
        obtain ⟨u1, hu1, hne, hcons⟩ := getType_sound n _ _ _ hv hg
        split at h
        · rename_i ts' rest2 hp
          cases h
          have hv1 : ValidCps rest1 := by rw [hu1] at hv; exact valid_of_append hv
          obtain ⟨u2, hu2, hdl, hhead⟩ := getParams_sound n _ _ _ hv1 hp
          rcases hcons with hd | ⟨hr, hd⟩
          · exact ⟨u1 ++ u2, by simp [hu1, hu2], .cons hd hdl, hhead⟩
          · -- the loop would have to parse the marker as a type
            exfalso
            obtain ⟨tl, rfl⟩ : ∃ tl, rest1 = 0x56 :: tl := by
              cases rest1 with
              | nil => simp at hr
              | cons a tl => exact ⟨tl, by simpa using hr⟩
            cases n with
            | zero => simp [getParams] at hp
            | succ n =>
              cases n with
              | zero => simp [getParams, getType] at hp
              | succ n => simp [getParams, getType] at hp
        · cases h
      · cases h
end

/-! ### Totality -/

theorem countBrackets_length (cs : List Nat) :
    (countBrackets cs).1 + (countBrackets cs).2.length = cs.length := by
  have := congrArg List.length (countBrackets_spec cs)
  simp at this
  omega

mutual
theorem getType_lt : (n : Nat) → (cs : List Nat) → (t : JType) → (rest : List Nat) →
    getType n cs = .ok (t, rest) → rest.length < cs.length
  | 0, _, _, _, h => by simp [getType] at h
  | n + 1, [], _, _, h => by simp [getType] at h
  | n + 1, c :: cs, t, rest, h => by
    rcases getType_cases n c cs with ⟨t0, hd0, h0⟩ | ⟨hc, h0⟩ | ⟨hc, h0⟩ | ⟨hc, h0⟩ | h0 <;> rw [h0] at h <;> clear h0
    · cases h; simp
    · split at h
      · cases h
      · rename_i e rest' hd
        have := congrArg List.length (List.takeWhile_append_dropWhile (p := (· ≠ 0x3B)) (l := cs))
        rw [hd] at this
        simp at this
        cases h
        simp
        omega
    · split at h
      · split at h
        · rename_i t' rest' hg
          cases h
          have := getType_lt n _ _ _ hg
          have := countBrackets_length cs
          simp; omega
        · cases h
      · cases h
    · split at h
      · rename_i ts rest1 hp
        have h1 := getParams_le n _ _ _ hp
        split at h
        · cases h
        · simp at h1
          split at h
          · cases h; simp; omega
          · split at h
            · rename_i r rest3 hg
              cases h
              have := getType_lt n _ _ _ hg
              simp; omega
            · cases h
      · cases h
    · cases h
theorem getParams_le : (n : Nat) → (cs : List Nat) → (ts : List JType) → (rest : List Nat) →
    getParams n cs = .ok (ts, rest) → rest.length ≤ cs.length
  | 0, _, _, _, h => by simp [getParams] at h
  | n + 1, cs, ts, rest, h => by
    rw [getParams] at h
    split at h
    · cases h; simp
    · split at h
      · rename_i t rest1 hg
        have := getType_lt n _ _ _ hg
        split at h
        · rename_i ts' rest2 hp
          cases h
          have := getParams_le n _ _ _ hp
          omega
        · cases h
      · cases h
end

/-- 256 consecutive opening brackets occur. -/
def Deep (cs : List Nat) : Prop := ∃ a b, cs = a ++ List.replicate 256 0x5B ++ b

theorem Deep_append {a cs : List Nat} (h : Deep cs) : Deep (a ++ cs) := by
  obtain ⟨x, y, rfl⟩ := h
  exact ⟨a ++ x, y, by simp only [List.append_assoc]⟩

theorem Deep_cons {a : Nat} {cs : List Nat} (h : Deep cs) : Deep (a :: cs) := Deep_append (a := [a]) h

mutual
theorem getType_err : (n : Nat) → (cs : List Nat) → (e : Err) → 2 * cs.length + 1 ≤ n →
    getType n cs = .error e → e = .invalid ∨ (e = .panic ∧ Deep cs)
  | 0, _, _, hn, h => by omega
  | n + 1, [], _, _, h => by simp [getType] at h; exact .inl h.symm
  | n + 1, c :: cs, e, hn, h => by
    rw [List.length_cons] at hn
    rcases getType_cases n c cs with ⟨t0, hd0, h0⟩ | ⟨hc, h0⟩ | ⟨hc, h0⟩ | ⟨hc, h0⟩ | h0 <;> rw [h0] at h <;> clear h0
    · cases h
    · split at h
      · cases h; exact .inl rfl
      · cases h
    · subst hc
      split at h
      · split at h
        · cases h
        · rename_i e' hg
          cases h
          have hl := countBrackets_length cs
          rcases getType_err n _ _ (by omega) hg with h1 | ⟨h1, h2⟩
          · exact .inl h1
          · right
            refine ⟨h1, Deep_cons ?_⟩
            rw [countBrackets_spec cs]
            exact Deep_append h2
      · rename_i hk
        cases h
        right
        refine ⟨rfl, ?_⟩
        obtain ⟨j, hj⟩ : ∃ j, (countBrackets cs).1 = 255 + j := ⟨(countBrackets cs).1 - 255, by omega⟩
        refine ⟨[], List.replicate j 0x5B ++ (countBrackets cs).2, ?_⟩
        have := countBrackets_spec cs
        rw [hj, ← List.replicate_append_replicate, List.append_assoc] at this
        rw [List.nil_append, List.replicate_succ, List.cons_append, ← this]
    · split at h
      · rename_i ts rest1 hp
        have h1 := getParams_le n _ _ _ hp
        have hsuf := getParams_suffix n _ _ _ hp
        split at h
        · cases h; exact .inl rfl
        · rename_i e1 rest2
          split at h
          · cases h
          · split at h
            · cases h
            · rename_i e' hg
              cases h
              rw [List.length_cons] at h1
              rcases getType_err n _ _ (by omega) hg with h2 | ⟨h2, h3⟩
              · exact .inl h2
              · obtain ⟨u, hu⟩ := hsuf
                refine .inr ⟨h2, Deep_cons ?_⟩
                rw [hu]
                exact Deep_append (Deep_cons h3)
      · rename_i e' hp
        cases h
        rcases getParams_err n _ _ (by omega) hp with h2 | ⟨h2, h3⟩
        · exact .inl h2
        · exact .inr ⟨h2, Deep_cons h3⟩
    · cases h; exact .inl rfl
theorem getParams_err : (n : Nat) → (cs : List Nat) → (e : Err) → 2 * cs.length + 2 ≤ n →
    getParams n cs = .error e → e = .invalid ∨ (e = .panic ∧ Deep cs)
  | 0, _, _, hn, h => by omega
  | n + 1, cs, e, hn, h => by
    rw [getParams] at h
    split at h
    · cases h
    · split at h
      · rename_i t rest1 hg
        have hl := getType_lt n _ _ _ hg
        obtain ⟨u, hu⟩ := getType_suffix n _ _ _ hg
        split at h
        · cases h
        · rename_i e' hp
          cases h
          rcases getParams_err n _ _ (by omega) hp with h2 | ⟨h2, h3⟩
          · exact .inl h2
          · refine .inr ⟨h2, ?_⟩
            rw [hu]
            exact Deep_append h3
      · rename_i e' hg
        cases h
        exact getType_err n _ _ (by omega) hg
theorem getType_suffix : (n : Nat) → (cs : List Nat) → (t : JType) → (rest : List Nat) →
    getType n cs = .ok (t, rest) → ∃ u, cs = u ++ rest
  | 0, _, _, _, h => by simp [getType] at h
  | n + 1, [], _, _, h => by simp [getType] at h
  | n + 1, c :: cs, t, rest, h => by
    rcases getType_cases n c cs with ⟨t0, hd0, h0⟩ | ⟨hc, h0⟩ | ⟨hc, h0⟩ | ⟨hc, h0⟩ | h0 <;> rw [h0] at h <;> clear h0
    · cases h; exact ⟨[_], rfl⟩
    · split at h
      · cases h
      · rename_i e rest' hd
        have := List.takeWhile_append_dropWhile (p := (· ≠ 0x3B)) (l := cs)
        rw [hd] at this
        cases h
        exact ⟨c :: (cs.takeWhile (· ≠ 0x3B) ++ [e]), by simp; simpa using this.symm⟩
    · split at h
      · split at h
        · rename_i t' rest' hg
          cases h
          obtain ⟨u, hu⟩ := getType_suffix n _ _ _ hg
          have := countBrackets_spec cs
          exact ⟨c :: (List.replicate (countBrackets cs).1 0x5B ++ u), by
            rw [List.cons_append, List.append_assoc, ← hu, ← this]⟩
        · cases h
      · cases h
    · split at h
      · rename_i ts rest1 hp
        obtain ⟨u, hu⟩ := getParams_suffix n _ _ _ hp
        split at h
        · cases h
        · rename_i e1 rest2
          split at h
          · cases h; exact ⟨c :: (u ++ [e1]), by simp [hu]⟩
          · split at h
            · rename_i r rest3 hg
              cases h
              obtain ⟨v, hv⟩ := getType_suffix n _ _ _ hg
              exact ⟨c :: (u ++ e1 :: v), by simp [hu, hv]⟩
            · cases h
      · cases h
    · cases h
theorem getParams_suffix : (n : Nat) → (cs : List Nat) → (ts : List JType) → (rest : List Nat) →
    getParams n cs = .ok (ts, rest) → ∃ u, cs = u ++ rest
  | 0, _, _, _, h => by simp [getParams] at h
  | n + 1, cs, ts, rest, h => by
    rw [getParams] at h
    split at h
    · cases h; exact ⟨[], rfl⟩
    · split at h
      · rename_i t rest1 hg
        obtain ⟨u, hu⟩ := getType_suffix n _ _ _ hg
        split at h
        · rename_i ts' rest2 hp
          cases h
          obtain ⟨v, hv⟩ := getParams_suffix n _ _ _ hp
          exact ⟨u ++ v, by simp [hu, hv]⟩
        · cases h
      · cases h
end

/-! ### Display -/

theorem encodeCps_ascii (c : Nat) (h : c < 0x80) : encodeCps [c] = [UInt8.ofNat c] := by
  rw [encodeCps_singleton, gutf8, if_pos h]

theorem encodeCps_replicate (n c : Nat) (h : c < 0x80) :
    encodeCps (List.replicate n c) = List.replicate n (UInt8.ofNat c) := by
  induction n with
  | zero => rfl
  | succ n ih =>
    rw [List.replicate_succ, List.replicate_succ, encodeCps_cons, ih, ← encodeCps_singleton,
      encodeCps_ascii c h]
    rfl

theorem toStringLossy_encode (cs : List Nat) (h : ∀ c ∈ cs, IsCodePoint c) :
    toStringLossy (encodeCps cs) = encodeCps (cs.map repl) :=
  toStringLossyFrom_spec cs.length cs (Nat.le_refl _) h []

theorem repl_ascii (c : Nat) (h : c < 0x80) : repl c = c := by
  rw [repl, if_neg (fun h' => by have := h'.1; omega)]

mutual
theorem display_desc {t : JType} {ds : List Nat} (h : Desc t ds) :
    display t = encodeCps (ds.map repl) := by
  cases h with
  | ref hv =>
    rw [display, toStringLossy_encode _ hv.1, List.map_cons, List.map_append, encodeCps_cons,
      encodeCps_append]
    rfl
  | array h' =>
    rw [display, display_desc h', List.map_append, List.map_replicate, repl_ascii _ (by omega),
      encodeCps_append, encodeCps_replicate _ _ (by omega)]
    rfl
  | void h' =>
    rw [display, displayAll_desc h', List.map_cons, List.map_append, encodeCps_cons,
      encodeCps_append]
    simp only [List.append_assoc]
    rfl
  | method h' hr =>
    rw [display, displayAll_desc h', List.map_cons, List.map_append, encodeCps_cons,
      encodeCps_append, List.map_cons, encodeCps_cons]
    simp only [display_desc hr, List.append_assoc]
    rfl
  | _ => rfl
theorem displayAll_desc {ts : List JType} {ds : List Nat} (h : DescList ts ds) :
    displayAll ts = encodeCps (ds.map repl) := by
  cases h with
  | nil => rfl
  | cons h1 h2 =>
    rw [displayAll, display_desc h1, displayAll_desc h2, List.map_append, encodeCps_append]
end

end Verif.JType
