import Verif.Lemmas.Widens
import Verif.Props.Parts

/-! # C99: constants may be added to a class file -/

namespace Verif.Props
open Verif Spec

theorem widens_body (ord : Order) (v : Version) : Widens (Class.readBody ord v) :=
  .ap (.ap (.ap (.ap (.ap (.ap (.map (.flags _)) (.str _)) (.opt fun _ => .lookup _ _)) (.vec (.str _))) (.vec .field))
    (.vec (.method ord))) (.vec .classAttr)

/-- What is in front of the pool, and what the class is read from behind it. -/
theorem read_behind {ord : Order} {v p t rest : Bytes} {c : Class} (hv : v.length = 4)
    (h : Class.read ord (U4 0xCAFEBABE ++ (v ++ (p ++ t))) = .ok (c, rest)) :
    ∃ w cp b st, Version.read v = .ok (w, []) ∧ MapCp.read (p ++ t) = .ok (cp, b) ∧
      Class.readBody ord w ⟨cp.get, none⟩ ⟨[], none⟩ b = .ok (c, st, rest) ∧ resolveCells st.pending c.attrs = .ok () := by
  unfold Class.read at h
  rw [show (0xCAFEBABE : Nat) = jvmMagic.toNat from rfl, readsU4] at h
  simp only [if_true] at h
  split at h
  · cases h
  rename_i w b1 h1
  split at h
  · cases h
  rename_i cp b2 h2
  split at h
  · cases h
  rename_i h3
  split at h
  · cases h
  rename_i h4
  cases h
  obtain ⟨v', e1, e2⟩ := prefixed_version _ _ _ h1
  obtain ⟨v2, e3, hl⟩ := version_size h1
  have hl' : v'.length = v.length := by
    have := congrArg List.length e1
    have := congrArg List.length e3
    simp only [List.length_append] at *
    omega
  obtain ⟨rfl, rfl⟩ := List.append_inj e1 hl'.symm
  have := e2 []
  rw [List.append_nil] at this
  exact ⟨w, cp, b2, _, this, h2, h3, h4⟩

/-- A class file that is accepted is accepted as the same class when its pool is replaced by one with the same
constants at the same indices and any others besides. -/
theorem C99_replaced (ord : Order) (v p p' t rest : Bytes) (c : Class) (cp cp' : MapCp) (hv : v.length = 4)
    (hp : MapCp.read p = .ok (cp, [])) (hp' : MapCp.read p' = .ok (cp', []))
    (hle : ∀ i e, cp.get i = some e → cp'.get i = some e)
    (h : Class.read ord (U4 0xCAFEBABE ++ (v ++ (p ++ t))) = .ok (c, rest)) :
    Class.read ord (U4 0xCAFEBABE ++ (v ++ (p' ++ t))) = .ok (c, rest) := by
  obtain ⟨w, cp1, b, st, h1, h2, h3, h4⟩ := read_behind hv h
  rw [prefixed_more prefixed_pool hp] at h2
  cases h2
  unfold Class.read
  rw [show (0xCAFEBABE : Nat) = jvmMagic.toNat from rfl, readsU4]
  simp only [if_true]
  rw [prefixed_more prefixed_version h1]
  simp only
  rw [prefixed_more prefixed_pool hp']
  simp only
  rw [widens_body ord w ⟨cp.get, none⟩ ⟨cp'.get, none⟩ ⟨hle, rfl⟩ _ _ _ h3]
  simp only [h4]

/-- So constants can be appended to the pool of a class file: it is accepted as the same class. -/
theorem C99_appended (ord : Order) (v p p' t rest : Bytes) (c : Class) (es more : List Entry) (hv : v.length = 4)
    (hp : PoolBytes es p) (hp' : PoolBytes (es ++ more) p')
    (h : Class.read ord (U4 0xCAFEBABE ++ (v ++ (p ++ t))) = .ok (c, rest)) :
    Class.read ord (U4 0xCAFEBABE ++ (v ++ (p' ++ t))) = .ok (c, rest) := by
  obtain ⟨m, h1, h2⟩ := mapCp_read hp
  obtain ⟨m', h1', h2'⟩ := mapCp_read hp'
  have h2 := h2 []
  have h2' := h2' []
  rw [List.append_nil] at h2 h2'
  exact C99_replaced ord v p p' t rest c m m' hv h2 h2'
    (fun i e he => (h1' i e).mpr (((h1 i e).mp he).append more)) h

/-- And constants that nothing refers to can be left out: where the file without them is accepted, it is accepted as
the same class. -/
theorem C99_dropped (ord : Order) (v p p' t rest rest' : Bytes) (c c' : Class) (es more : List Entry) (hv : v.length = 4)
    (hp : PoolBytes es p) (hp' : PoolBytes (es ++ more) p')
    (h' : Class.read ord (U4 0xCAFEBABE ++ (v ++ (p' ++ t))) = .ok (c', rest'))
    (h : Class.read ord (U4 0xCAFEBABE ++ (v ++ (p ++ t))) = .ok (c, rest)) : c = c' ∧ rest = rest' := by
  have := C99_appended ord v p p' t rest c es more hv hp hp' h
  rw [h'] at this
  cases this
  exact ⟨rfl, rfl⟩

/-! ### A class with two more constants -/

def smallEntries : List Entry := [.utf8 [0x41], .cls 1, .utf8 noArgs, .utf8 N.deprecated]

theorem entry_ascii {s : Bytes} (h : ∀ b ∈ s, 1 ≤ b.toNat ∧ b.toNat ≤ 0x7F) (hl : s.length < 65536) :
    EntryBytes (.utf8 s) (U1 1 ++ U2 s.length ++ s) := by
  have h1 : ∀ t : Bytes, (∀ b ∈ t, 1 ≤ b.toNat ∧ b.toNat ≤ 0x7F) → encodeCps (t.map UInt8.toNat) = t ∧
      mutf8 (utf16All (t.map UInt8.toNat)) = t ∧ NoPair (t.map UInt8.toNat) := by
    intro t
    induction t with
    | nil => intro _; exact ⟨rfl, rfl, trivial⟩
    | cons b t ih =>
      intro hb
      obtain ⟨i1, i2, i3⟩ := ih fun x hx => hb x (List.mem_cons_of_mem _ hx)
      have hb := hb b List.mem_cons_self
      have hg : gutf8 b.toNat = [b] := by
        rw [gutf8, if_pos (by omega), UInt8.ofNat_toNat]
      have hu : utf16 b.toNat = [UInt16.ofNat b.toNat] := by rw [utf16, if_pos (by omega)]
      have hn : (UInt16.ofNat b.toNat).toNat = b.toNat := by
        rw [UInt16.toNat_ofNat']
        exact Nat.mod_eq_of_lt (by omega)
      have hm : mutf8Unit (UInt16.ofNat b.toNat) = [b] := by
        unfold mutf8Unit
        simp only [hn]
        rw [if_pos hb, UInt8.ofNat_toNat]
      refine ⟨?_, ?_, ?_⟩
      · show gutf8 b.toNat ++ encodeCps (t.map UInt8.toNat) = _
        rw [hg, i1]
        rfl
      · show mutf8 (utf16 b.toNat ++ utf16All (t.map UInt8.toNat)) = _
        rw [hu]
        show mutf8Unit _ ++ mutf8 (utf16All (t.map UInt8.toNat)) = _
        rw [hm, i2]
        rfl
      · cases t with
        | nil => trivial
        | cons c t => exact ⟨fun hx => by have := hx.1.1; omega, i3⟩
  obtain ⟨e1, e2, e3⟩ := h1 s h
  have := EntryBytes.utf8 (s := s) (v := utf16All (s.map UInt8.toNat)) ⟨_, ⟨fun c hc => by
    obtain ⟨b, hb, rfl⟩ := List.mem_map.mp hc
    have := h b hb
    show b.toNat ≤ _
    omega, e3⟩, e1, rfl⟩ (by rw [e2]; exact hl)
  rw [e2] at this
  exact this

theorem small_pool : PoolBytes smallEntries twoMethods.pool :=
  ⟨_, .cons (entry_ascii (by decide) (by decide)) (.cons .cls (.cons (entry_ascii (by decide) (by decide))
    (.cons (entry_ascii (by decide) (by decide)) .nil))), by decide, by decide +kernel⟩

/-- The two methods of C98 with a long and a string appended to the pool, the string being a constant the file does
not have otherwise. -/
example : ∃ c, c.methods.length = 2 ∧ Class.read (fun _ _ => id) twoMethods.bytes = .ok (c, []) ∧
    Class.read (fun _ _ => id) { twoMethods with
      pool := [0, 8] ++ twoMethods.pool.drop 2 ++ [5, 0, 0, 0, 0, 0, 0, 0, 7] ++ [1, 0, 2, 0x42, 0x43] }.bytes =
      .ok (c, []) := by
  obtain ⟨c, h, hl⟩ := twoMethods_gives
  have h0 := (C98_parts id twoMethods.bytes [] c).mpr ⟨twoMethods, (List.append_nil _).symm, h⟩
  refine ⟨c, hl, h0, ?_⟩
  exact C99_appended _ twoMethods.version _ _ _ [] c smallEntries [.long 7, .utf8 [0x42, 0x43]] rfl small_pool
    ⟨_, .cons (entry_ascii (by decide) (by decide)) (.cons .cls (.cons (entry_ascii (by decide) (by decide))
      (.cons (entry_ascii (by decide) (by decide)) (.cons .long (.cons (entry_ascii (by decide) (by decide)) .nil))))),
      by decide, by decide +kernel⟩ h0

end Verif.Props
