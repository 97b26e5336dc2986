import Verif.Lemmas.Rename
import Verif.Lemmas.AgainRead

/-! # Names of labels in a body that was read -/

namespace Verif
open Spec Sig

/-- The labels of a body are the first numbers, each of them has one place. -/
structure Counted (x : Code) : Prop where
  once : (placed x.code).Nodup
  first : ∀ l, l ∈ placed x.code ↔ l.toNat < (placed x.code).length
  all : ∀ l ∈ allLabels x, l ∈ placed x.code
  few : (placed x.code).length < 2147483648

theorem nodup_firsts {L : List Label} {n : Nat} (h : L.Nodup) (hn : ∀ l, l ∈ L ↔ l.toNat < n) (hl : n ≤ 4294967296) :
    L.length = n := by
  have h1 : L.Perm ((List.range n).map UInt32.ofNat) := by
    rw [List.perm_ext_iff_of_nodup h]
    · intro l
      rw [hn l, List.mem_map]
      refine ⟨fun h => ⟨l.toNat, List.mem_range.mpr h, UInt32.ofNat_toNat⟩, ?_⟩
      rintro ⟨k, hk, rfl⟩
      have := List.mem_range.mp hk
      rw [UInt32.toNat_ofNat', Nat.mod_eq_of_lt (by omega)]
      exact this
    · rw [List.Nodup, List.pairwise_map]
      refine List.Pairwise.imp_of_mem (fun {a b} ha hb hab e => ?_) (List.pairwise_lt_range (n := n))
      have h1 := List.mem_range.mp ha
      have h2 := List.mem_range.mp hb
      have := congrArg UInt32.toNat e
      rw [UInt32.toNat_ofNat', UInt32.toNat_ofNat', Nat.mod_eq_of_lt (by omega), Nat.mod_eq_of_lt (by omega)] at this
      omega
  simpa using h1.length_eq

theorem counted {P : Pool} {bs : Bytes} {x : Code} {code : Bytes} {prs : List (Nat × RInsn)} {ν : Nat → Option Label}
    (hl : bs.length < 2147483648) (r : Recovers P bs x code prs ν) : Counted x := by
  obtain ⟨line, pis, hm, hcode⟩ := r.insns
  have hfst : pis.map Prod.fst = prs.map Prod.fst :=
    matched_fst (R := fun r i p => Refers (reach ν p) r i) hm
  have hnd := (decodes_pos r.decodes).2
  rw [Nat.zero_add, ← hfst] at hnd
  have hsol : ∀ e ∈ pis, solid [e.2] = [e.2] := fun e he => by
    obtain ⟨e', _, h⟩ := hm.right e he
    exact refers_solid h.2
  have hpl : placed x.code = (pis.map Prod.fst ++ [code.length]).filterMap ν := by
    rw [hcode, placed_rebuild fun e he => solid_mark (hsol e he)]
  have honce : (placed x.code).Nodup := by
    rw [hpl]
    exact filterMap_nodup r.inj hnd
  have hmem : ∀ l, l ∈ placed x.code ↔ ∃ p, ν p = some l := by
    intro l
    rw [hpl, List.mem_filterMap]
    refine ⟨fun ⟨p, _, h⟩ => ⟨p, h⟩, fun ⟨p, h⟩ => ⟨p, ?_, h⟩⟩
    rw [hfst]
    exact r.range p l h
  obtain ⟨n, hn⟩ := r.names
  have hfirst : ∀ l, l ∈ placed x.code ↔ l.toNat < min n 4294967296 := by
    intro l
    have := UInt32.toNat_lt l
    rw [hmem, hn, Nat.lt_min]
    exact ⟨fun h => ⟨h, by omega⟩, fun h => h.1⟩
  have hcount := nodup_firsts honce hfirst (Nat.min_le_right _ _)
  have hused : ∀ l ∈ codeLabels x, l ∈ placed x.code := fun l hl => (hmem l).mpr (r.used l (codeLabels_used l hl))
  refine ⟨honce, fun l => by rw [hcount]; exact hfirst l, fun l hl => ?_, ?_⟩
  · rcases List.mem_append.mp hl with hl | hl
    · rcases List.mem_append.mp hl with hl | hl
      · exact hl
      · exact hused l hl
    · obtain ⟨k, hk, hl⟩ := List.mem_flatMap.mp hl
      exact hused l (List.mem_append_left _ (List.mem_append_right _ (List.mem_flatMap.mpr ⟨k, r.catches k hk, hl⟩)))
  · have h1 : (placed x.code).length ≤ (pis.map Prod.fst ++ [code.length]).length := by
      rw [hpl]
      exact List.length_filterMap_le _ _
    have h2 := nodup_bound (n := code.length + 1) hnd fun p hp => by
      rw [hfst] at hp
      rcases List.mem_append.mp hp with hp | hp
      · obtain ⟨e, he, rfl⟩ := List.mem_map.mp hp
        have := (decodes_pos r.decodes).1 e he
        omega
      · rw [List.mem_singleton] at hp
        omega
    obtain ⟨hs, tail, e, _⟩ := r.bytes
    have h3 := congrArg List.length e
    simp only [List.length_append] at h3
    have h4 : (U4 code.length).length = 4 := rfl
    omega

theorem under_counted (ord : Nat → List LocalVariable → List LocalVariable) (ho : ∀ n l, (ord n l).Perm l) :
    GivesUnder 2147483648 Counted (Code.read ord) := by
  intro env st bs x st' rest hp hl hr
  obtain ⟨_, body, code, prs, ν, hb, hrec⟩ := read_sound ho hr hl
  refine counted ?_ hrec
  have := congrArg List.length hb
  rw [List.length_append] at this
  omega

/-- The first number that is not a label. -/
theorem counted_fresh {x : Code} (h : Counted x) {l : Label} (hl : (placed x.code).length ≤ l.toNat) : l ∉ allLabels x :=
  fun hm => by
    have := (h.first l).mp (h.all l hm)
    omega

def AttrHas (P : Code → Prop) (a : MethodAttr) : Prop := ∀ b, a = .code b → P b

theorem under_attrHas {P : Code → Prop} (hP : ∀ ord : Nat → List LocalVariable → List LocalVariable, (∀ n l, (ord n l).Perm l) →
    GivesUnder 2147483648 P (Code.read ord)) {ord : Order} (ho : ∀ k n l, (ord k n l).Perm l) :
    GivesUnder 2147483648 (AttrHas P) (MethodAttr.read ord) := by
  intro env st bs x st' rest hp hl hr
  have key : GivesUnder 2147483648 (AttrHas P) (rAttr (MethodAttr.table (ord bs.length)) .raw) := by
    refine under_attr (fun name => ?_) fun s b hs => nofun
    unfold MethodAttr.table
    refine under_table (under_map ((hP _ (ho _)).mono fun _ h b e => by cases e; exact h)) ?_
    refine under_table (under_pure nofun) ?_
    refine under_table (under_pure nofun) ?_
    iterate 10 refine under_table (under_map (gives_all (fun _ => nofun) _).under) ?_
    exact nofun
  exact key _ _ _ _ _ _ hp hl hr

theorem under_bodyHas {P : Code → Prop} (hP : ∀ ord : Nat → List LocalVariable → List LocalVariable, (∀ n l, (ord n l).Perm l) →
    GivesUnder 2147483648 P (Code.read ord)) {ord : Order} (ho : ∀ k n l, (ord k n l).Perm l) (v : Version) :
    GivesUnder 2147483648 (fun x => ∀ m ∈ x.methods, ∀ b, .code b ∈ m.attrs → P b) (Class.readBody ord v) := by
  have s1 : Shrinks (Rd.map (ClassOf.mk (C := Code) v) (rFlags .cls)) := Shrinks.map shrinks_flags
  have s2 := Shrinks.ap s1 (shrinks_str (tag := 7))
  have s3 := Shrinks.ap s2 shrinks_clsOpt
  have s4 := Shrinks.ap s3 (Shrinks.vec (l := u16) (shrinks_str (tag := 7)))
  have s5 := Shrinks.ap s4 (Shrinks.vec (l := u16) shrinks_field)
  have s6 := Shrinks.ap s5 (Shrinks.vec (l := u16) (shrinks_method (ord := ord)))
  have hm : GivesUnder 2147483648 (fun m : Method => ∀ b, .code b ∈ m.attrs → P b) (Method.read ord) :=
    under_ap (under_ap (under_ap (under_map ((gives_any _).mono fun _ _ _ _ _ _ as (h : ∀ a ∈ as, AttrHas P a) b hb =>
        h _ hb b rfl).under)
      (Shrinks.map shrinks_flags) (gives_any _).under) (Shrinks.ap (Shrinks.map shrinks_flags) Shrinks.utf8) (gives_any _).under)
      (Shrinks.ap (Shrinks.ap (Shrinks.map shrinks_flags) Shrinks.utf8) Shrinks.type)
      (under_vec (under_attrHas hP ho) shrinks_methodAttr)
  exact under_ap (under_ap (under_ap (under_ap (under_ap (under_ap (under_map ((gives_any _).mono
    fun _ _ _ _ _ _ _ _ _ _ _ h6 _ _ => h6).under)
    s1 (gives_any _).under) s2 (gives_any _).under)
    s3 (gives_any _).under) s4 (gives_any _).under) s5 (under_vec hm shrinks_method)) s6
    (gives_any _).under

/-- What holds of every body that is read holds of all bodies of a class that is read. -/
theorem read_bodies {P : Code → Prop} (hP : ∀ ord : Nat → List LocalVariable → List LocalVariable, (∀ n l, (ord n l).Perm l) →
    GivesUnder 2147483648 P (Code.read ord)) {ord : Order} (ho : ∀ k n l, (ord k n l).Perm l) {bs rest : Bytes} {x : Class}
    (h : Class.read ord bs = .ok (x, rest)) (hl : bs.length < 2147483648) :
    ∀ m ∈ x.methods, ∀ b, .code b ∈ m.attrs → P b := by
  unfold Class.read at h
  split at h
  · cases h
  rename_i bs1 e1
  split at h
  · split at h
    · cases h
    rename_i bs2 e2
    split at h
    · cases h
    rename_i cp bs3 hcp
    split at h
    · cases h
    · rename_i hb
      split at h
      · cases h
      · cases h
        have h1 := read_pool (List.infix_refl bs2)
        rw [hcp] at h1
        have l1 := plain_num u32 bs
        rw [e1] at l1
        have l1 : bs1.length ≤ bs.length := List.IsSuffix.length_le l1
        have l2 := plain_version bs1
        rw [e2] at l2
        have l2 : bs2.length ≤ bs1.length := List.IsSuffix.length_le l2
        have l3 : bs3.length ≤ bs2.length := List.IsSuffix.length_le h1.1
        exact under_bodyHas hP ho _ _ _ _ _ _ _ (fun i s hs => (pool_fine h1.2 i s hs).loose) (by omega) hb
  · cases h

end Verif
