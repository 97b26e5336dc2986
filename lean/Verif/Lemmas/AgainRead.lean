import Verif.Lemmas.AgainBody
import Verif.Lemmas.Reread

/-! # Bodies that were read are orderly -/

namespace Verif
open Spec Sig

def LocalsLast (x : Code) : Prop :=
  ∃ as vs, (∀ a ∈ as, ∀ ws, a ≠ .locals ws) ∧ x.attrs = as ++ if vs.isEmpty then [] else [.locals vs]

theorem locals_last {ord : Nat → List LocalVariable → List LocalVariable} (ho : ∀ n l, (ord n l).Perm l) :
    Gives LocalsLast (Code.read ord) := by
  have key : Gives LocalsLast (Code.readIn ord) := by
    refine gives_bind (gives_any _) fun _ _ => gives_bind (gives_any _) fun _ _ => gives_bind (gives_any _) fun _ _ =>
      gives_bind (gives_any _) fun code _ => gives_bind (gives_any _) fun pis _ =>
      gives_bind (gives_any _) fun catches _ => gives_bind (gives_any _) fun n _ =>
      gives_bind (P := NeatAcc (0 + n.toNat)) ?_ fun acc hacc => gives_bind (gives_any _) fun is _ => ?_
    · intro env st bs x st' rest hp hr
      exact neat_codeAttrs (idx := indexIn (pis.map Prod.fst ++ [code.length])) n.toNat (k := 0)
        (acc := ⟨[], fun _ => [], []⟩) ⟨by simp, by simp, by simp, by simp, by simp⟩
        { env with catches := some catches } _ _ _ _ _ hp hr
    · intro env st bs x st' rest hp hr
      cases hr
      have hn : ∀ a ∈ acc.attrs, ∀ ws, a ≠ .locals ws := by
        rintro a ha ws rfl
        exact (hacc.attrs _ ha).elim
      refine ⟨acc.attrs, ord bs.length acc.vars, hn, ?_⟩
      have hl := (ho bs.length acc.vars).length_eq
      simp only
      split
      · rename_i h
        have : ord bs.length acc.vars = [] := List.length_eq_zero_iff.mp (by omega)
        rw [this]
        simp
      · rename_i h
        cases hv : ord bs.length acc.vars with
        | nil => rw [hv] at hl; simp at hl; omega
        | cons => rfl
  intro env st bs x st' rest hp hr
  unfold Code.read at hr
  split at hr
  · cases hr
  · rename_i h; cases hr; exact key { env with catches := some [] } _ _ _ _ _ hp h

theorem normal_targets {i j : Insn} (h : normal i = some j) : ∀ l ∈ targets j, l ∈ targets i := by
  cases i
  case conversion a b => cases a <;> cases b <;> cases h <;> exact fun _ h => h
  case convertInt a => cases a <;> cases h <;> exact fun _ h => h
  case push c => cases c <;> cases h <;> exact fun _ h => h
  case field o t c => cases c <;> cases h <;> exact fun _ h => h
  case invokeExact t c => cases c <;> cases h <;> exact fun _ h => h
  case invokeSpecial c => cases c <;> cases h <;> exact fun _ h => h
  case invokeInterface c n => cases c <;> cases h <;> exact fun _ h => h
  case lookupSwitch d t =>
    cases h
    intro l hl
    rcases List.mem_cons.mp hl with rfl | hl
    · exact .head _
    · obtain ⟨e, he, rfl⟩ := List.mem_map.mp hl
      exact .tail _ (List.mem_map.mpr ⟨e, List.mem_mergeSort.mp he, rfl⟩)
  all_goals first | (cases h; done) | (cases h; exact fun _ h => h)

theorem codeLabels_used {x : Code} : ∀ l ∈ codeLabels x, l ∈ usedLabels x := by
  intro l hl
  unfold codeLabels at hl
  unfold usedLabels
  rcases List.mem_append.mp hl with hl | hl
  · rcases List.mem_append.mp hl with hl | hl
    · obtain ⟨j, hj, hl⟩ := List.mem_flatMap.mp hl
      obtain ⟨i, hi, h⟩ := List.mem_filterMap.mp hj
      exact List.mem_append_left _ (List.mem_append_left _ (List.mem_flatMap.mpr ⟨i, hi, normal_targets h l hl⟩))
    · exact List.mem_append_left _ (List.mem_append_right _ hl)
  · exact List.mem_append_right _ hl

/-- Labels of a body that was read are in different places. -/
theorem labels_apart {P : Pool} {bs : Bytes} {x : Code} {code : Bytes} {prs : List (Nat × RInsn)} {ν : Nat → Option Label}
    (hi : ∀ i ∈ x.code, solid [i] = [i] → (normal i).isSome) (r : Recovers P bs x code prs ν) :
    (placed x.code).Nodup ∧ ∀ l ∈ codeLabels x, ∀ l' ∈ codeLabels x, place l x.code = place l' x.code → l = l' := by
  obtain ⟨line, pis, hm, hcode⟩ := r.insns
  have hfst : pis.map Prod.fst = prs.map Prod.fst :=
    matched_fst (R := fun r i p => Refers (reach ν p) r i) hm
  have hnd := (decodes_pos r.decodes).2
  rw [Nat.zero_add, ← hfst] at hnd
  have hsol : ∀ e ∈ pis, solid [e.2] = [e.2] := fun e he => by
    obtain ⟨e', _, h⟩ := hm.right e he
    exact refers_solid h.2
  have hplace : ∀ l ∈ codeLabels x, ∃ p k, ν p = some l ∧
      (pis.map Prod.fst ++ [code.length])[k]? = some p ∧ place l x.code = some k := by
    intro l hl
    obtain ⟨p, hp⟩ := r.used l (codeLabels_used l hl)
    have hr := r.range p l hp
    rw [← hfst] at hr
    obtain ⟨k, hk⟩ := List.getElem?_of_mem hr
    refine ⟨p, k, hp, hk, ?_⟩
    rw [hcode]
    refine rebuild_place r.inj (fun e he => ⟨?_, solid_mark (hsol e he)⟩) hnd hk hp
    exact hi _ (hcode ▸ rebuild_mem e he) (hsol e he)
  refine ⟨?_, fun l hl l' hl' e => ?_⟩
  · rw [hcode, placed_rebuild fun e he => solid_mark (hsol e he)]
    exact filterMap_nodup r.inj hnd
  · obtain ⟨p, k, h1, h2, h3⟩ := hplace l hl
    obtain ⟨p', k', h1', h2', h3'⟩ := hplace l' hl'
    rw [h3, h3'] at e
    cases e
    rw [h2] at h2'
    cases h2'
    rw [h1] at h1'
    cases h1'
    rfl

theorem under_orderly {ord : Nat → List LocalVariable → List LocalVariable} (ho : ∀ n l, (ord n l).Perm l) :
    GivesUnder 2147483648 Orderly (Code.read ord) := by
  intro env st bs x st' rest hp hl hr
  obtain ⟨_, body, code, prs, ν, _, hrec⟩ := read_sound ho hr hl
  have g := good_code ho _ _ _ _ _ _ hp hr
  obtain ⟨h1, h2⟩ := labels_apart (fun i hi hs => goodInsn_normal (g.insns i hi) hs) hrec
  exact ⟨h1, h2, hrec.catches, locals_last ho _ _ _ _ _ _ hp hr⟩

def OrderlyAttr (a : MethodAttr) : Prop := ∀ b, a = .code b → Orderly b

theorem under_orderlyAttr {ord : Order} (ho : ∀ k n l, (ord k n l).Perm l) :
    GivesUnder 2147483648 OrderlyAttr (MethodAttr.read ord) := by
  intro env st bs x st' rest hp hl hr
  have key : GivesUnder 2147483648 OrderlyAttr (rAttr (MethodAttr.table (ord bs.length)) .raw) := by
    refine under_attr (fun name => ?_) fun s b hs => nofun
    unfold MethodAttr.table
    refine under_table (under_map ((under_orderly (ho _)).mono fun _ h b e => by cases e; exact h)) ?_
    refine under_table (under_pure nofun) ?_
    refine under_table (under_pure nofun) ?_
    iterate 10 refine under_table (under_map (gives_all (fun _ => nofun) _).under) ?_
    exact nofun
  exact key _ _ _ _ _ _ hp hl hr

theorem under_orderlyBody {ord : Order} (ho : ∀ k n l, (ord k n l).Perm l) (v : Version) :
    GivesUnder 2147483648 (fun x => ∀ m ∈ x.methods, ∀ b, .code b ∈ m.attrs → Orderly b) (Class.readBody ord v) := by
  have s1 : Shrinks (Rd.map (ClassOf.mk (C := Code) v) (rFlags .cls)) := Shrinks.map shrinks_flags
  have s2 := Shrinks.ap s1 (shrinks_str (tag := 7))
  have s3 := Shrinks.ap s2 shrinks_clsOpt
  have s4 := Shrinks.ap s3 (Shrinks.vec (l := u16) (shrinks_str (tag := 7)))
  have s5 := Shrinks.ap s4 (Shrinks.vec (l := u16) shrinks_field)
  have s6 := Shrinks.ap s5 (Shrinks.vec (l := u16) (shrinks_method (ord := ord)))
  have hm : GivesUnder 2147483648 (fun m : Method => ∀ b, .code b ∈ m.attrs → Orderly b) (Method.read ord) :=
    under_ap (under_ap (under_ap (under_map ((gives_any _).mono fun _ _ _ _ _ _ as (h : ∀ a ∈ as, OrderlyAttr a) b hb =>
        h _ hb b rfl).under)
      (Shrinks.map shrinks_flags) (gives_any _).under) (Shrinks.ap (Shrinks.map shrinks_flags) Shrinks.utf8) (gives_any _).under)
      (Shrinks.ap (Shrinks.ap (Shrinks.map shrinks_flags) Shrinks.utf8) Shrinks.type)
      (under_vec (under_orderlyAttr ho) shrinks_methodAttr)
  exact under_ap (under_ap (under_ap (under_ap (under_ap (under_ap (under_map ((gives_any _).mono
    fun _ _ _ _ _ _ _ _ _ _ _ h6 _ _ => h6).under)
    s1 (gives_any _).under) s2 (gives_any _).under)
    s3 (gives_any _).under) s4 (gives_any _).under) s5 (under_vec hm shrinks_method)) s6
    (gives_any _).under

theorem read_orderly {ord : Order} (ho : ∀ k n l, (ord k n l).Perm l) {bs rest : Bytes} {x : Class}
    (h : Class.read ord bs = .ok (x, rest)) (hl : bs.length < 2147483648) :
    ∀ m ∈ x.methods, ∀ b, .code b ∈ m.attrs → Orderly b := by
  unfold Class.read at h
  split at h
  · cases h
  rename_i bs1 e1
  split at h
  · split at h
    · cases h
    rename_i bs2 e2
    split at h
    · cases h
    rename_i cp bs3 hcp
    split at h
    · cases h
    · rename_i hb
      split at h
      · cases h
      · cases h
        have h1 := read_pool (List.infix_refl bs2)
        rw [hcp] at h1
        have l1 := plain_num u32 bs
        rw [e1] at l1
        have l1 : bs1.length ≤ bs.length := List.IsSuffix.length_le l1
        have l2 := plain_version bs1
        rw [e2] at l2
        have l2 : bs2.length ≤ bs1.length := List.IsSuffix.length_le l2
        have l3 : bs3.length ≤ bs2.length := List.IsSuffix.length_le h1.1
        exact under_orderlyBody ho _ _ _ _ _ _ _ (fun i s hs => (pool_fine h1.2 i s hs).loose) (by omega) hb
  · cases h

end Verif
