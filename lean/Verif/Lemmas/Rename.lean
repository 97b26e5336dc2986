import Verif.Spec.Rename
import Verif.Lemmas.AgainClass

/-! # Only the last place of a label counts -/

namespace Verif
open Spec Sig

theorem lastPlace_label (l l' : Label) (is : List Insn) : lastPlace l (.label l' :: is) = match lastPlace l is with
    | some k => some k
    | none => if l' = l then some 0 else none := rfl

theorem lastPlace_other {l : Label} {i : Insn} {is : List Insn} (h : ∀ l, i ≠ .label l) :
    lastPlace l (i :: is) = (lastPlace l is).map (· + if (normal i).isSome then 1 else 0) := by
  cases i with
  | label k => exact absurd rfl (h k)
  | _ => rfl

/-- Wherever labels were placed before, only the last place counts. -/
theorem labels_last (l : Label) : ∀ (is : List Insn) {b : CodeBuf} {ps : List Bytes},
    ps.length = (is.filterMap normal).length → (build b is ps).labels.lookup l =
      match lastPlace l is with
      | some k => some (spot (b.buf.length, b.cur.length) (is.filterMap normal) ps k)
      | none => b.labels.lookup l
  | [], _, _, _ => rfl
  | i :: is, b, ps, hp => by
    by_cases hl : ∃ l', i = .label l'
    · obtain ⟨l', rfl⟩ := hl
      rw [build_label, labels_last l is hp, lastPlace_label]
      cases lastPlace l is with
      | some k => rfl
      | none =>
        simp only
        by_cases he : l' = l
        · cases he
          rw [if_pos rfl]
          simp only
          rw [List.lookup_cons_self, spot_zero]
        · rw [if_neg he]
          have he' : (l == l') = false := by simpa using fun e => he e.symm
          simp only [List.lookup_cons, he']
    · rw [lastPlace_other fun l e => hl ⟨l, e⟩]
      cases he : normal i with
      | none =>
        rw [List.filterMap_cons_none he] at hp ⊢
        rw [build_none (fun l e => hl ⟨l, e⟩) he, labels_last l is hp]
        cases lastPlace l is <;> rfl
      | some j =>
        rw [List.filterMap_cons_some he] at hp ⊢
        match ps, hp with
        | p :: ps, hp =>
          rw [build_some he, labels_last l is (by simpa using hp)]
          cases lastPlace l is with
          | none =>
            show (addPiece b i p).labels.lookup l = _
            unfold addPiece
            cases asBranch i <;> rfl
          | some k =>
            simp only [Option.map_some, Option.isSome_some, if_true]
            rw [spot, asBranch_normal he, Option.isSome_map]
            unfold addPiece
            cases asBranch i with
            | none => simp
            | some j => simp [CodeBuf.branch]

/-- The same instructions with other names for labels are assembled to the same code. -/
theorem writeCode_last {U : Label → Prop} {f : Label → Label} {x y : List Insn}
    (hn : y.filterMap normal = (x.filterMap normal).map (renI f))
    (ht : ∀ i ∈ x.filterMap normal, ∀ l ∈ targets i, U l)
    (hp : ∀ l, U l → lastPlace (f l) y = lastPlace l x) (cp : VecCp) :
    SameRes (fun p q => q.2 = p.2 ∧ SameCode U f p.1 q.1) (writeCode x cp) (writeCode y cp) := by
  have hw : ∀ is, writeCode is cp = match pieces (is.filterMap normal) cp with
      | .error e => .error e
      | .ok (ps, cp) => Ins.lift (assemble (build .empty is ps)) cp := by
    intro is
    unfold writeCode
    show Ins.bind _ _ cp = _
    unfold Ins.bind
    rw [writeInsns_build]
    cases pieces (is.filterMap normal) cp <;> rfl
  rw [hw, hw, hn, pieces_ren]
  cases hps : pieces (x.filterMap normal) cp with
  | error e => exact .error e
  | ok r =>
    obtain ⟨ps, cp'⟩ := r
    have hlen := pieces_length hps
    have hlen' : ps.length = (y.filterMap normal).length := by rw [hn, List.length_map, hlen]
    have hself : ∀ i ∈ x.filterMap normal, normal i = some i := fun i hi => by
      obtain ⟨j, _, hj⟩ := List.mem_filterMap.mp hi
      exact normal_idem hj
    have c1 := build_core x (b := .empty) (b' := .empty) hlen ⟨rfl, rfl, rfl⟩
    have c2 := build_core y (b := .empty) (b' := .empty) hlen' ⟨rfl, rfl, rfl⟩
    have c3 := build_ren f (x.filterMap normal) (b := .empty) (b' := .empty) hlen hself ⟨rfl, rfl, rfl⟩
    rw [hn] at c2
    have hlab : ∀ l, U l → (build .empty y ps).labels.lookup (f l) = (build .empty x ps).labels.lookup l := by
      intro l hl
      rw [labels_last _ y hlen', labels_last _ x hlen, hp l hl, hn]
      cases lastPlace l x with
      | none => rfl
      | some k => simp only [spot_ren]
    have hb : (build .empty y ps).buf = (build .empty x ps).buf := by rw [← c2.buf, c3.buf, c1.buf]
    have hc : (build .empty y ps).cur = (build .empty x ps).cur := by rw [← c2.cur, c3.cur, c1.cur]
    have hj : (build .empty y ps).jumps.map sortBr = (build .empty x ps).jumps.map fun j => renBr f (sortBr j) := by
      rw [← c2.jumps, c3.jumps, c1.jumps, List.map_map]
      rfl
    have hm := matched_of_maps (R := Likewise (build .empty x ps).labels (build .empty y ps).labels) hj
      fun j hj j' he => likewise_of hlab (fun l hl => by
        rcases build_jumps x j hj with h | ⟨i, hi, h⟩
        · cases h
        · obtain ⟨i', h1, h2⟩ := branch_targets h
          exact ht i' (List.mem_filterMap.mpr ⟨i, hi, h1⟩) l (h2 l hl)) he
    have := assemble_likewise hb hc hlab hm
    show SameRes _ (Ins.lift _ cp') (Ins.lift _ cp')
    unfold Ins.lift
    generalize assemble _ = A at this ⊢
    generalize assemble (build .empty y ps) = A' at this ⊢
    cases this with
    | error e => exact .error e
    | ok h => exact .ok ⟨rfl, h⟩

/-- Bodies with the same places are written in the same way. -/
theorem same_places {x y : Code} {f : Label → Label} (h : SamePlaces f x y) : y.write = x.write := by
  have hkl : ∀ k ∈ x.catches, ∀ l ∈ catchLabels k, l ∈ codeLabels x := fun k hk l hl =>
    List.mem_append_left _ (List.mem_append_right _ (List.mem_flatMap.mpr ⟨k, hk, hl⟩))
  funext cp
  have hw : ∀ z : Code, z.write cp = match writeCode z.code cp with
      | .error e => .error e
      | .ok (a, cp) => (do
        let hs ← wAll (Catch.write (Code.env a z.catches)) z.catches
        let (extra, as) ← writeCodeAttrs (Code.env a z.catches) 0 z.attrs
        if (UInt16.ofNat z.attrs.length).toNat + extra < 65536 then
          pure (u16.write z.maxStack ++ u16.write z.maxLocals ++ u32.write a.len ++ a.code ++
            u16.write (UInt16.ofNat z.catches.length) ++ hs ++
            u16.write (UInt16.ofNat z.attrs.length + UInt16.ofNat extra) ++ as)
        else Ins.fail .panic : Ins Bytes) cp := by
    intro z
    unfold Code.write
    rw [ins_then]
    cases writeCode z.code cp <;> rfl
  have hc := writeCode_last (U := fun l => l ∈ codeLabels x) h.insns
    (fun i hi l hl => List.mem_append_left _ (List.mem_append_left _ (List.mem_flatMap.mpr ⟨i, hi, hl⟩))) h.places cp
  rw [hw, hw]
  generalize writeCode x.code cp = A at hc ⊢
  generalize writeCode y.code cp = A' at hc ⊢
  cases hc with
  | error e => rfl
  | ok hc =>
    rename_i p q
    obtain ⟨a, cp1⟩ := p
    obtain ⟨a', cp2⟩ := q
    obtain ⟨rfl, hc⟩ := hc
    have hlen : a'.len = a.len := hc.len
    have hcode : a'.code = a.code := hc.code
    have he : SameEnv (fun l => l ∈ codeLabels x) (fun k => k ∈ x.attrs.flatMap annCatches) f (Code.env a x.catches)
        (Code.env a' y.catches) := by
      refine ⟨hc.label, fun k hk => ?_⟩
      show Except.ok _ = Except.ok _
      rw [h.catches, List.findIdx?_map]
      congr 2
      have : ∀ ks : List Catch, (∀ c ∈ ks, c ∈ x.catches) →
          ks.findIdx? ((fun c => c == renCatch f k) ∘ renCatch f) = ks.findIdx? fun c => c == k := by
        intro ks
        induction ks with
        | nil => intro _; rfl
        | cons c ks ih =>
          intro hks
          rw [List.findIdx?_cons, List.findIdx?_cons, ih fun c hc => hks c (.tail _ hc)]
          have : ((fun c => c == renCatch f k) ∘ renCatch f) c = (c == k) := by
            show (renCatch f c == renCatch f k) = (c == k)
            by_cases e : c = k
            · rw [e, beq_self_eq_true, beq_self_eq_true]
            · rw [beq_false_of_ne e, beq_false_of_ne fun e' => e (h.handlers k hk c (hks c (.head _)) e')]
          rw [this]
      exact this _ fun _ h => h
    have h1 : wAll (Catch.write (Code.env a' y.catches)) y.catches = wAll (Catch.write (Code.env a x.catches)) x.catches := by
      rw [show y.catches = x.catches.map (renCatch f) from h.catches]
      rw [h.catches] at he
      exact wAll_congr fun k hk => handler_same he (hkl k hk)
    have h2 : writeCodeAttrs (Code.env a' y.catches) 0 y.attrs = writeCodeAttrs (Code.env a x.catches) 0 x.attrs := by
      refine attrs_same 0 ?_
      rw [h.attrs]
      have : ∀ as : List CodeAttribute, (∀ b ∈ as, b ∈ x.attrs) →
          Matched (SameLower (Code.env a x.catches) (Code.env a' y.catches)) as (as.map (renKept f)) := by
        intro as
        induction as with
        | nil => exact fun _ => .nil
        | cons b as ih =>
          intro hb
          exact .cons (lower_same he (fun l hl => List.mem_append_right _ (List.mem_flatMap.mpr ⟨b, hb b (.head _), hl⟩))
            fun k hk => List.mem_flatMap.mpr ⟨b, hb b (.head _), hk⟩) (ih fun c hc => hb c (.tail _ hc))
      exact this _ fun _ h => h
    simp only [h1, h2, hlen, hcode, h.maxStack, h.maxLocals]
    rw [h.catches, h.attrs, List.length_map, List.length_map]

/-! ## Renaming -/

theorem renI_label {f : Label → Label} {i : Insn} {l : Label} (h : renI f i = .label l) : ∃ k, i = .label k ∧ f k = l := by
  cases i with
  | label k => exact ⟨k, rfl, Insn.label.inj h⟩
  | _ => cases h

theorem lastPlace_ren {f : Label → Label} (l : Label) : ∀ is : List Insn, (∀ k ∈ placed is, f k = f l → k = l) →
    lastPlace (f l) (is.map (renI f)) = lastPlace l is
  | [], _ => rfl
  | i :: is, h => by
    have ih := lastPlace_ren l is fun k hk => h k (by
      cases i <;> first | exact hk | exact .tail _ hk)
    rw [List.map_cons]
    by_cases hl : ∃ l', i = .label l'
    · obtain ⟨l', rfl⟩ := hl
      show lastPlace (f l) (.label (f l') :: _) = _
      rw [lastPlace_label, lastPlace_label, ih]
      cases lastPlace l is with
      | some k => rfl
      | none =>
        simp only
        by_cases e : l' = l
        · rw [if_pos e, if_pos (congrArg f e)]
        · rw [if_neg e, if_neg fun e' => e (h l' (.head _) e')]
    · rw [lastPlace_other fun l e => hl ⟨l, e⟩, lastPlace_other (i := renI f i) fun l e => ?_, ih, normal_ren,
        Option.isSome_map]
      obtain ⟨k, hk, _⟩ := renI_label e
      exact hl ⟨k, hk⟩

theorem renamed_places {f : Label → Label} {x : Code}
    (h : ∀ l ∈ allLabels x, ∀ l' ∈ allLabels x, f l = f l' → l = l') : SamePlaces f x (renBody f x) := by
  refine ⟨rfl, rfl, ?_, fun l hl => ?_, rfl, rfl, fun k hk c hc e => ?_⟩
  · show (x.code.map (renI f)).filterMap normal = _
    rw [List.filterMap_map, List.map_filterMap]
    exact filterMap_same fun i _ => normal_ren f i
  · exact lastPlace_ren l x.code fun k hk e =>
      h k (List.mem_append_left _ (List.mem_append_left _ hk)) l (List.mem_append_left _ (List.mem_append_right _ hl)) e
  · exact renCatch_inj (U := fun l => l ∈ allLabels x) (fun l l' hl hl' e => h l hl l' hl' e)
      (fun l hl => List.mem_append_left _ (List.mem_append_right _ (List.mem_append_left _ (List.mem_append_right _
        (List.mem_flatMap.mpr ⟨c, hc, hl⟩)))))
      (fun l hl => List.mem_append_right _ (List.mem_flatMap.mpr ⟨k, hk, hl⟩)) e

/-! ## Labels that do not count -/

theorem renI_same (i : Insn) : renI (fun l => l) i = i := by
  cases i with
  | lookupSwitch d t => simp [renI]
  | tableSwitch d low ls => simp [renI]
  | _ => rfl

theorem renCatch_same (k : Catch) : renCatch (fun l => l) k = k := rfl

theorem renAnnotation_same (a : TypeAnnotation CodeTarget) : renAnnotation (fun l => l) a = a := by
  obtain ⟨t, p, ty, vs⟩ := a
  unfold renAnnotation
  congr 1
  cases t with
  | localVar ts => show CodeTarget.localVar (ts.map fun t => t) = _; rw [List.map_id']
  | resourceVar ts => show CodeTarget.resourceVar (ts.map fun t => t) = _; rw [List.map_id']
  | _ => rfl

theorem renKept_same (a : CodeAttribute) : renKept (fun l => l) a = a := by
  cases a with
  | raw a => rfl
  | locals vs =>
    show CodeAttribute.locals (vs.map fun v => v) = _
    rw [List.map_id']
  | visibleType as =>
    rw [renKept, List.map_congr_left fun a _ => renAnnotation_same a, List.map_id']
  | invisibleType as =>
    rw [renKept, List.map_congr_left fun a _ => renAnnotation_same a, List.map_id']

theorem map_same {α : Type} {g : α → α} (h : ∀ a, g a = a) (as : List α) : as.map g = as :=
  (List.map_congr_left fun a _ => h a).trans (List.map_id' as)

theorem unmarked_places {x : Code} {is : List Insn} (hn : is.filterMap normal = x.code.filterMap normal)
    (hp : ∀ l ∈ codeLabels x, lastPlace l is = lastPlace l x.code) : SamePlaces (fun l => l) x { x with code := is } :=
  ⟨rfl, rfl, by rw [map_same renI_same]; exact hn, hp, (map_same renCatch_same _).symm, (map_same renKept_same _).symm,
    fun _ _ _ _ e => e⟩

theorem lastPlace_mem {l : Label} : ∀ {is : List Insn}, l ∈ placed is → (lastPlace l is).isSome
  | i :: is, h => by
    by_cases hl : ∃ l', i = .label l'
    · obtain ⟨l', rfl⟩ := hl
      rw [lastPlace_label]
      cases hp : lastPlace l is with
      | some k => rfl
      | none =>
        simp only
        rcases List.mem_cons.mp (show l ∈ l' :: placed is from h) with e | h
        · rw [if_pos e.symm]; rfl
        · have := lastPlace_mem h
          rw [hp] at this
          cases this
    · rw [lastPlace_other fun l e => hl ⟨l, e⟩, Option.isSome_map]
      refine lastPlace_mem ?_
      cases i with
      | label k => exact absurd ⟨k, rfl⟩ hl
      | _ => exact h

theorem lastPlace_append (l : Label) (bs : List Insn) : ∀ as : List Insn, lastPlace l (as ++ bs) =
    match lastPlace l bs with
    | some k => some (k + (as.filterMap normal).length)
    | none => lastPlace l as
  | [] => by
    rw [List.nil_append]
    cases lastPlace l bs <;> rfl
  | a :: as => by
    rw [List.cons_append]
    by_cases hl : ∃ l', a = .label l'
    · obtain ⟨l', rfl⟩ := hl
      rw [lastPlace_label, lastPlace_label, lastPlace_append l bs as]
      cases lastPlace l bs <;> rfl
    · rw [lastPlace_other fun l e => hl ⟨l, e⟩, lastPlace_other fun l e => hl ⟨l, e⟩, lastPlace_append l bs as]
      cases lastPlace l bs with
      | none => rfl
      | some k =>
        show some _ = some _
        congr 1
        cases h : normal a with
        | none => rw [List.filterMap_cons_none h]; simp
        | some j => rw [List.filterMap_cons_some h]; simp; omega

/-- A label that is not used, or is placed again later, does not count. -/
theorem idle_places {x : Code} {as bs : List Insn} {l : Label} (hx : x.code = as ++ bs)
    (h : l ∉ codeLabels x ∨ l ∈ placed bs) : SamePlaces (fun l => l) x { x with code := as ++ .label l :: bs } := by
  refine unmarked_places ?_ fun k hk => ?_
  · rw [hx, List.filterMap_append, List.filterMap_append]; rfl
  · rw [hx, lastPlace_append, lastPlace_append, lastPlace_label]
    cases hb : lastPlace k bs with
    | some n => rfl
    | none =>
      simp only
      rw [if_neg]
      intro e
      cases e
      rcases h with h | h
      · exact h hk
      · have := lastPlace_mem h
        rw [hb] at this
        cases this

theorem lined_places {x : Code} {as bs : List Insn} {n : UInt16} (hx : x.code = as ++ bs) :
    SamePlaces (fun l => l) x { x with code := as ++ .lineNumber n :: bs } := by
  refine unmarked_places ?_ fun k hk => ?_
  · rw [hx, List.filterMap_append, List.filterMap_append]; rfl
  · rw [hx, lastPlace_append, lastPlace_append, lastPlace_other (i := .lineNumber n) (fun _ e => by cases e)]
    cases hb : lastPlace k bs with
    | some n => rfl
    | none => rfl

/-! ## Classes -/

theorem class_bodies {x y : Class} (hv : y.version = x.version) (ha : y.access = x.access) (hn : y.name = x.name)
    (hs : y.superName = x.superName) (hi : y.interfaces = x.interfaces) (hf : y.fields = x.fields)
    (hm : Matched (SameMethod fun b b' : Code => b'.write = b.write) x.methods y.methods) (hat : y.attrs = x.attrs) :
    y.write = x.write := by
  have hmet : y.methods.map Method.write = x.methods.map Method.write := by
    refine matched_wAll hm fun m _ m' h => ?_
    unfold Method.write
    rw [h.access, h.name, h.descriptor]
    have h1 : m'.attrs.map MethodAttr.write = m.attrs.map MethodAttr.write := by
      refine matched_wAll h.attrs fun a hmem a' haa => ?_
      clear hmem
      cases a <;> cases a' <;> first | (exact False.elim haa) | skip
      case code.code b b' =>
        show wAttr N.code b'.write = wAttr N.code b.write
        rw [show b'.write = b.write from haa]
      all_goals first | (cases haa; rfl) | rfl
    have h2 : wVec u16 MethodAttr.write m'.attrs = wVec u16 MethodAttr.write m.attrs := by
      unfold wVec wAll
      rw [h1, matched_len h.attrs]
    rw [h2]
  have hbody : y.writeBody = x.writeBody := by
    unfold Class.writeBody wCut wAll
    rw [ha, hn, hs, hi, hf, hmet, ← matched_len hm, hat]
  unfold Class.write
  rw [hbody, hat, hv]

end Verif
