import Verif.Spec.Code
import Verif.Lemmas.Label
import Verif.Lemmas.Attr
import Verif.Lemmas.Frame
import Verif.Lemmas.Asm

/-! # Lemmas about method bodies -/

namespace Verif
open Spec Sig

/-! ## Insertion of markers -/

theorem insertAt_eq (pre post vs : List Insn) :
    insertAt pre.length (pre ++ post) vs = pre ++ vs.reverse ++ post := by
  induction vs generalizing post with
  | nil => simp [insertAt]
  | cons v vs ih =>
    rw [insertAt]
    have : (pre ++ post).insertIdx pre.length v = pre ++ (v :: post) := by
      clear ih
      induction pre with
      | nil => rfl
      | cons a pre ih => simp only [List.length_cons, List.cons_append, List.insertIdx_succ_cons, ih]
    rw [this, ih]
    simp

/-- The lists `ins k` before the `k`-th element and at the end. -/
def weave (ins : Nat → List Insn) (k : Nat) : List Insn → List Insn
  | [] => (ins k).reverse
  | i :: is => (ins k).reverse ++ i :: weave ins (k + 1) is

theorem weave_snoc (ins : Nat → List Insn) (k : Nat) (is : List Insn) (x : Insn) :
    weave ins k (is ++ [x]) = weave ins k is ++ x :: (ins (k + is.length + 1)).reverse := by
  induction is generalizing k with
  | nil => simp [weave]
  | cons i is ih =>
    have e : k + 1 + is.length + 1 = k + (i :: is).length + 1 := by simp only [List.length_cons]; omega
    simp only [List.cons_append, weave, ih, e, List.append_assoc]

theorem insertDown_eq (ins : Nat → List Insn) : ∀ (n : Nat) (pre post : List Insn), pre.length = n →
    insertDown ins (pre ++ post) n = weave ins 0 pre ++ post
  | 0, pre, post, h => by
    obtain rfl : pre = [] := List.eq_nil_of_length_eq_zero h
    have := insertAt_eq [] post (ins 0)
    simpa [insertDown, weave] using this
  | n + 1, pre, post, h => by
    have hne : pre ≠ [] := by
      rintro rfl
      cases h
    obtain ⟨pre', x, rfl⟩ : ∃ p x, pre = p ++ [x] :=
      ⟨pre.dropLast, pre.getLast hne, (List.dropLast_concat_getLast hne).symm⟩
    have hl : pre'.length = n := by simpa using h
    have e := insertAt_eq (pre' ++ [x]) post (ins (n + 1))
    rw [h] at e
    rw [insertDown, e, weave_snoc]
    have := insertDown_eq ins n pre' (x :: ((ins (n + 1)).reverse ++ post)) hl
    simp only [List.append_assoc, List.cons_append, List.nil_append] at this ⊢
    rw [this, hl, Nat.zero_add]

theorem insertDown_all (ins : Nat → List Insn) (is : List Insn) :
    insertDown ins is is.length = weave ins 0 is := by
  have := insertDown_eq ins is.length is [] rfl
  simpa using this

theorem weave_rebuild {ins : Nat → List Insn} {ν : Nat → Option Label} {line : Nat → Option UInt16}
    {len : Nat} {pis : List (Nat × Insn)} {k : Nat}
    (h : ∀ i p, (pis.map Prod.fst ++ [len])[i]? = some p → (ins (k + i)).reverse = markers ν line p) :
    weave ins k (pis.map Prod.snd) = rebuild ν line pis len := by
  induction pis generalizing k with
  | nil => exact h 0 len rfl
  | cons e r ih =>
    obtain ⟨p, i⟩ := e
    have h0 := h 0 p rfl
    rw [Nat.add_zero] at h0
    simp only [List.map_cons, weave, rebuild, h0]
    rw [ih (k := k + 1)]
    intro i q hq
    have := h (i + 1) q hq
    rw [Nat.add_comm i 1, ← Nat.add_assoc] at this
    exact this

/-! ## Indices of positions -/

theorem indexIn_some {ps : List Nat} {p k : Nat} (h : indexIn ps p = some k) : ps[k]? = some p := by
  induction ps generalizing k with
  | nil => cases h
  | cons q ps ih =>
    rw [indexIn] at h
    split at h
    · rename_i hq
      cases h
      simp [hq]
    · obtain ⟨k', h1, rfl⟩ := Option.map_eq_some_iff.mp h
      simpa using ih h1

theorem indexIn_mem {ps : List Nat} {p : Nat} (h : p ∈ ps) : ∃ k, indexIn ps p = some k := by
  induction ps with
  | nil => cases h
  | cons q ps ih =>
    rw [indexIn]
    split
    · exact ⟨0, rfl⟩
    · rename_i hq
      rcases List.mem_cons.mp h with rfl | h
      · exact absurd rfl hq
      · obtain ⟨k, hk⟩ := ih h
        exact ⟨k + 1, by rw [hk]; rfl⟩

theorem mem_indexIn {ps : List Nat} {p k : Nat} (h : indexIn ps p = some k) : p ∈ ps :=
  List.mem_of_getElem? (indexIn_some h)

theorem indexIn_iff {ps : List Nat} (hs : ps.Nodup) {p k : Nat} : indexIn ps p = some k ↔ ps[k]? = some p := by
  refine ⟨indexIn_some, fun h => ?_⟩
  obtain ⟨k', h'⟩ := indexIn_mem (List.mem_of_getElem? h)
  have h1 := indexIn_some h'
  obtain ⟨l1, e1⟩ := List.getElem?_eq_some_iff.mp h
  obtain ⟨l2, e2⟩ := List.getElem?_eq_some_iff.mp h1
  rw [h', (List.getElem_inj (h₀ := l2) (h₁ := l1) hs).mp (e2.trans e1.symm)]

/-! ## Line numbers and labels -/

theorem lineAt_append (as bs : List LineEntry) (p : Nat) :
    lineAt (as ++ bs) p = (lineAt bs p).or (lineAt as p) := by
  simp only [lineAt, List.reverse_append, List.find?_append]
  cases List.find? (fun e => decide (e.pc.toNat = p)) bs.reverse <;> rfl

theorem addLines_ok {ps : List Nat} (hs : ps.Nodup) {ls : List LineEntry} (h : ∀ e ∈ ls, e.pc.toNat ∈ ps)
    (ins : Nat → List Insn) :
    ∃ ins', addLines (indexIn ps) ins ls = .ok ins' ∧ ∀ k p, ps[k]? = some p →
      ins' k = match lineAt ls p with
        | some n => [.lineNumber n]
        | none => ins k := by
  induction ls generalizing ins with
  | nil => exact ⟨ins, rfl, fun _ _ _ => rfl⟩
  | cons e ls ih =>
    obtain ⟨k, hk⟩ := indexIn_mem (h e (by simp))
    obtain ⟨ins', h1, h2⟩ := ih (fun x hx => h x (by simp [hx]))
      (fun j => if j = k then [.lineNumber e.line] else ins j)
    refine ⟨ins', by rw [addLines, hk]; exact h1, fun j p hj => ?_⟩
    rw [h2 j p hj, show e :: ls = [e] ++ ls from rfl, lineAt_append]
    have he : lineAt [e] p = if e.pc.toNat = p then some e.line else none := by
      simp only [lineAt, List.reverse_singleton, List.find?_singleton, decide_eq_true_eq]
      split <;> rfl
    rcases hl : lineAt ls p with _ | n
    · rw [he]
      have hkp : (j = k) ↔ e.pc.toNat = p := by
        constructor
        · rintro rfl
          have := indexIn_some hk
          rw [hj] at this
          cases this
          rfl
        · rintro rfl
          have := (indexIn_iff hs).mpr hj
          rw [hk] at this
          cases this
          rfl
      simp only [Option.none_or]
      by_cases hjk : j = k
      · rw [if_pos hjk, if_pos (hkp.mp hjk)]
      · rw [if_neg hjk, if_neg (fun h => hjk (hkp.mpr h))]
    · rfl

/-- What a success says. -/
theorem addLines_mem {ps : List Nat} {ls : List LineEntry} {ins ins' : Nat → List Insn}
    (h : addLines (indexIn ps) ins ls = .ok ins') : ∀ e ∈ ls, e.pc.toNat ∈ ps := by
  induction ls generalizing ins with
  | nil => simp
  | cons e ls ih =>
    rw [addLines] at h
    split at h
    · cases h
    · rename_i k hk
      intro x hx
      rcases List.mem_cons.mp hx with rfl | hx
      · exact mem_indexIn hk
      · exact ih h x hx

theorem addLabels_ok {ps : List Nat} (hs : ps.Nodup) {m : LabelMap} (h : ∀ e ∈ m, e.1.toNat ∈ ps)
    (hb : ∀ p ∈ ps, p < 4294967296) (hm : (m.map Prod.fst).Nodup) (ins : Nat → List Insn) :
    ∃ ins', addLabels (indexIn ps) ins m = .ok ins' ∧ ∀ k p, ps[k]? = some p →
      ins' k = ins k ++ (m.lookup (UInt32.ofNat p)).toList.map .label := by
  induction m generalizing ins with
  | nil => exact ⟨ins, rfl, fun _ _ _ => by simp⟩
  | cons e m ih =>
    obtain ⟨o, l⟩ := e
    obtain ⟨k, hk⟩ := indexIn_mem (h (o, l) (by simp))
    simp only at hk
    simp only [List.map_cons, List.nodup_cons] at hm
    obtain ⟨ins', h1, h2⟩ := ih (fun x hx => h x (by simp [hx])) hm.2
      (fun j => if j = k then ins j ++ [.label l] else ins j)
    refine ⟨ins', by rw [addLabels, hk]; exact h1, fun j p hj => ?_⟩
    have hp := hb p (List.mem_of_getElem? hj)
    have hkp : (j = k) ↔ o = UInt32.ofNat p := by
      constructor
      · rintro rfl
        have := indexIn_some hk
        rw [hj] at this
        cases this
        simp
      · intro ho
        have : o.toNat = p := by rw [ho, UInt32.toNat_ofNat', Nat.mod_eq_of_lt hp]
        rw [this] at hk
        have := (indexIn_iff hs).mpr hj
        rw [hk] at this
        cases this
        rfl
    rw [h2 j p hj, List.lookup_cons]
    by_cases hjk : j = k
    · have ho := hkp.mp hjk
      have hn : m.lookup (UInt32.ofNat p) = none := by
        rcases hl : m.lookup (UInt32.ofNat p) with _ | x
        · rfl
        · exact absurd (LabelMap.lookup_isSome.mp (by rw [hl]; rfl)) (ho ▸ hm.1)
      rw [if_pos hjk, hn, ho]
      simp
    · have : (UInt32.ofNat p == o) = false := by
        rw [beq_eq_false_iff_ne]
        intro e
        exact hjk (hkp.mpr e.symm)
      rw [if_neg hjk]
      simp only [this]

theorem addLabels_mem {ps : List Nat} {m : LabelMap} {ins ins' : Nat → List Insn}
    (h : addLabels (indexIn ps) ins m = .ok ins') : ∀ e ∈ m, e.1.toNat ∈ ps := by
  induction m generalizing ins with
  | nil => simp
  | cons e m ih =>
    obtain ⟨o, l⟩ := e
    rw [addLabels] at h
    split at h
    · cases h
    · rename_i k hk
      intro x hx
      rcases List.mem_cons.mp hx with rfl | hx
      · exact mem_indexIn hk
      · exact ih h x hx

/-! ## Positions of instructions -/

theorem enc_some {c : Ctx} {p : Nat} {i j : Insn} {b : Bytes} (h : Enc c p i b) (hn : normal i = some j) :
    b ≠ [] := by
  cases h with
  | @sameType t => cases t <;> cases hn
  | sameInt => cases hn
  | label => cases hn
  | line => cases hn
  | _ => simp [U1]

theorem layout_positioned {c : Ctx} {p : Nat} {is : List Insn} {bs : Bytes} (h : Layout c p is bs) :
    ∃ pis, Positioned c p is bs pis := by
  induction h with
  | nil => exact ⟨[], .nil⟩
  | @cons p i is b bs h1 _ ih =>
    obtain ⟨r, hr⟩ := ih
    rcases hn : normal i with _ | j
    · obtain rfl := enc_nothing h1 hn
      exact ⟨r, .skip h1 hn hr⟩
    · exact ⟨_, .keep h1 hn hr⟩

theorem Spec.Positioned.layout {c : Ctx} {p : Nat} {is : List Insn} {bs : Bytes} {pis : List (Nat × Insn)}
    (h : Positioned c p is bs pis) : Layout c p is bs := by
  induction h with
  | nil => exact .nil
  | skip h1 _ _ ih => exact .cons h1 ih
  | keep h1 _ _ ih => exact .cons h1 ih

theorem Spec.Positioned.first {c : Ctx} {p : Nat} {is : List Insn} {bs : Bytes} {pis : List (Nat × Insn)}
    (h : Positioned c p is bs pis) : p ∈ pis.map Prod.fst ++ [p + bs.length] := by
  induction h with
  | nil => simp
  | skip _ _ _ ih => exact ih
  | keep => simp

theorem Spec.Positioned.bounds {c : Ctx} {p : Nat} {is : List Insn} {bs : Bytes} {pis : List (Nat × Insn)}
    (h : Positioned c p is bs pis) :
    (∀ q ∈ pis.map Prod.fst ++ [p + bs.length], p ≤ q ∧ q ≤ p + bs.length) ∧
    (pis.map Prod.fst ++ [p + bs.length]).Nodup := by
  induction h with
  | nil => simp
  | skip _ _ _ ih => exact ih
  | @keep p i j is b bs r h1 h2 _ ih =>
    have hb : 0 < b.length := List.length_pos_iff.mpr (enc_some h1 h2)
    have e : p + b.length + bs.length = p + (b ++ bs).length := by simp only [List.length_append]; omega
    rw [e] at ih
    constructor
    · intro q hq
      rcases List.mem_cons.mp hq with rfl | hq
      · exact ⟨Nat.le_refl _, Nat.le_add_right _ _⟩
      · have := ih.1 q hq
        omega
    · rw [List.map_cons, List.cons_append, List.nodup_cons]
      refine ⟨fun hq => ?_, ih.2⟩
      have := (ih.1 p hq).1
      omega

theorem Spec.Positioned.label {c : Ctx} {p : Nat} {is : List Insn} {bs : Bytes} {pis : List (Nat × Insn)}
    (h : Positioned c p is bs pis) {l : Label} (hl : .label l ∈ is) :
    ∃ q, c.pos l = some q ∧ q ∈ pis.map Prod.fst ++ [p + bs.length] := by
  induction h with
  | nil => cases hl
  | skip h1 _ h3 ih =>
    rcases List.mem_cons.mp hl with rfl | hl
    · cases h1 with
      | label h => exact ⟨_, h, h3.first⟩
    · exact ih hl
  | @keep p i j is b bs r h1 h2 _ ih =>
    rcases List.mem_cons.mp hl with rfl | hl
    · cases h2
    · obtain ⟨q, hq, hm⟩ := ih hl
      refine ⟨q, hq, ?_⟩
      have e : p + b.length + bs.length = p + (b ++ bs).length := by simp only [List.length_append]; omega
      rw [← e]
      exact List.mem_cons_of_mem _ hm

theorem Spec.Positioned.insns {c : Ctx} {p : Nat} {is : List Insn} {bs : Bytes} {pis : List (Nat × Insn)}
    (h : Positioned c p is bs pis) : pis.map Prod.snd = is.filterMap normal := by
  induction h with
  | nil => rfl
  | skip _ h2 _ ih => rw [List.filterMap_cons_none h2, ih]
  | keep _ h2 _ ih => rw [List.filterMap_cons_some h2, ← ih]; rfl

/-! ## Reading the code array -/

theorem loop_reads {c : Ctx} (cs : Option (List Catch)) (hT : c.bsm.length ≤ 65536) {p : Nat} {is : List Insn}
    {bs : Bytes} {pis : List (Nat × Insn)} (h : Positioned c p is bs pis) (hr : ∀ i ∈ is, Readable i)
    {len : Nat} (hl : len = p + bs.length) :
    ∃ (v : (UInt32 → Label) → List (Nat × Insn)) (pend : List UInt16),
      (∀ n, (v n).map (fun e => (e.1, resolveI c.bsm e.2)) = pis.map fun e => (e.1, renI (c.ren n) e.2)) ∧
      (∀ k ∈ pend, k.toNat < c.bsm.length) ∧
      ∀ st : RSt, ((pis.flatMap fun e => (targets e.2).flatMap c.offs) ≠ [] → st.labels ≠ none) →
        ∀ m : LabelMap, (∀ ls, st.labels = some ls →
          LabelMap.addAll ls (pis.flatMap fun e => (targets e.2).flatMap c.offs) <+: m) →
        readLoop len ⟨c.pool, cs⟩ st bs = .ok (v m.num, ⟨st.pending ++ pend,
          st.labels.map fun ls => LabelMap.addAll ls (pis.flatMap fun e => (targets e.2).flatMap c.offs)⟩) := by
  induction h with
  | nil =>
    refine ⟨fun _ => [], [], fun _ => rfl, by simp, ?_⟩
    intro st _ m _
    rw [readLoop]
    rcases st with ⟨q, ls⟩
    cases ls <;> simp [LabelMap.addAll]
  | skip _ _ _ ih => exact ih (fun i hi => hr i (by simp [hi])) hl
  | @keep p i j is b bs r h1 h2 _ ih =>
    obtain ⟨v1, pend1, e1, q1, r1⟩ := enc_reads h1 h2 (hr i (by simp)) hT cs
    obtain ⟨v2, pend2, e2, q2, r2⟩ := ih (fun i hi => hr i (by simp [hi])) (by
      rw [hl, List.length_append]; omega)
    refine ⟨fun n => (p, v1 n) :: v2 n, pend1 ++ pend2, ?_,
      fun k hk => (List.mem_append.mp hk).elim (q1 k) (q2 k), ?_⟩
    · intro n
      simp only [List.map_cons, e1, e2]
    · intro st hst m hm
      have hb : 0 < b.length := List.length_pos_iff.mpr (enc_some h1 h2)
      have hp : len - (b ++ bs).length = p := by omega
      simp only [List.flatMap_cons, LabelMap.addAll_append] at hm ⊢
      have s1 := r1 st bs (fun h => hst (by simp [h])) m (fun ls hls => (LabelMap.prefix_addAll _ _).trans (hm ls hls))
      have s2 := r2 ⟨st.pending ++ pend1, st.labels.map fun ls =>
        LabelMap.addAll ls ((targets j).flatMap c.offs)⟩ (fun h => by simpa using hst (by simp [h])) m (by
          intro ls hls
          obtain ⟨l0, h0, rfl⟩ := Option.map_eq_some_iff.mp hls
          exact hm l0 h0)
      rw [readLoop, if_neg (by simp only [List.length_append]; omega), hp, s1]
      simp only
      rw [if_pos (by simp only [List.length_append]; omega), s2]
      simp only [List.append_assoc, Option.map_map, Function.comp_def]

theorem reads_insns {c : Ctx} (cs : Option (List Catch)) (hT : c.bsm.length ≤ 65536) {is : List Insn}
    {bs : Bytes} {pis : List (Nat × Insn)} (h : Positioned c 0 is bs pis) (hr : ∀ i ∈ is, Readable i) :
    ∃ (v : (UInt32 → Label) → List (Nat × Insn)) (pend : List UInt16),
      (∀ n, (v n).map (fun e => (e.1, resolveI c.bsm e.2)) = pis.map fun e => (e.1, renI (c.ren n) e.2)) ∧
      (∀ k ∈ pend, k.toNat < c.bsm.length) ∧
      Reads (readInsns bs) ⟨c.pool, cs⟩ [] v (pis.flatMap fun e => (targets e.2).flatMap c.offs) pend := by
  obtain ⟨v, pend, h1, hq, h2⟩ := loop_reads cs hT h hr (len := bs.length) (by omega)
  refine ⟨v, pend, h1, hq, fun st rest hst m hm => ?_⟩
  unfold readInsns
  rw [h2 st hst m hm]
  rfl

/-! ## Reading attributes -/

theorem Reads.attr {α : Type} {table : Bytes → Option (Rd α)} {raw : RawAttribute → α} {c : Ctx}
    {cs : Option (List Catch)} {name body : Bytes} {i : UInt16} {r : Rd α} {v : (UInt32 → Label) → α}
    {o : List UInt32} {p : List UInt16} (hi : IsUtf8 c.pool i name) (ht : table name = some r)
    (h : Reads r ⟨c.pool, cs⟩ body v o p) (hl : body.length < 4294967296) :
    Reads (rAttr table raw) ⟨c.pool, cs⟩ (U2 i.toNat ++ U4 body.length ++ body) v o p := by
  refine (PReads.bindR (b2 := U4 body.length ++ body) (reads_utf8 ⟨i, hi, rfl⟩ cs) ?_).cast (by simp) rfl
    rfl rfl
  rw [ht]
  exact h.framed hl

theorem codeTable_none {n : Bytes} (h : n ∉ codeAttrNames) : CodeAttr.table n = none := by
  simp only [codeAttrNames, List.mem_cons, List.not_mem_nil, or_false, not_or] at h
  simp only [CodeAttr.table, h, if_false]

theorem reads_lineEntry {c : Ctx} (cs : Option (List Catch)) {x : LineEntry} {bs : Bytes}
    (h : lineEntry c x bs) : PReads LineEntry.read ⟨c.pool, cs⟩ bs x := by
  obtain ⟨b, b', rfl, rfl, b1, b2, rfl, rfl, rfl⟩ := h
  exact (PReads.ap (PReads.map (f := LineEntry.mk) (reads_u2 _ _)) (reads_u2 _ _)).cast (by simp)

theorem reads_varEntry {c : Ctx} (cs : Option (List Catch)) {x : VarEntry} {bs : Bytes}
    (h : varEntry c x bs) : PReads VarEntry.read ⟨c.pool, cs⟩ bs x := by
  obtain ⟨b, b', rfl, rfl, b1, b2, rfl, rfl, b3, b4, rfl, h3, b5, b6, rfl, h4, b7, b8, rfl, rfl, rfl⟩ := h
  exact (PReads.ap (PReads.ap (PReads.ap (PReads.ap (PReads.map (f := VarEntry.mk) (reads_u2 _ _))
    (reads_u2 _ _)) (reads_utf8 h3 cs)) (reads_descr h4 cs)) (reads_u2 _ _)).cast (by simp)

theorem reads_varTypeEntry {c : Ctx} (cs : Option (List Catch)) {x : VarTypeEntry} {bs : Bytes}
    (h : varTypeEntry c x bs) : PReads VarTypeEntry.read ⟨c.pool, cs⟩ bs x := by
  obtain ⟨b, b', rfl, rfl, b1, b2, rfl, rfl, b3, b4, rfl, h3, b5, b6, rfl, h4, b7, b8, rfl, rfl, rfl⟩ := h
  exact (PReads.ap (PReads.ap (PReads.ap (PReads.ap (PReads.map (f := VarTypeEntry.mk) (reads_u2 _ _))
    (reads_u2 _ _)) (reads_utf8 h3 cs)) (reads_sig (fun _ h => Props.C18_parse h) h4 cs))
    (reads_u2 _ _)).cast (by simp)

/-- The attribute as it is read. -/
def renAttr (f : Label → Label) (g : Catch → Catch) : CodeAttr → CodeAttr
  | .invisibleType as => .invisibleType (as.map (renAnn f g))
  | .visibleType as => .visibleType (as.map (renAnn f g))
  | .frames fs => .frames (fs.map fun x => renF f (swapF x))
  | a => a

theorem offsF_labels (c : Ctx) (f : Frame) : offsF c f = (frameLabels f).flatMap c.offs := by
  have hv : ∀ v, offsV c v = (vtypeLabels v).flatMap c.offs := by
    intro v
    cases v <;> simp [offsV, vtypeLabels]
  have hvs : ∀ vs : List VType, vs.flatMap (offsV c) = (vs.flatMap vtypeLabels).flatMap c.offs := by
    intro vs
    rw [List.flatMap_assoc]
    congr 1
    exact funext hv
  cases f <;> simp only [offsF, frameLabels, hv, hvs, List.flatMap_append, List.flatMap_nil]

theorem Handlers.mono {c : Ctx} {cs : List Catch} {g : Catch → Catch} {ks ks' : List Catch}
    (h : Handlers c cs g ks) (hs : ∀ k ∈ ks', k ∈ ks) : Handlers c cs g ks' := fun k hk => h k (hs k hk)

theorem targetCatches_eq (t : CodeTarget) : targetCatches t = match t with
    | .catchParam k => [k]
    | _ => [] := by
  cases t <;> rfl

theorem reads_codeAnns {c : Ctx} {cs : List Catch} {g : Catch → Catch} {as : List (TypeAnnotation CodeTarget)}
    (hg : Handlers c cs g (as.flatMap fun a => targetCatches a.target)) {bs : Bytes}
    (h : Fmt.table2 (typeAnnotation codeTarget) c as bs) (hd : ∀ a ∈ as, Keyed a.vals) :
    Reads (rVec u16 (TypeAnnotation.read CodeTarget.read)) ⟨c.pool, some cs⟩ bs
      (fun n => as.map (renAnn (c.ren n) g)) ((as.flatMap fun a => targetLabels a.target).flatMap c.offs) [] := by
  refine (Reads.vec2 (g := fun n => renAnn (c.ren n) g) (offs := fun a => offsTarget c a.target)
    (pend := fun _ => []) h (fun a ha bs h => reads_codeAnnotation (hg.mono fun k hk => ?_) h
      (hd a ha))).cast rfl rfl ?_ (by simp)
  · exact List.mem_flatMap.mpr ⟨a, ha, hk⟩
  · rw [List.flatMap_assoc]
    rfl

theorem attrCatches_anns (as : List (TypeAnnotation CodeTarget)) :
    attrCatches (.visibleType as) = as.flatMap fun a => targetCatches a.target := by
  show as.flatMap _ = _
  congr 1

theorem reads_codeAttr {c : Ctx} {cs : List Catch} {g : Catch → Catch} {a : CodeAttr}
    (hg : Handlers c cs g (attrCatches a)) {bs : Bytes} (h : codeAttr c a bs) (hr : a.Readable) :
    Reads CodeAttr.read ⟨c.pool, some cs⟩ bs (fun n => renAttr (c.ren n) g a)
      ((attrLabels a).flatMap c.offs) [] := by
  cases a with
  | lines ls =>
    obtain ⟨i, body, hi, hb, hl, rfl⟩ := h
    exact (PReads.attr hi rfl (PReads.map (f := CodeAttr.lines)
      (PReads.vec2 (fun _ _ h => reads_lineEntry _ h) hb)) hl).reads
  | vars vs =>
    obtain ⟨i, body, hi, hb, hl, rfl⟩ := h
    exact (PReads.attr hi rfl (PReads.map (f := CodeAttr.vars)
      (PReads.vec2 (fun _ _ h => reads_varEntry _ h) hb)) hl).reads
  | varTypes vs =>
    obtain ⟨i, body, hi, hb, hl, rfl⟩ := h
    exact (PReads.attr hi rfl (PReads.map (f := CodeAttr.varTypes)
      (PReads.vec2 (fun _ _ h => reads_varTypeEntry _ h) hb)) hl).reads
  | visibleType as =>
    obtain ⟨i, body, hi, hb, hl, rfl⟩ := h
    rw [attrCatches_anns] at hg
    exact Reads.attr hi rfl (Reads.map (f := CodeAttr.visibleType) (reads_codeAnns hg hb hr)) hl
  | invisibleType as =>
    obtain ⟨i, body, hi, hb, hl, rfl⟩ := h
    rw [show attrCatches (.invisibleType as) = attrCatches (.visibleType as) from rfl, attrCatches_anns] at hg
    exact Reads.attr hi rfl (Reads.map (f := CodeAttr.invisibleType) (reads_codeAnns hg hb hr)) hl
  | frames fs =>
    obtain ⟨i, body, hi, hb, hl, rfl⟩ := h
    refine Reads.attr hi rfl (Reads.map (f := CodeAttr.frames) ?_) hl
    refine (Reads.vec2 (g := fun n x => renF (c.ren n) (swapF x)) (offs := offsF c) (pend := fun _ => []) hb
      (fun a ha bs h => reads_frame h _)).cast rfl rfl ?_ (by simp)
    rw [attrLabels, List.flatMap_assoc]
    congr 1
    exact funext (offsF_labels c)
  | raw a =>
    obtain ⟨i, body, hi, rfl, hl, rfl⟩ := h
    exact (PReads.rawAttr hi (codeTable_none hr) hl).reads

/-! ## Collecting attributes -/

/-- What an entry of a table does to the variables, with the numbering `n`. -/
def putVar (n : UInt32 → Label) (vars : List LocalVariable) (e : VarInfo) : List LocalVariable :=
  upsert (fun w => { w with descriptor := e.descriptor.or w.descriptor, signature := e.signature.or w.signature })
    ⟨n (UInt32.ofNat e.start), n (UInt32.ofNat e.stop), e.name, e.descriptor, e.signature, e.index⟩ vars

def varOffs (es : List VarInfo) : List UInt32 :=
  es.flatMap fun e => [UInt32.ofNat e.start, UInt32.ofNat e.stop]

theorem reads_range (env : REnv) {s len : UInt16} (h : s.toNat + len.toNat < 65536) :
    Reads (rangeLabels s len) env [] (fun n => (n (UInt32.ofNat s.toNat), n (UInt32.ofNat (s.toNat + len.toNat))))
      [UInt32.ofNat s.toNat, UInt32.ofNat (s.toNat + len.toNat)] [] := by
  have e1 : s.toUInt32 = UInt32.ofNat s.toNat := by
    apply UInt32.toNat_inj.mp
    have := s.toNat_lt
    simp
  have e2 : (s + len).toUInt32 = UInt32.ofNat (s.toNat + len.toNat) := by
    apply UInt32.toNat_inj.mp
    simp
    omega
  unfold rangeLabels
  simp only [if_pos h, e1, e2]
  exact (Reads.bind (f := fun s => Rd.map (fun e => (s, e)) (getLabel (UInt32.ofNat (_ + _))))
    (w := fun n n' => (n _, n' _)) (reads_getLabel env _)
    (fun n => Reads.map (f := fun e => (n _, e)) (reads_getLabel env _))).cast rfl rfl rfl rfl

theorem reads_addVars (env : REnv) : ∀ {ls : List VarEntry} (vars : List LocalVariable),
    (∀ e ∈ varInfos (.vars ls), e.stop < 65536) →
    Reads (addVars vars ls) env [] (fun n => (varInfos (.vars ls)).foldl (putVar n) vars)
      (varOffs (varInfos (.vars ls))) []
  | [], vars, _ => (Rd.reads_pure _ _).reads
  | l :: ls, vars, h => by
    have h0 : l.start.toNat + l.len.toNat < 65536 := h _ (by simp [varInfos]; exact .inl rfl)
    rw [addVars]
    exact Reads.bind (w := fun n n' => (varInfos (.vars ls)).foldl (putVar n') (putVar n vars
        ⟨l.start.toNat, l.start.toNat + l.len.toNat, l.name, l.index, some l.descriptor, none⟩))
      (b2 := []) (p2 := []) (reads_range env h0)
      (fun n => reads_addVars env _ (fun e he => h e (List.mem_cons_of_mem _ he)))

theorem reads_addVarTypes (env : REnv) : ∀ {ls : List VarTypeEntry} (vars : List LocalVariable),
    (∀ e ∈ varInfos (.varTypes ls), e.stop < 65536) →
    Reads (addVarTypes vars ls) env [] (fun n => (varInfos (.varTypes ls)).foldl (putVar n) vars)
      (varOffs (varInfos (.varTypes ls))) []
  | [], vars, _ => (Rd.reads_pure _ _).reads
  | l :: ls, vars, h => by
    have h0 : l.start.toNat + l.len.toNat < 65536 := h _ (by simp [varInfos]; exact .inl rfl)
    rw [addVarTypes]
    exact Reads.bind (w := fun n n' => (varInfos (.varTypes ls)).foldl (putVar n') (putVar n vars
        ⟨l.start.toNat, l.start.toNat + l.len.toNat, l.name, l.index, none, some l.signature⟩))
      (b2 := []) (p2 := []) (reads_range env h0)
      (fun n => reads_addVarTypes env _ (fun e he => h e (List.mem_cons_of_mem _ he)))

/-- The attributes that are kept, with the two renamings. -/
def keptWith (f : Label → Label) (g : Catch → Catch) : CodeAttr → List CodeAttribute
  | .invisibleType as => [.invisibleType (as.map (renAnn f g))]
  | .visibleType as => [.visibleType (as.map (renAnn f g))]
  | .raw a => [.raw a]
  | _ => []

theorem reads_step {ps : List Nat} (hs : ps.Nodup) (env : REnv) {a : CodeAttr}
    (hl : ∀ e ∈ lineEntries a, e.pc.toNat ∈ ps) (hv : ∀ e ∈ varInfos a, e.stop < 65536)
    (ins : Nat → List Insn) :
    ∃ ins', (∀ k p, ps[k]? = some p → ins' k = match lineAt (lineEntries a) p with
        | some n => [.lineNumber n]
        | none => ins k) ∧
      ∀ f g attrs vars, Reads (AttrAcc.step (indexIn ps) ⟨attrs, ins, vars⟩ (renAttr f g a)) env []
        (fun n => ⟨attrs ++ keptWith f g a, ins', (varInfos a).foldl (putVar n) vars⟩)
        (varOffs (varInfos a)) [] := by
  cases a with
  | lines ls =>
    obtain ⟨ins', h1, h2⟩ := addLines_ok hs hl ins
    refine ⟨ins', h2, fun f g attrs vars => ?_⟩
    have := PReads.map (f := fun m => ({ attrs := attrs, ins := m, vars := vars } : AttrAcc))
      (PReads.ofRes (env := env) h1)
    exact this.reads.cast rfl (by simp [keptWith, varInfos]) rfl rfl
  | vars vs =>
    refine ⟨ins, fun _ _ _ => rfl, fun f g attrs vars => ?_⟩
    have := Reads.map (f := fun m => ({ attrs := attrs, ins := ins, vars := m } : AttrAcc))
      (reads_addVars env vars hv)
    exact this.cast rfl (by simp [keptWith]) rfl rfl
  | varTypes vs =>
    refine ⟨ins, fun _ _ _ => rfl, fun f g attrs vars => ?_⟩
    have := Reads.map (f := fun m => ({ attrs := attrs, ins := ins, vars := m } : AttrAcc))
      (reads_addVarTypes env vars hv)
    exact this.cast rfl (by simp [keptWith]) rfl rfl
  | frames fs =>
    refine ⟨ins, fun _ _ _ => rfl, fun f g attrs vars => ?_⟩
    exact (Rd.reads_pure env _).reads.cast rfl (by simp [keptWith, varInfos]) rfl rfl
  | _ =>
    refine ⟨ins, fun _ _ _ => rfl, fun f g attrs vars => ?_⟩
    exact (Rd.reads_pure env _).reads

def attrOffs (c : Ctx) (a : CodeAttr) : List UInt32 :=
  (attrLabels a).flatMap c.offs ++ varOffs (varInfos a)

theorem reads_codeAttrs {c : Ctx} {ps : List Nat} (hs : ps.Nodup) {cs : List Catch} {g : Catch → Catch} :
    ∀ {as : List CodeAttr} {bs : Bytes}, Handlers c cs g (as.flatMap attrCatches) →
      Fmt.all codeAttr c as bs → (∀ a ∈ as, a.Readable) →
      (∀ e ∈ as.flatMap lineEntries, e.pc.toNat ∈ ps) → (∀ e ∈ as.flatMap varInfos, e.stop < 65536) →
      ∀ ins : Nat → List Insn, ∃ ins', (∀ k p, ps[k]? = some p →
          ins' k = match lineAt (as.flatMap lineEntries) p with
            | some n => [.lineNumber n]
            | none => ins k) ∧
        ∀ attrs : List CodeAttribute, ∀ vars, Reads (readCodeAttrs (indexIn ps) as.length ⟨attrs, ins, vars⟩)
          ⟨c.pool, some cs⟩ bs
          (fun n => ⟨attrs ++ as.flatMap (keptWith (c.ren n) g), ins',
            (as.flatMap varInfos).foldl (putVar n) vars⟩)
          (as.flatMap (attrOffs c)) []
  | [], bs, _, h, _, _, _, ins => by
    cases h
    refine ⟨ins, fun _ _ _ => rfl, fun attrs vars => ?_⟩
    exact (Rd.reads_pure _ _).reads.cast rfl (by simp) rfl rfl
  | a :: as, bs, hg, h, hr, hl, hv, ins => by
    obtain ⟨b, b', rfl, h1, h2⟩ := h
    have hg1 : Handlers c cs g (attrCatches a) := hg.mono fun k hk => by simp [hk]
    obtain ⟨i1, e1, r1⟩ := reads_step hs ⟨c.pool, some cs⟩ (a := a)
      (fun e he => hl e (by simp [he])) (fun e he => hv e (by simp [he])) ins
    obtain ⟨i2, e2, r2⟩ := reads_codeAttrs hs (hg.mono fun k hk => by
      rw [List.flatMap_cons]; exact List.mem_append.mpr (.inr hk)) h2 (fun a ha => hr a (by simp [ha]))
      (fun e he => hl e (by rw [List.flatMap_cons]; exact List.mem_append.mpr (.inr he)))
      (fun e he => hv e (by rw [List.flatMap_cons]; exact List.mem_append.mpr (.inr he))) i1
    refine ⟨i2, fun k p hk => ?_, fun attrs vars => ?_⟩
    · rw [e2 k p hk, e1 k p hk, List.flatMap_cons, lineAt_append]
      cases lineAt (as.flatMap lineEntries) p <;> rfl
    · have r0 := reads_codeAttr hg1 h1 (hr a (by simp))
      refine (Reads.bind (f := fun a => Rd.bind (AttrAcc.step (indexIn ps) ⟨attrs, ins, vars⟩ a)
        fun acc => readCodeAttrs (indexIn ps) as.length acc) (b2 := b')
        (o2 := varOffs (varInfos a) ++ as.flatMap (attrOffs c)) (p2 := []) (w := fun n n' =>
          ⟨(attrs ++ keptWith (c.ren n) g a) ++ as.flatMap (keptWith (c.ren n') g), i2,
            (as.flatMap varInfos).foldl (putVar n') ((varInfos a).foldl (putVar n') vars)⟩) r0
        (fun n => ?_)).cast rfl ?_ ?_ rfl
      · exact Reads.bind (f := fun acc => readCodeAttrs (indexIn ps) as.length acc) (b1 := [])
          (w := fun n' n'' => AttrAcc.mk ((attrs ++ keptWith (c.ren n) g a) ++ as.flatMap (keptWith (c.ren n'') g)) i2
            ((as.flatMap varInfos).foldl (putVar n'') ((varInfos a).foldl (putVar n') vars)))
          (r1 (c.ren n) g attrs vars) (fun n' => r2 _ _)
      · funext n
        simp [List.foldl_append]
      · simp [attrOffs]

theorem reads_handler {c : Ctx} (cs : Option (List Catch)) {k : Catch} {bs : Bytes}
    (h : handlerEntry c k bs) :
    Reads Catch.read ⟨c.pool, cs⟩ bs (fun n => renCatch (c.ren n) k) ((catchLabels k).flatMap c.offs) [] := by
  obtain ⟨b1, b1', rfl, h1, b2, b2', rfl, h2, b3, b3', rfl, h3, b4, b4', rfl, h4, rfl⟩ := h
  exact (Reads.ap (Reads.ap (Reads.ap (Reads.map (f := Catch.mk) (reads_fmt_label h1 cs))
    (reads_fmt_label h2 cs)) (reads_fmt_label h3 cs)) (reads_opt (fun _ _ h =>
      PReads.lookup (f := fun P i => Pool.cls P i) (class_of h)) h4).reads).cast
    (by simp) rfl (by simp [catchLabels]) rfl

/-! ## Variables -/

/-- The key of an entry. -/
def infoKey (n : UInt32 → Label) (e : VarInfo) : Label × Label × UInt16 × Bytes :=
  (n (UInt32.ofNat e.start), n (UInt32.ofNat e.stop), e.index, e.name)

theorem about_iff {ν : Nat → Option Label} {n : UInt32 → Label} {e : VarInfo}
    (h1 : ν e.start = some (n (UInt32.ofNat e.start))) (h2 : ν e.stop = some (n (UInt32.ofNat e.stop)))
    (v : LocalVariable) : e.About ν v ↔ v.key = infoKey n e := by
  unfold VarInfo.About infoKey LocalVariable.key
  rw [h1, h2]
  simp only [Option.some.injEq, Prod.mk.injEq]
  grind

theorem upsert_mem {f : LocalVariable → LocalVariable} {v : LocalVariable} {ws : List LocalVariable}
    (hf : ∀ w, (f w).key = w.key) (hn : (ws.map LocalVariable.key).Nodup) :
    ((upsert f v ws).map LocalVariable.key).Nodup ∧
    ∀ u, u ∈ upsert f v ws ↔ (u ∈ ws ∧ u.key ≠ v.key) ∨ (∃ w ∈ ws, w.key = v.key ∧ u = f w) ∨
      (u = v ∧ ∀ w ∈ ws, w.key ≠ v.key) := by
  induction ws with
  | nil => simp [upsert]
  | cons w ws ih =>
    simp only [List.map_cons, List.nodup_cons] at hn
    obtain ⟨i1, i2⟩ := ih hn.2
    rw [upsert]
    split
    · rename_i h
      refine ⟨by simp [hf, hn], fun u => ?_⟩
      have hw : ∀ x ∈ ws, x.key ≠ v.key := fun x hx hk => hn.1 (by
        rw [h, ← hk]; exact List.mem_map.mpr ⟨x, hx, rfl⟩)
      simp only [List.mem_cons]
      constructor
      · rintro (rfl | hu)
        · exact .inr (.inl ⟨w, .inl rfl, h, rfl⟩)
        · exact .inl ⟨.inr hu, hw u hu⟩
      · rintro (⟨rfl | hu, hk⟩ | ⟨x, rfl | hx, hk, rfl⟩ | ⟨rfl, hk⟩)
        · exact absurd h hk
        · exact .inr hu
        · exact .inl rfl
        · exact absurd hk (hw x hx)
        · exact absurd h (hk w (.inl rfl))
    · rename_i h
      refine ⟨?_, fun u => ?_⟩
      · simp only [List.map_cons, List.nodup_cons]
        refine ⟨fun hm => ?_, i1⟩
        obtain ⟨u, hu, hk⟩ := List.mem_map.mp hm
        rcases (i2 u).mp hu with ⟨hu, _⟩ | ⟨x, hx, hxk, rfl⟩ | ⟨rfl, _⟩
        · exact hn.1 (List.mem_map.mpr ⟨u, hu, hk⟩)
        · rw [hf] at hk
          exact h (hk ▸ hxk)
        · exact h hk.symm
      · simp only [List.mem_cons, i2]
        grind

theorem last_filterMap {α β : Type} (f : α → Option β) (l : List α) (x : α) :
    ((l ++ [x]).filterMap f).getLast? = (f x).or (l.filterMap f).getLast? := by
  rw [List.filterMap_append]
  cases h : f x <;> simp [h]

theorem merged_putVar {ν : Nat → Option Label} {n : UInt32 → Label} {es : List VarInfo} {e : VarInfo}
    {vs : List LocalVariable} (hν : ∀ x ∈ es ++ [e], ν x.start = some (n (UInt32.ofNat x.start)) ∧
      ν x.stop = some (n (UInt32.ofNat x.stop))) (h : Merged ν es vs) :
    Merged ν (es ++ [e]) (putVar n vs e) := by
  have ha : ∀ x ∈ es ++ [e], ∀ v, x.About ν v ↔ v.key = infoKey n x := fun x hx v =>
    about_iff (hν x hx).1 (hν x hx).2 v
  have ha0 := ha e (by simp)
  have hk : (vs.map LocalVariable.key).Nodup := by
    refine List.pairwise_map.mpr (h.once.imp fun {v w} hvw hk => hvw ?_)
    simp only [LocalVariable.key, Prod.mk.injEq] at hk
    exact ⟨hk.1, hk.2.1, hk.2.2.2, hk.2.2.1⟩
  obtain ⟨u1, u2⟩ := upsert_mem (f := fun w => { w with
      descriptor := e.descriptor.or w.descriptor, signature := e.signature.or w.signature })
    (v := ⟨n (UInt32.ofNat e.start), n (UInt32.ofNat e.stop), e.name, e.descriptor, e.signature, e.index⟩)
    (fun w => rfl) hk
  have key0 : LocalVariable.key ⟨n (UInt32.ofNat e.start), n (UInt32.ofNat e.stop), e.name, e.descriptor,
    e.signature, e.index⟩ = infoKey n e := rfl
  simp only [key0] at u2
  have keys : ∀ v ∈ vs, ∃ x ∈ es, v.key = infoKey n x := fun v hv => by
    obtain ⟨x, hx, hv⟩ := h.only v hv
    exact ⟨x, hx, (ha x (by simp [hx]) v).mp hv⟩
  have hx0 : (∀ w ∈ vs, w.key ≠ infoKey n e) → ∀ x ∈ es, infoKey n x ≠ infoKey n e := by
    intro hw x hx hk
    obtain ⟨v, hv, hab⟩ := h.all x hx
    exact hw v hv (((ha x (by simp [hx]) v).mp hab).trans hk)
  have cong : ∀ {v w : LocalVariable}, v.key = w.key → ∀ x ∈ es ++ [e], (x.About ν v ↔ x.About ν w) := by
    intro v w hk x hx
    rw [ha x hx, ha x hx, hk]
  have fold1 : ∀ {β : Type} (q : VarInfo → Option β) {v : LocalVariable}, v.key = infoKey n e →
      (((es ++ [e]).filter fun x => x.About ν v).filterMap q).getLast? =
        (q e).or ((es.filter fun x => x.About ν v).filterMap q).getLast? := by
    intro β q v hk
    rw [List.filter_append, List.filter_cons_of_pos (by simpa using (ha0 v).mpr hk), List.filter_nil,
      last_filterMap]
  have fold2 : ∀ {β : Type} (q : VarInfo → Option β) {v : LocalVariable}, v.key ≠ infoKey n e →
      (((es ++ [e]).filter fun x => x.About ν v).filterMap q).getLast? =
        ((es.filter fun x => x.About ν v).filterMap q).getLast? := by
    intro β q v hk
    rw [List.filter_append, List.filter_cons_of_neg (by simpa using fun h => hk ((ha0 v).mp h)),
      List.filter_nil, List.append_nil]
  have filt : ∀ {v w : LocalVariable}, v.key = w.key →
      (es.filter fun x => x.About ν v) = es.filter fun x => x.About ν w := by
    intro v w hk
    refine List.filter_congr fun x hx => ?_
    rw [decide_eq_decide]
    exact cong hk x (by simp [hx])
  have none0 : (∀ w ∈ vs, w.key ≠ infoKey n e) → ∀ {v : LocalVariable}, v.key = infoKey n e →
      (es.filter fun x => x.About ν v) = [] := by
    intro hw v hk
    refine List.filter_eq_nil_iff.mpr fun x hx => ?_
    simp only [decide_eq_true_eq, ha x (List.mem_append.mpr (.inl hx)), hk]
    exact fun hh => hx0 hw x hx hh.symm
  refine ⟨?_, ?_, ?_, ?_, ?_⟩
  · intro x hx
    rcases List.mem_append.mp hx with hx' | hx'
    · obtain ⟨v, hv, hab⟩ := h.all x hx'
      by_cases hvk : v.key = infoKey n e
      · refine ⟨_, (u2 _).mpr (.inr (.inl ⟨v, hv, hvk, rfl⟩)), ?_⟩
        exact (cong rfl x hx).mp hab
      · exact ⟨v, (u2 _).mpr (.inl ⟨hv, hvk⟩), hab⟩
    · obtain rfl : x = e := by simpa using hx'
      by_cases hw : ∀ w ∈ vs, w.key ≠ infoKey n x
      · exact ⟨_, (u2 _).mpr (.inr (.inr ⟨rfl, hw⟩)), (ha0 _).mpr rfl⟩
      · obtain ⟨w, hw⟩ := Classical.not_forall.mp hw
        obtain ⟨hw, hwk⟩ := Classical.not_imp.mp hw
        have hwk := Classical.not_not.mp hwk
        exact ⟨_, (u2 _).mpr (.inr (.inl ⟨w, hw, hwk, rfl⟩)), (ha0 _).mpr hwk⟩
  · intro v hv
    rcases (u2 v).mp hv with ⟨hv, _⟩ | ⟨w, _, hk, rfl⟩ | ⟨rfl, _⟩
    · obtain ⟨x, hx, hab⟩ := h.only v hv
      exact ⟨x, by simp [hx], hab⟩
    · exact ⟨e, by simp, (ha0 _).mpr hk⟩
    · exact ⟨e, by simp, (ha0 _).mpr rfl⟩
  · refine (List.pairwise_map.mp u1).imp fun {v w} hvw hh => hvw ?_
    simp only [LocalVariable.key, Prod.mk.injEq]
    exact ⟨hh.1, hh.2.1, hh.2.2.2, hh.2.2.1⟩
  · intro v hv
    rcases (u2 v).mp hv with ⟨hv, hk⟩ | ⟨w, hw, hk, rfl⟩ | ⟨rfl, hw⟩
    · rw [fold2 _ hk]
      exact h.descriptor v hv
    · rw [fold1 _ (v := ⟨w.start, w.stop, w.name, e.descriptor.or w.descriptor,
        e.signature.or w.signature, w.index⟩) hk, filt (v := ⟨w.start, w.stop, w.name,
        e.descriptor.or w.descriptor, e.signature.or w.signature, w.index⟩) (w := w) rfl, ← h.descriptor w hw]
    · rw [fold1 _ rfl, none0 hw rfl]
      simp
  · intro v hv
    rcases (u2 v).mp hv with ⟨hv, hk⟩ | ⟨w, hw, hk, rfl⟩ | ⟨rfl, hw⟩
    · rw [fold2 _ hk]
      exact h.signature v hv
    · rw [fold1 _ (v := ⟨w.start, w.stop, w.name, e.descriptor.or w.descriptor,
        e.signature.or w.signature, w.index⟩) hk, filt (v := ⟨w.start, w.stop, w.name,
        e.descriptor.or w.descriptor, e.signature.or w.signature, w.index⟩) (w := w) rfl, ← h.signature w hw]
    · rw [fold1 _ rfl, none0 hw rfl]
      simp

theorem merged_nil (ν : Nat → Option Label) : Merged ν [] [] :=
  ⟨by simp, by simp, .nil, by simp, by simp⟩

theorem merged_foldl {ν : Nat → Option Label} {n : UInt32 → Label} {es : List VarInfo} :
    ∀ {xs : List VarInfo} {vs : List LocalVariable}, (∀ x ∈ es ++ xs, ν x.start = some (n (UInt32.ofNat x.start)) ∧
      ν x.stop = some (n (UInt32.ofNat x.stop))) → Merged ν es vs →
    Merged ν (es ++ xs) (xs.foldl (putVar n) vs) := by
  intro xs
  induction xs generalizing es with
  | nil => intro vs _ h; simpa using h
  | cons x xs ih =>
    intro vs hν h
    have := ih (es := es ++ [x]) (vs := putVar n vs x) (by simpa using hν)
      (merged_putVar (fun y hy => hν y (by
        rcases List.mem_append.mp hy with h | h
        · simp [h]
        · cases List.mem_singleton.mp h; simp)) h)
    simpa using this

theorem merged_perm {ν : Nat → Option Label} {es : List VarInfo} {vs ws : List LocalVariable}
    (hp : ws.Perm vs) (h : Merged ν es vs) : Merged ν es ws := by
  refine ⟨?_, ?_, ?_, ?_, ?_⟩
  · intro e he
    obtain ⟨v, hv, hab⟩ := h.all e he
    exact ⟨v, hp.mem_iff.mpr hv, hab⟩
  · exact fun v hv => h.only v (hp.mem_iff.mp hv)
  · refine (hp.pairwise_iff ?_).mpr h.once
    rintro a b hab ⟨h1, h2, h3, h4⟩
    exact hab ⟨h1.symm, h2.symm, h3.symm, h4.symm⟩
  · exact fun v hv => h.descriptor v (hp.mem_iff.mp hv)
  · exact fun v hv => h.signature v (hp.mem_iff.mp hv)

/-! ## Reading a body -/

theorem Reads.run {α β : Type} {x : Rd α} {f : α → Rd β} {env : REnv} {b1 : Bytes}
    {v : (UInt32 → Label) → α} {o1 : List UInt32} {p1 : List UInt16} (h : Reads x env b1 v o1 p1)
    {m : LabelMap} (q : List UInt16) (ls : LabelMap) (hm : LabelMap.addAll ls o1 <+: m) (b2 : Bytes) :
    Rd.bind x f env ⟨q, some ls⟩ (b1 ++ b2) = f (v m.num) env ⟨q ++ p1, some (LabelMap.addAll ls o1)⟩ b2 := by
  have := h ⟨q, some ls⟩ b2 (by simp) m (by simpa using hm)
  unfold Rd.bind
  rw [this]
  simp

theorem PReads.run {α β : Type} {x : Rd α} {f : α → Rd β} {env : REnv} {b1 : Bytes} {a : α}
    (h : PReads x env b1 a) (st : RSt) (b2 : Bytes) : Rd.bind x f env st (b1 ++ b2) = f a env st b2 := by
  unfold Rd.bind
  rw [h st b2]

theorem reads_bytes (env : REnv) (b : Bytes) : PReads (rBytes b.length) env b b :=
  PReads.lift fun rest => readExact_append _ b rest rfl

theorem keptWith_eq (f : Label → Label) : keptWith f (renCatch f) = keptAttr f := by
  funext a
  cases a <;> rfl

theorem rebuild_resolve (T : List Bsm) (ν : Nat → Option Label) (line : Nat → Option UInt16)
    (len : Nat) (pis : List (Nat × Insn)) :
    (rebuild ν line pis len).map (resolveI T) = rebuild ν line (pis.map fun e => (e.1, resolveI T e.2)) len := by
  have hm : ∀ p, (markers ν line p).map (resolveI T) = markers ν line p := by
    intro p
    unfold markers
    cases ν p <;> cases line p <;> rfl
  induction pis with
  | nil => exact hm len
  | cons e r ih =>
    obtain ⟨p, i⟩ := e
    simp only [rebuild, List.map_cons, List.map_append, hm, ih]

/-- The label of a position. -/
def labelAt (m : LabelMap) (p : Nat) : Option Label :=
  if p < 4294967296 then m.lookup (UInt32.ofNat p) else none

def bodyOffs (c : Ctx) (x : Body) (pis : List (Nat × Insn)) : List UInt32 :=
  (pis.flatMap fun e => (targets e.2).flatMap c.offs) ++
    ((x.catches.flatMap fun k => (catchLabels k).flatMap c.offs) ++ x.attrs.flatMap (attrOffs c))

theorem Reads.withCatches {α : Type} {r : Rd α} {pool : Pool} {cs0 : Option (List Catch)} {cs : List Catch}
    {bs : Bytes} {v : (UInt32 → Label) → α} {o : List UInt32} {p : List UInt16}
    (h : Reads r ⟨pool, some cs⟩ bs v o p) : Reads (withCatches cs r) ⟨pool, cs0⟩ bs v o p := h

theorem offs_eq (c : Ctx) (ls : List Label) : ls.flatMap c.offs = (ls.filterMap c.pos).map UInt32.ofNat := by
  induction ls with
  | nil => rfl
  | cons l ls ih =>
    rw [List.flatMap_cons, ih, List.filterMap_cons]
    unfold Ctx.offs
    cases c.pos l <;> simp

theorem mem_bodyOffs {c : Ctx} {x : Body} {pis : List (Nat × Insn)}
    (hp : pis.map Prod.snd = x.code.filterMap normal) (o : UInt32) :
    o ∈ bodyOffs c x pis ↔ ∃ p ∈ x.refs c, o = UInt32.ofNat p := by
  have e1 : (pis.flatMap fun e => (targets e.2).flatMap c.offs) =
      (((x.code.filterMap normal).flatMap targets).filterMap c.pos).map UInt32.ofNat := by
    rw [← offs_eq, ← hp, List.flatMap_assoc, List.flatMap_map]
  have e2 : (x.catches.flatMap fun k => (catchLabels k).flatMap c.offs) =
      ((x.catches.flatMap catchLabels).filterMap c.pos).map UInt32.ofNat := by
    rw [← offs_eq, List.flatMap_assoc]
  have e3 : o ∈ x.attrs.flatMap (attrOffs c) ↔
      o ∈ ((x.attrs.flatMap attrLabels).filterMap c.pos).map UInt32.ofNat ∨
      o ∈ varOffs (x.attrs.flatMap varInfos) := by
    rw [← offs_eq]
    simp only [attrOffs, varOffs, List.mem_flatMap, List.mem_append]
    grind
  have e4 : o ∈ varOffs (x.attrs.flatMap varInfos) ↔
      ∃ p ∈ (x.attrs.flatMap varInfos).flatMap (fun e => [e.start, e.stop]), o = UInt32.ofNat p := by
    simp only [varOffs, List.mem_flatMap, List.mem_cons, List.not_mem_nil, or_false]
    grind
  unfold bodyOffs Body.refs Body.labels
  rw [e1, e2, List.mem_append, List.mem_append, e3, e4]
  simp only [List.filterMap_append, List.mem_append, List.mem_map, or_and_right, exists_or, or_assoc,
    eq_comm (a := o)]

theorem read_body (ord : Nat → List LocalVariable → List LocalVariable) (hord : ∀ n l, (ord n l).Perm l)
    {c : Ctx} (hT : c.bsm.length ≤ 65536) {x : Body} {b bs : Bytes} {pis : List (Nat × Insn)}
    (h : bodyWith b c x bs) (hp : Positioned c 0 x.code b pis) (hx : x.Ok c b.length pis)
    (cs : Option (List Catch)) (st : RSt) (rest : Bytes) :
    ∃ y q ν ρ, Code.read ord ⟨c.pool, cs⟩ st (bs ++ rest) = .ok (y, ⟨q, st.labels⟩, rest) ∧
      Grown c.bsm st.pending q ∧ Describes c b.length x pis ν ρ y := by
  obtain ⟨hs, as, h1, h2, h3, h4, rfl⟩ := h
  have hps := hp.bounds
  simp only [Nat.zero_add, Nat.zero_le, true_and] at hps
  obtain ⟨v, pend, hv, hq, rI⟩ := reads_insns (some []) hT hp hx.insns
  have rH := Reads.vec2 (r := Catch.read) (cs := some []) (g := fun n k => renCatch (c.ren n) k)
    (offs := fun k => (catchLabels k).flatMap c.offs) (pend := fun _ => []) h3
    (fun k _ bs h => reads_handler _ h)
  obtain ⟨h40, b4, rfl, h41⟩ := h4
  have hg : ∀ n, Handlers c (x.catches.map (renCatch (c.ren n))) (renCatch (c.ren n))
      (x.attrs.flatMap attrCatches) := by
    intro n k hk i hi
    simp [hx.handlers k hk i hi]
  -- the numbering
  let m : LabelMap := LabelMap.addAll [] (bodyOffs c x pis)
  have hm : m.Ok := LabelMap.Ok.nil.addAll _
  obtain ⟨ins, hins, rA⟩ := reads_codeAttrs hps.2 (hg m.num) h41 hx.attrs hx.lines
    (fun e he => (hx.vars e he).2.2) (fun _ => [])
  have pre : ∀ o1 o2, bodyOffs c x pis = o1 ++ o2 → LabelMap.addAll [] o1 <+: m := by
    intro o1 o2 h
    show _ <+: LabelMap.addAll [] (bodyOffs c x pis)
    rw [h, LabelMap.addAll_append]
    exact LabelMap.prefix_addAll _ _
  have hlen : (UInt32.ofNat b.length).toNat = b.length := by simp; omega
  have hlen' : (UInt16.ofNat x.attrs.length).toNat = x.attrs.length := by simp; omega
  have hpos : (v m.num).map Prod.fst = pis.map Prod.fst := by
    have := congrArg (List.map Prod.fst) (hv m.num)
    simpa [Function.comp_def] using this
  -- positions referred to
  have hrefs : ∀ p ∈ x.refs c, p ∈ pis.map Prod.fst ++ [b.length] := by
    intro p hpr
    rcases List.mem_append.mp hpr with h | h
    · obtain ⟨l, _, hl⟩ := List.mem_filterMap.mp h
      obtain ⟨q, h1, h2⟩ := hp.label (hx.labels l p hl)
      rw [hl] at h1
      cases h1
      simpa using h2
    · obtain ⟨e, he, h⟩ := List.mem_flatMap.mp h
      have := hx.vars e he
      simp only [List.mem_cons, List.not_mem_nil, or_false] at h
      rcases h with rfl | rfl
      · exact this.1
      · exact this.2.1
  have hlt : ∀ p ∈ pis.map Prod.fst ++ [b.length], p < 4294967296 := fun p h => by
    have := hps.1 p h
    omega
  have hkeys : ∀ o, o ∈ m.map Prod.fst ↔ ∃ p ∈ x.refs c, o = UInt32.ofNat p := by
    intro o
    rw [← mem_bodyOffs hp.insns]
    show o ∈ (LabelMap.addAll [] _).map Prod.fst ↔ _
    rw [LabelMap.keys_addAll]
    simp
  have hadd := addLabels_ok hps.2 (m := m) (by
    intro e he
    obtain ⟨p, hp1, hp2⟩ := (hkeys e.1).mp (List.mem_map.mpr ⟨e, he, rfl⟩)
    have hq := hrefs p hp1
    have : e.1.toNat = p := by
      rw [hp2]
      have := hlt p hq
      simp; omega
    rwa [this]) hlt hm.keys ins
  have run : ∃ y : Code, (y.maxStack = x.maxStack ∧ y.maxLocals = x.maxLocals ∧
      y.catches = x.catches.map (renCatch (c.ren m.num)) ∧
      (y.attrs = if ((x.attrs.flatMap varInfos).foldl (putVar m.num) []).length = 0 then
          x.attrs.flatMap (keptWith (c.ren m.num) (renCatch (c.ren m.num)))
        else x.attrs.flatMap (keptWith (c.ren m.num) (renCatch (c.ren m.num))) ++
          [.locals (ord rest.length ((x.attrs.flatMap varInfos).foldl (putVar m.num) []))]) ∧
      ∃ ins', addLabels (indexIn (pis.map Prod.fst ++ [b.length])) ins m = .ok ins' ∧
        y.code = insertDown ins' ((v m.num).map Prod.snd) ((v m.num).map Prod.snd).length) ∧
      Code.readIn ord ⟨c.pool, some []⟩ ⟨st.pending, some []⟩
      (U2 x.maxStack.toNat ++ U2 x.maxLocals.toNat ++ U4 b.length ++ b ++ hs ++ (U2 x.attrs.length ++ b4) ++ rest) =
      .ok (y, ⟨st.pending ++ pend, some m⟩, rest) := by
    simp only [List.append_assoc]
    unfold Code.readIn
    have hb0 : ∀ bs : Bytes, bs = [] ++ bs := fun _ => rfl
    have e1 : LabelMap.addAll [] (pis.flatMap fun e => (targets e.2).flatMap c.offs) <+: m := pre _ _ rfl
    have e2 : LabelMap.addAll (LabelMap.addAll [] (pis.flatMap fun e => (targets e.2).flatMap c.offs))
        (x.catches.flatMap fun k => (catchLabels k).flatMap c.offs) <+: m := by
      rw [← LabelMap.addAll_append]
      exact pre _ (x.attrs.flatMap (attrOffs c)) (by simp [bodyOffs])
    have e3 : LabelMap.addAll (LabelMap.addAll (LabelMap.addAll [] (pis.flatMap fun e =>
        (targets e.2).flatMap c.offs)) (x.catches.flatMap fun k => (catchLabels k).flatMap c.offs))
        (x.attrs.flatMap (attrOffs c)) = m := by
      rw [← LabelMap.addAll_append, ← LabelMap.addAll_append]
      rfl
    have rA' := (rA [] []).withCatches (cs0 := some [])
    rw [(reads_u2 _ _).run, (reads_u2 _ _).run, (reads_u4' _ h2).run, hlen, (reads_bytes _ b).run,
      hb0 (hs ++ _), rI.run _ _ e1, rH.run _ _ e2]
    rw [(reads_u2' _ h40).run, hlen', hpos, rA'.run _ _ (by rw [e3]; exact List.prefix_rfl)]
    rw [e3]
    obtain ⟨ins', ha, -⟩ := hadd
    simp only [Rd.bind, placeMarkers, ha, List.append_nil, List.nil_append, flatMap_nil]
    exact ⟨_, ⟨rfl, rfl, rfl, rfl, ins', rfl, rfl⟩, rfl⟩
  obtain ⟨y, ⟨y1, y2, y3, y4, ins', ha, his⟩, hrun⟩ := run
  refine ⟨y, st.pending ++ pend, labelAt m, c.ren m.num, ?_, ⟨pend, rfl, hq⟩, ?_⟩
  · unfold Code.read
    rw [hrun]
  have hν : ∀ p ∈ x.refs c, labelAt m p = some (m.num (UInt32.ofNat p)) := by
    intro p hpr
    have h1 := LabelMap.lookup_isSome.mpr ((hkeys (UInt32.ofNat p)).mpr ⟨p, hpr, rfl⟩)
    obtain ⟨l, hl⟩ := Option.isSome_iff_exists.mp h1
    simp [labelAt, LabelMap.num, hl, hlt p (hrefs p hpr)]
  have hvars : ∀ e ∈ x.attrs.flatMap varInfos, e.start ∈ x.refs c ∧ e.stop ∈ x.refs c := by
    intro e he
    unfold Body.refs
    refine ⟨List.mem_append.mpr (.inr (List.mem_flatMap.mpr ⟨e, he, by simp⟩)),
      List.mem_append.mpr (.inr (List.mem_flatMap.mpr ⟨e, he, by simp⟩))⟩
  have hmerged : Merged (labelAt m) (x.attrs.flatMap varInfos)
      ((x.attrs.flatMap varInfos).foldl (putVar m.num) []) := by
    have := merged_foldl (ν := labelAt m) (n := m.num) (es := []) (xs := x.attrs.flatMap varInfos) (vs := [])
      (fun e he => ⟨hν _ (hvars e he).1, hν _ (hvars e he).2⟩) (merged_nil _)
    simpa using this
  refine ⟨?_, ?_, ?_, y1, y2, ?_, y3, ?_⟩
  · intro p q l h1 h2
    unfold labelAt at h1 h2
    split at h1
    · split at h2
      · have := congrArg UInt32.toNat (hm.inj h1 h2)
        simp at this
        omega
      · cases h2
    · cases h1
  · intro p
    constructor
    · intro h
      unfold labelAt at h
      split at h
      · rename_i hlt'
        obtain ⟨q, hq, he⟩ := (hkeys _).mp (LabelMap.lookup_isSome.mp h)
        have := congrArg UInt32.toNat he
        have := hlt q (hrefs q hq)
        simp at *
        have : p = q := by omega
        rwa [this]
      · cases h
    · intro h
      rw [hν p h]
      rfl
  · intro l p hlp hpr
    rw [hν p hpr]
    simp [Ctx.ren, hlp]
  · obtain ⟨ins2, ha2, hi2⟩ := hadd
    rw [ha] at ha2
    cases ha2
    rw [his, insertDown_all]
    rw [weave_rebuild (ν := labelAt m) (line := lineAt (x.attrs.flatMap lineEntries)) (len := b.length)]
    · rw [rebuild_resolve, hv]
    · intro i p hi
      rw [hpos] at hi
      rw [Nat.zero_add, hi2 i p hi, hins i p hi]
      unfold markers labelAt
      rw [if_pos (hlt p (List.mem_of_getElem? hi))]
      cases m.lookup (UInt32.ofNat p) <;> cases lineAt (x.attrs.flatMap lineEntries) p <;> rfl
  · rw [keptWith_eq] at y4
    refine ⟨ord rest.length ((x.attrs.flatMap varInfos).foldl (putVar m.num) []),
      merged_perm (hord _ _) hmerged, ?_⟩
    have hlen0 := (hord rest.length ((x.attrs.flatMap varInfos).foldl (putVar m.num) [])).length_eq
    rw [y4]
    by_cases h0 : ((x.attrs.flatMap varInfos).foldl (putVar m.num) []).length = 0
    · rw [if_pos h0, if_pos (by rw [List.isEmpty_iff_length_eq_zero]; omega), List.append_nil]
    · rw [if_neg h0, if_neg (by rw [List.isEmpty_iff_length_eq_zero]; omega)]

end Verif
