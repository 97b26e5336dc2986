import Verif.Lemmas.AgainRead

/-! # A class that was read from a written one is written in the same way -/

namespace Verif
open Spec Sig

theorem resolveD_dynamic (T : List Bsm) (i : Insn) (h : insnDynamics (resolveI T i) = [] ∨ insnDynamics i = [])
    (hn : ∀ t n, i ≠ .newArray t n) : resolveI T i = i := by
  have or : ∀ {α : Type} {x : OrDynamic α}, orDynamics (resolveO T x) = [] ∨ orDynamics x = [] → resolveO T x = x := by
    intro α x h
    cases x with
    | static => rfl
    | dynamic d => rcases h with h | h <;> cases h
  cases i
  case newArray t n => exact absurd rfl (hn t n)
  case invokeDynamic d => rcases h with h | h <;> cases h
  all_goals first | rfl | exact congrArg _ (or h) | (rw [resolveI, or h])

theorem normal_newArray {i : Insn} {t : OrDynamic JType} {n : UInt8} (h : normal i = some (.newArray t n)) :
    i = .newArray t n := by
  cases i
  case conversion a b => cases a <;> cases b <;> cases h
  case convertInt a => cases a <;> cases h
  case push c => cases c <;> cases h
  case field o t c => cases c <;> cases h
  case invokeExact t c => cases c <;> cases h
  case invokeSpecial c => cases c <;> cases h
  case invokeInterface c n => cases c <;> cases h
  all_goals first | (cases h; done) | (cases h; rfl)

theorem normal_dynamics {i j : Insn} (h : normal i = some j) : insnDynamics j = insnDynamics i := by
  cases i
  case conversion a b => cases a <;> cases b <;> cases h <;> rfl
  case convertInt a => cases a <;> cases h <;> rfl
  case push c => cases c <;> cases h <;> rfl
  case field o t c => cases c <;> cases h <;> rfl
  case invokeExact t c => cases c <;> cases h <;> rfl
  case invokeSpecial c => cases c <;> cases h <;> rfl
  case invokeInterface c n => cases c <;> cases h <;> rfl
  all_goals first | (cases h; done) | (cases h; rfl)

theorem ren_dynamics (f : Label → Label) (i : Insn) : insnDynamics (renI f i) = insnDynamics i := by
  cases i <;> rfl

/-- A body in which nothing is dynamic. -/
def Undynamic (x : Code) : Prop := ∀ i ∈ x.code, insnDynamics i = [] ∧ ∀ t n, i ≠ .newArray t n

theorem plain_again {T : List Bsm} {x y : Code} {f : Label → Label} (h : SameBody T x y f) (hx : Undynamic x) : Undynamic y := by
  intro i hi
  by_cases hs : solid [resolveI T i] = [resolveI T i]
  · have h1 : resolveI T i ∈ solid (y.code.map (resolveI T)) := by
      have := List.mem_filter.mp (show resolveI T i ∈ solid [resolveI T i] by rw [hs]; exact .head _)
      exact List.mem_filter.mpr ⟨List.mem_map_of_mem hi, this.2⟩
    rw [h.insns] at h1
    obtain ⟨j, hj, he⟩ := List.mem_map.mp h1
    obtain ⟨k, hk, hn⟩ := List.mem_filterMap.mp hj
    have h2 : insnDynamics (resolveI T i) = [] := by rw [← he, ren_dynamics, normal_dynamics hn, (hx k hk).1]
    have h3 : ∀ t n, i ≠ .newArray t n := by
      rintro t n rfl
      have h4 : renI f j = .newArray (resolveO T t) n := he
      have h5 : j = .newArray (resolveO T t) n := by
        cases j <;> first | exact h4 | cases h4
      rw [h5] at hn
      exact (hx k hk).2 _ _ (normal_newArray hn)
    have := resolveD_dynamic T i (.inl h2) h3
    rw [this] at h2
    exact ⟨h2, h3⟩
  · cases i
    case label => exact ⟨rfl, nofun⟩
    case lineNumber => exact ⟨rfl, nofun⟩
    all_goals exact absurd rfl hs

theorem plain_resolve {x : Code} (h : Undynamic x) (T : List Bsm) : ∀ i ∈ x.code, resolveI T i = i :=
  fun i hi => resolveD_dynamic T i (.inr (h i hi).1) (h i hi).2

theorem methodAttr_again {T : List Bsm} {a a' : MethodAttr} (h : SameAttr (fun b b' => ∃ ρ, SameBody T b b' ρ) a a')
    (hb : ∀ b, a = .code b → Orderly b ∧ Undynamic b ∧ ∀ vs, .locals vs ∈ b.attrs → vs.length ≤ 1) : a'.write = a.write := by
  cases a <;> cases a' <;> first | (exact False.elim h) | skip
  case code.code b b' =>
    obtain ⟨f, h⟩ := h
    obtain ⟨h1, h2, h3⟩ := hb b rfl
    show wAttr N.code b'.write = wAttr N.code b.write
    rw [body_again h h1 (plain_resolve (plain_again h h2) T) h3]
  all_goals first | (cases h; rfl) | rfl

theorem matched_wAll {α β : Type} {w : α → Ins Bytes} {w' : β → Ins Bytes} {as : List α} {bs : List β}
    {R : α → β → Prop} (h : Matched R as bs) (hw : ∀ a ∈ as, ∀ b, R a b → w' b = w a) : bs.map w' = as.map w := by
  induction h with
  | nil => rfl
  | cons h _ ih => rw [List.map_cons, List.map_cons, hw _ (.head _) _ h, ih fun a ha => hw a (.tail _ ha)]

theorem matched_from {α β : Type} {R : α → β → Prop} {as : List α} {bs : List β} (h : Matched R as bs) {b : β}
    (hb : b ∈ bs) : ∃ a ∈ as, R a b := by
  induction h with
  | nil => cases hb
  | cons h _ ih =>
    cases hb with
    | head => exact ⟨_, .head _, h⟩
    | tail _ hb =>
      obtain ⟨a, ha, hr⟩ := ih hb
      exact ⟨a, .tail _ ha, hr⟩

theorem method_again {T : List Bsm} {m m' : Method} (h : SameMethod (fun b b' => ∃ ρ, SameBody T b b' ρ) m m')
    (hb : ∀ b, .code b ∈ m.attrs → Orderly b ∧ Undynamic b ∧ ∀ vs, .locals vs ∈ b.attrs → vs.length ≤ 1) :
    m'.write = m.write := by
  unfold Method.write
  rw [h.access, h.name, h.descriptor]
  have h1 : m'.attrs.map MethodAttr.write = m.attrs.map MethodAttr.write :=
    matched_wAll h.attrs fun a ha a' haa => methodAttr_again haa fun b e => hb b (e ▸ ha)
  have h2 : wVec u16 MethodAttr.write m'.attrs = wVec u16 MethodAttr.write m.attrs := by
    unfold wVec wAll
    rw [h1, matched_len h.attrs]
  rw [h2]

/-! ## The attributes of the class -/

theorem wSeq_empty (ws : List (Ins Bytes)) : wSeq (wSeq [] :: ws) = wSeq ws := by
  funext cp
  have h : wSeq (wSeq [] :: ws) cp = (wSeq ws >>= fun b => pure ([] ++ b)) cp := rfl
  rw [h, ins_then]
  cases wSeq ws cp <;> rfl

theorem wSeq_cons_congr (w : Ins Bytes) {ws vs : List (Ins Bytes)} (h : wSeq ws = wSeq vs) : wSeq (w :: ws) = wSeq (w :: vs) := by
  rw [wSeq, wSeq, h]

theorem others_filter : ∀ as : List ClassAttr, wSeq ((as.filter fun a => !isBootstrap a).map ClassAttr.writeOther) =
    wSeq (as.map ClassAttr.writeOther)
  | [] => rfl
  | a :: as => by
    have ih := others_filter as
    cases a with
    | bootstrapMethods ms =>
      show _ = wSeq (wSeq [] :: as.map ClassAttr.writeOther)
      rw [wSeq_empty, ← ih]
      rfl
    | _ => exact wSeq_cons_congr _ ih

theorem others_table (as : List ClassAttr) (ms : List Bsm) :
    wSeq ((as ++ [ClassAttr.bootstrapMethods ms]).map ClassAttr.writeOther) = wSeq (as.map ClassAttr.writeOther) := by
  induction as with
  | nil =>
    show wSeq (wSeq [] :: []) = _
    rw [wSeq_empty]
    rfl
  | cons a as ih => exact wSeq_cons_congr _ ih

theorem ownBsms_given : ∀ as : List ClassAttr, ownBsms as = givenBsms as
  | [] => rfl
  | a :: as => by
    cases a with
    | bootstrapMethods ms => exact congrArg (ms ++ ·) (ownBsms_given as)
    | _ => exact ownBsms_given as

theorem givenBsms_append (as bs : List ClassAttr) : givenBsms (as ++ bs) = givenBsms as ++ givenBsms bs := by
  unfold givenBsms
  rw [List.flatMap_append]

theorem given_others (as : List ClassAttr) : givenBsms (as.filter fun a => !isBootstrap a) = [] := by
  refine List.flatMap_eq_nil_iff.mpr fun a ha => ?_
  have := (List.mem_filter.mp ha).2
  cases a with
  | bootstrapMethods ms => cases this
  | _ => rfl

theorem resolve_static {T : List Bsm} {as : List ClassAttr} (h : ∀ b ∈ givenBsms (as.map (resolveClassAttr T)), StaticBsm b) :
    as.map (resolveClassAttr T) = as := by
  rw [List.map_congr_left (g := id), List.map_id]
  intro a ha
  cases a with
  | bootstrapMethods ms =>
    show ClassAttr.bootstrapMethods _ = ClassAttr.bootstrapMethods _
    congr 1
    rw [List.map_congr_left (g := id), List.map_id]
    intro b hb
    have hs := h (resolveBsm T b) (List.mem_flatMap.mpr ⟨_, List.mem_map_of_mem ha, List.mem_map_of_mem hb⟩)
    obtain ⟨hd, args⟩ := b
    show Bsm.mk hd (args.map (resolveArg T)) = Bsm.mk hd args
    congr 1
    rw [List.map_congr_left (g := id), List.map_id]
    intro c hc
    obtain ⟨d, hd⟩ := hs (resolveArg T c) (List.mem_map_of_mem hc)
    cases c with
    | static => rfl
    | dynamic c n t =>
      exfalso
      unfold resolveArg at hd
      split at hd
      · split at hd <;> cases hd
      · cases hd
  | _ => rfl

theorem no_dynamics {x : Class} (h : classDynamics x = []) {m : Method} (hm : m ∈ x.methods) {b : Code}
    (hb : .code b ∈ m.attrs) {i : Insn} (hi : i ∈ b.code) : insnDynamics i = [] :=
  List.flatMap_eq_nil_iff.mp (List.flatMap_eq_nil_iff.mp (List.flatMap_eq_nil_iff.mp h m hm) _ hb) i hi

theorem regular_undynamic {x : Class} (hx : Regular x) (h : classDynamics x = []) {m : Method} (hm : m ∈ x.methods)
    {b : Code} (hb : .code b ∈ m.attrs) : Undynamic b := by
  intro i hi
  refine ⟨no_dynamics h hm hb hi, ?_⟩
  rintro t n rfl
  exact (((hx.methods m hm).2 _ hb : RegularBody b).insns _ hi).elim

/-- Nothing is filled in where nothing is dynamic. -/
theorem complete_undynamic {x : Class} (hs : ∀ b ∈ givenBsms x.attrs, StaticBsm b)
    (h : ∀ m ∈ x.methods, ∀ b, .code b ∈ m.attrs → Undynamic b) : completed x = x := by
  rw [completed_static hs]
  obtain ⟨v, a, n, s, is, fs, ms, as⟩ := x
  show ClassOf.mk v a n s is fs (ms.map _) as = ClassOf.mk v a n s is fs ms as
  congr 1
  rw [List.map_congr_left (g := id), List.map_id]
  intro m hm
  obtain ⟨ma, mn, md, mas⟩ := m
  show MethodOf.mk ma mn md (mas.map _) = MethodOf.mk ma mn md mas
  congr 1
  rw [List.map_congr_left (g := id), List.map_id]
  intro a ha
  cases a with
  | code b =>
    obtain ⟨b1, b2, b3, b4, b5⟩ := b
    show MethodAttrOf.code (Code.mk b1 b2 (b3.map _) b4 b5) = MethodAttrOf.code (Code.mk b1 b2 b3 b4 b5)
    congr 2
    rw [List.map_congr_left (g := id), List.map_id]
    intro i hi
    have := plain_resolve (h _ hm _ ha) (bsmTable as) i hi
    rw [resolveI_look] at this
    exact this
  | _ => rfl

/-- The class that is read from what was written is written in the same way. -/
theorem class_again {x y : Class} (hs : ∀ b ∈ givenBsms x.attrs, StaticBsm b)
    (hone : (x.attrs.filter isBootstrap).length = if (usedBsms x).isEmpty then 0 else 1)
    (hd : classDynamics x = [])
    (hm : ∀ m ∈ x.methods, ∀ b, .code b ∈ m.attrs → Orderly b ∧ Undynamic b ∧ ∀ vs, .locals vs ∈ b.attrs → vs.length ≤ 1)
    (h : SameClass (writtenBsms x) (fun b b' => ∃ ρ, SameBody (writtenBsms x) b b' ρ) (withTable x) y) :
    y.write = x.write ∧ (∀ b ∈ givenBsms y.attrs, StaticBsm b) ∧
      ∀ m ∈ y.methods, ∀ b, .code b ∈ m.attrs → Undynamic b := by
  have hu : usedBsms x = givenBsms x.attrs := by
    unfold usedBsms
    rw [hd, List.flatMap_nil, List.append_nil]
  have hw : writtenBsms x = givenBsms x.attrs := by rw [written_static (by rw [hu]; exact hs), hu]
  have hta : (withTable x).attrs = x.attrs.filter (fun a => !isBootstrap a) ++
      if (givenBsms x.attrs).isEmpty then [] else [.bootstrapMethods (givenBsms x.attrs)] := by
    unfold withTable
    rw [hw, hu]
  have hg : givenBsms (withTable x).attrs = givenBsms x.attrs := by
    rw [hta, givenBsms_append, given_others]
    split
    · rename_i he
      rw [List.isEmpty_iff.mp he]
      rfl
    · exact List.append_nil _
  have hya : y.attrs = (withTable x).attrs := by
    have := h.attrs
    rw [← this, resolve_static (by rw [this, hg]; exact hs)]
  have hmet : y.methods.map Method.write = x.methods.map Method.write :=
    matched_wAll h.methods fun m hmm m' hmm' => method_again hmm' (hm m hmm)
  have hlen : y.attrs.length = x.attrs.length := by
    rw [hya, hta, List.length_append]
    have h1 : (x.attrs.filter fun a => !isBootstrap a).length + (x.attrs.filter isBootstrap).length = x.attrs.length := by
      generalize x.attrs = as
      induction as with
      | nil => rfl
      | cons a as ih =>
        rw [List.filter_cons, List.filter_cons]
        cases isBootstrap a <;> simp <;> omega
    rw [hone, hu] at h1
    rw [← h1]
    split <;> rfl
  have hoth : wSeq (y.attrs.map ClassAttr.writeOther) = wSeq (x.attrs.map ClassAttr.writeOther) := by
    rw [hya, hta]
    split
    · rw [List.append_nil, others_filter]
    · rw [others_table, others_filter]
  have hbody : y.writeBody = x.writeBody := by
    unfold Class.writeBody wCut wAll
    rw [h.access, h.name, h.superName, h.interfaces, h.fields, hmet, ← matched_len h.methods, hoth, hlen]
    rfl
  refine ⟨?_, by rw [hya, hg]; exact hs, ?_⟩
  · unfold Class.write
    rw [hbody, ownBsms_given, ownBsms_given, hya, hg, h.version]
    rfl
  · intro m' hm' b' hb'
    obtain ⟨m, hmm, hsm⟩ := matched_from h.methods hm'
    obtain ⟨a, ha, hsa⟩ := matched_from hsm.attrs hb'
    cases a with
    | code b =>
      obtain ⟨f, hsb⟩ := hsa
      exact plain_again hsb (hm m hmm b ha).2.1
    | _ => exact hsa.elim

end Verif
