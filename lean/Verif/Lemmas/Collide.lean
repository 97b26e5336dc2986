import Verif.Spec.Collide
import Verif.Lemmas.Class

/-! # Two classes that a third one says are alike -/

namespace Verif
open Spec Sig

/-! ## The table -/

theorem size_arg {as bs : List Arg} {h : MethodHandle} {n : Bytes} {t : JType} (ha : Arg.dynamic (.filled h as) n t ∈ bs) :
    sizeOf as < sizeOf bs := by
  have := List.sizeOf_lt_of_mem ha
  simp only [Arg.dynamic.sizeOf_spec, Cell.filled.sizeOf_spec] at this
  omega

/-- A table that is completed from itself is determined by what is completed. -/
theorem complete_unique {ms T T' : List Bsm} (h : T = ms.map (resolveBsm T)) (h' : T' = ms.map (resolveBsm T')) :
    T = T' := by
  have hl : T.length = T'.length := by
    rw [h, h', List.length_map, List.length_map]
  have key : ∀ n (i : Nat) b b', T[i]? = some b → T'[i]? = some b' → sizeOf b.arguments < n → b = b' := by
    intro n
    induction n with
    | zero => intro _ _ _ _ _ h; omega
    | succ n ih =>
      intro i b b' hb hb' hn
      rw [h, List.getElem?_map] at hb
      rw [h', List.getElem?_map] at hb'
      cases hm : ms[i]? with
      | none => rw [hm] at hb; cases hb
      | some m =>
        rw [hm] at hb hb'
        cases hb
        cases hb'
        unfold resolveBsm
        congr 1
        refine List.map_congr_left fun a ha => ?_
        cases a with
        | static c => rfl
        | dynamic cell nm t =>
          cases cell with
          | filled hd as => rfl
          | pending k =>
            simp only [resolveArg]
            cases hk : T[k.toNat]? with
            | none =>
              rw [List.getElem?_eq_none_iff] at hk
              rw [List.getElem?_eq_none (by omega)]
            | some c =>
              obtain ⟨hlt, _⟩ := List.getElem?_eq_some_iff.mp hk
              have hk' : T'[k.toNat]? = some (T'[k.toNat]'(hl ▸ hlt)) := List.getElem?_eq_getElem _
              rw [hk']
              have hmem : Arg.dynamic (.filled c.handle c.arguments) nm t ∈ (resolveBsm T m).arguments := by
                refine List.mem_map.mpr ⟨_, ha, ?_⟩
                simp only [resolveArg, hk]
              have := ih _ _ _ hk hk' (by have := size_arg hmem; omega)
              rw [← this]
  refine List.ext_getElem? fun i => ?_
  by_cases hi : i < T.length
  · rw [List.getElem?_eq_getElem hi, List.getElem?_eq_getElem (hl ▸ hi)]
    exact congrArg some (key _ i _ _ (List.getElem?_eq_getElem hi) (List.getElem?_eq_getElem (hl ▸ hi)) (Nat.lt_succ_self _))
  · rw [List.getElem?_eq_none (by omega), List.getElem?_eq_none (by omega)]

theorem bsmTable_resolve (T : List Bsm) (as : List ClassAttr) :
    bsmTable (as.map (resolveClassAttr T)) = (bsmTable as).map (resolveBsm T) := by
  unfold bsmTable
  induction as with
  | nil => rfl
  | cons a as ih => cases a <;> first | exact ih | rfl

/-! ## Bodies -/

def isLocals : CodeAttribute → Bool
  | .locals _ => true
  | _ => false

theorem renamed_no_locals (ρ : Label → Label) (as : List CodeAttribute) :
    ∀ a ∈ as.flatMap (renCodeAttr ρ), isLocals a = false := by
  intro a ha
  obtain ⟨b, _, ha⟩ := List.mem_flatMap.mp ha
  cases b <;> simp only [renCodeAttr, List.mem_singleton, List.not_mem_nil] at ha <;> subst ha <;> rfl

theorem split_locals {as bs : List CodeAttribute} {vs ws : List LocalVariable} (ha : ∀ a ∈ as, isLocals a = false)
    (hb : ∀ b ∈ bs, isLocals b = false)
    (h : as ++ (if vs.isEmpty then [] else [.locals vs]) = bs ++ if ws.isEmpty then [] else [.locals ws]) :
    as = bs ∧ vs = ws := by
  have f1 : ∀ {cs : List CodeAttribute} {us : List LocalVariable}, (∀ c ∈ cs, isLocals c = false) →
      (cs ++ if us.isEmpty then [] else [CodeAttribute.locals us]).filter (fun a => !isLocals a) = cs := by
    intro cs us hc
    rw [List.filter_append, List.filter_eq_self.mpr (fun c h => by rw [hc c h]; rfl)]
    split <;> simp [isLocals]
  have f2 : ∀ {cs : List CodeAttribute} {us : List LocalVariable}, (∀ c ∈ cs, isLocals c = false) →
      (cs ++ if us.isEmpty then [] else [CodeAttribute.locals us]).flatMap attrVars = us := by
    intro cs us hc
    rw [List.flatMap_append, List.flatMap_eq_nil_iff.mpr (fun c h => by
      have := hc c h
      cases c <;> first | rfl | cases this)]
    cases us <;> simp [attrVars]
  exact ⟨by rw [← f1 (us := vs) ha, h, f1 hb], by rw [← f2 (us := vs) ha, h, f2 hb]⟩

theorem alike_body {T : List Bsm} {x y z : Code} {ρ ρ' : Label → Label} (h : SameBody T x z ρ) (h' : SameBody T y z ρ') :
    AlikeBody x y ρ ρ' := by
  obtain ⟨vs, hv, ha⟩ := h.attrs
  obtain ⟨ws, hw, ha'⟩ := h'.attrs
  obtain ⟨e1, e2⟩ := split_locals (renamed_no_locals ρ _) (renamed_no_locals ρ' _) (ha.symm.trans ha')
  refine ⟨h.maxStack.symm.trans h'.maxStack, h.maxLocals.symm.trans h'.maxLocals, h.insns.symm.trans h'.insns,
    fun l hl l' hl' e => ?_, h.catches.symm.trans h'.catches, e1, ?_⟩
  · rw [← (h.places l hl).2, ← (h'.places l' hl').2, e]
  · rw [← e2] at hw
    exact hv.symm.trans hw

/-! ## Classes -/

theorem matched_join {α β : Type} {R : α → β → Prop} {S : α → α → Prop} : ∀ {as as' : List α} {bs : List β},
    Matched R as bs → Matched R as' bs → (∀ a ∈ as, ∀ a' ∈ as', ∀ b, R a b → R a' b → S a a') → Matched S as as'
  | _, _, _, .nil, .nil, _ => .nil
  | _, _, _, .cons h hs, .cons h' hs', H =>
    .cons (H _ List.mem_cons_self _ List.mem_cons_self _ h h')
      (matched_join hs hs' fun a ha a' ha' => H a (List.mem_cons_of_mem _ ha) a' (List.mem_cons_of_mem _ ha'))

theorem alike_class {x y z : Class}
    (h : SameClass (writtenBsms x) (fun b b' => ∃ ρ, SameBody (writtenBsms x) b b' ρ) (withTable x) z)
    (h' : SameClass (writtenBsms y) (fun b b' => ∃ ρ, SameBody (writtenBsms y) b b' ρ) (withTable y) z) :
    AlikeClass x y := by
  have hT : writtenBsms x = writtenBsms y := by
    refine complete_unique (ms := bsmTable z.attrs) ?_ ?_
    · rw [← bsmTable_resolve, h.attrs, bsmTable_withTable]
    · rw [← bsmTable_resolve, h'.attrs, bsmTable_withTable]
  rw [← hT] at h'
  refine ⟨h.version.symm.trans h'.version, h.access.symm.trans h'.access, h.name.symm.trans h'.name,
    h.superName.symm.trans h'.superName, h.interfaces.symm.trans h'.interfaces, h.fields.symm.trans h'.fields, ?_, ?_, hT⟩
  · refine matched_join h.methods h'.methods fun m _ m' _ n hm hm' => ?_
    refine ⟨hm.access.symm.trans hm'.access |>.symm, (hm.name.symm.trans hm'.name).symm,
      (hm.descriptor.symm.trans hm'.descriptor).symm, ?_⟩
    refine matched_join hm.attrs hm'.attrs fun a _ a' _ b ha ha' => ?_
    cases a <;> cases b <;> first | (exact False.elim ha) | skip
    case code.code =>
      cases a' <;> first | (exact False.elim ha') | skip
      obtain ⟨ρ, ha⟩ := ha
      obtain ⟨ρ', ha'⟩ := ha'
      exact ⟨ρ, ρ', alike_body ha ha'⟩
    all_goals
      cases a' <;> first | (exact False.elim ha') | (exact trivial) | (exact Eq.trans ha (Eq.symm ha'))
  · have := h.attrs.symm.trans h'.attrs
    have f : ∀ w : Class, (withTable w).attrs.filter (fun a => !isBootstrap a) = w.attrs.filter fun a => !isBootstrap a := by
      intro w
      unfold withTable
      simp only
      rw [List.filter_append, List.filter_filter]
      simp only [Bool.and_self]
      split <;> simp [isBootstrap]
    rw [← f x, ← f y, this]

end Verif
