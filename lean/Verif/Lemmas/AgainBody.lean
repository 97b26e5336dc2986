import Verif.Lemmas.Again

/-! # Writing the same body with other names for labels: handlers and attributes -/

namespace Verif
open Spec Sig

/-! ## Bodies -/

/-- The answers to labels and handlers are the same under their new names. -/
structure SameEnv (U : Label → Prop) (K : Catch → Prop) (f : Label → Label) (e e' : WEnv) : Prop where
  label : ∀ l, U l → e'.label (f l) = e.label l
  catch_ : ∀ k, K k → e'.catch_ (renCatch f k) = e.catch_ k

section
variable {U : Label → Prop} {K : Catch → Prop} {f : Label → Label} {e e' : WEnv}

theorem wLabel_same (h : SameEnv U K f e e') {l : Label} (hl : U l) : wLabel e' (f l) = wLabel e l := by
  unfold wLabel
  rw [h.label l hl]

theorem handler_same (h : SameEnv U K f e e') {k : Catch} (hk : ∀ l ∈ catchLabels k, U l) :
    Catch.write e' (renCatch f k) = Catch.write e k := by
  unfold Catch.write renCatch
  rw [wLabel_same h (hk _ (by simp [catchLabels])), wLabel_same h (hk _ (by simp [catchLabels])),
    wLabel_same h (hk _ (by simp [catchLabels]))]

theorem wAll_congr {α β : Type} {w : α → Ins Bytes} {w' : β → Ins Bytes} {g : α → β} :
    ∀ {as : List α}, (∀ a ∈ as, w' (g a) = w a) → wAll w' (as.map g) = wAll w as := by
  intro as h
  unfold wAll
  rw [List.map_map]
  exact congrArg wSeq (List.map_congr_left h)

theorem wVec_congr {α β ℓ : Type} {c : NumCodec ℓ} {w : α → Ins Bytes} {w' : β → Ins Bytes} {g : α → β} {as : List α}
    (h : ∀ a ∈ as, w' (g a) = w a) : wVec c w' (as.map g) = wVec c w as := by
  unfold wVec
  rw [wAll_congr h, List.length_map]

theorem target_same (h : SameEnv U K f e e') {t : CodeTarget} (hl : ∀ l ∈ targetLabels t, U l)
    (hk : ∀ k ∈ targetCatches t, K k) : (renTarget f (renCatch f) t).write e' = t.write e := by
  have hv : ∀ {ts : List LocalVarTarget}, (∀ l ∈ ts.flatMap (fun t => [t.start, t.stop]), U l) →
      wVec u16 (LocalVarTarget.write e') (ts.map fun t => ⟨f t.start, f t.stop, t.idx⟩) =
        wVec u16 (LocalVarTarget.write e) ts := by
    intro ts hl
    refine wVec_congr fun t ht => ?_
    have h1 : U t.start := hl _ (List.mem_flatMap.mpr ⟨t, ht, by simp⟩)
    have h2 : U t.stop := hl _ (List.mem_flatMap.mpr ⟨t, ht, by simp⟩)
    unfold LocalVarTarget.write
    simp only [h.label _ h1, h.label _ h2]
  cases t with
  | localVar ts =>
    rw [renTarget, CodeTarget.write, CodeTarget.write, hv hl]
  | resourceVar ts =>
    rw [renTarget, CodeTarget.write, CodeTarget.write, hv hl]
  | catchParam k =>
    have h1 : wCatch e' (renCatch f k) = wCatch e k := by
      unfold wCatch
      rw [h.catch_ k (hk k (.head _))]
    rw [renTarget, CodeTarget.write, CodeTarget.write, h1]
  | _ =>
    rw [renTarget, CodeTarget.write, CodeTarget.write, wLabel_same h (hl _ (.head _))]

theorem annotation_same (h : SameEnv U K f e e') {a : TypeAnnotation CodeTarget} (hl : ∀ l ∈ targetLabels a.target, U l)
    (hk : ∀ k ∈ targetCatches a.target, K k) :
    TypeAnnotation.write (CodeTarget.write e') (renAnnotation f a) = TypeAnnotation.write (CodeTarget.write e) a := by
  unfold TypeAnnotation.write
  show wSeq [(renTarget f (renCatch f) a.target).write e', _, _, _] = _
  rw [target_same h hl hk]
  rfl

def renKept (f : Label → Label) : CodeAttribute → CodeAttribute
  | .invisibleType as => .invisibleType (as.map (renAnnotation f))
  | .visibleType as => .visibleType (as.map (renAnnotation f))
  | .raw a => .raw a
  | .locals vs => .locals (vs.map (renVar f))

/-- What is written for the two attributes is the same. -/
def SameLower (e e' : WEnv) (a a' : CodeAttribute) : Prop :=
  SameRes (fun ls ls' => ls'.length = ls.length ∧ wAll (CodeAttr.write e') ls' = wAll (CodeAttr.write e) ls)
    (a.lower e) (a'.lower e')

theorem range_same (h : SameEnv U K f e e') {s t : Label} (hs : U s) (ht : U t) :
    rangeOf e' (f s) (f t) = rangeOf e s t := by
  unfold rangeOf
  rw [h.label s hs, h.label t ht]

theorem split_same (h : SameEnv U K f e e') : ∀ {vs : List LocalVariable}, (∀ l ∈ vs.flatMap varLabels, U l) →
    splitVars e' (vs.map (renVar f)) = splitVars e vs
  | [], _ => rfl
  | v :: vs, hl => by
    have h1 : U v.start := hl _ (by simp [varLabels])
    have h2 : U v.stop := hl _ (by simp [varLabels])
    have h3 : (renVar f v).varEntries e' = v.varEntries e := by
      unfold LocalVariable.varEntries
      show (match v.descriptor with
        | none => Except.ok ([] : List VarEntry)
        | some d => match rangeOf e' (f v.start) (f v.stop) with
          | .error e => .error e
          | .ok (s, n) => .ok [⟨s, n, v.name, d, v.index⟩]) = _
      rw [range_same h h1 h2]
      cases v.descriptor <;> rfl
    have h4 : (renVar f v).varTypeEntries e' = v.varTypeEntries e := by
      unfold LocalVariable.varTypeEntries
      show (match v.signature with
        | none => Except.ok ([] : List VarTypeEntry)
        | some d => match rangeOf e' (f v.start) (f v.stop) with
          | .error e => .error e
          | .ok (s, n) => .ok [⟨s, n, v.name, d, v.index⟩]) = _
      rw [range_same h h1 h2]
      cases v.signature <;> rfl
    rw [List.map_cons, splitVars, splitVars, h3, h4, split_same h fun l hl' => hl l (by
      rw [List.flatMap_cons]
      exact List.mem_append_right _ hl')]

theorem lower_same (h : SameEnv U K f e e') {a : CodeAttribute} (hl : ∀ l ∈ codeAttrLabels a, U l)
    (hk : ∀ k ∈ annCatches a, K k) : SameLower e e' a (renKept f a) := by
  have hann : ∀ {as : List (TypeAnnotation CodeTarget)}, (∀ l ∈ as.flatMap (fun a => targetLabels a.target), U l) →
      (∀ k ∈ as.flatMap (fun a => targetCatches a.target), K k) →
      wVec u16 (TypeAnnotation.write (CodeTarget.write e')) (as.map (renAnnotation f)) =
        wVec u16 (TypeAnnotation.write (CodeTarget.write e)) as := fun hl hk =>
    wVec_congr fun a ha => annotation_same h (fun l h => hl l (List.mem_flatMap.mpr ⟨a, ha, h⟩))
      fun k h => hk k (List.mem_flatMap.mpr ⟨a, ha, h⟩)
  cases a with
  | raw a =>
    show SameRes _ (Except.ok [CodeAttr.raw a]) (Except.ok [CodeAttr.raw a])
    refine SameRes.ok ⟨rfl, ?_⟩
    simp only [wAll, List.map_cons, List.map_nil, CodeAttr.write]
  | visibleType as =>
    show SameRes _ (Except.ok [CodeAttr.visibleType as]) (Except.ok [CodeAttr.visibleType (as.map (renAnnotation f))])
    refine SameRes.ok ⟨rfl, ?_⟩
    have := hann hl fun k hk' => hk k (by
      obtain ⟨a, ha, h⟩ := List.mem_flatMap.mp hk'
      refine List.mem_flatMap.mpr ⟨a, ha, ?_⟩
      cases ht : a.target <;> rw [ht] at h <;> first | exact h | cases h)
    simp only [wAll, List.map_cons, List.map_nil, CodeAttr.write, this]
  | invisibleType as =>
    show SameRes _ (Except.ok [CodeAttr.invisibleType as]) (Except.ok [CodeAttr.invisibleType (as.map (renAnnotation f))])
    refine SameRes.ok ⟨rfl, ?_⟩
    have := hann hl fun k hk' => hk k (by
      obtain ⟨a, ha, h⟩ := List.mem_flatMap.mp hk'
      refine List.mem_flatMap.mpr ⟨a, ha, ?_⟩
      cases ht : a.target <;> rw [ht] at h <;> first | exact h | cases h)
    simp only [wAll, List.map_cons, List.map_nil, CodeAttr.write, this]
  | locals vs =>
    have h1 : (renKept f (.locals vs)).lower e' = CodeAttribute.lower e (.locals vs) := by
      rw [renKept, CodeAttribute.lower, CodeAttribute.lower, split_same h hl]
    unfold SameLower
    rw [h1]
    cases hlow : CodeAttribute.lower e (.locals vs) with
    | error x => exact .error x
    | ok ls =>
      refine .ok ⟨rfl, ?_⟩
      have : ∀ c ∈ ls, CodeAttr.write e' c = CodeAttr.write e c := by
        intro c hc
        rw [CodeAttribute.lower] at hlow
        cases hs : splitVars e vs with
        | error x => rw [hs] at hlow; cases hlow
        | ok r =>
          obtain ⟨ty, var⟩ := r
          rw [hs] at hlow
          cases ty with
          | nil =>
            cases var with
            | nil => cases hlow
            | cons => cases hlow; cases List.mem_singleton.mp hc; rfl
          | cons =>
            cases var with
            | nil => cases hlow; cases List.mem_singleton.mp hc; rfl
            | cons =>
              cases hlow
              rcases List.mem_cons.mp hc with rfl | hc
              · rfl
              · cases List.mem_singleton.mp hc; rfl
      unfold wAll
      rw [List.map_congr_left this]

theorem ins_then {α β : Type} (x : Ins α) (g : α → Ins β) (cp : VecCp) :
    (x >>= g) cp = match x cp with
      | .ok (a, cp1) => g a cp1
      | .error e => .error e := rfl

theorem lift_ok_then {α β : Type} (a : α) (g : α → Ins β) : (Ins.lift (.ok a) >>= g) = g a := rfl

theorem lift_error_then {α β : Type} (x : Err) (g : α → Ins β) : (Ins.lift (.error x) >>= g) = Ins.fail x := rfl

theorem attrs_same : ∀ {as as' : List CodeAttribute} (n : Nat), Matched (SameLower e e') as as' →
    writeCodeAttrs e' n as' = writeCodeAttrs e n as := by
  intro as as' n h
  induction h generalizing n with
  | nil => rfl
  | cons h _ ih =>
    rw [writeCodeAttrs, writeCodeAttrs]
    rename_i a a' as as' _
    unfold SameLower at h
    generalize a.lower e = A at h ⊢
    generalize a'.lower e' = A' at h ⊢
    cases h with
    | error x => rw [lift_error_then, lift_error_then]
    | ok h =>
      rw [lift_ok_then, lift_ok_then]
      simp only [h.1, h.2, ih]

end

theorem renCatch_inj {U : Label → Prop} {f : Label → Label} (hi : ∀ l l', U l → U l' → f l = f l' → l = l') {k k' : Catch}
    (hk : ∀ l ∈ catchLabels k, U l) (hk' : ∀ l ∈ catchLabels k', U l) (h : renCatch f k = renCatch f k') : k = k' := by
  obtain ⟨a, b, c, t⟩ := k
  obtain ⟨a', b', c', t'⟩ := k'
  rw [renCatch, renCatch, Catch.mk.injEq] at h
  obtain ⟨h1, h2, h3, h4⟩ := h
  rw [hi a a' (hk _ (by simp [catchLabels])) (hk' _ (by simp [catchLabels])) h1,
    hi b b' (hk _ (by simp [catchLabels])) (hk' _ (by simp [catchLabels])) h2,
    hi c c' (hk _ (by simp [catchLabels])) (hk' _ (by simp [catchLabels])) h3, show t = t' from h4]

/-- What holds for a body that was read: labels have distinct names and places, annotations refer to handlers
that there are, and variables are in the last attribute. -/
structure Orderly (x : Code) : Prop where
  placed : (placed x.code).Nodup
  apart : ∀ l ∈ codeLabels x, ∀ l' ∈ codeLabels x, place l x.code = place l' x.code → l = l'
  handlers : ∀ k ∈ x.attrs.flatMap annCatches, k ∈ x.catches
  locals : ∃ as vs, (∀ a ∈ as, ∀ ws, a ≠ .locals ws) ∧ x.attrs = as ++ if vs.isEmpty then [] else [.locals vs]

theorem filterMap_same {α β : Type} {g g' : α → Option β} : ∀ {as : List α}, (∀ a ∈ as, g a = g' a) →
    as.filterMap g = as.filterMap g'
  | [], _ => rfl
  | a :: as, h => by
    rw [List.filterMap_cons, List.filterMap_cons, h a (.head _), filterMap_same fun a ha => h a (.tail _ ha)]

theorem locals_ren {f : Label → Label} {as : List CodeAttribute} (h : ∀ a ∈ as, ∀ ws, a ≠ .locals ws) :
    as.flatMap (renCodeAttr f) = as.map (renKept f) ∧ as.flatMap attrVars = [] := by
  induction as with
  | nil => exact ⟨rfl, rfl⟩
  | cons a as ih =>
    obtain ⟨h1, h2⟩ := ih fun a ha => h a (.tail _ ha)
    rw [List.flatMap_cons, List.flatMap_cons, List.map_cons, h1, h2]
    cases a with
    | locals ws => exact absurd rfl (h _ (.head _) ws)
    | _ => exact ⟨rfl, rfl⟩

/-- A body that was read from a written one is written in the same way. -/
theorem body_again {T : List Bsm} {x y : Code} {f : Label → Label} (h : SameBody T x y f) (hx : Orderly x)
    (hT : ∀ i ∈ y.code, resolveI T i = i) (hv : ∀ vs, .locals vs ∈ x.attrs → vs.length ≤ 1) : y.write = x.write := by
  have hmap : y.code.map (resolveI T) = y.code := (List.map_congr_left hT).trans (List.map_id _)
  have hn : y.code.filterMap normal = (x.code.filterMap normal).map (renI f) := by
    have h1 : y.code.filterMap normal = (solid y.code).filterMap normal := by
      unfold solid
      rw [List.filterMap_filter]
      refine filterMap_same fun i _ => ?_
      cases i <;> rfl
    have h2 := h.insns
    rw [hmap] at h2
    rw [h1, h2, List.filterMap_map]
    have h3 : ∀ i ∈ x.code.filterMap normal, (normal ∘ renI f) i = (some ∘ renI f) i := fun i hi => by
      obtain ⟨j, _, hj⟩ := List.mem_filterMap.mp hi
      show normal (renI f i) = _
      rw [normal_ren, normal_idem hj]
      rfl
    rw [filterMap_same h3, List.filterMap_eq_map]
  have hp : ∀ l, l ∈ codeLabels x → (place l x.code).isSome ∧ place (f l) y.code = place l x.code := by
    have := h.places
    rw [hmap] at this
    exact this
  have hinj : ∀ l l', l ∈ codeLabels x → l' ∈ codeLabels x → f l = f l' → l = l' := fun l l' hl hl' e =>
    hx.apart l hl l' hl' (by rw [← (hp l hl).2, ← (hp l' hl').2, e])
  have hkl : ∀ k ∈ x.catches, ∀ l ∈ catchLabels k, l ∈ codeLabels x := fun k hk l hl =>
    List.mem_append_left _ (List.mem_append_right _ (List.mem_flatMap.mpr ⟨k, hk, hl⟩))
  have ha : y.attrs = x.attrs.map (renKept f) := by
    obtain ⟨vs, hvs, hy⟩ := h.attrs
    obtain ⟨as, ws, has, hxa⟩ := hx.locals
    rw [hxa] at hvs hy hv ⊢
    rw [List.flatMap_append, (locals_ren (f := f) has).1] at hy
    rw [List.flatMap_append, (locals_ren (f := f) has).2] at hvs
    rw [hy, List.map_append]
    cases ws with
    | nil =>
      have : vs = [] := List.perm_nil.mp hvs
      subst this
      simp
    | cons w ws =>
      have hl := hv (w :: ws) (by simp)
      have : ws = [] := by cases ws with
        | nil => rfl
        | cons => simp at hl
      subst this
      have hvs' : vs = [renVar f w] := List.perm_singleton.mp hvs
      subst hvs'
      simp [renCodeAttr, renKept]
  funext cp
  have hw : ∀ z : Code, z.write cp = match writeCode z.code cp with
      | .error e => .error e
      | .ok (a, cp) => (do
        let hs ← wAll (Catch.write (Code.env a z.catches)) z.catches
        let (extra, as) ← writeCodeAttrs (Code.env a z.catches) 0 z.attrs
        if (UInt16.ofNat z.attrs.length).toNat + extra < 65536 then
          pure (u16.write z.maxStack ++ u16.write z.maxLocals ++ u32.write a.len ++ a.code ++
            u16.write (UInt16.ofNat z.catches.length) ++ hs ++
            u16.write (UInt16.ofNat z.attrs.length + UInt16.ofNat extra) ++ as)
        else Ins.fail .panic : Ins Bytes) cp := by
    intro z
    unfold Code.write
    rw [ins_then]
    cases writeCode z.code cp <;> rfl
  have hc := writeCode_same (U := fun l => l ∈ codeLabels x) hx.placed h.placed hn
    (fun i hi l hl => List.mem_append_left _ (List.mem_append_left _ (List.mem_flatMap.mpr ⟨i, hi, hl⟩))) hp cp
  rw [hw, hw]
  generalize writeCode x.code cp = A at hc ⊢
  generalize writeCode y.code cp = A' at hc ⊢
  cases hc with
  | error e => rfl
  | ok hc =>
    rename_i p q
    obtain ⟨a, cp1⟩ := p
    obtain ⟨a', cp2⟩ := q
    obtain ⟨rfl, hc⟩ := hc
    have hlen : a'.len = a.len := hc.len
    have hcode : a'.code = a.code := hc.code
    have he : SameEnv (fun l => l ∈ codeLabels x) (fun k => k ∈ x.catches) f (Code.env a x.catches) (Code.env a' y.catches) := by
      refine ⟨hc.label, fun k hk => ?_⟩
      show Except.ok _ = Except.ok _
      rw [h.catches, List.findIdx?_map]
      congr 2
      have : ∀ ks : List Catch, (∀ c ∈ ks, c ∈ x.catches) →
          ks.findIdx? ((fun c => c == renCatch f k) ∘ renCatch f) = ks.findIdx? fun c => c == k := by
        intro ks
        induction ks with
        | nil => intro _; rfl
        | cons c ks ih =>
          intro hks
          rw [List.findIdx?_cons, List.findIdx?_cons, ih fun c hc => hks c (.tail _ hc)]
          have : ((fun c => c == renCatch f k) ∘ renCatch f) c = (c == k) := by
            show (renCatch f c == renCatch f k) = (c == k)
            by_cases e : c = k
            · rw [e, beq_self_eq_true, beq_self_eq_true]
            · rw [beq_false_of_ne e, beq_false_of_ne fun e' => e (renCatch_inj hinj (hkl c (hks c (.head _))) (hkl k hk) e')]
          rw [this]
      exact this _ fun _ h => h
    have h1 : wAll (Catch.write (Code.env a' y.catches)) y.catches = wAll (Catch.write (Code.env a x.catches)) x.catches := by
      rw [show y.catches = x.catches.map (renCatch f) from h.catches]
      rw [h.catches] at he
      exact wAll_congr fun k hk => handler_same he (hkl k hk)
    have h2 : writeCodeAttrs (Code.env a' y.catches) 0 y.attrs = writeCodeAttrs (Code.env a x.catches) 0 x.attrs := by
      refine attrs_same 0 ?_
      rw [ha]
      have : ∀ as : List CodeAttribute, (∀ b ∈ as, b ∈ x.attrs) →
          Matched (SameLower (Code.env a x.catches) (Code.env a' y.catches)) as (as.map (renKept f)) := by
        intro as
        induction as with
        | nil => exact fun _ => .nil
        | cons b as ih =>
          intro hb
          exact .cons (lower_same he (fun l hl => List.mem_append_right _ (List.mem_flatMap.mpr ⟨b, hb b (.head _), hl⟩))
            fun k hk => hx.handlers k (List.mem_flatMap.mpr ⟨b, hb b (.head _), hk⟩)) (ih fun c hc => hb c (.tail _ hc))
      exact this _ fun _ h => h
    simp only [h1, h2, hlen, hcode, h.maxStack, h.maxLocals]
    rw [h.catches, ha, List.length_map, List.length_map]

end Verif
