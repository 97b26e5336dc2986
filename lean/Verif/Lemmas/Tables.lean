import Verif.Spec.Tables
import Verif.Lemmas.WrClass

/-! # What a writer that succeeds tells about the tables -/

namespace Verif
open Spec Sig

/-- The number of entries is checked before it is written. (Elements are not, see `maps_small`.) -/
def Tallied (p : Part) : Prop := p.kind.checked = true → p.kind ≠ .elements → p.count ≤ p.kind.limit

/-- Success shows that these tables are as they should be. -/
def Heeds {α : Type} (m : Ins α) (l : List Part) : Prop :=
  ∀ cp a cp', m cp = .ok (a, cp') → ∀ p ∈ l, Tallied p

namespace Heeds
variable {α β : Type} {l l' : List Part}

theorem free (m : Ins α) : Heeds m [] := fun _ _ _ _ p hp => nomatch hp

theorem bind {m : Ins α} {f : α → Ins β} (h1 : Heeds m l) (h2 : ∀ a, Heeds (f a) l') : Heeds (m >>= f) (l ++ l') := by
  intro cp b cp' h p hp
  obtain ⟨a, cp1, e1, e2⟩ := Ins.bind_ok h
  rcases List.mem_append.mp hp with hp | hp
  · exact h1 _ _ _ e1 p hp
  · exact h2 a _ _ _ e2 p hp

theorem fst {m : Ins α} {f : α → Ins β} (h : Heeds m l) : Heeds (m >>= f) l := by
  have := bind h (f := f) fun _ => free _
  rwa [List.append_nil] at this

theorem snd {m : Ins α} {f : α → Ins β} (h : ∀ a, Heeds (f a) l) : Heeds (m >>= f) l := bind (free m) h

theorem cons {w : Ins Bytes} {ws : List (Ins Bytes)} (h : Heeds w l) (hs : Heeds (wSeq ws) l') :
    Heeds (wSeq (w :: ws)) (l ++ l') := bind h fun _ => fst hs

theorem skip {w : Ins Bytes} {ws : List (Ins Bytes)} (hs : Heeds (wSeq ws) l) : Heeds (wSeq (w :: ws)) l :=
  cons (free w) hs

theorem last {w : Ins Bytes} {ws : List (Ins Bytes)} (h : Heeds w l) : Heeds (wSeq (w :: ws)) l := by
  have := cons h (free (wSeq ws))
  rwa [List.append_nil] at this

theorem all {w : α → Ins Bytes} {f : α → List Part} {xs : List α} (h : ∀ x ∈ xs, Heeds (w x) (f x)) :
    Heeds (wAll w xs) (xs.flatMap f) := by
  induction xs with
  | nil => exact free _
  | cons x xs ih =>
    have h1 : Heeds (wAll w xs) (xs.flatMap f) := ih fun y hy => h y (by simp [hy])
    have := cons (h x (by simp)) h1
    rwa [List.flatMap_cons]

theorem vec {ℓ : Type} {c : NumCodec ℓ} {w : α → Ins Bytes} {f : α → List Part} {xs : List α} {k : TableKind}
    {ks : List Bytes} (hk : k.checked = true → k ≠ .elements → 256 ^ c.size ≤ k.limit + 1)
    (h : ∀ x ∈ xs, Heeds (w x) (f x)) : Heeds (wVec c w xs) (⟨k, xs.length, ks⟩ :: xs.flatMap f) := by
  intro cp a cp' e p hp
  unfold wVec at e
  split at e
  · rename_i hn
    rcases List.mem_cons.mp hp with rfl | hp
    · intro h1 h2
      have := hk h1 h2
      show xs.length ≤ k.limit
      omega
    · exact fst (all h) _ _ _ e p hp
  · cases e

theorem tab {w : α → Ins Bytes} {f : α → List Part} {xs : List α} {k : TableKind} {ks : List Bytes}
    (h : ∀ x ∈ xs, Heeds (w x) (f x)) (hk : k.limit = 65535 := by rfl) :
    Heeds (wVec u16 w xs) (⟨k, xs.length, ks⟩ :: xs.flatMap f) :=
  vec (fun _ _ => by rw [hk]; decide) h

theorem small {w : α → Ins Bytes} {f : α → List Part} {xs : List α} {k : TableKind} {ks : List Bytes}
    (h : ∀ x ∈ xs, Heeds (w x) (f x)) (hk : k.limit = 255 := by rfl) :
    Heeds (wVec u8 w xs) (⟨k, xs.length, ks⟩ :: xs.flatMap f) :=
  vec (fun _ _ => by rw [hk]; decide) h

theorem flat {w : α → Ins Bytes} {xs : List α} {k : TableKind} {ks : List Bytes} (hk : k.limit = 65535 := by rfl) :
    Heeds (wVec u16 w xs) [⟨k, xs.length, ks⟩] := by
  have := tab (w := w) (xs := xs) (ks := ks) (f := fun _ => []) (fun _ _ => free _) hk
  rwa [List.flatMap_eq_nil_iff.mpr (by simp)] at this

theorem flat8 {w : α → Ins Bytes} {xs : List α} {k : TableKind} {ks : List Bytes} (hk : k.limit = 255 := by rfl) :
    Heeds (wVec u8 w xs) [⟨k, xs.length, ks⟩] := by
  have := small (w := w) (xs := xs) (ks := ks) (f := fun _ => []) (fun _ _ => free _) hk
  rwa [List.flatMap_eq_nil_iff.mpr (by simp)] at this

/-- A table whose number is not checked. -/
theorem loose {m : Ins α} {p : Part} (hp : p.kind.checked = false ∨ p.kind = .elements) (h : Heeds m l) :
    Heeds m (p :: l) := by
  intro cp a cp' e q hq
  rcases List.mem_cons.mp hq with rfl | hq
  · intro h1 h2
    rcases hp with hp | hp
    · rw [hp] at h1; cases h1
    · exact absurd hp h2
  · exact h _ _ _ e q hq

theorem attr {n : Bytes} {w : Ins Bytes} (h : Heeds w l) : Heeds (wAttr n w) l := snd fun _ => fst h

end Heeds

section
open Heeds

/-! ## Annotations -/

mutual
theorem heeds_value : (v : AnnValue) → Heeds v.write (partsValue v)
  | .annotation t vs => by
    rw [AnnValue.write, partsValue]
    exact loose (.inr rfl) (skip (skip (skip (last (heeds_elems vs)))))
  | .array vs => by
    rw [AnnValue.write, partsValue]
    exact loose (.inl rfl) (skip (skip (last (heeds_values vs))))
  | .byte _ | .char _ | .double _ | .float _ | .int _ | .long _ | .short _ | .boolean _ | .string _ | .enum _ _
  | .cls _ => by rw [partsValue]; exact free _; all_goals (intros; rename_i h; cases h)
theorem heeds_values : (vs : List AnnValue) → Heeds (AnnValue.writeList vs) (partsValues vs)
  | [] => by rw [partsValues]; exact free _
  | v :: vs => by
    rw [AnnValue.writeList, partsValues]
    exact cons (heeds_value v) (last (heeds_values vs))
theorem heeds_elems : (vs : List (Bytes × AnnValue)) → Heeds (AnnValue.writeElems vs) (partsElems vs)
  | [] => by rw [partsElems]; exact free _
  | (k, v) :: vs => by
    rw [AnnValue.writeElems, partsElems]
    exact skip (cons (heeds_value v) (last (heeds_elems vs)))
end

theorem heeds_map (vs : Elems) : Heeds (Elems.write vs) (partsMap vs) :=
  loose (.inr rfl) (skip (last (heeds_elems vs)))

theorem heeds_anns (as : List Annotation) : Heeds (wVec u16 Annotation.write as) (partsAnns as) :=
  tab fun a _ => skip (last (heeds_map a.vals))

theorem heeds_params (ps : List (List Annotation)) : Heeds (wVec u8 (wVec u16 Annotation.write) ps) (partsParams ps) :=
  small fun as _ => heeds_anns as

theorem heeds_tanns {T : Type} {w : T → Ins Bytes} {t : T → List Part} (as : List (TypeAnnotation T))
    (h : ∀ x, Heeds (w x) (t x)) : Heeds (wVec u16 (TypeAnnotation.write w) as) (partsTypeAnns t as) :=
  tab fun a _ => cons (h a.target) (cons (l := [_]) flat8 (skip (last (heeds_map a.vals))))

/-! ## Fields -/

theorem heeds_fieldAttr (a : FieldAttr) : Heeds a.write (partsFieldAttr a) := by
  cases a with
  | visible as => exact attr (heeds_anns as)
  | invisible as => exact attr (heeds_anns as)
  | visibleType as => exact attr (heeds_tanns as fun _ => free _)
  | invisibleType as => exact attr (heeds_tanns as fun _ => free _)
  | _ => exact free _

theorem heeds_field (f : Field) : Heeds f.write (partsField f) :=
  skip (skip (skip (last (tab fun a _ => heeds_fieldAttr a))))

/-! ## Methods -/

theorem heeds_target (env : WEnv) (t : CodeTarget) : Heeds (t.write env) (partsTarget t) := by
  cases t with
  | localVar ts => exact skip (last flat)
  | resourceVar ts => exact skip (last flat)
  | _ => exact free _

theorem split_lengths {env : WEnv} {vs : List LocalVariable} {ty : List VarTypeEntry} {var : List VarEntry}
    (h : splitVars env vs = .ok (ty, var)) : var.length = (vs.filter fun v => v.descriptor.isSome).length ∧
      ty.length = (vs.filter fun v => v.signature.isSome).length := by
  induction vs generalizing ty var with
  | nil => cases h; exact ⟨rfl, rfl⟩
  | cons v vs ih =>
    unfold splitVars at h
    obtain ⟨a, h1, h⟩ := Res.bind_ok h
    obtain ⟨b, h2, h⟩ := Res.bind_ok h
    obtain ⟨⟨ty', var'⟩, h3, h⟩ := Res.bind_ok h
    cases h
    obtain ⟨i1, i2⟩ := ih h3
    have e1 : a.length = if v.descriptor.isSome then 1 else 0 := by
      unfold LocalVariable.varEntries at h1
      split at h1
      · rename_i e; cases h1; simp [e]
      · rename_i e
        split at h1
        · cases h1
        · cases h1; simp [e]
    have e2 : b.length = if v.signature.isSome then 1 else 0 := by
      unfold LocalVariable.varTypeEntries at h2
      split at h2
      · rename_i e; cases h2; simp [e]
      · rename_i e
        split at h2
        · cases h2
        · cases h2; simp [e]
    simp only [List.length_append, List.filter_cons, e1, e2, i1, i2]
    constructor
    · split <;> simp <;> omega
    · split <;> simp <;> omega

theorem heeds_codeAttr {env : WEnv} {a : CodeAttribute} {ls : List CodeAttr} (h : a.lower env = .ok ls) :
    Heeds (wAll (CodeAttr.write env) ls) (partsCodeAttr a) := by
  have one : ∀ {b : CodeAttr} {l : List Part}, Heeds (b.write env) l → Heeds (wAll (CodeAttr.write env) [b]) l := by
    intro b l h1
    exact last h1
  cases a with
  | visibleType as =>
    cases h
    exact one (attr (heeds_tanns as fun t => heeds_target env t))
  | invisibleType as =>
    cases h
    exact one (attr (heeds_tanns as fun t => heeds_target env t))
  | raw a => exact free _
  | locals vs =>
    unfold CodeAttribute.lower at h
    obtain ⟨⟨ty, var⟩, h1, h2⟩ := Res.bind_ok h
    obtain ⟨e1, e2⟩ := split_lengths h1
    show Heeds _ [⟨.localVariables, (vs.filter fun v => v.descriptor.isSome).length, []⟩,
      ⟨.localVariableTypes, (vs.filter fun v => v.signature.isSome).length, []⟩]
    rw [← e1, ← e2]
    intro cp x cp' e
    have hv : ∀ vs, Heeds (CodeAttr.write env (.vars vs)) [⟨.localVariables, vs.length, []⟩] := fun vs => attr flat
    have ht : ∀ vs, Heeds (CodeAttr.write env (.varTypes vs)) [⟨.localVariableTypes, vs.length, []⟩] := fun vs => attr flat
    have empty : ∀ k, Tallied ⟨k, 0, []⟩ := fun k _ _ => Nat.zero_le _
    match ty, var, h2 with
    | [], [], h2 => cases h2
    | t :: ts, [], h2 =>
      cases h2
      intro p hp
      rcases List.mem_cons.mp hp with rfl | hp
      · exact empty _
      · exact one (ht _) _ _ _ e p hp
    | [], v :: vs, h2 =>
      cases h2
      intro p hp
      simp only [List.mem_cons, List.not_mem_nil, or_false] at hp
      rcases hp with rfl | rfl
      · exact one (hv _) _ _ _ e _ (List.mem_cons_self ..)
      · exact empty _
    | t :: ts, v :: vs, h2 =>
      cases h2
      exact cons (hv _) (one (ht _)) _ _ _ e

theorem heeds_codeAttrs (env : WEnv) (n : Nat) (as : List CodeAttribute) :
    Heeds (writeCodeAttrs env n as) (as.flatMap partsCodeAttr) := by
  induction as generalizing n with
  | nil => exact free _
  | cons a as ih =>
    intro cp x cp' e
    unfold writeCodeAttrs at e
    obtain ⟨ls, cp1, e1, e2⟩ := Ins.bind_ok e
    obtain ⟨e3, rfl⟩ := Ins.lift_ok e1
    simp only at e2
    split at e2
    · exact bind (heeds_codeAttr e3) (fun _ => fst (ih _)) _ _ _ e2
    · cases e2

theorem heeds_code (x : Code) : Heeds x.write (partsCode x) :=
  loose (.inl rfl) (loose (.inl rfl) (snd fun a => snd fun hs => fst (heeds_codeAttrs _ 0 x.attrs)))

theorem heeds_methodAttr (a : MethodAttr) : Heeds a.write (partsMethodAttr a) := by
  cases a with
  | code x => exact attr (heeds_code x)
  | visible as => exact attr (heeds_anns as)
  | invisible as => exact attr (heeds_anns as)
  | visibleType as => exact attr (heeds_tanns as fun _ => free _)
  | invisibleType as => exact attr (heeds_tanns as fun _ => free _)
  | visibleParams ps => exact attr (heeds_params ps)
  | invisibleParams ps => exact attr (heeds_params ps)
  | exceptions ss => exact attr flat
  | annotationDefault v => exact attr (heeds_value v)
  | methodParameters ps => exact attr flat8
  | _ => exact free _

theorem heeds_method (m : Method) : Heeds m.write (partsMethod m) :=
  skip (skip (skip (last (tab fun a _ => heeds_methodAttr a))))

/-! ## Classes -/

theorem heeds_module (m : Module) : Heeds m.write (partsModule m) := by
  have h1 : ∀ k, TableKind.limit k = 65535 → ∀ e : Export, Heeds e.write [⟨k, e.to.length, []⟩] :=
    fun k hk e => skip (skip (last (flat hk)))
  have h2 : ∀ p : Provide, Heeds p.write [⟨.providesWith, p.with_.length, []⟩] := fun p => skip (last flat)
  intro cp a cp' e
  have key := skip (w := wStr 19 m.name) (skip (w := wFlags m.flags) (skip (w := wUtf8Opt m.version)
    (cons (flat (k := .requires) (ks := []) (w := Require.write) (xs := m.requires))
    (cons (tab (k := .exports) (ks := []) (w := Export.write) (xs := m.exports) fun e _ => h1 .exportsTo rfl e)
    (cons (tab (k := .opens) (ks := []) (w := Export.write) (xs := m.opens) fun e _ => h1 .opensTo rfl e)
    (cons (flat (k := .uses) (ks := []) (w := wStr 7) (xs := m.uses))
    (last (tab (k := .provides) (ks := []) (w := Provide.write) (xs := m.provides) fun p _ => h2 p)))))))) cp a cp' e
  intro p hp
  refine key p ?_
  simp only [partsModule, List.mem_cons, List.mem_append, List.mem_map, List.mem_flatMap, List.not_mem_nil, or_false] at hp ⊢
  rcases hp with rfl | rfl | rfl | rfl | rfl | ⟨e, he, rfl⟩ | ⟨e, he, rfl⟩ | ⟨e, he, rfl⟩
  · exact .inl rfl
  · exact .inr (.inl (.inl rfl))
  · exact .inr (.inr (.inl (.inl rfl)))
  · exact .inr (.inr (.inr (.inl rfl)))
  · exact .inr (.inr (.inr (.inr (.inl rfl))))
  · exact .inr (.inl (.inr ⟨e, he, rfl⟩))
  · exact .inr (.inr (.inl (.inr ⟨e, he, rfl⟩)))
  · exact .inr (.inr (.inr (.inr (.inr ⟨e, he, rfl⟩))))

theorem heeds_classAttr (a : ClassAttr) : Heeds a.writeOther (partsClassAttr a) := by
  cases a with
  | innerClasses xs => exact attr flat
  | module_ m => exact attr (heeds_module m)
  | modulePackages ss => exact attr flat
  | nestMembers ss => exact attr flat
  | visible as => exact attr (heeds_anns as)
  | invisible as => exact attr (heeds_anns as)
  | visibleType as => exact attr (heeds_tanns as fun _ => free _)
  | invisibleType as => exact attr (heeds_tanns as fun _ => free _)
  | _ => exact free _

theorem heeds_body (x : Class) : Heeds x.writeBody
    (x.fields.flatMap partsField ++ (x.methods.flatMap partsMethod ++ x.attrs.flatMap partsClassAttr)) :=
  skip (skip (skip (skip (cons (skip (last (all fun f _ => heeds_field f)))
    (cons (skip (last (all fun m _ => heeds_method m))) (last (skip (last (all fun a _ => heeds_classAttr a)))))))))

end

/-! ## Elements -/

/-- The keys are among the constants. -/
def Named (c : List Sym) (p : Part) : Prop :=
  (p.kind = .elements → p.count = p.keys.length) ∧ ∀ k ∈ p.keys, Sym.utf8 k ∈ c

theorem Named.mono {c c' : List Sym} {p : Part} (h : Named c p) (hc : ∀ s ∈ c, s ∈ c') : Named c' p :=
  ⟨h.1, fun k hk => hc _ (h.2 k hk)⟩

theorem named_flat {k : TableKind} {n : Nat} {c : List Sym} (h : k ≠ .elements) : Named c ⟨k, n, []⟩ :=
  ⟨fun e => absurd e h, fun _ hk => nomatch hk⟩

/-- All of them. -/
def AllNamed (c : List Sym) (l : List Part) : Prop := ∀ p ∈ l, Named c p

namespace AllNamed
variable {c c' : List Sym} {l l' : List Part}

theorem nil : AllNamed c [] := fun _ h => nomatch h
theorem mono (h : AllNamed c l) (hc : ∀ s ∈ c, s ∈ c') : AllNamed c' l := fun p hp => (h p hp).mono hc
theorem app (h : AllNamed c l) (h' : AllNamed c l') : AllNamed c (l ++ l') := fun p hp =>
  (List.mem_append.mp hp).elim (h p) (h' p)
theorem flat {k : TableKind} {n : Nat} (h : AllNamed c l) (hk : k ≠ .elements := by intro h; cases h) :
    AllNamed c (⟨k, n, []⟩ :: l) := fun p hp => by
  rcases List.mem_cons.mp hp with rfl | hp
  · exact named_flat hk
  · exact h p hp
theorem each {α : Type} {f : α → List Part} {g : α → List Sym} {xs : List α} (h : ∀ x ∈ xs, AllNamed (g x) (f x)) :
    AllNamed (xs.flatMap g) (xs.flatMap f) := fun p hp => by
  obtain ⟨x, hx, hp⟩ := List.mem_flatMap.mp hp
  exact (h x hx p hp).mono fun s hs => List.mem_flatMap.mpr ⟨x, hx, hs⟩
theorem tail {s : Sym} (h : AllNamed c l) : AllNamed (s :: c) l := h.mono fun _ h => List.mem_cons_of_mem _ h
theorem left (h : AllNamed c l) : AllNamed (c ++ c') l := h.mono fun _ h => List.mem_append_left _ h
theorem right (h : AllNamed c l) : AllNamed (c' ++ c) l := h.mono fun _ h => List.mem_append_right _ h
theorem pts {α : Type} {k : TableKind} {f : α → Nat} {xs : List α} (hk : k ≠ .elements := by intro h; cases h) :
    AllNamed c (xs.map fun x => ⟨k, f x, []⟩) := fun p hp => by
  obtain ⟨x, _, rfl⟩ := List.mem_map.mp hp
  exact named_flat hk
end AllNamed

section
open AllNamed

theorem elems_keys (vs : List (Bytes × AnnValue)) : ∀ k ∈ vs.map Prod.fst, Sym.utf8 k ∈ constsElems vs := by
  induction vs with
  | nil => exact fun _ h => nomatch h
  | cons a vs ih =>
    obtain ⟨k, v⟩ := a
    intro j hj
    rw [constsElems]
    rcases List.mem_cons.mp hj with rfl | hj
    · exact List.mem_cons_self ..
    · exact List.mem_cons_of_mem _ (List.mem_append_right _ (ih j hj))

theorem named_map {vs : List (Bytes × AnnValue)} {l : List Part} (h : AllNamed (constsElems vs) l) :
    AllNamed (constsElems vs) (⟨.elements, vs.length, vs.map Prod.fst⟩ :: l) := fun p hp => by
  rcases List.mem_cons.mp hp with rfl | hp
  · exact ⟨fun _ => (List.length_map ..).symm, elems_keys vs⟩
  · exact h p hp

mutual
theorem named_value : (v : AnnValue) → AllNamed (constsValue v) (partsValue v)
  | .annotation t vs => by
    rw [constsValue, partsValue]
    exact (named_map (named_elems vs)).tail
  | .array vs => by
    rw [constsValue, partsValue]
    exact flat (named_values vs)
  | .byte _ | .char _ | .double _ | .float _ | .int _ | .long _ | .short _ | .boolean _ | .string _ | .enum _ _
  | .cls _ => by rw [partsValue]; exact nil; all_goals (intros; rename_i h; cases h)
theorem named_values : (vs : List AnnValue) → AllNamed (constsValues vs) (partsValues vs)
  | [] => by rw [partsValues]; exact nil
  | v :: vs => by
    rw [constsValues, partsValues]
    exact app (named_value v).left (named_values vs).right
theorem named_elems : (vs : List (Bytes × AnnValue)) → AllNamed (constsElems vs) (partsElems vs)
  | [] => by rw [partsElems]; exact nil
  | (k, v) :: vs => by
    rw [constsElems, partsElems]
    exact (app (named_value v).left (named_elems vs).right).tail
end

theorem named_anns (as : List Annotation) : AllNamed (as.flatMap constsAnn) (partsAnns as) :=
  flat (each fun a _ => (named_map (named_elems a.vals)).tail)

theorem named_params (ps : List (List Annotation)) :
    AllNamed (ps.flatMap fun as => as.flatMap constsAnn) (partsParams ps) := flat (each fun as _ => named_anns as)

theorem named_tanns {T : Type} {t : T → List Part} (as : List (TypeAnnotation T)) (h : ∀ x c, AllNamed c (t x)) :
    AllNamed (as.flatMap constsTypeAnn) (partsTypeAnns t as) :=
  flat (each fun a _ => app (h _ _) (flat (named_map (named_elems a.vals)).tail))

theorem named_fieldAttr (a : FieldAttr) : AllNamed (constsFieldAttr a) (partsFieldAttr a) := by
  cases a with
  | visible as => exact (named_anns as).tail
  | invisible as => exact (named_anns as).tail
  | visibleType as => exact (named_tanns as fun _ _ => nil).tail
  | invisibleType as => exact (named_tanns as fun _ _ => nil).tail
  | _ => exact nil

theorem named_field (f : Field) : AllNamed (constsField f) (partsField f) :=
  flat (each fun a _ => named_fieldAttr a).tail.tail

theorem named_target (t : CodeTarget) (c : List Sym) : AllNamed c (partsTarget t) := by
  cases t with
  | localVar ts => exact flat nil
  | resourceVar ts => exact flat nil
  | _ => exact nil

theorem named_codeAttr (a : CodeAttribute) : AllNamed (constsCodeAttr a) (partsCodeAttr a) := by
  cases a with
  | visibleType as => exact (named_tanns as named_target).tail
  | invisibleType as => exact (named_tanns as named_target).tail
  | locals vs => exact flat (flat nil)
  | raw a => exact nil

theorem named_code (x : Code) : AllNamed (constsCode x) (partsCode x) :=
  flat (flat (each fun a _ => named_codeAttr a).right.right)

theorem named_methodAttr (a : MethodAttr) : AllNamed (constsMethodAttr a) (partsMethodAttr a) := by
  cases a with
  | code x => exact (named_code x).tail
  | visible as => exact (named_anns as).tail
  | invisible as => exact (named_anns as).tail
  | visibleType as => exact (named_tanns as fun _ _ => nil).tail
  | invisibleType as => exact (named_tanns as fun _ _ => nil).tail
  | visibleParams ps => exact (named_params ps).tail
  | invisibleParams ps => exact (named_params ps).tail
  | exceptions ss => exact flat nil
  | annotationDefault v => exact (named_value v).tail
  | methodParameters ps => exact flat nil
  | _ => exact nil

theorem named_method (m : Method) : AllNamed (constsMethod m) (partsMethod m) :=
  flat (each fun a _ => named_methodAttr a).tail.tail

theorem named_classAttr (a : ClassAttr) : AllNamed (constsClassAttr a) (partsClassAttr a) := by
  cases a with
  | innerClasses xs => exact flat nil
  | module_ m => exact flat (flat (flat (flat (flat (app pts (app pts pts))))))
  | modulePackages ss => exact flat nil
  | nestMembers ss => exact flat nil
  | visible as => exact (named_anns as).tail
  | invisible as => exact (named_anns as).tail
  | visibleType as => exact (named_tanns as fun _ _ => nil).tail
  | invisibleType as => exact (named_tanns as fun _ _ => nil).tail
  | _ => exact nil

theorem named_class (x : Class) : AllNamed (consts x) (parts x) :=
  flat (flat (flat (flat (flat (app (each fun f _ => named_field f).left.right.right.right
    (app (each fun m _ => named_method m).left.right.right.right.right
    (app (each fun a _ => named_classAttr a).left.right.right.right.right.right pts)))))))

end
end Verif
