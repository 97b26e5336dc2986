import Verif.Lemmas.Legible
import Verif.Spec.Reread

/-! What readers return: flags are known, lists are as long as their counts, maps have distinct keys. -/

namespace Verif
open Spec Sig

variable {α β : Type}

theorem gives_and {P Q : α → Prop} {r : Rd α} (h : Gives P r) (h' : Gives Q r) : Gives (fun x => P x ∧ Q x) r :=
  fun env st bs x st' rest hp hr => ⟨h env st bs x st' rest hp hr, h' env st bs x st' rest hp hr⟩

theorem gives_replicate_len {r : Rd α} : ∀ n, Gives (fun xs => xs.length = n) (Rd.replicate n r)
  | 0 => gives_pure rfl
  | n + 1 => gives_bind (gives_any r) fun a _ => gives_bind (gives_replicate_len n) fun as has => gives_pure (by
      rw [List.length_cons, has])

theorem gives_len {r : Rd α} : Gives (fun xs => xs.length < 65536) (rVec u16 r) :=
  gives_bind (gives_any _) fun n _ => (gives_replicate_len _).mono fun xs hx => by
    rw [hx]
    exact n.toNat_lt

/-- The elements and their number. -/
theorem gives_list {Q : α → Prop} {r : Rd α} (h : Gives Q r) :
    Gives (fun xs => xs.length < 65536 ∧ ∀ x ∈ xs, Q x) (rVec u16 r) := gives_and gives_len (gives_vec h)

theorem gives_flags {t : FlagType} : Gives KnownFlags (rFlags t) := by
  intro env st bs x st' rest _ hr
  unfold rFlags Rd.lift at hr
  split at hr
  · rename_i h
    cases hr
    exact (Props.C28_idempotent t _ _ _ h).1
  · cases hr

/-- An attribute that is kept raw has no known name. -/
theorem gives_attr' {Q : α → Prop} {table : Bytes → Option (Rd α)} {raw : RawAttribute → α}
    (h : ∀ name r, table name = some r → Gives Q r) (hr : ∀ s b, table s = none → Q (raw ⟨s, b⟩)) :
    Gives Q (rAttr table raw) := by
  refine gives_bind gives_utf8 fun s hs => ?_
  rcases ht : table s with _ | r
  · exact gives_map (gives_all (fun b => hr s b ht) _)
  · exact gives_framed (h s r ht)

theorem table_none {c : Prop} [Decidable c] {r : Rd α} {o : Option (Rd α)} (h : (if c then some r else o) = none) :
    ¬ c ∧ o = none := by
  split at h
  · cases h
  · rename_i hc; exact ⟨hc, h⟩

/-! ## Annotations -/

mutual

/-- Maps have distinct keys, lists have at most 65535 entries. -/
def Neat : AnnValue → Prop
  | .annotation _ es => (es.map Prod.fst).Nodup ∧ es.length < 65536 ∧ NeatPairs es
  | .array vs => vs.length < 65536 ∧ NeatAll vs
  | _ => True

def NeatAll : List AnnValue → Prop
  | [] => True
  | v :: vs => Neat v ∧ NeatAll vs

def NeatPairs : List (Bytes × AnnValue) → Prop
  | [] => True
  | (_, v) :: es => Neat v ∧ NeatPairs es

end

mutual

theorem neat_distinct : (v : AnnValue) → Neat v → Distinct v
  | .annotation _ es, h => by
    rw [Neat] at h
    rw [Distinct]
    exact ⟨h.1, neatPairs_distinct es h.2.2⟩
  | .array vs, h => by
    rw [Neat] at h
    rw [Distinct]
    exact neatAll_distinct vs h.2
  | .byte _, _ | .char _, _ | .double _, _ | .float _, _ | .int _, _ | .long _, _ | .short _, _ | .boolean _, _
  | .string _, _ | .enum _ _, _ | .cls _, _ => by rw [Distinct] <;> first | trivial | nofun

theorem neatAll_distinct : (vs : List AnnValue) → NeatAll vs → DistinctAll vs
  | [], _ => by rw [DistinctAll]; trivial
  | v :: vs, h => by
    rw [NeatAll] at h
    rw [DistinctAll]
    exact ⟨neat_distinct v h.1, neatAll_distinct vs h.2⟩

theorem neatPairs_distinct : (es : List (Bytes × AnnValue)) → NeatPairs es → DistinctPairs es
  | [], _ => by rw [DistinctPairs]; trivial
  | (_, v) :: es, h => by
    rw [NeatPairs] at h
    rw [DistinctPairs]
    exact ⟨neat_distinct v h.1, neatPairs_distinct es h.2⟩

end

mutual

theorem neat_expressible : (v : AnnValue) → Neat v → RegularValue v → Expressible true v
  | .annotation t es, h, hr => by
    rw [Neat] at h
    rw [RegularValue] at hr
    rw [Expressible]
    exact ⟨hr.1, h.2.1, neatPairs_expressible es h.2.2 hr.2⟩
  | .array vs, h, hr => by
    rw [Neat] at h
    rw [RegularValue] at hr
    rw [Expressible]
    exact ⟨h.1, neatAll_expressible vs h.2 hr⟩
  | .enum t n, _, hr => by
    rw [RegularValue] at hr
    rw [Expressible]
    exact hr
  | .cls (some t), _, hr => by
    rw [RegularValue] at hr
    rw [Expressible]
    exact ⟨hr.1, fun _ => hr⟩
  | .cls none, _, _ | .byte _, _, _ | .char _, _, _ | .double _, _, _ | .float _, _, _ | .int _, _, _ | .long _, _, _
  | .short _, _, _ | .boolean _, _, _ | .string _, _, _ => by rw [Expressible] <;> first | trivial | nofun

theorem neatAll_expressible : (vs : List AnnValue) → NeatAll vs → RegularValues vs → ExpressibleAll true vs
  | [], _, _ => by rw [ExpressibleAll]; trivial
  | v :: vs, h, hr => by
    rw [NeatAll] at h
    rw [RegularValues] at hr
    rw [ExpressibleAll]
    exact ⟨neat_expressible v h.1 hr.1, neatAll_expressible vs h.2 hr.2⟩

theorem neatPairs_expressible : (es : List (Bytes × AnnValue)) → NeatPairs es → RegularPairs es →
    ExpressiblePairs true es
  | [], _, _ => by rw [ExpressiblePairs]; trivial
  | (_, v) :: es, h, hr => by
    rw [NeatPairs] at h
    rw [RegularPairs] at hr
    rw [ExpressiblePairs]
    exact ⟨neat_expressible v h.1 hr.1, neatPairs_expressible es h.2 hr.2⟩

end

theorem neatAll_iff : ∀ {vs : List AnnValue}, NeatAll vs ↔ ∀ v ∈ vs, Neat v
  | [] => by simp [NeatAll]
  | v :: vs => by rw [NeatAll, neatAll_iff]; simp

theorem put_keys (k : Bytes) (v : AnnValue) : ∀ (m : Elems),
    (m.put k v).map Prod.fst = if k ∈ m.map Prod.fst then m.map Prod.fst else m.map Prod.fst ++ [k]
  | [] => by simp [Elems.put]
  | (k', v') :: m => by
    rw [Elems.put]
    split
    · rename_i e
      subst e
      simp
    · rename_i e
      rw [List.map_cons, put_keys k v m]
      have : k ≠ k' := fun h => e h.symm
      by_cases hk : k ∈ m.map Prod.fst
      · simp only [List.map_cons, List.mem_cons, hk, or_true, if_true]
      · rw [if_neg hk, if_neg (by simp only [List.map_cons, List.mem_cons, not_or]; exact ⟨this, hk⟩)]
        rfl

theorem put_nodup (k : Bytes) (v : AnnValue) {m : Elems} (h : (m.map Prod.fst).Nodup) :
    ((m.put k v).map Prod.fst).Nodup := by
  rw [put_keys]
  split
  · exact h
  · rename_i hk
    rw [List.nodup_append]
    exact ⟨h, by simp, fun a ha b hb => by rw [List.mem_singleton] at hb; rintro rfl; exact hk (hb ▸ ha)⟩

theorem put_len (k : Bytes) (v : AnnValue) (m : Elems) : (m.put k v).length ≤ m.length + 1 := by
  have := congrArg List.length (put_keys k v m)
  rw [List.length_map] at this
  rw [this]
  split <;> simp

theorem put_neat {k : Bytes} {v : AnnValue} (hv : Neat v) : ∀ {m : Elems}, NeatPairs m → NeatPairs (m.put k v)
  | [], _ => by rw [Elems.put, NeatPairs, NeatPairs]; exact ⟨hv, trivial⟩
  | (k', v') :: m, h => by
    rw [NeatPairs] at h
    rw [Elems.put]
    split
    · rw [NeatPairs]; exact ⟨hv, h.2⟩
    · rw [NeatPairs]; exact ⟨h.1, put_neat hv h.2⟩

/-- Maps of annotations. -/
def NeatElems (es : Elems) : Prop := (es.map Prod.fst).Nodup ∧ es.length < 65536 ∧ NeatPairs es

theorem neat_keyed {es : Elems} (h : NeatElems es) : Keyed es := ⟨h.1, neatPairs_distinct es h.2.2⟩

theorem neat_elemsWith {r : Rd AnnValue} (h : Gives Neat r) : Gives NeatElems (Elems.readWith r) := by
  refine gives_map ((gives_list (Q := fun p => Neat p.2)
    (gives_bind (gives_any _) fun k _ => gives_map (h.mono fun v hv => hv))).mono fun ps hps => ?_)
  have key : ∀ (ps : List (Bytes × AnnValue)) (m : Elems), (∀ p ∈ ps, Neat p.2) → (m.map Prod.fst).Nodup →
      NeatPairs m → let m' := ps.foldl (fun (m : Elems) p => m.put p.1 p.2) m
      (m'.map Prod.fst).Nodup ∧ m'.length ≤ m.length + ps.length ∧ NeatPairs m' := by
    intro ps
    induction ps with
    | nil => exact fun m _ h h' => ⟨h, Nat.le_refl _, h'⟩
    | cons p ps ih =>
      intro m hp hm hn
      have := ih (m.put p.1 p.2) (fun q hq => hp q (by simp [hq])) (put_nodup _ _ hm) (put_neat (hp p (by simp)) hn)
      have hl := put_len p.1 p.2 m
      refine ⟨this.1, ?_, this.2.2⟩
      have h2 := this.2.1
      simp only [List.foldl_cons, List.length_cons] at h2 ⊢
      omega
  have := key ps [] hps.2 (by simp) (by rw [NeatPairs]; trivial)
  exact ⟨this.1, by have h1 := this.2.1; have h2 := hps.1; simp only [List.length_nil] at h1; omega, this.2.2⟩

theorem neat_valueF : ∀ n, Gives Neat (AnnValue.readF n)
  | 0 => gives_fail
  | n + 1 => by
    refine gives_bind (gives_any _) fun tag _ => ?_
    have int : ∀ {lo hi : Int} {f : Int32 → AnnValue}, (∀ x, Neat (f x)) → Gives Neat (rIntIn lo hi f) := by
      intro lo hi f hf
      refine gives_bind (gives_any _) fun x _ => ?_
      split
      · exact gives_pure (hf x)
      · exact gives_fail
    refine gives_ite ?_ ?_
    · exact int fun x => by rw [Neat] <;> first | trivial | nofun
    refine gives_ite ?_ ?_
    · exact int fun x => by rw [Neat] <;> first | trivial | nofun
    refine gives_ite ?_ ?_
    · exact gives_map (gives_all (fun x => by rw [Neat] <;> first | trivial | nofun) _)
    refine gives_ite ?_ ?_
    · exact gives_map (gives_all (fun x => by rw [Neat] <;> first | trivial | nofun) _)
    refine gives_ite ?_ ?_
    · exact gives_map (gives_all (fun x => by rw [Neat] <;> first | trivial | nofun) _)
    refine gives_ite ?_ ?_
    · exact gives_map (gives_all (fun x => by rw [Neat] <;> first | trivial | nofun) _)
    refine gives_ite ?_ ?_
    · exact int fun x => by rw [Neat] <;> first | trivial | nofun
    refine gives_ite ?_ ?_
    · exact int fun x => by rw [Neat] <;> first | trivial | nofun
    refine gives_ite ?_ ?_
    · exact gives_map (gives_all (fun x => by rw [Neat] <;> first | trivial | nofun) _)
    refine gives_ite ?_ ?_
    · exact gives_ap (gives_map ((gives_any _).mono fun t _ s _ => by rw [Neat] <;> first | trivial | nofun)) (gives_any _)
    refine gives_ite ?_ ?_
    · exact gives_map (gives_all (fun x => by rw [Neat] <;> first | trivial | nofun) _)
    refine gives_ite ?_ ?_
    · exact gives_ap (gives_map ((gives_any _).mono fun t _ s hs => by rw [Neat]; exact hs))
        (neat_elemsWith (neat_valueF n))
    refine gives_ite ?_ ?_
    · exact gives_map ((gives_list (neat_valueF n)).mono fun vs hvs => by rw [Neat]; exact ⟨hvs.1, neatAll_iff.mpr hvs.2⟩)
    · exact gives_fail

theorem neat_value : Gives Neat AnnValue.read :=
  fun env st bs x st' rest hp hr => neat_valueF _ env st bs x st' rest hp hr

theorem neat_elems : Gives NeatElems Elems.read := neat_elemsWith neat_value

theorem neat_annotation : Gives (fun a => NeatElems a.vals) Annotation.read :=
  gives_ap (gives_map ((gives_any _).mono fun _ _ _ hs => hs)) neat_elems

theorem neat_annotations {ν : Type} {l : NumCodec ν} : Gives (fun as => ∀ a ∈ as, NeatElems a.vals)
    (rVec l Annotation.read) := gives_vec neat_annotation

theorem neat_typeAnn {T : Type} {r : Rd T} : Gives (fun a => NeatElems a.vals) (TypeAnnotation.read r) :=
  gives_ap (gives_ap (gives_ap (gives_map ((gives_any r).mono fun _ _ _ _ _ _ _ hs => hs))
    (gives_any _)) (gives_any _)) neat_elems

theorem neat_typeAnns {T : Type} {r : Rd T} : Gives (fun as => ∀ a ∈ as, NeatElems a.vals)
    (rVec u16 (TypeAnnotation.read r)) := gives_vec neat_typeAnn

theorem annWritable {a : Annotation} (h : NeatElems a.vals) (hr : RegularAnn a) : Spec.AnnWritable a :=
  ⟨hr.1, h.2.1, neatPairs_expressible _ h.2.2 hr.2⟩

theorem typeAnnWritable {T : Type} {a : TypeAnnotation T} (h : NeatElems a.vals) (hr : RegularTypeAnn a) :
    TypeAnnWritable a := ⟨hr.1, h.2.1, neatPairs_expressible _ h.2.2 hr.2⟩

/-! ## Signatures -/

theorem params_single {ps : List TypeParam} {cs : Str} (h : ParamsText ps cs) (ho : OkParams ps) : SingleBounds ps := by
  have key : ∀ {ps : List TypeParam} {cs : Str}, Many ParamText ps cs → OkParams ps → SingleBounds ps := by
    intro ps cs h
    induction h with
    | nil => exact fun _ p hp => nomatch hp
    | @cons p ps c1 c2 h1 _ ih =>
      intro ho q hq
      rw [OkParams] at ho
      rcases List.mem_cons.mp hq with rfl | hq
      · obtain ⟨_, _, ⟨b, h2, h3, _⟩ | ⟨b, h2, h3, _⟩ | ⟨h2, h3⟩⟩ := ho.1
        · exact .inl ⟨by rw [h2]; rfl, h3⟩
        · exact .inr ⟨h2, b, h3⟩
        · cases h1 with
          | cls _ _ _ => cases h2
          | itf _ hne _ => exact absurd h3 hne
      · exact ih ho.2.2 q hq
  cases h with
  | nil => exact fun p hp => nomatch hp
  | some _ h => exact key h ho

theorem class_single {s : Str} {c : ClassSig} (h : parseClass s = .ok c) {cs : Str} (ht : ClassText c cs) :
    SingleBounds c.typeParams := by
  cases ht with
  | mk h1 _ _ =>
    refine params_single h1 ?_
    rw [parseClass] at h
    rcases hx : classSig s with e | ⟨c', r⟩
    · rw [hx, dropRest] at h; cases h
    · rw [hx, dropRest] at h
      cases h
      exact (classSig_ok hx).1

theorem method_single {s : Str} {m : MethodSig} (h : parseMethod s = .ok m) {cs : Str} (ht : MethodText m cs) :
    SingleBounds m.typeParams := by
  cases ht with
  | mk h1 _ _ _ =>
    refine params_single h1 ?_
    rw [parseMethod] at h
    rcases hx : methodSig s with e | ⟨c', r⟩
    · rw [hx, dropRest] at h; cases h
    · rw [hx, dropRest] at h
      cases h
      unfold methodSig at hx
      split at hx
      · cases hx
      rename_i tps i1 h1'
      split at hx
      · cases hx
      split at hx
      · cases hx
      split at hx
      · cases hx
      split at hx
      · cases hx
      split at hx
      · cases hx
      cases hx
      exact (typeParams_ok h1').1

theorem single_classSig : Gives (fun s => SigText ClassText s → SingleBounds s.typeParams) (rSig parseClass) :=
  gives_bind gives_utf8 fun s hs => by
    obtain ⟨cs, hl⟩ := hs
    rw [Wtf8.lossy_codepoints hl]
    exact gives_ofRes fun a ha ⟨_, ht, _⟩ => class_single ha ht

theorem single_methodSig : Gives (fun s => SigText MethodText s → SingleBounds s.typeParams) (rSig parseMethod) :=
  gives_bind gives_utf8 fun s hs => by
    obtain ⟨cs, hl⟩ := hs
    rw [Wtf8.lossy_codepoints hl]
    exact gives_ofRes fun a ha ⟨_, ht, _⟩ => method_single ha ht

/-! ## Fields and attributes of classes -/

/-- What an attribute of a field needs in order to be written and read again. -/
def FieldAttrGood (a : FieldAttr) : Prop := RegularFieldAttr a → a.Writable ∧ a.Readable

theorem anns_good {as : List Annotation} (h : ∀ a ∈ as, NeatElems a.vals) (hr : ∀ a ∈ as, RegularAnn a) :
    (∀ a ∈ as, Spec.AnnWritable a) ∧ ∀ a ∈ as, Keyed a.vals :=
  ⟨fun a ha => annWritable (h a ha) (hr a ha), fun a ha => neat_keyed (h a ha)⟩

theorem typeAnns_good {T : Type} {as : List (TypeAnnotation T)} (h : ∀ a ∈ as, NeatElems a.vals)
    (hr : ∀ a ∈ as, RegularTypeAnn a) : (∀ a ∈ as, TypeAnnWritable a) ∧ ∀ a ∈ as, Keyed a.vals :=
  ⟨fun a ha => typeAnnWritable (h a ha) (hr a ha), fun a ha => neat_keyed (h a ha)⟩

theorem good_fieldAttr : Gives FieldAttrGood FieldAttr.read := by
  refine gives_attr' (fun name => ?_) fun s b hs => fun _ => ⟨trivial, ?_⟩
  · unfold FieldAttr.table
    refine table_cons (gives_pure fun _ => ⟨trivial, trivial⟩) ?_
    refine table_cons (gives_pure fun _ => ⟨trivial, trivial⟩) ?_
    refine table_cons (gives_map (gives_all (fun s hs => ⟨hs, trivial⟩) _)) ?_
    refine table_cons (gives_map (gives_all (fun s hs => hs) _)) ?_
    refine table_cons (gives_map (neat_annotations.mono fun _ h hr => anns_good h hr)) ?_
    refine table_cons (gives_map (neat_annotations.mono fun _ h hr => anns_good h hr)) ?_
    refine table_cons (gives_map (neat_typeAnns.mono fun _ h hr => typeAnns_good h hr)) ?_
    refine table_cons (gives_map (neat_typeAnns.mono fun _ h hr => typeAnns_good h hr)) ?_
    exact nofun
  · unfold FieldAttr.table at hs
    obtain ⟨h1, hs⟩ := table_none hs
    obtain ⟨h2, hs⟩ := table_none hs
    obtain ⟨h3, hs⟩ := table_none hs
    obtain ⟨h4, hs⟩ := table_none hs
    obtain ⟨h5, hs⟩ := table_none hs
    obtain ⟨h6, hs⟩ := table_none hs
    obtain ⟨h7, hs⟩ := table_none hs
    obtain ⟨h8, hs⟩ := table_none hs
    show s ∉ fieldAttrNames
    simp only [fieldAttrNames, List.mem_cons, List.not_mem_nil, or_false, not_or]
    exact ⟨h1, h2, h3, h4, h5, h6, h7, h8⟩

structure FieldGood (f : Field) : Prop where
  access : KnownFlags f.access
  attrs : ∀ a ∈ f.attrs, FieldAttrGood a

theorem good_field : Gives FieldGood Field.read :=
  gives_ap (gives_ap (gives_ap (gives_map (gives_flags.mono fun _ h1 _ _ _ _ _ h2 => ⟨h1, h2⟩))
    (gives_any _)) (gives_any _)) (gives_vec good_fieldAttr)

theorem good_module : Gives ModuleWritable Module.read :=
  gives_ap (gives_ap (gives_ap (gives_ap (gives_ap (gives_ap (gives_ap (gives_map ((gives_any _).mono
    fun _ _ _ h1 _ _ _ h3 _ h4 _ h5 _ _ _ _ => ⟨h1, h3, h4, h5⟩))
    gives_flags) (gives_any _)) (gives_vec (gives_ap (gives_ap (gives_map ((gives_any _).mono fun _ _ _ h _ _ => h))
      gives_flags) (gives_any _)))) (gives_vec (gives_ap (gives_ap (gives_map ((gives_any _).mono fun _ _ _ h _ _ => h))
      gives_flags) (gives_any _)))) (gives_vec (gives_ap (gives_ap (gives_map ((gives_any _).mono fun _ _ _ h _ _ => h))
      gives_flags) (gives_any _)))) (gives_any _)) (gives_any _)

theorem good_inner : Gives (fun x => KnownFlags x.access) InnerClass.read :=
  gives_ap (gives_ap (gives_ap (gives_map ((gives_any _).mono fun _ _ _ _ _ _ _ h => h)) (gives_any _))
    (gives_any _)) gives_flags

/-- Of tables of bootstrap methods only the numbers of entries and arguments. -/
def ClassAttrGood (a : ClassAttr) : Prop :=
  ((∀ ms, a ≠ .bootstrapMethods ms) → RegularClassAttr a → a.Writable ∧ a.Readable) ∧
    ∀ ms, a = .bootstrapMethods ms → ms.length < 65536 ∧ ∀ b ∈ ms, b.arguments.length < 65536

theorem good_bsm : Gives (fun b => b.arguments.length < 65536) Bsm.read :=
  gives_ap (gives_map ((gives_any _).mono fun _ _ _ h => h)) gives_len

theorem good_classAttr : Gives ClassAttrGood ClassAttr.read := by
  refine gives_attr' (fun name => ?_) fun s b hs => ⟨fun _ _ => ⟨trivial, ?_⟩, nofun⟩
  · unfold ClassAttr.table
    refine table_cons (gives_map (single_classSig.mono fun _ h => ⟨fun _ hr => ⟨hr, h hr⟩, nofun⟩)) ?_
    refine table_cons (gives_pure ⟨fun _ _ => ⟨trivial, trivial⟩, nofun⟩) ?_
    refine table_cons (gives_pure ⟨fun _ _ => ⟨trivial, trivial⟩, nofun⟩) ?_
    refine table_cons (gives_map (gives_all (fun _ => ⟨fun _ _ => ⟨trivial, trivial⟩, nofun⟩) _)) ?_
    refine table_cons (gives_map ((gives_vec good_inner).mono fun _ h => ⟨fun _ _ => ⟨h, trivial⟩, nofun⟩)) ?_
    refine table_cons (gives_ap (gives_map ((gives_any _).mono fun _ _ _ _ => ⟨fun _ hr => ⟨hr, trivial⟩, nofun⟩))
      (gives_any _)) ?_
    refine table_cons (gives_map (gives_all (fun _ => ⟨fun _ hr => ⟨hr, trivial⟩, nofun⟩) _)) ?_
    refine table_cons (gives_map ((gives_list good_bsm).mono fun ms h => ⟨fun hn => absurd rfl (hn ms), fun _ e => by
      cases e; exact h⟩)) ?_
    refine table_cons (gives_map (good_module.mono fun _ h => ⟨fun _ _ => ⟨h, trivial⟩, nofun⟩)) ?_
    refine table_cons (gives_map (gives_all (fun _ => ⟨fun _ _ => ⟨trivial, trivial⟩, nofun⟩) _)) ?_
    refine table_cons (gives_map (gives_all (fun _ => ⟨fun _ _ => ⟨trivial, trivial⟩, nofun⟩) _)) ?_
    refine table_cons (gives_map (gives_all (fun _ => ⟨fun _ _ => ⟨trivial, trivial⟩, nofun⟩) _)) ?_
    refine table_cons (gives_map (gives_all (fun _ => ⟨fun _ _ => ⟨trivial, trivial⟩, nofun⟩) _)) ?_
    refine table_cons (gives_map (neat_annotations.mono fun _ h => ⟨fun _ hr => anns_good h hr, nofun⟩)) ?_
    refine table_cons (gives_map (neat_annotations.mono fun _ h => ⟨fun _ hr => anns_good h hr, nofun⟩)) ?_
    refine table_cons (gives_map (neat_typeAnns.mono fun _ h => ⟨fun _ hr => typeAnns_good h hr, nofun⟩)) ?_
    refine table_cons (gives_map (neat_typeAnns.mono fun _ h => ⟨fun _ hr => typeAnns_good h hr, nofun⟩)) ?_
    exact nofun
  · unfold ClassAttr.table at hs
    obtain ⟨h1, hs⟩ := table_none hs
    obtain ⟨h2, hs⟩ := table_none hs
    obtain ⟨h3, hs⟩ := table_none hs
    obtain ⟨h4, hs⟩ := table_none hs
    obtain ⟨h5, hs⟩ := table_none hs
    obtain ⟨h6, hs⟩ := table_none hs
    obtain ⟨h7, hs⟩ := table_none hs
    obtain ⟨h8, hs⟩ := table_none hs
    obtain ⟨h9, hs⟩ := table_none hs
    obtain ⟨h10, hs⟩ := table_none hs
    obtain ⟨h11, hs⟩ := table_none hs
    obtain ⟨h12, hs⟩ := table_none hs
    obtain ⟨h13, hs⟩ := table_none hs
    obtain ⟨h14, hs⟩ := table_none hs
    obtain ⟨h15, hs⟩ := table_none hs
    obtain ⟨h16, hs⟩ := table_none hs
    obtain ⟨h17, hs⟩ := table_none hs
    show s ∉ classAttrNames
    simp only [classAttrNames, List.mem_cons, List.not_mem_nil, or_false, not_or]
    exact ⟨h1, h2, h3, h4, h5, h6, h7, h8, h9, h10, h11, h12, h13, h14, h15, h16, h17⟩

end Verif
