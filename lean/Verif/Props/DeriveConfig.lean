import Verif.Spec.DeriveConfig
import Verif.Model.Derive

/-! # C81: the configuration of the derive macros -/

namespace Verif.Props
open Verif.DeriveConfig

theorem isIdent_iff {p : Path} {s : String} : p.isIdent s = true ↔ p = name s := by
  obtain ⟨l, segs⟩ := p
  unfold Path.isIdent name
  match l, segs with
  | false, [x] => simp [Path.getIdent]
  | true, _ => simp [Path.getIdent]
  | false, [] => simp [Path.getIdent]
  | false, _ :: _ :: _ => simp [Path.getIdent]

theorem getIdent_iff {p : Path} {s : String} : p.getIdent = some s ↔ p = name s := by
  rw [← isIdent_iff, Path.isIdent, beq_iff_eq]

/-- Folding the closure over the items. -/
def foldItems {σ : Type} (f : σ → Meta → Option σ) : List Meta → σ → Option σ
  | [], s => some s
  | m :: ms, s =>
    match f s m with
    | some s => foldItems f ms s
    | none => none

theorem foldItems_append {σ : Type} (f : σ → Meta → Option σ) (ns ms : List Meta) (s : σ) :
    foldItems f (ns ++ ms) s = (foldItems f ns s).bind (foldItems f ms) := by
  induction ns generalizing s with
  | nil => rfl
  | cons n ns ih =>
    rw [List.cons_append, foldItems, foldItems]
    cases f s n with
    | none => rfl
    | some s => exact ih s

theorem eachItem_ok {σ : Type} {f : σ → Meta → Option σ} {l : List (Option Meta)} {s t : σ} :
    eachItem f l s = some t ↔ ∃ ns, l = ns.map some ∧ foldItems f ns s = some t := by
  induction l generalizing s with
  | nil =>
    rw [eachItem]
    constructor
    · intro h; exact ⟨[], rfl, h⟩
    · rintro ⟨ns, h, h1⟩
      cases ns with
      | nil => exact h1
      | cons => cases h
  | cons m l ih =>
    cases m with
    | none =>
      rw [eachItem]
      constructor
      · intro h; cases h
      · rintro ⟨ns, h, _⟩
        cases ns with
        | nil => cases h
        | cons => cases h
    | some m =>
      rw [eachItem]
      constructor
      · intro h
        split at h
        · rename_i s' hs
          obtain ⟨ns, rfl, h1⟩ := ih.mp h
          exact ⟨m :: ns, rfl, by rw [foldItems, hs]; exact h1⟩
        · cases h
      · rintro ⟨ns, h, h1⟩
        cases ns with
        | nil => cases h
        | cons n ns =>
          simp only [List.map_cons, List.cons.injEq, Option.some.injEq] at h
          obtain ⟨rfl, rfl⟩ := h
          rw [foldItems] at h1
          split at h1
          · rename_i s' hs
            rw [hs]
            exact ih.mpr ⟨ns, rfl, h1⟩
          · cases h1

/-- Everything is decided by the items. -/
theorem parseCommon_ok {σ : Type} {f : σ → Meta → Option σ} {as : List Attr} {s t : σ} :
    parseCommon f as s = some t ↔ ∃ ms, Items as ms ∧ foldItems f ms s = some t := by
  induction as generalizing s with
  | nil =>
    rw [parseCommon]
    constructor
    · intro h; exact ⟨[], .nil, h⟩
    · rintro ⟨ms, h, h1⟩; cases h; exact h1
  | cons a as ih =>
    obtain ⟨ap, ai⟩ := a
    rw [parseCommon]
    by_cases hc : ap = name "coffer"
    · subst hc
      rw [if_pos (isIdent_iff.mpr rfl)]
      constructor
      · intro h
        split at h
        · rename_i p ns hi
          simp only at hi
          subst hi
          split at h
          · rename_i s' hs
            obtain ⟨ns', rfl, h1⟩ := eachItem_ok.mp hs
            obtain ⟨ms, h2, h3⟩ := ih.mp h
            exact ⟨ns' ++ ms, .coffer h2, by rw [foldItems_append, h1]; exact h3⟩
          · cases h
        · cases h
      · rintro ⟨ms, h, h1⟩
        cases h with
        | other h2 => exact absurd rfl h2
        | @coffer p _ ns ms h2 =>
          rw [foldItems_append] at h1
          obtain ⟨s', h3, h4⟩ := Option.bind_eq_some_iff.mp h1
          simp only [eachItem_ok.mpr ⟨ns, rfl, h3⟩]
          exact ih.mpr ⟨ms, h2, h4⟩
    · rw [if_neg fun h => hc (isIdent_iff.mp h)]
      constructor
      · intro h
        obtain ⟨ms, h1, h2⟩ := ih.mp h
        exact ⟨ms, .other hc h1, h2⟩
      · rintro ⟨ms, h, h1⟩
        cases h with
        | other _ h2 => exact ih.mpr ⟨ms, h2, h1⟩
        | coffer => exact absurd rfl hc

/-! ## The three kinds of items -/

theorem containerItem_ok {t t' : Option String} {m : Meta} :
    containerItem t m = some t' ↔ ∃ o, TagType m o ∧ t' = o.or t := by
  constructor
  · intro h
    unfold containerItem at h
    split at h
    · split at h
      · rename_i hp
        have hp := isIdent_iff.mp hp
        subst hp
        split at h
        · rename_i q
          split at h
          · rename_i i hi
            cases h
            rw [getIdent_iff.mp hi]
            exact ⟨some i, .ident i, rfl⟩
          · rename_i hn
            cases h
            exact ⟨none, .path (fun i hq => by rw [getIdent_iff.mpr hq] at hn; cases hn), rfl⟩
        · cases h
      · cases h
    · cases h
  · rintro ⟨o, h, rfl⟩
    cases h with
    | ident i => rfl
    | @path q hq =>
      rw [containerItem, if_pos (isIdent_iff.mpr rfl)]
      split
      · rename_i i hi
        exact absurd (getIdent_iff.mp hi) (hq i)
      · rfl

theorem variantItem_ok {c c' : Flags} {m : Meta} : variantItem c m = some c' ↔
    ∃ s, VariantItem m s ∧ c' = match s with
      | .raw => { c with raw := true }
      | .tag n => { c with tag := some n }
      | .size n => { c with estimatedSize := some n } := by
  constructor
  · intro h
    unfold variantItem at h
    split at h
    · split at h
      · rename_i hp
        cases h
        rw [isIdent_iff.mp hp]
        exact ⟨.raw, .raw, rfl⟩
      · cases h
    · split at h
      · rename_i hp
        split at h
        · rename_i hn
          cases h
          rw [isIdent_iff.mp hp]
          exact ⟨_, .tag hn, rfl⟩
        · cases h
      · split at h
        · rename_i hp
          split at h
          · rename_i hn
            cases h
            rw [isIdent_iff.mp hp]
            exact ⟨_, .size hn, rfl⟩
          · cases h
        · cases h
    · cases h
  · rintro ⟨s, h, rfl⟩
    cases h with
    | raw => rfl
    | tag hn => rw [variantItem, if_pos (isIdent_iff.mpr rfl), if_pos hn]
    | size hn =>
      rw [variantItem, if_neg (by decide), if_pos (isIdent_iff.mpr rfl), if_pos hn]

theorem fieldItem_ok {Ty : Type} {parseTy : String → Option Ty} {c c' : Option Ty} {m : Meta} :
    fieldItem parseTy c m = some c' ↔ ∃ t, FieldItem parseTy m t ∧ c' = some t := by
  constructor
  · intro h
    unfold fieldItem at h
    split at h
    · split at h
      · rename_i hp
        split at h
        · rename_i t ht
          cases h
          rw [isIdent_iff.mp hp]
          exact ⟨t, .as_ ht, rfl⟩
        · cases h
      · cases h
    · cases h
  · rintro ⟨t, h, rfl⟩
    cases h with
    | as_ h => rw [fieldItem, if_pos (isIdent_iff.mpr rfl), h]

/-! ## Lists of items -/

theorem getLast_cons {α : Type} (a : α) (l : List α) : (a :: l).getLast? = l.getLast?.or (some a) := by
  cases l with
  | nil => rfl
  | cons b l => rw [List.getLast?_cons_cons]; cases h : (b :: l).getLast? with
    | none => simp at h
    | some x => rfl

theorem container_fold {ms : List Meta} {t t' : Option String} : foldItems containerItem ms t = some t' ↔
    ∃ os, Both TagType ms os ∧ t' = (os.filterMap id).getLast?.or t := by
  induction ms generalizing t with
  | nil =>
    rw [foldItems]
    constructor
    · intro h; cases h; exact ⟨[], .nil, rfl⟩
    · rintro ⟨os, h, rfl⟩; cases h; rfl
  | cons m ms ih =>
    rw [foldItems]
    have step : ∀ (o : Option String) (os : List (Option String)),
        (os.filterMap id).getLast?.or (o.or t) = ((o :: os).filterMap id).getLast?.or t := by
      intro o os
      cases o with
      | none => rfl
      | some i =>
        rw [List.filterMap_cons_some (by rfl), getLast_cons]
        cases (os.filterMap id).getLast? <;> rfl
    constructor
    · intro h
      split at h
      · rename_i t1 h1
        obtain ⟨o, ho, rfl⟩ := containerItem_ok.mp h1
        obtain ⟨os, h2, rfl⟩ := ih.mp h
        exact ⟨o :: os, .cons ho h2, step o os⟩
      · cases h
    · rintro ⟨os, h, rfl⟩
      cases h with
      | @cons _ o _ os ho h =>
        rw [containerItem_ok.mpr ⟨o, ho, rfl⟩]
        exact ih.mpr ⟨os, h, (step o os).symm⟩

theorem field_fold {Ty : Type} {parseTy : String → Option Ty} {ms : List Meta} {c c' : Option Ty} :
    foldItems (fieldItem parseTy) ms c = some c' ↔
      ∃ ts, Both (FieldItem parseTy) ms ts ∧ c' = ts.getLast?.or c := by
  induction ms generalizing c with
  | nil =>
    rw [foldItems]
    constructor
    · intro h; cases h; exact ⟨[], .nil, rfl⟩
    · rintro ⟨os, h, rfl⟩; cases h; rfl
  | cons m ms ih =>
    rw [foldItems]
    have step : ∀ (t : Ty) (ts : List Ty), ts.getLast?.or (some t) = (t :: ts).getLast?.or c := by
      intro t ts
      rw [getLast_cons]
      cases ts.getLast? <;> rfl
    constructor
    · intro h
      split at h
      · rename_i t1 h1
        obtain ⟨o, ho, rfl⟩ := fieldItem_ok.mp h1
        obtain ⟨os, h2, rfl⟩ := ih.mp h
        exact ⟨o :: os, .cons ho h2, step o os⟩
      · cases h
    · rintro ⟨os, h, rfl⟩
      cases h with
      | @cons _ o _ os ho h =>
        rw [fieldItem_ok.mpr ⟨o, ho, rfl⟩]
        exact ih.mpr ⟨os, h, (step o os).symm⟩

/-- The settings, after those in `c`. -/
def after (c : Flags) (ss : List Setting) : Flags :=
  ⟨(ss.filterMap Setting.size?).getLast?.or c.estimatedSize, (ss.filterMap Setting.tag?).getLast?.or c.tag,
    c.raw || decide (Setting.raw ∈ ss)⟩

theorem after_cons (c : Flags) (s : Setting) (ss : List Setting) : after c (s :: ss) =
    after (match s with
      | .raw => { c with raw := true }
      | .tag n => { c with tag := some n }
      | .size n => { c with estimatedSize := some n }) ss := by
  cases s with
  | raw => simp [after, List.filterMap_cons, Setting.size?, Setting.tag?]
  | tag n =>
    simp only [after, List.filterMap_cons, Setting.size?, Setting.tag?, getLast_cons, List.mem_cons,
      Flags.mk.injEq, true_and]
    refine ⟨?_, by simp⟩
    cases (ss.filterMap Setting.tag?).getLast? <;> rfl
  | size n =>
    simp only [after, List.filterMap_cons, Setting.size?, Setting.tag?, getLast_cons, List.mem_cons,
      Flags.mk.injEq, true_and]
    refine ⟨?_, by simp⟩
    cases (ss.filterMap Setting.size?).getLast? <;> rfl

theorem variant_fold {ms : List Meta} {c c' : Flags} : foldItems variantItem ms c = some c' ↔
    ∃ ss, Both VariantItem ms ss ∧ c' = after c ss := by
  induction ms generalizing c with
  | nil =>
    rw [foldItems]
    constructor
    · intro h; cases h; exact ⟨[], .nil, by simp [after]⟩
    · rintro ⟨os, h, rfl⟩; cases h; simp [after]
  | cons m ms ih =>
    rw [foldItems]
    constructor
    · intro h
      split at h
      · rename_i t1 h1
        obtain ⟨o, ho, rfl⟩ := variantItem_ok.mp h1
        obtain ⟨os, h2, rfl⟩ := ih.mp h
        exact ⟨o :: os, .cons ho h2, (after_cons ..).symm⟩
      · cases h
    · rintro ⟨os, h, rfl⟩
      cases h with
      | @cons _ o _ os ho h =>
        rw [variantItem_ok.mpr ⟨o, ho, rfl⟩]
        exact ih.mpr ⟨os, h, after_cons ..⟩

theorem after_says {ss : List Setting} {c : Flags} : c = after {} ss ↔ SaysFlags ss c := by
  constructor
  · rintro rfl
    exact ⟨by simp [after], by simp [after], by simp [after]⟩
  · rintro ⟨h1, h2, h3⟩
    obtain ⟨e, t, r⟩ := c
    simp only at h1 h2 h3
    simp only [after, Flags.mk.injEq, Bool.false_or, Option.or_none]
    refine ⟨h3, h2, ?_⟩
    by_cases h : Setting.raw ∈ ss
    · rw [h1.mpr h, decide_eq_true h]
    · rw [decide_eq_false h]
      cases r with
      | false => rfl
      | true => exact absurd (h1.mp rfl) h

/-! ## Theorems -/

/-- C81. The attributes of a declaration are accepted exactly if every item of `coffer` is
`tag_type(path)`; the last one with an identifier is the type of the tag. -/
theorem C81_container {as : List Attr} {t : Option String} :
    parseCommon containerItem as none = some t ↔
      ∃ ms os, Items as ms ∧ Both TagType ms os ∧ t = (os.filterMap id).getLast? := by
  rw [parseCommon_ok]
  constructor
  · rintro ⟨ms, h, h1⟩
    obtain ⟨os, h2, h3⟩ := container_fold.mp h1
    exact ⟨ms, os, h, h2, by rw [h3, Option.or_none]⟩
  · rintro ⟨ms, os, h, h2, rfl⟩
    exact ⟨ms, h, container_fold.mpr ⟨os, h2, by rw [Option.or_none]⟩⟩

/-- C81. The attributes of a variant are accepted exactly if every item of `coffer` is `raw_variant`,
`tag = n` or `estimated_size = n` with numbers that fit; the last of each counts. -/
theorem C81_variant {as : List Attr} {c : Flags} :
    parseCommon variantItem as {} = some c ↔
      ∃ ms ss, Items as ms ∧ Both VariantItem ms ss ∧ SaysFlags ss c := by
  rw [parseCommon_ok]
  constructor
  · rintro ⟨ms, h, h1⟩
    obtain ⟨os, h2, h3⟩ := variant_fold.mp h1
    exact ⟨ms, os, h, h2, after_says.mp h3⟩
  · rintro ⟨ms, os, h, h2, h3⟩
    exact ⟨ms, h, variant_fold.mpr ⟨os, h2, after_says.mpr h3⟩⟩

/-- C81. The attributes of a field are accepted exactly if every item of `coffer` is `as = "type"`;
the last one counts. -/
theorem C81_field {Ty : Type} {parseTy : String → Option Ty} {as : List Attr} {c : Option Ty} :
    parseField parseTy as = some c ↔
      ∃ ms ts, Items as ms ∧ Both (FieldItem parseTy) ms ts ∧ c = ts.getLast? := by
  rw [parseField, parseCommon_ok]
  constructor
  · rintro ⟨ms, h, h1⟩
    obtain ⟨os, h2, h3⟩ := field_fold.mp h1
    exact ⟨ms, os, h, h2, by rw [h3, Option.or_none]⟩
  · rintro ⟨ms, os, h, h2, rfl⟩
    exact ⟨ms, h, field_fold.mpr ⟨os, h2, by rw [Option.or_none]⟩⟩

theorem parseFields_ok {Ty : Type} {parseTy : String → Option Ty} {fs : List (List Attr)} {cs : List (Option Ty)} :
    parseFields parseTy fs = some cs ↔ Both (fun f c => parseField parseTy f = some c) fs cs := by
  induction fs generalizing cs with
  | nil =>
    rw [parseFields]
    constructor
    · intro h; cases h; exact .nil
    · intro h; cases h; rfl
  | cons f fs ih =>
    rw [parseFields]
    constructor
    · intro h
      split at h
      · cases h
      rename_i c hc
      split at h
      · cases h
      rename_i cs' hcs
      cases h
      exact .cons hc (ih.mp hcs)
    · intro h
      cases h with
      | cons hc h => rw [hc, ih.mpr h]

theorem parseVariant_ok {Ty : Type} {parseTy : String → Option Ty} {v : Variant} {c : Flags}
    {fs : List (Option Ty)} : parseVariant parseTy v = some (c, fs) ↔
      parseCommon variantItem v.attrs {} = some c ∧ Both (fun f c => parseField parseTy f = some c) v.fields fs := by
  unfold parseVariant
  constructor
  · intro h
    split at h
    · cases h
    rename_i c hc
    split at h
    · cases h
    rename_i cs' hcs
    cases h
    exact ⟨hc, parseFields_ok.mp hcs⟩
  · rintro ⟨h1, h2⟩
    rw [h1, parseFields_ok.mpr h2]

/-- The index of the only raw variant, counted from `i`. -/
def RawAt {α : Type} (i : Nat) (cs : List (Flags × α)) (raw : Option Nat) : Prop :=
  match raw with
  | none => ∀ c ∈ cs, c.1.raw = false
  | some k => i ≤ k ∧ (∃ c, cs[k - i]? = some c ∧ c.1.raw = true) ∧
      ∀ j c, cs[j]? = some c → c.1.raw = true → j = k - i

theorem parseVariants_ok {Ty : Type} {parseTy : String → Option Ty} {vs : List Variant} {i : Nat}
    {raw raw' : Option Nat} {cs : List (Flags × List (Option Ty))} :
    parseVariants parseTy i vs raw = some (cs, raw') ↔
      Both (fun v c => parseVariant parseTy v = some c) vs cs ∧
        match raw with
        | some k => raw' = some k ∧ ∀ c ∈ cs, c.1.raw = false
        | none => RawAt i cs raw' := by
  induction vs generalizing i raw cs with
  | nil =>
    unfold parseVariants
    constructor
    · intro h
      simp only [Option.some.injEq, Prod.mk.injEq] at h
      obtain ⟨rfl, rfl⟩ := h
      refine ⟨.nil, ?_⟩
      cases raw with
      | none => intro c hc; cases hc
      | some k => exact ⟨rfl, fun c hc => (nomatch hc)⟩
    · rintro ⟨h, h1⟩
      cases h
      cases raw with
      | some k => rw [h1.1]
      | none =>
        cases raw' with
        | none => rfl
        | some k => obtain ⟨_, ⟨c, hc, _⟩, _⟩ := h1; simp at hc
  | cons v vs ih =>
    unfold parseVariants
    constructor
    · intro h
      split at h
      · cases h
      rename_i c hc
      simp only at h
      split at h
      · cases h
      rename_i raw1 hr
      split at h
      · cases h
      rename_i cs1 raw2 hcs
      cases h
      obtain ⟨h1, h2⟩ := ih.mp hcs
      refine ⟨.cons hc h1, ?_⟩
      split at hr
      · rename_i hraw
        split at hr
        · cases hr
        cases hr
        obtain ⟨h3, h4⟩ := h2
        subst h3
        refine ⟨Nat.le_refl _, ⟨c, by simp, hraw⟩, ?_⟩
        intro j d hd hdr
        cases j with
        | zero => simp
        | succ j =>
          have := h4 d (List.mem_of_getElem? (by simpa using hd))
          rw [this] at hdr
          cases hdr
      · rename_i hraw
        cases hr
        cases raw with
        | some k =>
          refine ⟨h2.1, fun d hd => ?_⟩
          rcases List.mem_cons.mp hd with rfl | hd
          · simpa using hraw
          · exact h2.2 d hd
        | none =>
          cases raw' with
          | none =>
            intro d hd
            rcases List.mem_cons.mp hd with rfl | hd
            · simpa using hraw
            · exact h2 d hd
          | some k =>
            obtain ⟨h3, ⟨d, hd, hdr⟩, h5⟩ := h2
            have e : k - i = (k - (i + 1)) + 1 := by omega
            refine ⟨by omega, ⟨d, by rw [e]; simpa using hd, hdr⟩, ?_⟩
            intro j d' hd' hr'
            cases j with
            | zero => simp at hd'; subst hd'; exact absurd hr' hraw
            | succ j => rw [e, h5 j d' (by simpa using hd') hr']
    · rintro ⟨h, h1⟩
      cases h with
      | @cons _ c _ cs1 hc h =>
        rw [hc]
        simp only
        by_cases hraw : c.1.raw = true
        · cases raw with
          | some k => exact absurd (h1.2 c (by simp)) (by rw [hraw]; simp)
          | none =>
            rw [if_pos hraw]
            simp only
            have hr : raw' = some i ∧ ∀ d ∈ cs1, d.1.raw = false := by
              cases raw' with
              | none => exact absurd (h1 c (by simp)) (by rw [hraw]; simp)
              | some k =>
                obtain ⟨h3, _, h5⟩ := h1
                have := h5 0 c (by simp) hraw
                refine ⟨by rw [show k = i by omega], fun d hd => ?_⟩
                obtain ⟨j, hj⟩ := List.getElem?_of_mem hd
                cases hdr : d.1.raw with
                | false => rfl
                | true => have := h5 (j + 1) d (by simpa using hj) hdr; omega
            rw [ih.mpr ⟨h, hr⟩]
        · rw [if_neg hraw]
          simp only
          rw [ih.mpr ⟨h, ?_⟩]
          cases raw with
          | some k => exact ⟨h1.1, fun d hd => h1.2 d (by simp [hd])⟩
          | none =>
            cases raw' with
            | none => exact fun d hd => h1 d (by simp [hd])
            | some k =>
              obtain ⟨h3, ⟨d, hd, hdr⟩, h5⟩ := h1
              have hk : k - i ≠ 0 := by
                intro h0
                rw [h0] at hd
                simp at hd
                subst hd
                exact hraw hdr
              have e : k - i = (k - (i + 1)) + 1 := by omega
              refine ⟨by omega, ⟨d, by rw [e] at hd; simpa using hd, hdr⟩, ?_⟩
              intro j d' hd' hr'
              have := h5 (j + 1) d' (by simpa using hd') hr'
              omega

/-- C81. A declaration is accepted exactly if all its attributes are and at most one variant is raw;
the configuration is that of its parts. -/
theorem C81_decl {Ty : Type} {parseTy : String → Option Ty} {d : Decl} {cfg : Config Ty} :
    parseDecl parseTy d = some cfg ↔
      parseCommon containerItem d.attrs none = some cfg.tagType ∧
      Both (fun v c => parseCommon variantItem v.attrs {} = some c.1 ∧
        Both (fun f t => parseField parseTy f = some t) v.fields c.2) d.variants cfg.variants ∧
      RawAt 0 cfg.variants cfg.rawVariant := by
  have hv : ∀ (vs : List Variant) (cs : List (Flags × List (Option Ty))),
      Both (fun v c => parseVariant parseTy v = some c) vs cs ↔
      Both (fun v c => parseCommon variantItem v.attrs {} = some c.1 ∧
        Both (fun f t => parseField parseTy f = some t) v.fields c.2) vs cs := by
    intro vs cs
    constructor
    · intro h
      induction h with
      | nil => exact .nil
      | cons h _ ih => exact .cons (parseVariant_ok.mp h) ih
    · intro h
      induction h with
      | nil => exact .nil
      | cons h _ ih => exact .cons (parseVariant_ok.mpr h) ih
  unfold parseDecl
  constructor
  · intro h
    split at h
    · cases h
    rename_i t ht
    split at h
    · cases h
    rename_i vs raw hvs
    cases h
    obtain ⟨h1, h2⟩ := parseVariants_ok.mp hvs
    exact ⟨ht, (hv _ _).mp h1, h2⟩
  · rintro ⟨h1, h2, h3⟩
    rw [h1, parseVariants_ok.mpr ⟨(hv _ _).mpr h2, h3⟩]

theorem items_unique {as : List Attr} {ms ms' : List Meta} (h : Items as ms) (h' : Items as ms') : ms = ms' := by
  induction h generalizing ms' with
  | nil => cases h'; rfl
  | other hn _ ih =>
    cases h' with
    | other _ h' => exact ih h'
    | coffer => exact absurd rfl hn
  | @coffer p as ns ms _ ih =>
    generalize ha : Attr.mk (name "coffer") (some (Meta.list p (ns.map some))) = a at h'
    cases h' with
    | other hn => subst ha; exact absurd rfl hn
    | @coffer p' _ ns' ms' h' =>
      simp only [Attr.mk.injEq, Option.some.injEq, Meta.list.injEq, true_and] at ha
      have e : ns = ns' := by
        have := ha.2
        exact (List.map_inj_right (fun _ _ h => Option.some.inj h)).mp this
      rw [ih h', e]

/-- C81. On a structure no item is accepted at all, as its attributes are read both as those of the
declaration and as those of its variant. -/
theorem C81_struct {Ty : Type} {parseTy : String → Option Ty} {as : List Attr} {fs : List (List Attr)}
    {cfg : Config Ty} (h : parseDecl parseTy (.struct as fs) = some cfg) : Items as [] := by
  obtain ⟨h1, h2, _⟩ := C81_decl.mp h
  obtain ⟨ms, os, h3, h4, _⟩ := C81_container.mp h1
  cases hv : cfg.variants with
  | nil => rw [hv] at h2; cases h2
  | cons c cs =>
    rw [hv] at h2
    cases h2 with
    | cons h2 =>
      obtain ⟨ms', ss, h5, h6, _⟩ := C81_variant.mp h2.1
      have e := items_unique h3 h5
      subst e
      cases h4 with
      | nil => exact h3
      | cons ha _ =>
        cases h6 with
        | cons hb _ => cases ha <;> cases hb

/-! ## Honoured or refused -/

/-- Full statement: an attribute that says the tag of a variant is honoured, or the declaration is
refused. -/
def C81_full : Prop :=
  ∀ (Ty : Type) (parseTy : String → Option Ty) (d : Decl) (cfg : Config Ty), parseDecl parseTy d = some cfg →
    ∀ (i : Nat) (v : Variant) (c : Flags × List (Option Ty)), d.variants[i]? = some v → cfg.variants[i]? = some c →
      ∀ a ∈ v.attrs, ∀ n, SaysTag a n → c.1.tag = some n

/-- `#[coffer(tag_type(u8))] enum E { #[tag = 5] A }` -/
def plainTag : Decl :=
  ⟨[⟨name "coffer", some (.list (name "coffer") [some (.list (name "tag_type") [some (.path (name "u8"))])])⟩],
    [⟨[⟨name "tag", some (.nameValue (name "tag") (.int 5))⟩], []⟩]⟩

/-- The attribute `tag`, which `derive(ReadWrite)` declares, is ignored without notice. -/
theorem C81_violated : ¬ C81_full := by
  intro h
  have := h Unit (fun _ => none) plainTag ⟨[({}, [])], none, some "u8"⟩ rfl 0 _ _ rfl rfl _
    (List.mem_singleton.mpr rfl) 5 .value
  cases this

/-- `#[coffer(tag_type(a::u8))]`: the type is ignored without notice. -/
theorem C81_violated_path : parseCommon containerItem
    [⟨name "coffer", some (.list (name "coffer") [some (.list (name "tag_type") [some (.path ⟨false, ["a", "u8"]⟩)])])⟩]
      none = some none := rfl

/-- `#[coffer(tag = 1, tag = 2)]`: of two tags the first is ignored without notice. -/
theorem C81_violated_twice : parseCommon variantItem
    [⟨name "coffer", some (.list (name "coffer") [some (.nameValue (name "tag") (.int 1)),
      some (.nameValue (name "tag") (.int 2))])⟩] {} = some { tag := some 2 } := rfl

/-- C81. What holds: an attribute `coffer` that says the tag is honoured if no other says another one.
Missing: attributes other than `coffer`, which are ignored. -/
theorem C81_tag_partial {Ty : Type} {parseTy : String → Option Ty} {d : Decl} {cfg : Config Ty}
    (h : parseDecl parseTy d = some cfg) {i : Nat} {v : Variant} {c : Flags × List (Option Ty)}
    (hv : d.variants[i]? = some v) (hc : cfg.variants[i]? = some c) {a : Attr} (ha : a ∈ v.attrs)
    (hcof : a.path = name "coffer") {n : Nat} (hs : SaysTag a n)
    (hone : ∀ b ∈ v.attrs, ∀ k, SaysTag b k → k = n) : c.1.tag = some n := by
  have hboth : ∀ {α β : Type} {R : α → β → Prop} {as : List α} {bs : List β}, Both R as bs →
      ∀ (i : Nat) a b, as[i]? = some a → bs[i]? = some b → R a b := by
    intro α β R as bs h
    induction h with
    | nil => intro i a b h; simp at h
    | cons h _ ih =>
      intro i a b h1 h2
      cases i with
      | zero => simp at h1 h2; subst h1; subst h2; exact h
      | succ i => exact ih i a b (by simpa using h1) (by simpa using h2)
  have hp := (hboth (C81_decl.mp h).2.1 i v c hv hc).1
  obtain ⟨ms, ss, h1, h2, h3⟩ := C81_variant.mp hp
  -- the item is one of `ms`, and all items `tag = k` come from attributes
  have hin : ∀ {as : List Attr} {ms : List Meta}, Items as ms →
      (∀ b ∈ as, b.path = name "coffer" → ∀ k, SaysTag b k → .nameValue (name "tag") (.int k) ∈ ms) ∧
      ∀ k, .nameValue (name "tag") (.int k) ∈ ms → ∃ b ∈ as, SaysTag b k := by
    intro as ms h
    induction h with
    | nil => exact ⟨fun b hb => (nomatch hb), fun k hk => (nomatch hk)⟩
    | @other a as ms hn _ ih =>
      refine ⟨fun b hb hp k hk => ?_, fun k hk => ?_⟩
      · rcases List.mem_cons.mp hb with rfl | hb
        · exact absurd hp hn
        · exact ih.1 b hb hp k hk
      · obtain ⟨b, hb, hs⟩ := ih.2 k hk
        exact ⟨b, by simp [hb], hs⟩
    | @coffer p as ns ms _ ih =>
      refine ⟨fun b hb hp k hk => ?_, fun k hk => ?_⟩
      · rcases List.mem_cons.mp hb with rfl | hb
        · generalize hx : Attr.mk (name "coffer") (some (Meta.list p (ns.map some))) = x at hk
          cases hk with
          | coffer hm =>
            simp only [Attr.mk.injEq, Option.some.injEq, Meta.list.injEq, true_and] at hx
            rw [← hx.2] at hm
            obtain ⟨m, hm, e⟩ := List.mem_map.mp hm
            cases e
            exact List.mem_append_left _ hm
          | value => simp [name] at hx
        · exact List.mem_append_right _ (ih.1 b hb hp k hk)
      · rcases List.mem_append.mp hk with hk | hk
        · exact ⟨_, List.mem_cons_self .., .coffer (List.mem_map.mpr ⟨_, hk, rfl⟩)⟩
        · obtain ⟨b, hb, hs⟩ := ih.2 k hk
          exact ⟨b, by simp [hb], hs⟩
  have hset : ∀ {ms : List Meta} {ss : List Setting}, Both VariantItem ms ss →
      ∀ k, k ∈ ss.filterMap Setting.tag? ↔ .nameValue (name "tag") (.int k) ∈ ms := by
    intro ms ss h k
    induction h with
    | nil => simp
    | cons hx _ ih =>
      cases hx with
      | raw => simp [List.filterMap_cons, Setting.tag?, ih]
      | tag => simp [Setting.tag?, ih]
      | size => simp [List.filterMap_cons, Setting.tag?, ih, name]
  have hm := (hset h2 n).mpr ((hin h1).1 a ha hcof n hs)
  rw [h3.tag]
  cases hl : (ss.filterMap Setting.tag?).getLast? with
  | none => rw [List.getLast?_eq_none_iff.mp hl] at hm; cases hm
  | some k =>
    have hk := List.mem_of_getLast? hl
    obtain ⟨b, hb, hbs⟩ := (hin h1).2 k ((hset h2 k).mp hk)
    rw [hone b hb k hbs]

/-- `#[coffer(tag_type(u8))] enum E { #[coffer(tag = 5)] A }` -/
example : ∃ d cfg, parseDecl (Ty := Unit) (fun _ => none) d = some cfg ∧ cfg.tagType = some "u8" ∧
    cfg.variants = [({ tag := some 5 }, [])] := by
  refine ⟨⟨[⟨name "coffer", some (.list (name "coffer") [some (.list (name "tag_type") [some (.path (name "u8"))])])⟩],
    [⟨[⟨name "coffer", some (.list (name "coffer") [some (.nameValue (name "tag") (.int 5))])⟩], []⟩]⟩, _, rfl, rfl, rfl⟩

/-! ## From the configuration to the generated code -/

/-- The variants the macro generates code for: types of the fields and discriminants from the
declaration, helpers and tags from the configuration. -/
def declared {K : Derive.Crate} (shape : List (List K.Ty × Option Derive.Disc)) (cfg : Config K.Helper) :
    List (Derive.VariantDecl K) :=
  List.zipWith (fun s c => ⟨List.zipWith (fun t h => ⟨t, h⟩) s.1 c.2, c.1.tag, s.2⟩) shape cfg.variants

theorem tags_at {K : Derive.Crate} {vs : List (Derive.VariantDecl K)} {f i n : Nat} {v : Derive.VariantDecl K}
    (hv : vs[i]? = some v) (ht : v.tag = some n) : (Derive.tags f vs)[i]? = some n := by
  induction vs generalizing f i with
  | nil => simp at hv
  | cons w vs ih =>
    rw [Derive.tags]
    cases i with
    | zero => simp at hv; subst hv; simp [ht]
    | succ i => simpa using ih (by simpa using hv)

/-- C81. The tag written and read for a variant is the one its attribute `coffer` says, whatever
discriminants there are, if no other attribute says another one. -/
theorem C81_tag_generated_partial {K : Derive.Crate} {parseTy : String → Option K.Helper} {d : Decl}
    {cfg : Config K.Helper} (h : parseDecl parseTy d = some cfg)
    {shape : List (List K.Ty × Option Derive.Disc)} (hl : shape.length = d.variants.length)
    {i : Nat} {v : Variant} (hv : d.variants[i]? = some v) {a : Attr} (ha : a ∈ v.attrs)
    (hcof : a.path = name "coffer") {n : Nat} (hs : SaysTag a n)
    (hone : ∀ b ∈ v.attrs, ∀ k, SaysTag b k → k = n) :
    (Derive.tags 0 (declared shape cfg))[i]? = some n := by
  have hlen : ∀ {α β : Type} {R : α → β → Prop} {as : List α} {bs : List β}, Both R as bs →
      as.length = bs.length := by
    intro α β R as bs h
    induction h with
    | nil => rfl
    | cons _ _ ih => simp [ih]
  have hc := hlen (C81_decl.mp h).2.1
  have hi : i < d.variants.length := (List.getElem?_eq_some_iff.mp hv).1
  obtain ⟨c, hcv⟩ : ∃ c, cfg.variants[i]? = some c := ⟨_, List.getElem?_eq_getElem (by omega)⟩
  obtain ⟨s, hsv⟩ : ∃ s, shape[i]? = some s := ⟨_, List.getElem?_eq_getElem (by omega)⟩
  have := C81_tag_partial h hv hcv ha hcof hs hone
  refine tags_at (v := ⟨List.zipWith (fun t h => ⟨t, h⟩) s.1 c.2, c.1.tag, s.2⟩) ?_ this
  rw [declared, List.getElem?_zipWith, hsv, hcv]

/-- With `#[tag = 5]` the tag that is written is 0. -/
example (K : Derive.Crate) (cfg : Config K.Helper) (h : parseDecl (fun _ => none) plainTag = some cfg) :
    Derive.tags 0 (declared [([], none)] cfg) = [0] := by
  cases h
  rfl

/-- `#[derive(Debug)] struct S { #[coffer(as = "h")] a, #[doc = "…"] b }` is accepted. -/
example : parseDecl (fun s => if s = "h" then some s else none) (.struct [⟨name "doc", none⟩]
      [[⟨name "coffer", some (.list (name "coffer") [some (.nameValue (name "as") (.str "h"))])⟩],
        [⟨name "doc", some (.nameValue (name "doc") (.str "…"))⟩]]) =
    some ⟨[({}, [some "h", none])], none, none⟩ := rfl

/-- A second raw variant is refused; `estimated_size` counts where it stands. -/
example :
    parseDecl (Ty := Unit) (fun _ => none) ⟨[], [
      ⟨[⟨name "coffer", some (.list (name "coffer") [some (.nameValue (name "estimated_size") (.int 6))])⟩], []⟩,
      ⟨[⟨name "coffer", some (.list (name "coffer") [some (.path (name "raw_variant"))])⟩], [[]]⟩]⟩ =
        some ⟨[({ estimatedSize := some 6 }, []), ({ raw := true }, [none])], some 1, none⟩ ∧
    parseDecl (Ty := Unit) (fun _ => none) ⟨[], [
      ⟨[⟨name "coffer", some (.list (name "coffer") [some (.path (name "raw_variant"))])⟩], [[]]⟩,
      ⟨[⟨name "coffer", some (.list (name "coffer") [some (.path (name "raw_variant"))])⟩], [[]]⟩]⟩ = none :=
  ⟨rfl, rfl⟩

/-- An item the macro does not know is refused: `#[coffer(str_type(Class))]`, as documented. -/
example : parseField (Ty := Unit) (fun _ => none)
    [⟨name "coffer", some (.list (name "coffer") [some (.list (name "str_type") [some (.path (name "Class"))])])⟩] = none :=
  rfl

end Verif.Props
