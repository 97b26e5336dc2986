import Verif.Lemmas.Members
import Verif.Lemmas.NeatClass
import Verif.Spec.Debug

/-! # What the attributes of a body can change -/

namespace Verif
open Spec Sig

/-- What is in front of the attributes of a body. -/
abbrev Head := UInt16 × UInt16 × Bytes × List (Nat × Insn) × List Catch

abbrev Head.insns (x : Head) : List (Nat × Insn) := x.2.2.2.1
abbrev Head.size (x : Head) : Nat := x.2.2.1.length
abbrev Head.handlers (x : Head) : List Catch := x.2.2.2.2
abbrev Head.places (x : Head) : List Nat := x.insns.map Prod.fst ++ [x.size]
/-- The labels used in front of the attributes. -/
abbrev Head.goals (x : Head) : List Label := (x.insns.flatMap fun e => targets e.2) ++ x.handlers.flatMap catchLabels

/-- What is known after it has been read; `m` are the labels. -/
structure Head.Ok (x : Head) (m : LabelMap) : Prop where
  once : x.places.Nodup
  bound : ∀ p ∈ x.places, p < 4294967296
  labels : m.Ok
  solid : ∀ e ∈ x.insns, solid [e.2] = [e.2]
  goals : ∀ l ∈ x.goals, Knows m l

theorem bodyHead_ok {env : REnv} {st st1 : RSt} {bs rest : Bytes} {x : Head} (hst : st.labels = some [])
    (h : bodyHead env st bs = .ok (x, st1, rest)) : ∃ m, st1.labels = some m ∧ x.Ok m := by
  unfold bodyHead at h
  obtain ⟨ms, s1, bs1, h1, h⟩ := Rd.bind_ok h
  obtain ⟨ml, s2, bs2, h2, h⟩ := Rd.bind_ok h
  obtain ⟨len, s3, bs3, h3, h⟩ := Rd.bind_ok h
  obtain ⟨code, s4, bs4, h4, h⟩ := Rd.bind_ok h
  obtain ⟨pis, s5, bs5, h5, h⟩ := Rd.bind_ok h
  obtain ⟨catches, s6, bs6, h6, h⟩ := Rd.bind_ok h
  cases h
  obtain ⟨rfl, _⟩ := rNum_ok h1
  obtain ⟨rfl, _⟩ := rNum_ok h2
  obtain ⟨rfl, _⟩ := rNum_ok h3
  unfold rBytes Rd.lift at h4
  split at h4
  case h_2 => cases h4
  rename_i c r hc
  cases h4
  obtain ⟨rfl, hcl'⟩ := readExact_parts hc
  unfold readInsns at h5
  split at h5
  · cases h5
  rename_i is' st5 hloop
  cases h5
  obtain ⟨rs, o1, hdec, hl5, hm5⟩ := readLoop_sound code.length rfl (Nat.le_refl _) hloop hst
  rw [Nat.sub_self] at hdec
  obtain ⟨b6, o2, rfl, hl6, hm6⟩ := Snd.handlers _ _ _ _ _ h6 _ hl5
  have hfst : pis.map Prod.fst = rs.map Prod.fst :=
    matched_fst (R := fun r i p => Refers (lookAt _ p) r i) (hm5 _ (List.prefix_refl _))
  have hnd := (decodes_pos hdec).2
  rw [Nat.zero_add, ← hfst] at hnd
  refine ⟨_, hl6, hnd, ?_, (LabelMap.Ok.nil.addAll o1).addAll o2, ?_, ?_⟩
  · intro p hp
    have hlt := UInt32.toNat_lt len
    rw [← hcl'] at hlt
    rw [Head.places, Head.insns, hfst] at hp
    rcases List.mem_append.mp hp with hp | hp
    · obtain ⟨e, he, rfl⟩ := List.mem_map.mp hp
      have := (decodes_pos hdec).1 e he
      omega
    · rw [List.mem_singleton] at hp
      exact hp ▸ hlt
  · intro e he
    obtain ⟨e', _, h⟩ := (hm5 _ (List.prefix_refl _)).right e he
    exact refers_solid h.2
  · intro l hl
    rcases List.mem_append.mp hl with hl | hl
    · obtain ⟨e', he', hl⟩ := List.mem_flatMap.mp hl
      obtain ⟨e, _, _, h2⟩ := (hm5 _ (LabelMap.prefix_addAll _ _)).right e' he'
      obtain ⟨o, ho⟩ := refers_targets h2 l hl
      exact ⟨_, ho⟩
    · exact (hm6 _ (List.prefix_refl _)).1 l hl

/-- The lines that are to be inserted. -/
def LinesAre (ps : List Nat) (ins : Nat → List Insn) (line : Nat → Option UInt16) : Prop :=
  ∀ k p, ps[k]? = some p → ins k = (line p).toList.map .lineNumber

/-- What the end of the reader makes. -/
theorem bodyEnd_makes {f : List LocalVariable → List LocalVariable} {x : Head} {m m0 : LabelMap} (hx : x.Ok m0) (hm : m.Ok)
    (hk : ∀ e ∈ m, e.1.toNat ∈ x.places) {acc : AttrAcc} {line : Nat → Option UInt16} (hl : LinesAre x.places acc.ins line)
    {env : REnv} {st : RSt} (hst : st.labels = some m) (bs : Bytes) :
    bodyEnd f x acc env st bs = .ok (⟨x.1, x.2.1, rebuild (nameOf m) line x.insns x.size, x.handlers,
      if acc.vars.length = 0 then acc.attrs else acc.attrs ++ [.locals (f acc.vars)]⟩, st, bs) := by
  obtain ⟨ins', h1, h2⟩ := addLabels_ok hx.once hk hx.bound hm.keys acc.ins
  have hcode : insertDown ins' (x.insns.map Prod.snd) (x.insns.map Prod.snd).length = rebuild (nameOf m) line x.insns x.size := by
    rw [insertDown_all]
    refine weave_rebuild fun i p hp => ?_
    rw [Nat.zero_add, h2 i p hp, hl i p hp, List.reverse_append]
    unfold markers nameOf
    rw [if_pos (hx.bound p (List.mem_of_getElem? hp))]
    cases m.lookup (UInt32.ofNat p) <;> cases line p <;> rfl
  unfold bodyEnd Rd.bind placeMarkers
  rw [hst]
  simp only
  rw [h1]
  simp only
  rw [hcode]

theorem bodyEnd_keys {f : List LocalVariable → List LocalVariable} {x : Head} {m : LabelMap} {acc : AttrAcc} {k : Code}
    {env : REnv} {st st' : RSt} (hst : st.labels = some m) {bs rest : Bytes}
    (h : bodyEnd f x acc env st bs = .ok (k, st', rest)) : ∀ e ∈ m, e.1.toNat ∈ x.places := by
  unfold bodyEnd at h
  obtain ⟨is, s, b, h1, _⟩ := Rd.bind_ok h
  unfold placeMarkers at h1
  rw [hst] at h1
  simp only at h1
  split at h1
  · cases h1
  rename_i ins' hlab
  exact addLabels_mem hlab

/-- What the attributes leave. -/
theorem attrs_leave {x : Head} {m0 : LabelMap} (hx : x.Ok m0) {n : Nat} {acc : AttrAcc} {env : REnv} {st st' : RSt} {bs rest : Bytes}
    (hst : st.labels = some m0)
    (h : readCodeAttrs (placesOf x) n ⟨[], fun _ => [], []⟩ { env with catches := some x.2.2.2.2 } st bs = .ok (acc, st', rest)) :
    ∃ m line, st'.labels = some m ∧ m0 <+: m ∧ m.Ok ∧ LinesAre x.places acc.ins line := by
  have hacc := SndL.attrs (env := ⟨env.pool, some x.2.2.2.2⟩) (cs := x.2.2.2.2) rfl hx.once n ⟨[], fun _ => [], []⟩
  obtain ⟨b, o, rfl, hl, hm⟩ := hacc _ _ _ _ _ h _ hst
  have hok : AccOk x.2.2.2.2 x.places (m0.addAll o) acc := hm _ (List.prefix_refl _)
    ⟨by simp, by simp, by simp, by simp [VarsOk], fun _ => none, fun _ _ _ => rfl⟩
  obtain ⟨line, hline⟩ := hok.lines
  exact ⟨_, line, hl, LabelMap.prefix_addAll _ _, hx.labels.addAll o, hline⟩

/-- How a body with the given attributes is read. -/
theorem body_made {f : List LocalVariable → List LocalVariable} {env : REnv} {st st' : RSt} {y : BodyParts} {k : Code}
    (hst : st.labels = some []) (hy : y.Sized) (h : (Code.readIn fun _ => f) env st y.bytes = .ok (k, st', [])) :
    ∃ (x : Head) (st1 : RSt) (m0 : LabelMap), bodyHead env st y.front = .ok (x, st1, []) ∧ st1.labels = some m0 ∧ x.Ok m0 ∧
      ∃ (m : LabelMap) (line : Nat → Option UInt16) (acc : AttrAcc), m0 <+: m ∧ m.Ok ∧ (∀ e ∈ m, e.1.toNat ∈ x.places) ∧
      readCodeAttrs (placesOf x) y.attrs.length ⟨[], fun _ => [], []⟩ { env with catches := some x.2.2.2.2 } st1
        (flatAttrs y.attrs) = .ok (acc, st', []) ∧ st'.labels = some m ∧ LinesAre x.places acc.ins line ∧
      k = ⟨x.1, x.2.1, rebuild (nameOf m) line x.insns x.size, x.handlers,
        if acc.vars.length = 0 then acc.attrs else acc.attrs ++ [.locals (f acc.vars)]⟩ := by
  obtain ⟨x, st1, acc, st2, h1, h2, h3⟩ := (body_read hy).mp h
  obtain ⟨m0, hl0, hx⟩ := bodyHead_ok hst h1
  obtain ⟨m, line, hl, hp, hm, hline⟩ := attrs_leave hx hl0 h2
  have hk := bodyEnd_keys hl h3
  rw [bodyEnd_makes hx hm hk hline hl] at h3
  cases h3
  exact ⟨x, st1, m0, h1, hl0, hx, m, line, acc, hp, hm, hk, h2, hl, hline, rfl⟩

/-! ## The essence -/

theorem lookup_prefix {m0 m : LabelMap} (hp : m0 <+: m) (hm : m.Ok) {o : UInt32} {l : Label} (h : m0.lookup o = some l) :
    m.lookup o = some l := hm.lookup (hp.subset (LabelMap.lookup_mem h))

theorem keep_solid {g : Label → Bool} {i : Insn} (h : solid [i] = [i]) (is : List Insn) :
    (i :: is).filter (keeps g) =
      i :: is.filter (keeps g) := by
  cases i <;> first | rfl | cases h

/-- What is left of the markers if only some labels are kept. -/
theorem rebuild_filter {ν : Nat → Option Label} {line : Nat → Option UInt16} {g : Label → Bool} {pis : List (Nat × Insn)} {len : Nat}
    (hs : ∀ e ∈ pis, solid [e.2] = [e.2]) :
    (rebuild ν line pis len).filter (keeps g) =
      rebuild (fun p => (ν p).filter g) (fun _ => none) pis len := by
  have hm : ∀ p, (markers ν line p).filter (keeps g) =
      markers (fun p => (ν p).filter g) (fun _ => none) p := by
    intro p
    show ((ν p).toList.map Insn.label ++ (line p).toList.map Insn.lineNumber).filter (keeps g) =
      ((ν p).filter g).toList.map .label ++ []
    cases ν p with
    | none => cases line p <;> rfl
    | some l =>
      have h1 : (Insn.label l :: (line p).toList.map Insn.lineNumber).filter (keeps g) = if g l then [.label l] else [] := by
        cases hg : g l <;> cases line p <;> simp [List.filter, keeps, hg]
      refine h1.trans ?_
      cases hg : g l <;> simp [Option.filter, hg]
  induction pis with
  | nil => exact hm len
  | cons e r ih =>
    obtain ⟨p, i⟩ := e
    rw [rebuild, rebuild, List.filter_append, hm, keep_solid (hs (p, i) List.mem_cons_self),
      ih fun e he => hs e (List.mem_cons_of_mem _ he)]

theorem rebuild_congr {ν ν' : Nat → Option Label} {line : Nat → Option UInt16} {pis : List (Nat × Insn)} {len : Nat}
    (h : ∀ p, ν p = ν' p) : rebuild ν line pis len = rebuild ν' line pis len := by
  rw [show ν = ν' from funext h]

theorem rebuild_insns {ν : Nat → Option Label} {line : Nat → Option UInt16} {pis : List (Nat × Insn)} {len : Nat}
    (hs : ∀ e ∈ pis, solid [e.2] = [e.2]) : solid (rebuild ν line pis len) = pis.map Prod.snd := by
  have hm : ∀ p, solid (markers ν line p) = [] := by
    intro p
    unfold markers
    cases ν p <;> cases line p <;> rfl
  induction pis with
  | nil => exact hm len
  | cons e r ih =>
    obtain ⟨p, i⟩ := e
    have h1 : ∀ a b, solid (a ++ b) = solid a ++ solid b := fun a b => List.filter_append a b
    have h2 : i :: rebuild ν line r len = [i] ++ rebuild ν line r len := rfl
    rw [rebuild, h1, hm, h2, h1, hs (p, i) List.mem_cons_self, ih fun e he => hs e (List.mem_cons_of_mem _ he)]
    rfl

/-- The essence of a body depends only on what is in front of the attributes. -/
theorem essence_made {x : Head} {m0 m : LabelMap} (hx : x.Ok m0) (hp : m0 <+: m) (hm : m.Ok) (line : Nat → Option UInt16)
    (as : List CodeAttribute) :
    essence ⟨x.1, x.2.1, rebuild (nameOf m) line x.insns x.size, x.handlers, as⟩ =
      rebuild (fun p => (nameOf m0 p).filter fun l => decide (l ∈ x.goals)) (fun _ => none) x.insns x.size := by
  have hg : goals ⟨x.1, x.2.1, rebuild (nameOf m) line x.insns x.size, x.handlers, as⟩ = x.goals := by
    unfold goals
    simp only
    rw [rebuild_targets]
  unfold essence
  rw [hg]
  simp only
  rw [rebuild_filter hx.solid]
  refine rebuild_congr fun p => ?_
  have key : ∀ l, l ∈ x.goals → (nameOf m p = some l ↔ nameOf m0 p = some l) := by
    intro l hl
    constructor
    · intro h
      obtain ⟨o, rfl, ho⟩ := nameOf_some h
      obtain ⟨o', ho'⟩ := hx.goals l hl
      rw [nameOf_toNat, hm.inj ho (lookup_prefix hp hm ho'), ho']
    · intro h
      obtain ⟨o, rfl, ho⟩ := nameOf_some h
      rw [nameOf_toNat]
      exact lookup_prefix hp hm ho
  have e : ∀ (a b : Option Label), (∀ l, l ∈ x.goals → (a = some l ↔ b = some l)) →
      a.filter (fun l => decide (l ∈ x.goals)) = b.filter fun l => decide (l ∈ x.goals) := by
    intro a b hab
    refine Option.ext fun l => ?_
    rw [Option.filter_eq_some_iff, Option.filter_eq_some_iff]
    constructor
    · rintro ⟨h1, h2⟩
      exact ⟨(hab l (of_decide_eq_true h2)).mp h1, h2⟩
    · rintro ⟨h1, h2⟩
      exact ⟨(hab l (of_decide_eq_true h2)).mpr h1, h2⟩
  exact e _ _ key

theorem Spec.BodyParts.Sized.other {y : BodyParts} (hy : y.Sized) {as : List (UInt16 × Bytes)} (h1 : as.length < 65536)
    (h2 : ∀ a ∈ as, a.2.length < 2 ^ 32) : BodyParts.Sized { y with attrs := as } :=
  ⟨hy.limits, hy.code, hy.handlers, hy.handler, h1, h2⟩

/-- Two bodies that differ in their attributes only. -/
theorem bodies_same {f f' : List LocalVariable → List LocalVariable} {env : REnv} {st st1 st2 : RSt} {y : BodyParts}
    {as : List (UInt16 × Bytes)} {k k' : Code} (hst : st.labels = some []) (hy : y.Sized)
    (hy' : BodyParts.Sized { y with attrs := as })
    (h : (Code.readIn fun _ => f) env st y.bytes = .ok (k, st1, []))
    (h' : (Code.readIn fun _ => f') env st { y with attrs := as }.bytes = .ok (k', st2, [])) : CodeAlike k k' := by
  obtain ⟨x, s1, m0, h1, h2, hx, m, line, acc, hp, hm, _, _, _, _, rfl⟩ := body_made hst hy h
  obtain ⟨x', s1', m0', h1', h2', _, m', line', acc', hp', hm', _, _, _, _, rfl⟩ := body_made hst hy' h'
  rw [show BodyParts.front { y with attrs := as } = y.front from rfl, h1] at h1'
  cases h1'
  rw [h2] at h2'
  cases h2'
  exact ⟨rfl, rfl, rfl, (essence_made hx hp' hm' _ _).trans (essence_made hx hp hm _ _).symm⟩

/-- All attributes of a body can be removed. -/
theorem body_bare {f : List LocalVariable → List LocalVariable} {env : REnv} {st st1 : RSt} {y : BodyParts} {k : Code}
    (hst : st.labels = some []) (hy : y.Sized) (h : (Code.readIn fun _ => f) env st y.bytes = .ok (k, st1, [])) :
    ∃ k' st2, (Code.readIn fun _ => f) env st { y with attrs := [] }.bytes = .ok (k', st2, []) ∧ CodeAlike k k' ∧ k'.attrs = [] ∧
      withoutLines k'.code = k'.code ∧ Spec.solid k'.code = Spec.solid k.code := by
  have hy' : BodyParts.Sized { y with attrs := [] } := hy.other (Nat.zero_lt_succ _) nofun
  obtain ⟨x, s1, m0, h1, h2, hx, m, line, acc, hp, hm, hk, _, _, _, e⟩ := body_made hst hy h
  have h4 : (Code.readIn fun _ => f) env st { y with attrs := [] }.bytes = .ok (_, s1, []) :=
    (body_read hy').mpr ⟨x, s1, ⟨[], fun _ => [], []⟩, s1, h1, rfl,
      bodyEnd_makes (line := fun _ => none) hx hx.labels (fun e he => hk e (hp.subset he)) (fun _ _ _ => rfl) h2 []⟩
  refine ⟨_, s1, h4, bodies_same hst hy hy' h h4, rfl, ?_, ?_⟩
  · show withoutLines (rebuild _ _ _ _) = rebuild _ _ _ _
    refine (rebuild_filter hx.solid).trans (rebuild_congr fun p => ?_)
    cases nameOf m0 p <;> rfl
  · subst e
    exact (rebuild_insns hx.solid).trans (rebuild_insns hx.solid).symm

/-! ## Line number tables -/

/-- Readers that change no state. -/
def Still {α : Type} (r : Rd α) : Prop := ∀ env st bs a st' rest, r env st bs = .ok (a, st', rest) → st' = st

theorem Still.num {α : Type} (c : NumCodec α) : Still (rNum c) := fun _ _ _ _ _ _ h => (rNum_ok h).1

theorem Still.bind {α β : Type} {x : Rd α} {f : α → Rd β} (hx : Still x) (hf : ∀ a, Still (f a)) : Still (Rd.bind x f) := by
  intro env st bs b st' rest h
  obtain ⟨a, st1, bs1, h1, h2⟩ := Rd.bind_ok h
  exact (hf a _ _ _ _ _ _ h2).trans (hx _ _ _ _ _ _ h1)

theorem Still.pure {α : Type} (a : α) : Still (Rd.pure a) := fun _ _ _ _ _ _ h => by cases h; rfl

theorem Still.replicate {α : Type} {r : Rd α} (hr : Still r) : ∀ n, Still (Rd.replicate n r)
  | 0 => .pure _
  | n + 1 => hr.bind fun _ => (Still.replicate hr n).bind fun _ => .pure _

theorem Still.lines : Still (Rd.map CodeAttr.lines (rVec u16 LineEntry.read)) :=
  ((Still.num _).bind fun n => Still.replicate (((Still.num _).bind fun _ => .pure _).bind fun _ => (Still.num _).bind fun _ => .pure _) _).bind
    fun _ => .pure _

theorem codeAttr_kind {env : REnv} {st st' : RSt} {i : UInt16} {data t rest : Bytes} {a : CodeAttr} (hl : data.length < 2 ^ 32)
    (h : CodeAttr.read env st (attrBytes i data ++ t) = .ok (a, st', rest)) :
    (IsUtf8 env.pool i N.lineNumberTable → st' = st ∧ ∃ ls, a = .lines ls) ∧
    (¬ IsUtf8 env.pool i N.lineNumberTable → ∀ ls, a ≠ .lines ls) := by
  unfold attrBytes at h
  rw [List.append_assoc, List.append_assoc] at h
  unfold CodeAttr.read rAttr at h
  obtain ⟨name, st1, bs1, h1, h⟩ := Rd.bind_ok h
  unfold rUtf8 rIdx at h1
  obtain ⟨j, st2, bs2, h2, h3⟩ := Rd.bind_ok h1
  unfold rNum Rd.lift at h2
  rw [readsU2] at h2
  cases h2
  obtain ⟨e, rfl, rfl⟩ : Pool.wtf8 env.pool i = some name ∧ st1 = st ∧ bs1 = U4 data.length ++ (data ++ t) := by
    unfold rLookup at h3
    split at h3
    · rename_i e
      cases h3
      exact ⟨e, rfl, rfl⟩
    · cases h3
  have hname : ∀ nm, IsUtf8 env.pool i nm ↔ nm = name := by
    intro nm
    unfold Pool.wtf8 at e
    split at e
    · rename_i e'
      cases e
      constructor
      · intro h'
        have h' : env.pool i = some (.utf8 nm) := h'
        rw [e'] at h'
        cases h'
        rfl
      · rintro rfl
        exact e'
    · cases e
  have hn : (UInt32.ofNat data.length).toNat = data.length := by
    rw [UInt32.toNat_ofNat']
    exact Nat.mod_eq_of_lt hl
  have h2 : u32.read (U4 data.length ++ (data ++ t)) = .ok (UInt32.ofNat data.length, data ++ t) := by
    have := readsU4 (UInt32.ofNat data.length) (data ++ t)
    rwa [hn] at this
  rw [hname]
  rcases ht : CodeAttr.table name with _ | r
  rotate_left
  · simp only [ht] at h
    unfold rFramed at h
    rw [h2] at h
    simp only [hn] at h
    rw [readExact_append _ _ _ rfl] at h
    simp only at h
    obtain ⟨st3, h4⟩ : ∃ st3, r env st1 data = .ok (a, st', st3) := by
      split at h
      · cases h
      · rename_i h4
        cases h
        exact ⟨_, h4⟩
      · cases h
    unfold CodeAttr.table at ht
    refine ⟨fun e1 => ?_, fun e1 => ?_⟩
    · rw [if_pos e1.symm] at ht
      cases ht
      refine ⟨Still.lines _ _ _ _ _ _ h4, ?_⟩
      obtain ⟨ls, rfl, _⟩ := map_ok h4
      exact ⟨ls, rfl⟩
    · rw [if_neg fun e2 => e1 e2.symm] at ht
      rintro ls rfl
      have no : ∀ {β : Type} {g : β → CodeAttr} {q : Rd β}, Rd.map g q = r → (∀ b, g b ≠ .lines ls) → False := by
        rintro β g q rfl hg
        obtain ⟨b, e2, _⟩ := map_ok h4
        exact hg b e2.symm
      repeat' (split at ht)
      all_goals first
        | cases ht; done
        | exact no (Option.some.inj ht) fun _ => nofun
  · simp only [ht] at h
    obtain ⟨b, rfl, k⟩ := map_ok h
    refine ⟨fun e1 => ?_, fun _ ls => nofun⟩
    unfold CodeAttr.table at ht
    rw [if_pos e1.symm] at ht
    cases ht

theorem step_others {idx : Nat → Option Nat} {acc acc' : AttrAcc} {a : CodeAttr} (ha : ∀ ls, a ≠ .lines ls) {env : REnv}
    {st st' : RSt} {bs rest : Bytes} (h : acc.step idx a env st bs = .ok (acc', st', rest)) (g : Nat → List Insn) :
    AttrAcc.step idx { acc with ins := g } a env st bs = .ok ({ acc' with ins := g }, st', rest) := by
  cases a with
  | lines ls => exact absurd rfl (ha ls)
  | vars ls =>
    obtain ⟨m, rfl, k⟩ := map_ok h
    exact map_of k
  | varTypes ls =>
    obtain ⟨m, rfl, k⟩ := map_ok h
    exact map_of k
  | frames => cases h; rfl
  | invisibleType as => cases h; rfl
  | visibleType as => cases h; rfl
  | raw as => cases h; rfl

theorem attrs_cut {idx : Nat → Option Nat} {env : REnv} {as bs : List (UInt16 × Bytes)} (hc : LinesCut env.pool as bs) :
    ∀ {acc acc' : AttrAcc} {st st' : RSt}, (∀ a ∈ as, a.2.length < 2 ^ 32) →
    readCodeAttrs idx as.length acc env st (flatAttrs as) = .ok (acc', st', []) → ∀ g,
    readCodeAttrs idx bs.length { acc with ins := g } env st (flatAttrs bs) = .ok ({ acc' with ins := g }, st', []) := by
  induction hc with
  | nil =>
    intro acc acc' st st' _ h g
    cases h
    rfl
  | @cut i data as bs hi _ ih =>
    intro acc acc' st st' hl h g
    obtain ⟨x, st1, bs1, h1, h⟩ := Rd.bind_ok h
    have h1 : CodeAttr.read env st (attrBytes i data ++ flatAttrs as) = .ok (x, st1, bs1) := h1
    have hd := hl (i, data) List.mem_cons_self
    obtain rfl := attr_rest hd h1
    obtain ⟨rfl, ls, rfl⟩ := (codeAttr_kind hd h1).1 hi
    obtain ⟨acc1, st2, bs2, h2, h⟩ := Rd.bind_ok h
    obtain ⟨m, rfl, k⟩ := map_ok h2
    unfold Rd.ofRes at k
    split at k <;> cases k
    exact ih (fun a ha => hl a (List.mem_cons_of_mem _ ha)) h g
  | @kept i data as bs hi _ ih =>
    intro acc acc' st st' hl h g
    obtain ⟨x, st1, bs1, h1, h⟩ := Rd.bind_ok h
    have h1 : CodeAttr.read env st (attrBytes i data ++ flatAttrs as) = .ok (x, st1, bs1) := h1
    have hd := hl (i, data) List.mem_cons_self
    obtain rfl := attr_rest hd h1
    have hx := (codeAttr_kind hd h1).2 hi
    obtain ⟨acc1, st2, bs2, h2, h⟩ := Rd.bind_ok h
    obtain rfl := step_rest h2
    have h1' : CodeAttr.read env st (flatAttrs ((i, data) :: bs)) = .ok (x, st1, flatAttrs bs) :=
      (Local.attr CodeAttr.table .raw).other h1 (flatAttrs bs)
    have h2' : AttrAcc.step idx { acc with ins := g } x env st1 (flatAttrs bs) = .ok ({ acc1 with ins := g }, st2, flatAttrs bs) := by
      refine step_others hx ?_ g
      have h3 : acc.step idx x env st1 ([] ++ flatAttrs as) = .ok (acc1, st2, flatAttrs as) := h2
      exact (Local.step idx acc x).other h3 (flatAttrs bs)
    show Rd.bind CodeAttr.read _ env st (flatAttrs ((i, data) :: bs)) = _
    rw [bind_found h1', bind_found h2']
    exact ih (fun a ha => hl a (List.mem_cons_of_mem _ ha)) h g

theorem Spec.LinesCut.sub {P : Pool} {as bs : List (UInt16 × Bytes)} (h : LinesCut P as bs) : bs.Sublist as := by
  induction h with
  | nil => exact .slnil
  | cut _ _ ih => exact .cons _ ih
  | kept _ _ ih => exact .cons₂ _ ih

/-- A body without its line number tables. -/
theorem body_unlined {f : List LocalVariable → List LocalVariable} {env : REnv} {st st1 : RSt} {y : BodyParts} {k : Code}
    {bs : List (UInt16 × Bytes)} (hst : st.labels = some []) (hy : y.Sized) (hc : LinesCut env.pool y.attrs bs)
    (h : (Code.readIn fun _ => f) env st y.bytes = .ok (k, st1, [])) :
    (Code.readIn fun _ => f) env st { y with attrs := bs }.bytes = .ok ({ k with code := withoutLines k.code }, st1, []) := by
  have hy' : BodyParts.Sized { y with attrs := bs } :=
    hy.other (Nat.lt_of_le_of_lt hc.sub.length_le hy.attrs) fun a ha => hy.attr a (hc.sub.subset ha)
  obtain ⟨x, s1, m0, h1, h2, hx, m, line, acc, hp, hm, hk, h3, h4, h5, rfl⟩ := body_made hst hy h
  refine (body_read hy').mpr ⟨x, s1, { acc with ins := fun _ => [] }, st1, h1,
    attrs_cut (env := { env with catches := some x.2.2.2.2 }) hc hy.attr h3 _, ?_⟩
  rw [bodyEnd_makes (line := fun _ => none) hx hm hk (fun _ _ _ => rfl) h4]
  simp only
  have : withoutLines (rebuild (nameOf m) line x.insns x.size) = rebuild (nameOf m) (fun _ => none) x.insns x.size := by
    refine (rebuild_filter hx.solid).trans (rebuild_congr fun p => ?_)
    cases nameOf m p <;> rfl
  rw [this]

end Verif
