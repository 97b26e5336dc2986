import Verif.Lemmas.Carries
import Verif.Lemmas.Unlabelled
import Verif.Lemmas.TameClass
import Verif.Spec.Parts

/-! # Reading a class file part by part -/

namespace Verif
open Spec Sig

/-! ## The version and the pool are read from a prefix -/

theorem prefixed_bind {α β : Type} {r : Reader α} {f : α → Reader β} (hr : Prefixed r) (hf : ∀ a, Prefixed (f a)) :
    Prefixed (Reader.bind r f) := by
  intro bs a rest h
  unfold Reader.bind at h ⊢
  split at h
  · rename_i h1
    obtain ⟨b1, rfl, e1⟩ := hr _ _ _ h1
    obtain ⟨b2, rfl, e2⟩ := hf _ _ _ _ h
    exact ⟨b1 ++ b2, (List.append_assoc _ _ _).symm, fun t => by rw [List.append_assoc, e1]; exact e2 t⟩
  · cases h

theorem prefixed_pure {α : Type} (a : α) : Prefixed (Reader.pure a) := fun bs b rest h => by
  cases h
  exact ⟨[], rfl, fun _ => rfl⟩

theorem prefixed_fail {α : Type} (e : Err) : Prefixed (Reader.fail e : Reader α) := fun bs b rest h => by cases h

theorem prefixed_map2 {α β γ : Type} {x : Reader α} {y : Reader β} {f : α → β → γ} (hx : Prefixed x) (hy : Prefixed y) :
    Prefixed (Reader.map2 f x y) := prefixed_bind hx fun _ => prefixed_map hy

theorem prefixed_string : Prefixed readString := by
  intro bs a rest h
  unfold readString at h ⊢
  split at h
  · rename_i h1
    split at h
    · rename_i h2
      split at h
      · rename_i h3
        cases h
        obtain ⟨b1, rfl, e1⟩ := prefixed_num _ _ _ _ h1
        obtain ⟨b2, rfl, e2⟩ := prefixed_readExact _ _ _ _ h2
        refine ⟨b1 ++ b2, (List.append_assoc _ _ _).symm, fun t => ?_⟩
        rw [List.append_assoc, e1]
        simp only
        rw [e2]
        simp only [h3]
      · cases h
    · cases h
  · cases h

theorem prefixed_payload (tag : UInt8) : Prefixed (Entry.readPayload tag) := by
  unfold Entry.readPayload
  split
  all_goals first
    | exact prefixed_map prefixed_string
    | exact prefixed_map (prefixed_num _)
    | exact prefixed_map2 (prefixed_num _) (prefixed_num _)
    | exact prefixed_fail _

theorem prefixed_entry : Prefixed Entry.read := prefixed_bind (prefixed_num _) prefixed_payload

theorem prefixed_loop (count : UInt16) : ∀ (n : Nat) (i : UInt16) (acc : List (UInt16 × Entry)), 65536 - i.toNat = n →
    Prefixed (MapCp.readLoop count i acc) := by
  intro n
  induction n using Nat.strongRecOn with
  | _ n ih =>
    intro i acc hn bs a rest h
    rw [MapCp.readLoop] at h
    by_cases hi : i < count
    · rw [if_pos hi] at h
      split at h
      · rename_i e bs1 h1
        split at h
        · rename_i hs
          obtain ⟨b1, rfl, e1⟩ := prefixed_entry _ _ _ h1
          have h2 : 1 ≤ e.size.toNat := by cases e <;> simp [Entry.size]
          have h3 : (i + e.size).toNat = i.toNat + e.size.toNat := by
            rw [UInt16.toNat_add]
            exact Nat.mod_eq_of_lt hs
          obtain ⟨b2, rfl, e2⟩ := ih (65536 - (i + e.size).toNat) (by omega) _ _ rfl _ _ _ h
          refine ⟨b1 ++ b2, (List.append_assoc _ _ _).symm, fun t => ?_⟩
          rw [MapCp.readLoop, if_pos hi, List.append_assoc, e1]
          simp only
          rw [if_pos hs, e2]
        · cases h
      · cases h
    · rw [if_neg hi] at h
      cases h
      exact ⟨[], rfl, fun t => by rw [MapCp.readLoop, if_neg hi]; rfl⟩

theorem prefixed_pool : Prefixed MapCp.read := prefixed_bind (prefixed_num _) fun _ => prefixed_loop _ _ _ _ rfl

theorem prefixed_version : Prefixed Version.read :=
  prefixed_map2 (prefixed_num _) (prefixed_bind (prefixed_num _) fun t => by
    split
    · exact prefixed_pure _
    · exact prefixed_fail _)

/-! ## Parts -/

structure SelfContained {α : Type} (r : Rd α) : Prop where
  local_ : Local r
  carries : Carries r
  unlabelled : Unlabelled r

theorem SelfContained.split {α : Type} {r : Rd α} (hr : SelfContained r) {P : Pool} {q : List UInt16} {bs rest : Bytes} {a : α} {st : RSt}
    (h : r ⟨P, none⟩ ⟨q, none⟩ bs = .ok (a, st, rest)) :
    ∃ b, bs = b ++ rest ∧ st.labels = none ∧ Alone r P b a := by
  have h1 := hr.carries ⟨P, none⟩ ⟨[], none⟩ bs q
  unfold RSt.after at h1
  rw [List.append_nil] at h1
  rw [h1] at h
  rcases h2 : r ⟨P, none⟩ ⟨[], none⟩ bs with e | ⟨a', st', rest'⟩
  · rw [h2] at h; cases h
  · rw [h2] at h
    cases h
    obtain ⟨b, rfl, e⟩ := hr.local_ _ _ _ _ _ _ h2
    have := e []
    rw [List.append_nil] at this
    have hu : st'.labels = none := hr.unlabelled _ _ _ _ _ _ h2 rfl
    exact ⟨b, rfl, hu, _, this⟩

theorem SelfContained.join {α : Type} {r : Rd α} (hr : SelfContained r) {P : Pool} {b : Bytes} {a : α} (h : Alone r P b a)
    (q : List UInt16) (rest : Bytes) : ∃ q', r ⟨P, none⟩ ⟨q, none⟩ (b ++ rest) = .ok (a, ⟨q', none⟩, rest) := by
  obtain ⟨st, h⟩ := h
  obtain ⟨b', e1, e2⟩ := hr.local_ _ _ _ _ _ _ h
  rw [List.append_nil] at e1
  subst e1
  have h1 := hr.carries ⟨P, none⟩ ⟨[], none⟩ (b ++ rest) q
  unfold RSt.after at h1
  rw [List.append_nil, e2] at h1
  have h2 := hr.unlabelled _ _ _ _ _ _ h rfl
  refine ⟨q ++ st.pending, ?_⟩
  rw [h1]
  simp only [shifted, RSt.after, h2]

theorem SelfContained.replicate_split {α : Type} {r : Rd α} (hr : SelfContained r) {P : Pool} : ∀ (n : Nat) {st : RSt} {bs rest : Bytes}
    {as : List α} {st' : RSt}, st.labels = none → Rd.replicate n r ⟨P, none⟩ st bs = .ok (as, st', rest) →
    ∃ cs : List Bytes, bs = cs.flatten ++ rest ∧ st'.labels = none ∧ cs.length = n ∧ Matched (Alone r P) cs as
  | 0, st, bs, rest, as, st', h0, h => by
    cases h
    exact ⟨[], rfl, h0, rfl, .nil⟩
  | n + 1, ⟨q, l⟩, bs, rest, as, st', h0, h => by
    cases h0
    obtain ⟨a, st1, bs1, h1, h2⟩ := Rd.bind_ok h
    obtain ⟨as', st2, bs2, h3, h4⟩ := Rd.bind_ok h2
    cases h4
    obtain ⟨b, rfl, l1, hb⟩ := hr.split h1
    obtain ⟨cs, rfl, l2, hl, hc⟩ := hr.replicate_split n l1 h3
    exact ⟨b :: cs, by rw [List.flatten_cons, List.append_assoc], l2, by rw [List.length_cons, hl], .cons hb hc⟩

theorem SelfContained.replicate_join {α : Type} {r : Rd α} (hr : SelfContained r) {P : Pool} {cs : List Bytes} {as : List α}
    (h : Matched (Alone r P) cs as) : ∀ (q : List UInt16) (rest : Bytes), ∃ q',
    Rd.replicate cs.length r ⟨P, none⟩ ⟨q, none⟩ (cs.flatten ++ rest) = .ok (as, ⟨q', none⟩, rest) := by
  induction h with
  | nil => exact fun q rest => ⟨q, rfl⟩
  | @cons b a cs as hb _ ih =>
    intro q rest
    obtain ⟨q1, h1⟩ := hr.join hb q (cs.flatten ++ rest)
    obtain ⟨q2, h2⟩ := ih q1 rest
    refine ⟨q2, ?_⟩
    show Rd.bind r (fun a => Rd.bind (Rd.replicate cs.length r) fun as => Rd.pure (a :: as)) _ _ _ = _
    rw [List.flatten_cons, List.append_assoc]
    unfold Rd.bind
    simp only [h1, h2]
    rfl

theorem SelfContained.vec_split {α : Type} {r : Rd α} (hr : SelfContained r) {P : Pool} {st : RSt} {bs rest : Bytes}
    {as : List α} {st' : RSt} (h0 : st.labels = none) (h : rVec u16 r ⟨P, none⟩ st bs = .ok (as, st', rest)) :
    ∃ cs : List Bytes, bs = counted cs ++ rest ∧ st'.labels = none ∧ EachAlone r P cs as := by
  obtain ⟨n, st1, bs1, h1, h2⟩ := Rd.bind_ok h
  unfold rNum Rd.lift at h1
  split at h1
  · rename_i h3
    cases h1
    obtain ⟨b1, e1, rfl⟩ := takes_num u16_lawful _ _ _ h3
    obtain ⟨cs, rfl, l, hl, hc⟩ := hr.replicate_split _ h0 h2
    have hn : n.toNat < 65536 := n.toNat_lt
    have hl : cs.length = n.toNat := hl
    refine ⟨cs, ?_, l, by omega, hc⟩
    rw [e1, u16_write, counted, hl, List.append_assoc]
  · cases h1

theorem SelfContained.vec_join {α : Type} {r : Rd α} (hr : SelfContained r) {P : Pool} {cs : List Bytes} {as : List α}
    (h : EachAlone r P cs as) (q : List UInt16) (rest : Bytes) : ∃ q',
    rVec u16 r ⟨P, none⟩ ⟨q, none⟩ (counted cs ++ rest) = .ok (as, ⟨q', none⟩, rest) := by
  obtain ⟨q', h1⟩ := hr.replicate_join h.2 q rest
  refine ⟨q', ?_⟩
  unfold rVec Rd.bind rNum Rd.lift counted
  rw [List.append_assoc, readsU2' _ h.1]
  simp only
  have : u16.bits (UInt16.ofNat cs.length) = cs.length := by
    show (UInt16.ofNat cs.length).toNat = _
    rw [UInt16.toNat_ofNat']
    exact Nat.mod_eq_of_lt h.1
  rw [this]
  exact h1

theorem part_flags (t : FlagType) : SelfContained (rFlags t) := ⟨.flags t, .flags t, .flags t⟩
theorem part_str (n : UInt8) : SelfContained (rStr n) := ⟨.str n, .str n, .str n⟩
theorem part_clsOpt : SelfContained rClsOpt := ⟨.opt fun _ => .lookup _ _, .opt fun _ => .lookup _ _, .opt fun _ => .lookup _ _⟩
theorem part_field : SelfContained Field.read :=
  ⟨.ap (.ap (.ap (.map (.flags _)) .utf8) .type) (.vec (.attr _ _)), .field, .field⟩
theorem part_method (f : List LocalVariable → List LocalVariable) : SelfContained (Method.read fun _ _ => f) :=
  ⟨.ap (.ap (.ap (.map (.flags _)) .utf8) .type) (.vec (.attr _ _)), .method _, .method _⟩
theorem part_classAttr : SelfContained ClassAttr.read := ⟨.attr _ _, .classAttr, .classAttr⟩

/-! ## The table of bootstrap methods -/

theorem fillLoop_left (ms : List Bsm) : ∀ (i : Nat) (refs : List (UInt16 × Nat)) (r : UInt16 × Nat),
    r ∈ (fillLoop i ms refs).2 ↔ r ∈ refs ∧ ∀ j < ms.length, r.1 ≠ UInt16.ofNat (i + j) := by
  induction ms with
  | nil =>
    intro i refs r
    simp [fillLoop]
  | cons b ms ih =>
    intro i refs r
    show r ∈ (fillLoop (i + 1) ms (refs.filter fun r => r.1 ≠ UInt16.ofNat i)).2 ↔ _
    rw [ih, List.mem_filter, decide_eq_true_eq, and_assoc, List.length_cons]
    refine and_congr_right fun _ => ⟨fun ⟨h1, h2⟩ j hj => ?_, fun h => ⟨?_, fun j hj => ?_⟩⟩
    · cases j with
      | zero => exact h1
      | succ j =>
        have := h2 j (by omega)
        rwa [show i + (j + 1) = i + 1 + j by omega]
    · exact h 0 (by omega)
    · have := h (j + 1) (by omega)
      rwa [show i + (j + 1) = i + 1 + j by omega] at this

theorem bootstrapMethods_ok (ms : List Bsm) (q : List UInt16) :
    (∃ s, bootstrapMethods ms (q.mapIdx fun n k => (k, n)) = .ok s) ↔ ∀ k ∈ q, k.toNat < ms.length := by
  have key : (fillLoop 0 ms (q.mapIdx fun n k => (k, n))).2 = [] ↔ ∀ k ∈ q, k.toNat < ms.length := by
    rw [List.eq_nil_iff_forall_not_mem]
    constructor
    · intro h k hk
      refine Classical.byContradiction fun hn => ?_
      obtain ⟨n, hn', rfl⟩ := List.getElem_of_mem hk
      refine h (q[n], n) ((fillLoop_left _ _ _ _).mpr ⟨List.mem_mapIdx.mpr ⟨n, hn', rfl⟩, fun j hj e => ?_⟩)
      have e : q[n] = UInt16.ofNat (0 + j) := e
      have hq : q[n].toNat < 65536 := q[n].toNat_lt
      have := congrArg UInt16.toNat e
      rw [UInt16.toNat_ofNat', Nat.zero_add, Nat.mod_eq_of_lt (by omega)] at this
      omega
    · intro h r hr
      obtain ⟨h1, h2⟩ := (fillLoop_left _ _ _ _).mp hr
      obtain ⟨n, hn, rfl⟩ := List.mem_mapIdx.mp h1
      refine h2 q[n].toNat (h _ (List.getElem_mem _)) ?_
      rw [Nat.zero_add, UInt16.ofNat_toNat]
  rw [← key]
  unfold bootstrapMethods
  generalize fillLoop 0 ms (q.mapIdx fun n k => (k, n)) = r
  obtain ⟨set, _ | ⟨x, left⟩⟩ := r
  · exact ⟨fun _ => rfl, fun _ => ⟨_, rfl⟩⟩
  · exact ⟨fun ⟨_, h⟩ => (nomatch h), fun h => (nomatch h)⟩

theorem bootstrapTable_first : ∀ (as : List ClassAttr) (ms : List Bsm), bootstrapTable as = some ms ↔
    ∃ pre post, as = pre ++ .bootstrapMethods ms :: post ∧ ∀ a ∈ pre, ∀ t, a ≠ .bootstrapMethods t
  | [], ms => by
    refine ⟨fun h => (nomatch h), fun ⟨pre, post, h, _⟩ => ?_⟩
    cases pre <;> cases h
  | a :: as, ms => by
    have step (hb : ∀ t, a ≠ .bootstrapMethods t) (he : bootstrapTable (a :: as) = bootstrapTable as) :
        bootstrapTable (a :: as) = some ms ↔
          ∃ pre post, a :: as = pre ++ .bootstrapMethods ms :: post ∧ ∀ a ∈ pre, ∀ t, a ≠ .bootstrapMethods t := by
      rw [he, bootstrapTable_first as ms]
      constructor
      · rintro ⟨pre, post, rfl, h⟩
        exact ⟨a :: pre, post, rfl, fun x hx => by
          rcases List.mem_cons.mp hx with rfl | hx
          · exact hb
          · exact h x hx⟩
      · rintro ⟨pre, post, e, h⟩
        cases pre with
        | nil => cases e; exact absurd rfl (hb ms)
        | cons y pre =>
          cases e
          exact ⟨pre, post, rfl, fun x hx => h x (.tail _ hx)⟩
    cases a with
    | bootstrapMethods t =>
      constructor
      · intro h
        cases h
        exact ⟨[], as, rfl, fun _ h => nomatch h⟩
      · rintro ⟨pre, post, e, h⟩
        cases pre with
        | nil => cases e; rfl
        | cons y pre =>
          cases e
          exact absurd rfl (h _ (.head _) t)
    | _ => exact step (fun t h => nomatch h) rfl

theorem resolve_found (c : Class) : resolveCells (openClass c) c.attrs = .ok () ↔ EntriesFound c := by
  unfold resolveCells EntriesFound
  rcases hb : bootstrapTable c.attrs with _ | ms
  · refine ⟨fun _ pre ms post h1 h2 => ?_, fun _ => rfl⟩
    rw [(bootstrapTable_first c.attrs ms).mpr ⟨pre, post, h1, h2⟩] at hb
    cases hb
  · have h1 := bootstrapMethods_ok ms (openClass c)
    simp only
    constructor
    · intro h pre ms' post e1 e2
      rw [(bootstrapTable_first c.attrs ms').mpr ⟨pre, post, e1, e2⟩] at hb
      cases hb
      refine h1.mp ?_
      split at h
      · exact ⟨_, by assumption⟩
      · cases h
    · intro h
      obtain ⟨pre, post, e1, e2⟩ := (bootstrapTable_first _ _).mp hb
      obtain ⟨s, hs⟩ := h1.mpr (h pre ms post e1 e2)
      rw [hs]

/-- The cells registered while reading are those of the class. -/
theorem body_cells {ord : Order} {v : Version} {bs1 bs rest : Bytes} {cp : MapCp} {c : Class} {st : RSt}
    (hp : MapCp.read bs1 = .ok (cp, bs)) (h : Class.readBody ord v ⟨cp.get, none⟩ ⟨[], none⟩ bs = .ok (c, st, rest)) :
    st.pending = openClass c := by
  have h1 := read_pool (List.infix_refl bs1)
  rw [hp] at h1
  have hf : PoolFine ⟨True, fun _ _ _ => True, True⟩ cp.get := fun i s hs => ⟨(pool_fine h1.2 i s hs).1, fun _ => trivial⟩
  have h2 := tame_class (I := behind cp bs) (H := ⟨True, fun _ _ _ => True, True⟩) (body := false) ord v
    (fun _ _ _ => trivial) (fun _ _ _ _ _ _ _ _ _ _ _ _ _ _ => trivial) (fun _ _ _ _ _ _ _ _ _ _ _ _ _ _ _ => trivial)
    (fun _ _ _ _ _ _ _ _ _ _ _ _ _ _ => trivial) (fun _ _ _ _ _ _ _ _ _ _ _ _ _ _ => trivial) ⟨cp.get, none⟩
    ⟨[], none⟩ bs hf ⟨rfl, fun h => nomatch h⟩ (List.infix_refl _)
  rw [h] at h2
  obtain ⟨_, _, p, h3, h4⟩ := h2
  rw [h3, h4]
  rfl

/-! ## The class -/

theorem map_ok {α β : Type} {f : α → β} {r : Rd α} {env : REnv} {st st' : RSt} {bs rest : Bytes} {b : β}
    (h : Rd.map f r env st bs = .ok (b, st', rest)) : ∃ a, b = f a ∧ r env st bs = .ok (a, st', rest) := by
  obtain ⟨a, st1, bs1, h1, h2⟩ := Rd.bind_ok h
  cases h2
  exact ⟨a, rfl, h1⟩

theorem ap_ok {α β : Type} {g : Rd (α → β)} {r : Rd α} {env : REnv} {st st' : RSt} {bs rest : Bytes} {b : β}
    (h : Rd.ap g r env st bs = .ok (b, st', rest)) : ∃ f a st1 bs1, b = f a ∧ g env st bs = .ok (f, st1, bs1) ∧
      r env st1 bs1 = .ok (a, st', rest) := by
  obtain ⟨f, st1, bs1, h1, h2⟩ := Rd.bind_ok h
  obtain ⟨a, h3, h4⟩ := map_ok h2
  exact ⟨f, a, st1, bs1, h3, h1, h4⟩

theorem map_of {α β : Type} {f : α → β} {r : Rd α} {env : REnv} {st st' : RSt} {bs rest : Bytes} {a : α}
    (h : r env st bs = .ok (a, st', rest)) : Rd.map f r env st bs = .ok (f a, st', rest) := by
  unfold Rd.map Rd.bind
  rw [h]
  rfl

theorem ap_of {α β : Type} {g : Rd (α → β)} {r : Rd α} {env : REnv} {st st1 st' : RSt} {bs bs1 rest : Bytes} {f : α → β}
    {a : α} (h1 : g env st bs = .ok (f, st1, bs1)) (h2 : r env st1 bs1 = .ok (a, st', rest)) :
    Rd.ap g r env st bs = .ok (f a, st', rest) := by
  unfold Rd.ap Rd.bind
  rw [h1]
  exact map_of h2

theorem read_parts {f : List LocalVariable → List LocalVariable} {input rest : Bytes} {c : Class}
    (h : Class.read (fun _ _ => f) input = .ok (c, rest)) : ∃ x : Parts, input = x.bytes ++ rest ∧ x.Gives f c := by
  unfold Class.read at h
  split at h
  · cases h
  rename_i magic bs1 h1
  split at h
  rotate_left
  · cases h
  rename_i hm
  subst hm
  split at h
  · cases h
  rename_i v bs2 h2
  split at h
  · cases h
  rename_i cp bs3 h3
  split at h
  · cases h
  rename_i c' st bs4 h4
  split at h
  · cases h
  rename_i h5
  cases h
  obtain ⟨b1, e1, rfl⟩ := takes_num u32_lawful _ _ _ h1
  obtain ⟨b2, rfl, e2⟩ := prefixed_version _ _ _ h2
  rw [body_cells h3 h4] at h5
  have h5 := (resolve_found _).mp h5
  obtain ⟨b3, rfl, e3⟩ := prefixed_pool _ _ _ h3
  have e2 := e2 []
  rw [List.append_nil] at e2
  have e3 := e3 []
  rw [List.append_nil] at e3
  unfold Class.readBody at h4
  obtain ⟨g7, as, st7, r7, rfl, h4, k7⟩ := ap_ok h4
  obtain ⟨g6, ms, st6, r6, rfl, h4, k6⟩ := ap_ok h4
  obtain ⟨g5, fs, st5, r5, rfl, h4, k5⟩ := ap_ok h4
  obtain ⟨g4, is, st4, r4, rfl, h4, k4⟩ := ap_ok h4
  obtain ⟨g3, sup, ⟨q3, l3⟩, r3, rfl, h4, k3⟩ := ap_ok h4
  obtain ⟨g2, nm, ⟨q2, l2⟩, r2, rfl, h4, k2⟩ := ap_ok h4
  obtain ⟨acc, rfl, k1⟩ := map_ok h4
  obtain ⟨p1, rfl, l1, a1⟩ := (part_flags _).split k1
  cases l1
  obtain ⟨p2, rfl, l1, a2⟩ := (part_str _).split k2
  cases l1
  obtain ⟨p3, rfl, l1, a3⟩ := part_clsOpt.split k3
  obtain ⟨p4, rfl, l1, a4⟩ := (part_str _).vec_split l1 k4
  obtain ⟨p5, rfl, l1, a5⟩ := part_field.vec_split l1 k5
  obtain ⟨p6, rfl, l1, a6⟩ := (part_method f).vec_split l1 k6
  obtain ⟨p7, rfl, l1, a7⟩ := part_classAttr.vec_split l1 k7
  refine ⟨⟨b2, b3, p1, p2, p3, p4, p5, p6, p7⟩, ?_, cp, e2, e3, a1, a2, a3, a4, a5, a6, a7, h5⟩
  rw [e1, u32_write]
  show U4 0xCAFEBABE ++ _ = _
  unfold Parts.bytes
  simp only [List.append_assoc]

theorem prefixed_more {α : Type} {r : Reader α} (hr : Prefixed r) {b : Bytes} {a : α} (h : r b = .ok (a, [])) (t : Bytes) :
    r (b ++ t) = .ok (a, t) := by
  obtain ⟨b', e, h⟩ := hr _ _ _ h
  rw [List.append_nil] at e
  subst e
  exact h t

theorem parts_read {f : List LocalVariable → List LocalVariable} {x : Parts} {c : Class} (h : x.Gives f c) (rest : Bytes) :
    Class.read (fun _ _ => f) (x.bytes ++ rest) = .ok (c, rest) := by
  obtain ⟨cp, hv, hp, a1, a2, a3, a4, a5, a6, a7, hf⟩ := h
  obtain ⟨x1, x2, x3, x4, x5, x6, x7, x8, x9⟩ := x
  simp only at hv hp a1 a2 a3 a4 a5 a6 a7
  unfold Parts.bytes
  simp only [List.append_assoc]
  obtain ⟨q1, k1⟩ := (part_flags .cls).join a1 [] (x4 ++ (x5 ++ (counted x6 ++ (counted x7 ++ (counted x8 ++ (counted x9 ++ rest))))))
  obtain ⟨q2, k2⟩ := (part_str 7).join a2 q1 (x5 ++ (counted x6 ++ (counted x7 ++ (counted x8 ++ (counted x9 ++ rest)))))
  obtain ⟨q3, k3⟩ := part_clsOpt.join a3 q2 (counted x6 ++ (counted x7 ++ (counted x8 ++ (counted x9 ++ rest))))
  obtain ⟨q4, k4⟩ := (part_str 7).vec_join a4 q3 (counted x7 ++ (counted x8 ++ (counted x9 ++ rest)))
  obtain ⟨q5, k5⟩ := part_field.vec_join a5 q4 (counted x8 ++ (counted x9 ++ rest))
  obtain ⟨q6, k6⟩ := (part_method f).vec_join a6 q5 (counted x9 ++ rest)
  obtain ⟨q7, k7⟩ := part_classAttr.vec_join a7 q6 rest
  have hb : Class.readBody (fun _ _ => f) c.version ⟨cp.get, none⟩ ⟨[], none⟩ (x3 ++ (x4 ++ (x5 ++ (counted x6 ++
      (counted x7 ++ (counted x8 ++ (counted x9 ++ rest))))))) = .ok (c, ⟨q7, none⟩, rest) :=
    ap_of (ap_of (ap_of (ap_of (ap_of (ap_of (map_of k1) k2) k3) k4) k5) k6) k7
  have hp' := prefixed_more prefixed_pool hp (x3 ++ (x4 ++ (x5 ++ (counted x6 ++
      (counted x7 ++ (counted x8 ++ (counted x9 ++ rest)))))))
  have hq := body_cells hp' hb
  unfold Class.read
  rw [show (0xCAFEBABE : Nat) = jvmMagic.toNat from rfl, readsU4]
  simp only [if_true]
  rw [prefixed_more prefixed_version hv]
  simp only
  rw [hp']
  simp only
  rw [hb]
  simp only
  have hq : q7 = openClass c := hq
  rw [hq, (resolve_found c).mpr hf]

/-! ## There is one way to cut -/

theorem SelfContained.same {α : Type} {r : Rd α} (hr : SelfContained r) {P : Pool} {b b' t t' : Bytes} {a a' : α} (h : Alone r P b a)
    (h' : Alone r P b' a') (e : b ++ t = b' ++ t') : b = b' ∧ t = t' := by
  obtain ⟨q, h1⟩ := hr.join h [] t
  obtain ⟨q', h2⟩ := hr.join h' [] t'
  rw [e, h2] at h1
  cases h1
  exact ⟨List.append_cancel_right e, rfl⟩

theorem SelfContained.same_each {α : Type} {r : Rd α} (hr : SelfContained r) {P : Pool} {cs : List Bytes} {as : List α}
    (h : Matched (Alone r P) cs as) : ∀ {cs' : List Bytes} {as' : List α} {t t' : Bytes}, Matched (Alone r P) cs' as' →
    cs.length = cs'.length → cs.flatten ++ t = cs'.flatten ++ t' → cs = cs' ∧ t = t' := by
  induction h with
  | nil =>
    intro cs' as' t t' h' hl e
    cases h' with
    | nil => exact ⟨rfl, e⟩
    | cons _ _ => cases hl
  | cons hb _ ih =>
    intro cs' as' t t' h' hl e
    cases h' with
    | nil => cases hl
    | cons hb' h' =>
      rw [List.flatten_cons, List.flatten_cons, List.append_assoc, List.append_assoc] at e
      obtain ⟨rfl, e2⟩ := hr.same hb hb' e
      obtain ⟨rfl, rfl⟩ := ih h' (Nat.succ.inj hl) e2
      exact ⟨rfl, rfl⟩

theorem U2_same {m n : Nat} (hm : m < 65536) (hn : n < 65536) {t t' : Bytes} (e : U2 m ++ t = U2 n ++ t') : m = n ∧ t = t' := by
  have h1 := readsU2' m hm t
  rw [e, readsU2' n hn t'] at h1
  have h2 := (Except.ok.inj h1)
  have h3 := congrArg (fun x => UInt16.toNat x.1) h2
  simp only [UInt16.toNat_ofNat', Nat.reducePow] at h3
  exact ⟨by omega, (congrArg Prod.snd h2).symm⟩

theorem SelfContained.same_vec {α : Type} {r : Rd α} (hr : SelfContained r) {P : Pool} {cs cs' : List Bytes} {as as' : List α} {t t' : Bytes}
    (h : EachAlone r P cs as) (h' : EachAlone r P cs' as') (e : counted cs ++ t = counted cs' ++ t') : cs = cs' ∧ t = t' := by
  unfold counted at e
  rw [List.append_assoc, List.append_assoc] at e
  obtain ⟨hl, e⟩ := U2_same h.1 h'.1 e
  exact hr.same_each h.2 h'.2 hl e

theorem parts_same {f : List LocalVariable → List LocalVariable} {x y : Parts} {c d : Class} {t t' : Bytes}
    (hx : x.Gives f c) (hy : y.Gives f d) (e : x.bytes ++ t = y.bytes ++ t') : x = y := by
  obtain ⟨cp, hv, hp, a1, a2, a3, a4, a5, a6, a7, hf⟩ := hx
  obtain ⟨cp', hv', hp', b1, b2, b3, b4, b5, b6, b7, hf'⟩ := hy
  obtain ⟨x1, x2, x3, x4, x5, x6, x7, x8, x9⟩ := x
  obtain ⟨y1, y2, y3, y4, y5, y6, y7, y8, y9⟩ := y
  simp only at hv hp a1 a2 a3 a4 a5 a6 a7 hv' hp' b1 b2 b3 b4 b5 b6 b7
  unfold Parts.bytes at e
  simp only [List.append_assoc] at e
  have e := List.append_cancel_left e
  have pre {α : Type} {r : Reader α} (hr : Prefixed r) {b b' s s' : Bytes} {a a' : α} (h : r b = .ok (a, []))
      (h' : r b' = .ok (a', [])) (e : b ++ s = b' ++ s') : b = b' ∧ s = s' := by
    have h1 := prefixed_more hr h s
    rw [e, prefixed_more hr h'] at h1
    cases h1
    exact ⟨List.append_cancel_right e, rfl⟩
  obtain ⟨rfl, e1⟩ := pre prefixed_version hv hv' e
  obtain ⟨rfl, e2⟩ := pre prefixed_pool hp hp' e1
  rw [hp] at hp'
  cases hp'
  obtain ⟨rfl, e3⟩ := (part_flags _).same a1 b1 e2
  obtain ⟨rfl, e4⟩ := (part_str _).same a2 b2 e3
  obtain ⟨rfl, e5⟩ := part_clsOpt.same a3 b3 e4
  obtain ⟨rfl, e6⟩ := (part_str _).same_vec a4 b4 e5
  obtain ⟨rfl, e7⟩ := part_field.same_vec a5 b5 e6
  obtain ⟨rfl, e8⟩ := (part_method f).same_vec a6 b6 e7
  obtain ⟨rfl, e9⟩ := part_classAttr.same_vec a7 b7 e8
  rfl

end Verif
