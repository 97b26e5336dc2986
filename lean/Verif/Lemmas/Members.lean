import Verif.Lemmas.Parts
import Verif.Spec.Members

/-! # Reading fields, methods and method bodies part by part -/

namespace Verif
open Spec Sig

/-! ## Fields and methods -/

theorem part_utf8 : SelfContained rUtf8 := ⟨.utf8, .utf8, .utf8⟩
theorem part_type : SelfContained rType := ⟨.type, .type, .type⟩
theorem part_fieldAttr : SelfContained FieldAttr.read := ⟨.attr _ _, .fieldAttr, .fieldAttr⟩
theorem part_methodAttr (f : List LocalVariable → List LocalVariable) : SelfContained (MethodAttr.read fun _ _ => f) :=
  ⟨.attr _ _, .methodAttr _, .methodAttr _⟩

theorem field_parts {P : Pool} {b : Bytes} {d : Field} :
    Alone Field.read P b d ↔ ∃ y : MemberParts, b = y.bytes ∧ y.GivesField P d := by
  constructor
  · rintro ⟨st, h⟩
    unfold Field.read at h
    obtain ⟨g4, as, st4, r4, rfl, h, k4⟩ := ap_ok h
    obtain ⟨g3, t, ⟨q3, l3⟩, r3, rfl, h, k3⟩ := ap_ok h
    obtain ⟨g2, n, ⟨q2, l2⟩, r2, rfl, h, k2⟩ := ap_ok h
    obtain ⟨acc, rfl, k1⟩ := map_ok h
    obtain ⟨p1, rfl, l1, a1⟩ := (part_flags _).split k1
    cases l1
    obtain ⟨p2, rfl, l1, a2⟩ := part_utf8.split k2
    cases l1
    obtain ⟨p3, rfl, l1, a3⟩ := part_type.split k3
    obtain ⟨p4, rfl, _, a4⟩ := part_fieldAttr.vec_split l1 k4
    exact ⟨⟨p1, p2, p3, p4⟩, by rw [List.append_nil]; rfl, a1, a2, a3, a4⟩
  · rintro ⟨⟨p1, p2, p3, p4⟩, rfl, a1, a2, a3, a4⟩
    obtain ⟨q1, k1⟩ := (part_flags _).join a1 [] (p2 ++ (p3 ++ counted p4))
    obtain ⟨q2, k2⟩ := part_utf8.join a2 q1 (p3 ++ counted p4)
    obtain ⟨q3, k3⟩ := part_type.join a3 q2 (counted p4)
    obtain ⟨q4, k4⟩ := part_fieldAttr.vec_join a4 q3 []
    rw [List.append_nil] at k4
    exact ⟨_, ap_of (ap_of (ap_of (map_of k1) k2) k3) k4⟩

theorem method_parts {f : List LocalVariable → List LocalVariable} {P : Pool} {b : Bytes} {m : Method} :
    Alone (Method.read fun _ _ => f) P b m ↔ ∃ y : MemberParts, b = y.bytes ∧ y.GivesMethod f P m := by
  constructor
  · rintro ⟨st, h⟩
    unfold Method.read at h
    obtain ⟨g4, as, st4, r4, rfl, h, k4⟩ := ap_ok h
    obtain ⟨g3, t, ⟨q3, l3⟩, r3, rfl, h, k3⟩ := ap_ok h
    obtain ⟨g2, n, ⟨q2, l2⟩, r2, rfl, h, k2⟩ := ap_ok h
    obtain ⟨acc, rfl, k1⟩ := map_ok h
    obtain ⟨p1, rfl, l1, a1⟩ := (part_flags _).split k1
    cases l1
    obtain ⟨p2, rfl, l1, a2⟩ := part_utf8.split k2
    cases l1
    obtain ⟨p3, rfl, l1, a3⟩ := part_type.split k3
    obtain ⟨p4, rfl, _, a4⟩ := (part_methodAttr f).vec_split l1 k4
    exact ⟨⟨p1, p2, p3, p4⟩, by rw [List.append_nil]; rfl, a1, a2, a3, a4⟩
  · rintro ⟨⟨p1, p2, p3, p4⟩, rfl, a1, a2, a3, a4⟩
    obtain ⟨q1, k1⟩ := (part_flags _).join a1 [] (p2 ++ (p3 ++ counted p4))
    obtain ⟨q2, k2⟩ := part_utf8.join a2 q1 (p3 ++ counted p4)
    obtain ⟨q3, k3⟩ := part_type.join a3 q2 (counted p4)
    obtain ⟨q4, k4⟩ := (part_methodAttr f).vec_join a4 q3 []
    rw [List.append_nil] at k4
    exact ⟨_, ap_of (ap_of (ap_of (map_of k1) k2) k3) k4⟩

theorem field_same {P : Pool} {y y' : MemberParts} {d d' : Field} (h : y.GivesField P d) (h' : y'.GivesField P d')
    (e : y.bytes = y'.bytes) : y = y' := by
  obtain ⟨p1, p2, p3, p4⟩ := y
  obtain ⟨p1', p2', p3', p4'⟩ := y'
  obtain ⟨a1, a2, a3, a4⟩ := h
  obtain ⟨b1, b2, b3, b4⟩ := h'
  obtain ⟨e1, e⟩ := (part_flags _).same a1 b1 e
  obtain ⟨e2, e⟩ := part_utf8.same a2 b2 e
  obtain ⟨e3, e⟩ := part_type.same a3 b3 e
  obtain ⟨e4, _⟩ := part_fieldAttr.same_vec (t := []) (t' := []) a4 b4 (by rw [e])
  simp only at e1 e2 e3 e4
  rw [e1, e2, e3, e4]

theorem method_same {f : List LocalVariable → List LocalVariable} {P : Pool} {y y' : MemberParts} {d d' : Method}
    (h : y.GivesMethod f P d) (h' : y'.GivesMethod f P d') (e : y.bytes = y'.bytes) : y = y' := by
  obtain ⟨p1, p2, p3, p4⟩ := y
  obtain ⟨p1', p2', p3', p4'⟩ := y'
  obtain ⟨a1, a2, a3, a4⟩ := h
  obtain ⟨b1, b2, b3, b4⟩ := h'
  obtain ⟨e1, e⟩ := (part_flags _).same a1 b1 e
  obtain ⟨e2, e⟩ := part_utf8.same a2 b2 e
  obtain ⟨e3, e⟩ := part_type.same a3 b3 e
  obtain ⟨e4, _⟩ := (part_methodAttr f).same_vec (t := []) (t' := []) a4 b4 (by rw [e])
  simp only at e1 e2 e3 e4
  rw [e1, e2, e3, e4]

/-! ## An attribute with a name that is not known -/

theorem unknown_read {α : Type} {table : Bytes → Option (Rd α)} {raw : RawAttribute → α} {P : Pool} {i : UInt16}
    {name data : Bytes} (hi : IsUtf8 P i name) (ht : table name = none) (hl : data.length < 2 ^ 32) (cs : Option (List Catch))
    (st : RSt) (t : Bytes) :
    rAttr table raw ⟨P, cs⟩ st (attrBytes i data ++ t) = .ok (raw ⟨name, data⟩, st, t) := by
  have h1 : rUtf8 ⟨P, cs⟩ st (attrBytes i data ++ t) = .ok (name, st, U4 data.length ++ (data ++ t)) := by
    unfold rUtf8 rIdx Rd.bind rNum Rd.lift attrBytes
    rw [List.append_assoc, List.append_assoc, readsU2]
    simp only
    unfold rLookup Pool.wtf8
    simp only
    rw [show P i = some (.utf8 name) from hi]
  unfold rAttr Rd.bind
  rw [h1]
  simp only [ht]
  refine map_of (a := data) ?_
  unfold rRawBody
  have hn : (UInt32.ofNat data.length).toNat = data.length := by
    rw [UInt32.toNat_ofNat']
    exact Nat.mod_eq_of_lt hl
  have h2 : u32.read (U4 data.length ++ (data ++ t)) = .ok (UInt32.ofNat data.length, data ++ t) := by
    have := readsU4 (UInt32.ofNat data.length) (data ++ t)
    rwa [hn] at this
  rw [h2]
  simp only [hn]
  rw [readExact_append _ _ _ rfl]

/-- What follows an attribute is left. -/
theorem attr_rest {α : Type} {table : Bytes → Option (Rd α)} {raw : RawAttribute → α} {env : REnv} {st st' : RSt}
    {i : UInt16} {data t rest : Bytes} {a : α} (hl : data.length < 2 ^ 32)
    (h : rAttr table raw env st (attrBytes i data ++ t) = .ok (a, st', rest)) : rest = t := by
  unfold attrBytes at h
  rw [List.append_assoc, List.append_assoc] at h
  unfold rAttr at h
  obtain ⟨name, st1, bs1, h1, h⟩ := Rd.bind_ok h
  unfold rUtf8 rIdx at h1
  obtain ⟨j, st2, bs2, h2, h3⟩ := Rd.bind_ok h1
  unfold rNum Rd.lift at h2
  rw [readsU2] at h2
  cases h2
  have e : bs1 = U4 data.length ++ (data ++ t) := by
    unfold rLookup at h3
    split at h3
    · cases h3; rfl
    · cases h3
  subst e
  have hn : (UInt32.ofNat data.length).toNat = data.length := by
    rw [UInt32.toNat_ofNat']
    exact Nat.mod_eq_of_lt hl
  have h2 : u32.read (U4 data.length ++ (data ++ t)) = .ok (UInt32.ofNat data.length, data ++ t) := by
    have := readsU4 (UInt32.ofNat data.length) (data ++ t)
    rwa [hn] at this
  rcases ht : table name with _ | r
  rotate_left
  · simp only [ht] at h
    unfold rFramed at h
    rw [h2] at h
    simp only [hn] at h
    rw [readExact_append _ _ _ rfl] at h
    simp only at h
    split at h <;> cases h
    rfl
  · simp only [ht] at h
    obtain ⟨b, rfl, k⟩ := map_ok h
    unfold rRawBody at k
    rw [h2] at k
    simp only [hn] at k
    rw [readExact_append _ _ _ rfl] at k
    cases k
    rfl

/-! ## The body of a method -/

theorem Rd.bind_assoc {α β γ : Type} (x : Rd α) (f : α → Rd β) (g : β → Rd γ) :
    Rd.bind (Rd.bind x f) g = Rd.bind x fun a => Rd.bind (f a) g := by
  funext env st bs
  show (match (match x env st bs with
    | .ok (a, st, bs) => f a env st bs
    | .error e => .error e) with
    | .ok (b, st, bs) => g b env st bs
    | .error e => .error e) = match x env st bs with
    | .ok (a, st, bs) => (match f a env st bs with
      | .ok (b, st, bs) => g b env st bs
      | .error e => .error e)
    | .error e => .error e
  rcases x env st bs with _ | ⟨_, _, _⟩ <;> rfl

theorem Rd.pure_bind {α β : Type} (a : α) (f : α → Rd β) : Rd.bind (Rd.pure a) f = f a := rfl

theorem Local.other {α : Type} {r : Rd α} (hr : Local r) {env : REnv} {st st' : RSt} {b t : Bytes} {a : α}
    (h : r env st (b ++ t) = .ok (a, st', t)) (t' : Bytes) : r env st (b ++ t') = .ok (a, st', t') := by
  obtain ⟨b', e, h⟩ := hr _ _ _ _ _ _ h
  obtain rfl := List.append_cancel_right e
  exact h t'

/-- So many bytes are consumed. -/
def Eats {α : Type} (n : Nat) (r : Rd α) : Prop := ∀ env st bs a st' rest, r env st bs = .ok (a, st', rest) →
  bs.length = n + rest.length

theorem Eats.bind {α β : Type} {m n : Nat} {x : Rd α} {f : α → Rd β} (hx : Eats m x) (hf : ∀ a, Eats n (f a)) :
    Eats (m + n) (Rd.bind x f) := by
  intro env st bs b st' rest h
  obtain ⟨a, st1, bs1, h1, h2⟩ := Rd.bind_ok h
  have := hx _ _ _ _ _ _ h1
  have := hf _ _ _ _ _ _ _ h2
  omega

theorem Eats.pure {α : Type} (a : α) : Eats 0 (Rd.pure a) := by
  intro env st bs b st' rest h
  cases h
  rw [Nat.zero_add]

theorem Eats.map {α β : Type} {n : Nat} {x : Rd α} {f : α → β} (hx : Eats n x) : Eats n (Rd.map f x) :=
  Eats.bind hx fun _ => .pure _

theorem Eats.ap {α β : Type} {m n : Nat} {g : Rd (α → β)} {x : Rd α} (hg : Eats m g) (hx : Eats n x) :
    Eats (m + n) (Rd.ap g x) := hg.bind fun _ => hx.map

theorem Eats.num16 : Eats 2 (rNum u16) := by
  intro env st bs b st' rest h
  unfold rNum Rd.lift at h
  split at h
  · rename_i h1
    cases h
    obtain ⟨b1, e1, rfl⟩ := takes_num u16_lawful _ _ _ h1
    rw [e1, u16_write, List.length_append]
    rfl
  · cases h

theorem Eats.getLabel (o : UInt32) : Eats 0 (getLabel o) := by
  intro env st bs b st' rest h
  unfold Verif.getLabel at h
  split at h
  · cases h
  · split at h <;> cases h <;> rw [Nat.zero_add]

theorem Eats.label : Eats 2 rLabel := Eats.num16.bind fun _ => .getLabel _

theorem Eats.lookup {α : Type} (f : Pool → UInt16 → Option α) (i : UInt16) : Eats 0 (rLookup f i) := by
  intro env st bs b st' rest h
  unfold rLookup at h
  split at h <;> cases h
  rw [Nat.zero_add]

theorem Eats.catch_ : Eats 8 Catch.read := by
  refine Eats.ap (m := 6) (n := 2) (Eats.ap (m := 4) (n := 2) (Eats.ap (m := 2) (n := 2) (Eats.map .label) .label) .label) ?_
  refine Eats.bind (n := 0) .num16 fun i => ?_
  split
  · exact .pure _
  · exact .map (.lookup _ _)

theorem Eats.replicate {α : Type} {n : Nat} {r : Rd α} (hr : Eats n r) : ∀ k, Eats (k * n) (Rd.replicate k r)
  | 0 => by rw [Nat.zero_mul]; exact .pure _
  | k + 1 => by
    rw [Nat.succ_mul, Nat.add_comm]
    exact hr.bind fun _ => (Eats.replicate hr k).map

/-- Everything in front of the attributes. -/
def bodyHead : Rd (UInt16 × UInt16 × Bytes × List (Nat × Insn) × List Catch) :=
  Rd.bind (rNum u16) fun maxStack => Rd.bind (rNum u16) fun maxLocals =>
  Rd.bind (rNum u32) fun len => Rd.bind (rBytes len.toNat) fun code =>
  Rd.bind (readInsns code) fun pis =>
  Rd.bind (rVec u16 Catch.read) fun catches => Rd.pure (maxStack, maxLocals, code, pis, catches)

/-- Everything behind them. -/
def bodyEnd (f : List LocalVariable → List LocalVariable) (x : UInt16 × UInt16 × Bytes × List (Nat × Insn) × List Catch)
    (acc : AttrAcc) : Rd Code :=
  Rd.bind (placeMarkers (indexIn (x.2.2.2.1.map Prod.fst ++ [x.2.2.1.length])) acc.ins (x.2.2.2.1.map Prod.snd)) fun is =>
    fun _ st bs => .ok (⟨x.1, x.2.1, is, x.2.2.2.2,
      if acc.vars.length = 0 then acc.attrs else acc.attrs ++ [.locals (f acc.vars)]⟩, st, bs)

theorem readIn_parts (f : List LocalVariable → List LocalVariable) : (Code.readIn fun _ => f) =
    Rd.bind bodyHead fun x => Rd.bind (rNum u16) fun n =>
      Rd.bind (withCatches x.2.2.2.2 (readCodeAttrs (indexIn (x.2.2.2.1.map Prod.fst ++ [x.2.2.1.length])) n.toNat
        ⟨[], fun _ => [], []⟩)) fun acc => bodyEnd f x acc := by
  unfold Code.readIn bodyHead bodyEnd
  simp only [Rd.bind_assoc, Rd.pure_bind]

theorem Local.bodyHead : Local bodyHead :=
  (Local.num _).bind fun _ => (Local.num _).bind fun _ => (Local.num _).bind fun _ => (Local.bytes _).bind fun _ =>
    (Local.insns _).bind fun _ => (Local.vec .catchRead).bind fun _ => .pure _

/-- What follows the exception table is left. -/
theorem bodyHead_rest {env : REnv} {st st' : RSt} {limits code T t rest : Bytes} {n : Nat}
    {x : UInt16 × UInt16 × Bytes × List (Nat × Insn) × List Catch} (h1 : limits.length = 4) (h2 : code.length < 2 ^ 32)
    (h3 : n < 65536) (h4 : T.length = n * 8)
    (h : bodyHead env st (limits ++ (U4 code.length ++ (code ++ (U2 n ++ (T ++ t))))) = .ok (x, st', rest)) : rest = t := by
  obtain ⟨b, e, hb⟩ := Local.bodyHead _ _ _ _ _ _ h
  unfold bodyHead at h
  obtain ⟨a1, st1, bs1, k1, h⟩ := Rd.bind_ok h
  obtain ⟨a2, st2, bs2, k2, h⟩ := Rd.bind_ok h
  have e2 : bs2 = U4 code.length ++ (code ++ (U2 n ++ (T ++ t))) := by
    obtain ⟨c1, d1, _⟩ := (Local.num u16) _ _ _ _ _ _ k1
    obtain ⟨c2, d2, _⟩ := (Local.num u16) _ _ _ _ _ _ k2
    have l1 := Eats.num16 _ _ _ _ _ _ k1
    have l2 := Eats.num16 _ _ _ _ _ _ k2
    have d1 := d1.trans ((congrArg (c1 ++ ·) d2).trans (List.append_assoc c1 c2 bs2).symm)
    have d3 := congrArg List.length d2
    have d4 := congrArg List.length d1
    simp only [List.length_append] at l1 d3 d4
    refine ((List.append_inj d1 ?_).2).symm
    rw [List.length_append, h1]
    omega
  subst e2
  obtain ⟨a3, st3, bs3, k3, h⟩ := Rd.bind_ok h
  unfold rNum Rd.lift at k3
  rw [readsU4' _ h2] at k3
  cases k3
  obtain ⟨a4, st4, bs4, k4, h⟩ := Rd.bind_ok h
  have hn : (UInt32.ofNat code.length).toNat = code.length := by
    rw [UInt32.toNat_ofNat']
    exact Nat.mod_eq_of_lt h2
  rw [hn] at k4
  unfold rBytes Rd.lift at k4
  rw [readExact_append _ _ _ rfl] at k4
  cases k4
  obtain ⟨a5, st5, bs5, k5, h⟩ := Rd.bind_ok h
  have e5 : bs5 = U2 n ++ (T ++ t) := by
    unfold readInsns at k5
    split at k5 <;> cases k5
    rfl
  subst e5
  obtain ⟨a6, st6, bs6, k6, h⟩ := Rd.bind_ok h
  cases h
  obtain ⟨a7, st7, bs7, k7, k8⟩ := Rd.bind_ok k6
  unfold rNum Rd.lift at k7
  rw [readsU2' _ h3] at k7
  cases k7
  have hn : u16.bits (UInt16.ofNat n) = n := by
    show (UInt16.ofNat n).toNat = n
    rw [UInt16.toNat_ofNat']
    exact Nat.mod_eq_of_lt h3
  rw [hn] at k8
  obtain ⟨c1, d1, _⟩ := (Local.replicate .catchRead n) _ _ _ _ _ _ k8
  have l1 := Eats.catch_.replicate n _ _ _ _ _ _ k8
  have d2 := congrArg List.length d1
  simp only [List.length_append] at l1 d2
  exact ((List.append_inj d1 (by omega)).2).symm

/-! ### The attributes -/

theorem codeAttrs_split (idx : Nat → Option Nat) : ∀ (m n : Nat) (acc : AttrAcc), readCodeAttrs idx (m + n) acc =
    Rd.bind (readCodeAttrs idx m acc) fun acc => readCodeAttrs idx n acc
  | 0, n, acc => by rw [Nat.zero_add]; rfl
  | m + 1, n, acc => by
    rw [show m + 1 + n = (m + n) + 1 by omega]
    show Rd.bind CodeAttr.read (fun a => Rd.bind (acc.step idx a) fun acc => readCodeAttrs idx (m + n) acc) =
      Rd.bind (Rd.bind CodeAttr.read fun a => Rd.bind (acc.step idx a) fun acc => readCodeAttrs idx m acc)
        fun acc => readCodeAttrs idx n acc
    simp only [Rd.bind_assoc]
    congr 1
    funext a
    congr 1
    funext acc
    exact codeAttrs_split idx m n acc

theorem Eats.addVars : ∀ (ls : List VarEntry) (vs : List LocalVariable), Eats 0 (addVars vs ls)
  | [], _ => .pure _
  | _ :: ls, _ => Eats.bind (m := 0) (n := 0) (rangeEats _ _) fun _ => Eats.addVars ls _
where
  rangeEats (s n : UInt16) : Eats 0 (rangeLabels s n) := by
    refine Eats.bind (m := 0) (n := 0) (.getLabel _) fun _ => ?_
    split
    · exact .map (.getLabel _)
    · exact fun _ _ _ _ _ _ h => nomatch h

theorem Eats.addVarTypes : ∀ (ls : List VarTypeEntry) (vs : List LocalVariable), Eats 0 (addVarTypes vs ls)
  | [], _ => .pure _
  | _ :: ls, _ => Eats.bind (m := 0) (n := 0) (Eats.addVars.rangeEats _ _) fun _ => Eats.addVarTypes ls _

theorem Eats.step (idx : Nat → Option Nat) (acc : AttrAcc) (a : CodeAttr) : Eats 0 (acc.step idx a) := by
  cases a with
  | lines ls =>
    refine .map fun env st bs b st' rest h => ?_
    unfold Rd.ofRes at h
    split at h <;> cases h
    rw [Nat.zero_add]
  | vars vs => exact .map (.addVars _ _)
  | varTypes vs => exact .map (.addVarTypes _ _)
  | _ => exact .pure _

theorem step_rest {idx : Nat → Option Nat} {acc acc' : AttrAcc} {a : CodeAttr} {env : REnv} {st st' : RSt} {bs rest : Bytes}
    (h : acc.step idx a env st bs = .ok (acc', st', rest)) : rest = bs := by
  obtain ⟨b, e, _⟩ := Local.step idx acc a _ _ _ _ _ _ h
  have := Eats.step idx acc a _ _ _ _ _ _ h
  have d := congrArg List.length e
  rw [List.length_append] at d
  obtain rfl : b = [] := List.eq_nil_of_length_eq_zero (by omega)
  exact e.symm

/-- What follows the attributes is left. -/
theorem codeAttrs_rest {idx : Nat → Option Nat} : ∀ (as : List (UInt16 × Bytes)) {acc acc' : AttrAcc} {env : REnv}
    {st st' : RSt} {t rest : Bytes}, (∀ a ∈ as, a.2.length < 2 ^ 32) →
    readCodeAttrs idx as.length acc env st ((as.map fun a => attrBytes a.1 a.2).flatten ++ t) = .ok (acc', st', rest) →
    rest = t
  | [], acc, acc', env, st, st', t, rest, _, h => by
    cases h
    rfl
  | a :: as, acc, acc', env, st, st', t, rest, hl, h => by
    rw [List.map_cons, List.flatten_cons, List.append_assoc] at h
    obtain ⟨x, st1, bs1, h1, h⟩ := Rd.bind_ok h
    obtain rfl := attr_rest (hl a List.mem_cons_self) h1
    obtain ⟨acc1, st2, bs2, h2, h⟩ := Rd.bind_ok h
    obtain rfl := step_rest h2
    exact codeAttrs_rest as (fun a ha => hl a (List.mem_cons_of_mem _ ha)) h

/-- Attributes are added at the end, and those already there do not matter. -/
theorem step_attrs {idx : Nat → Option Nat} {acc acc' : AttrAcc} {a : CodeAttr} {env : REnv} {st st' : RSt} {bs rest : Bytes}
    (h : acc.step idx a env st bs = .ok (acc', st', rest)) : ∃ Δ, acc'.attrs = acc.attrs ++ Δ ∧ ∀ X,
      AttrAcc.step idx { acc with attrs := X } a env st bs = .ok ({ acc' with attrs := X ++ Δ }, st', rest) := by
  cases a with
  | lines ls =>
    obtain ⟨m, rfl, k⟩ := map_ok h
    exact ⟨[], (List.append_nil _).symm, fun X => by rw [List.append_nil]; exact map_of k⟩
  | vars ls =>
    obtain ⟨m, rfl, k⟩ := map_ok h
    exact ⟨[], (List.append_nil _).symm, fun X => by rw [List.append_nil]; exact map_of k⟩
  | varTypes ls =>
    obtain ⟨m, rfl, k⟩ := map_ok h
    exact ⟨[], (List.append_nil _).symm, fun X => by rw [List.append_nil]; exact map_of k⟩
  | frames =>
    cases h
    exact ⟨[], (List.append_nil _).symm, fun X => by rw [List.append_nil]; rfl⟩
  | invisibleType as =>
    cases h
    exact ⟨_, rfl, fun X => rfl⟩
  | visibleType as =>
    cases h
    exact ⟨_, rfl, fun X => rfl⟩
  | raw as =>
    cases h
    exact ⟨_, rfl, fun X => rfl⟩

theorem codeAttrs_attrs {idx : Nat → Option Nat} : ∀ (n : Nat) {acc acc' : AttrAcc} {env : REnv} {st st' : RSt}
    {bs rest : Bytes}, readCodeAttrs idx n acc env st bs = .ok (acc', st', rest) →
    ∃ Δ, acc'.attrs = acc.attrs ++ Δ ∧ ∀ X,
      readCodeAttrs idx n { acc with attrs := X } env st bs = .ok ({ acc' with attrs := X ++ Δ }, st', rest)
  | 0, acc, acc', env, st, st', bs, rest, h => by
    cases h
    exact ⟨[], (List.append_nil _).symm, fun X => by rw [List.append_nil]; rfl⟩
  | n + 1, acc, acc', env, st, st', bs, rest, h => by
    obtain ⟨x, st1, bs1, h1, h⟩ := Rd.bind_ok h
    obtain ⟨acc1, st2, bs2, h2, h⟩ := Rd.bind_ok h
    obtain ⟨Δ1, e1, k1⟩ := step_attrs h2
    obtain ⟨Δ2, e2, k2⟩ := codeAttrs_attrs n h
    refine ⟨Δ1 ++ Δ2, by rw [e2, e1, List.append_assoc], fun X => ?_⟩
    unfold readCodeAttrs Rd.bind
    simp only [h1, k1, k2]
    rw [List.append_assoc]

/-- The attributes of a body, one after another. -/
def flatAttrs (as : List (UInt16 × Bytes)) : Bytes := (as.map fun a => attrBytes a.1 a.2).flatten

theorem flatAttrs_append (as bs : List (UInt16 × Bytes)) : flatAttrs (as ++ bs) = flatAttrs as ++ flatAttrs bs := by
  unfold flatAttrs
  rw [List.map_append, List.flatten_append]

/-- Everything in front of the number of attributes. -/
def Spec.BodyParts.front (y : BodyParts) : Bytes :=
  y.limits ++ (U4 y.code.length ++ (y.code ++ (U2 y.handlers.length ++ y.handlers.flatten)))

theorem body_bytes (y : BodyParts) : y.bytes = y.front ++ (U2 y.attrs.length ++ flatAttrs y.attrs) := by
  unfold BodyParts.bytes BodyParts.front counted flatAttrs
  simp only [List.append_assoc, List.length_map]

theorem handlers_length : ∀ (hs : List Bytes), (∀ h ∈ hs, h.length = 8) → hs.flatten.length = hs.length * 8
  | [], _ => rfl
  | h :: hs, hl => by
    rw [List.flatten_cons, List.length_append, hl h List.mem_cons_self, List.length_cons,
      handlers_length hs fun h hh => hl h (List.mem_cons_of_mem _ hh)]
    omega

/-- The places of the instructions. -/
abbrev placesOf (x : UInt16 × UInt16 × Bytes × List (Nat × Insn) × List Catch) : Nat → Option Nat :=
  indexIn (x.2.2.2.1.map Prod.fst ++ [x.2.2.1.length])

theorem bind_found {α β : Type} {x : Rd α} {f : α → Rd β} {env : REnv} {st st1 : RSt} {bs bs1 : Bytes} {a : α}
    (h : x env st bs = .ok (a, st1, bs1)) : Rd.bind x f env st bs = f a env st1 bs1 := by
  unfold Rd.bind
  rw [h]

/-- How a body is read: what is in front of the attributes, the attributes, the rest. -/
theorem body_read {f : List LocalVariable → List LocalVariable} {env : REnv} {st st' : RSt} {y : BodyParts} {k : Code}
    (hy : y.Sized) : (Code.readIn fun _ => f) env st y.bytes = .ok (k, st', []) ↔ ∃ x st1 acc st2,
      bodyHead env st y.front = .ok (x, st1, []) ∧
      readCodeAttrs (placesOf x) y.attrs.length ⟨[], fun _ => [], []⟩ { env with catches := some x.2.2.2.2 } st1
        (flatAttrs y.attrs) = .ok (acc, st2, []) ∧
      bodyEnd f x acc env st2 [] = .ok (k, st', []) := by
  rw [readIn_parts, body_bytes]
  have hn : (UInt16.ofNat y.attrs.length).toNat = y.attrs.length := by
    rw [UInt16.toNat_ofNat']
    exact Nat.mod_eq_of_lt hy.attrs
  constructor
  · intro h
    obtain ⟨x, st1, bs1, h1, h⟩ := Rd.bind_ok h
    have e : bs1 = U2 y.attrs.length ++ flatAttrs y.attrs := by
      unfold BodyParts.front at h1
      simp only [List.append_assoc] at h1
      exact bodyHead_rest hy.limits hy.code hy.handlers (handlers_length _ hy.handler) h1
    subst e
    obtain ⟨n, st2, bs2, h2, h⟩ := Rd.bind_ok h
    unfold rNum Rd.lift at h2
    rw [readsU2' _ hy.attrs] at h2
    cases h2
    obtain ⟨acc, st3, bs3, h3, h⟩ := Rd.bind_ok h
    unfold withCatches at h3
    rw [hn] at h3
    have h3' := h3
    rw [← List.append_nil (flatAttrs y.attrs)] at h3'
    obtain rfl := codeAttrs_rest y.attrs hy.attr h3'
    have h1 := Local.bodyHead.other h1 []
    rw [List.append_nil] at h1
    exact ⟨x, st1, acc, st3, h1, h3, h⟩
  · rintro ⟨x, st1, acc, st2, h1, h2, h3⟩
    have h1 := h1
    rw [← List.append_nil y.front] at h1
    have h1 := Local.bodyHead.other h1 (U2 y.attrs.length ++ flatAttrs y.attrs)
    have h4 : rNum u16 env st1 (U2 y.attrs.length ++ flatAttrs y.attrs) =
        .ok (UInt16.ofNat y.attrs.length, st1, flatAttrs y.attrs) := by
      unfold rNum Rd.lift
      rw [readsU2' _ hy.attrs]
    rw [bind_found h1, bind_found h4, hn, bind_found (x := withCatches _ _) h2]
    exact h3

theorem bodyEnd_attrs {f : List LocalVariable → List LocalVariable}
    {x : UInt16 × UInt16 × Bytes × List (Nat × Insn) × List Catch} {acc : AttrAcc} {env : REnv} {st st' : RSt}
    {bs rest : Bytes} {k : Code} (h : bodyEnd f x acc env st bs = .ok (k, st', rest)) : ∃ L, k.attrs = acc.attrs ++ L ∧
      ∀ Y, bodyEnd f x { acc with attrs := Y } env st bs = .ok ({ k with attrs := Y ++ L }, st', rest) := by
  unfold bodyEnd at h
  obtain ⟨is, st1, bs1, h1, h⟩ := Rd.bind_ok h
  cases h
  refine ⟨if acc.vars.length = 0 then [] else [.locals (f acc.vars)], ?_, fun Y => ?_⟩
  · simp only
    split
    · rw [List.append_nil]
    · rfl
  · unfold bodyEnd Rd.bind
    simp only [h1]
    split
    · rw [List.append_nil]
    · rfl

theorem Spec.BodyParts.Sized.less {y : BodyParts} {as bs : List (UInt16 × Bytes)} {a : UInt16 × Bytes}
    (h : BodyParts.Sized { y with attrs := as ++ a :: bs }) : BodyParts.Sized { y with attrs := as ++ bs } :=
  ⟨h.limits, h.code, h.handlers, h.handler, by
    have := h.attrs
    simp only [List.length_append, List.length_cons] at this ⊢
    omega, fun b hb => h.attr b (by
      rcases List.mem_append.mp hb with hb | hb
      · exact List.mem_append_left _ hb
      · exact List.mem_append_right _ (List.mem_cons_of_mem _ hb))⟩

/-- The attribute loop over two lists of attributes. -/
theorem attrs_two {idx : Nat → Option Nat} {acc acc' : AttrAcc} {env : REnv} {st st' : RSt} {as bs : List (UInt16 × Bytes)}
    (hl : ∀ a ∈ as, a.2.length < 2 ^ 32) :
    readCodeAttrs idx (as ++ bs).length acc env st (flatAttrs (as ++ bs)) = .ok (acc', st', []) ↔ ∃ acc1 st1,
      readCodeAttrs idx as.length acc env st (flatAttrs as) = .ok (acc1, st1, []) ∧
      readCodeAttrs idx bs.length acc1 env st1 (flatAttrs bs) = .ok (acc', st', []) := by
  rw [List.length_append, codeAttrs_split, flatAttrs_append]
  constructor
  · intro h
    obtain ⟨acc1, st1, bs1, h1, h2⟩ := Rd.bind_ok h
    obtain rfl := codeAttrs_rest as hl h1
    have h1 := (Local.codeAttrs idx _ _).other h1 []
    rw [List.append_nil] at h1
    exact ⟨acc1, st1, h1, h2⟩
  · rintro ⟨acc1, st1, h1, h2⟩
    rw [← List.append_nil (flatAttrs as)] at h1
    have h1 := (Local.codeAttrs idx _ _).other h1 (flatAttrs bs)
    unfold Rd.bind
    rw [h1]
    exact h2

/-- The attribute loop with an attribute that is not known in front. -/
theorem attrs_unknown {idx : Nat → Option Nat} {acc : AttrAcc} {P : Pool} {cs : Option (List Catch)} {st : RSt}
    {bs : List (UInt16 × Bytes)} {i : UInt16} {name data : Bytes} (hi : IsUtf8 P i name) (ht : CodeAttr.table name = none)
    (hl : data.length < 2 ^ 32) :
    readCodeAttrs idx ((i, data) :: bs).length acc ⟨P, cs⟩ st (flatAttrs ((i, data) :: bs)) =
      readCodeAttrs idx bs.length { acc with attrs := acc.attrs ++ [.raw ⟨name, data⟩] } ⟨P, cs⟩ st (flatAttrs bs) := by
  have h1 := unknown_read (raw := CodeAttr.raw) hi ht hl cs st (flatAttrs bs)
  show Rd.bind CodeAttr.read _ _ _ (attrBytes i data ++ flatAttrs bs) = _
  have h1 : CodeAttr.read ⟨P, cs⟩ st (attrBytes i data ++ flatAttrs bs) = _ := h1
  unfold Rd.bind
  rw [h1]
  rfl

theorem body_unknown {f : List LocalVariable → List LocalVariable} {P : Pool} {cs : Option (List Catch)} {st : RSt}
    {y : BodyParts} {as bs : List (UInt16 × Bytes)} {i : UInt16} {name data : Bytes} (hi : IsUtf8 P i name)
    (ht : CodeAttr.table name = none) (hy : BodyParts.Sized { y with attrs := as ++ (i, data) :: bs }) (st' : RSt) :
    (∀ k, (Code.readIn fun _ => f) ⟨P, cs⟩ st { y with attrs := as ++ bs }.bytes = .ok (k, st', []) →
      ∃ pre post, k.attrs = pre ++ post ∧
        (Code.readIn fun _ => f) ⟨P, cs⟩ st { y with attrs := as ++ (i, data) :: bs }.bytes =
          .ok ({ k with attrs := pre ++ .raw ⟨name, data⟩ :: post }, st', [])) ∧
    ∀ k, (Code.readIn fun _ => f) ⟨P, cs⟩ st { y with attrs := as ++ (i, data) :: bs }.bytes = .ok (k, st', []) →
      ∃ pre post, k.attrs = pre ++ .raw ⟨name, data⟩ :: post ∧
        (Code.readIn fun _ => f) ⟨P, cs⟩ st { y with attrs := as ++ bs }.bytes =
          .ok ({ k with attrs := pre ++ post }, st', []) := by
  have hl : ∀ a ∈ as, a.2.length < 2 ^ 32 := fun a ha => hy.attr a (List.mem_append_left _ ha)
  have hd : data.length < 2 ^ 32 := hy.attr (i, data) (List.mem_append_right _ List.mem_cons_self)
  constructor
  · intro k h
    obtain ⟨x, st1, acc, st2, h1, h2, h3⟩ := (body_read hy.less).mp h
    obtain ⟨acc1, st3, h4, h5⟩ := (attrs_two hl).mp h2
    obtain ⟨Δ, e1, h6⟩ := codeAttrs_attrs _ h5
    obtain ⟨L, e2, h7⟩ := bodyEnd_attrs h3
    refine ⟨acc1.attrs, Δ ++ L, by rw [e2, e1, List.append_assoc], (body_read hy).mpr ⟨x, st1,
      { acc with attrs := acc1.attrs ++ [.raw ⟨name, data⟩] ++ Δ }, st2, h1, (attrs_two hl).mpr ⟨acc1, st3, h4, ?_⟩, ?_⟩⟩
    · rw [attrs_unknown hi ht hd]
      exact h6 _
    · rw [h7]
      simp only [List.append_assoc, List.singleton_append, List.cons_append, List.nil_append]
  · intro k h
    obtain ⟨x, st1, acc, st2, h1, h2, h3⟩ := (body_read hy).mp h
    obtain ⟨acc1, st3, h4, h5⟩ := (attrs_two hl).mp h2
    rw [attrs_unknown hi ht hd] at h5
    obtain ⟨Δ, e1, h6⟩ := codeAttrs_attrs _ h5
    obtain ⟨L, e2, h7⟩ := bodyEnd_attrs h3
    refine ⟨acc1.attrs, Δ ++ L, by
      rw [e2, e1]
      simp only [List.append_assoc, List.singleton_append, List.cons_append, List.nil_append],
      (body_read hy.less).mpr ⟨x, st1, { acc with attrs := acc1.attrs ++ Δ }, st2, h1,
        (attrs_two hl).mpr ⟨acc1, st3, h4, h6 acc1.attrs⟩, ?_⟩⟩
    rw [h7, List.append_assoc]

/-! ## Everything that is read can be cut -/

theorem num16_cut {env : REnv} {st st' : RSt} {bs rest : Bytes} {a : UInt16}
    (h : rNum u16 env st bs = .ok (a, st', rest)) : st' = st ∧ bs = U2 a.toNat ++ rest := by
  unfold rNum Rd.lift at h
  split at h
  · rename_i h1
    cases h
    obtain ⟨b1, e1, rfl⟩ := takes_num u16_lawful _ _ _ h1
    rw [u16_write] at e1
    exact ⟨rfl, e1⟩
  · cases h

theorem num32_cut {bs rest : Bytes} {a : UInt32} (h : u32.read bs = .ok (a, rest)) : bs = U4 a.toNat ++ rest := by
  obtain ⟨b1, e1, rfl⟩ := takes_num u32_lawful _ _ _ h
  rwa [u32_write] at e1

theorem attr_cut {α : Type} {table : Bytes → Option (Rd α)} {raw : RawAttribute → α} {env : REnv} {st st' : RSt}
    {bs rest : Bytes} {a : α} (h : rAttr table raw env st bs = .ok (a, st', rest)) :
    ∃ i data, bs = attrBytes i data ++ rest ∧ data.length < 2 ^ 32 := by
  unfold rAttr at h
  obtain ⟨name, st1, bs1, h1, h'⟩ := Rd.bind_ok h
  unfold rUtf8 rIdx at h1
  obtain ⟨j, st2, bs2, h2, h3⟩ := Rd.bind_ok h1
  obtain ⟨rfl, rfl⟩ := num16_cut h2
  obtain rfl : bs1 = bs2 := by
    unfold rLookup at h3
    split at h3 <;> cases h3
    rfl
  have key {len : UInt32} {bs3 data : Bytes} (k1 : u32.read bs1 = .ok (len, bs3))
      (k2 : readExact len.toNat bs3 = .ok (data, rest)) :
      ∃ i data, U2 j.toNat ++ bs1 = attrBytes i data ++ rest ∧ data.length < 2 ^ 32 := by
    obtain rfl := num32_cut k1
    obtain ⟨rfl, hl⟩ := readExact_ok k2
    exact ⟨j, data, by rw [attrBytes, hl, List.append_assoc, List.append_assoc], hl ▸ len.toNat_lt⟩
  rcases ht : table name with _ | r
  · simp only [ht] at h'
    obtain ⟨b, rfl, k⟩ := map_ok h'
    unfold rRawBody at k
    split at k
    · cases k
    · rename_i len bs3 k1
      split at k
      · cases k
      · rename_i data bs4 k2
        cases k
        exact key k1 k2
  · simp only [ht] at h'
    unfold rFramed at h'
    split at h'
    · cases h'
    · rename_i len bs3 k1
      split at h'
      · cases h'
      · rename_i data bs4 k2
        split at h' <;> cases h'
        exact key k1 k2

theorem codeAttrs_cut {idx : Nat → Option Nat} : ∀ (n : Nat) {acc acc' : AttrAcc} {env : REnv} {st st' : RSt}
    {bs rest : Bytes}, readCodeAttrs idx n acc env st bs = .ok (acc', st', rest) →
    ∃ as : List (UInt16 × Bytes), bs = flatAttrs as ++ rest ∧ as.length = n ∧ ∀ a ∈ as, a.2.length < 2 ^ 32
  | 0, acc, acc', env, st, st', bs, rest, h => by
    cases h
    exact ⟨[], rfl, rfl, fun _ h => nomatch h⟩
  | n + 1, acc, acc', env, st, st', bs, rest, h => by
    obtain ⟨x, st1, bs1, h1, h'⟩ := Rd.bind_ok h
    obtain ⟨acc1, st2, bs2, h2, h''⟩ := Rd.bind_ok h'
    obtain ⟨i, data, rfl, hl⟩ := attr_cut h1
    obtain rfl := step_rest h2
    obtain ⟨as, rfl, rfl, h3⟩ := codeAttrs_cut n h''
    refine ⟨(i, data) :: as, ?_, rfl, ?_⟩
    · show _ = (attrBytes i data ++ flatAttrs as) ++ rest
      rw [List.append_assoc]
    · intro a ha
      rcases List.mem_cons.mp ha with rfl | ha
      · exact hl
      · exact h3 a ha

theorem catches_cut {env : REnv} : ∀ (n : Nat) {st st' : RSt} {bs rest : Bytes} {cs : List Catch},
    Rd.replicate n Catch.read env st bs = .ok (cs, st', rest) →
    ∃ hs : List Bytes, bs = hs.flatten ++ rest ∧ hs.length = n ∧ ∀ h ∈ hs, h.length = 8
  | 0, st, st', bs, rest, cs, h => by
    cases h
    exact ⟨[], rfl, rfl, fun _ h => nomatch h⟩
  | n + 1, st, st', bs, rest, cs, h => by
    obtain ⟨x, st1, bs1, h1, h⟩ := Rd.bind_ok h
    obtain ⟨xs, rfl, k⟩ := map_ok h
    obtain ⟨b, rfl, _⟩ := Local.catchRead _ _ _ _ _ _ h1
    have hl := Eats.catch_ _ _ _ _ _ _ h1
    rw [List.length_append] at hl
    obtain ⟨hs, rfl, rfl, h3⟩ := catches_cut n k
    refine ⟨b :: hs, by rw [List.flatten_cons, List.append_assoc], rfl, ?_⟩
    intro a ha
    rcases List.mem_cons.mp ha with rfl | ha
    · omega
    · exact h3 a ha

theorem placeMarkers_rest {idx : Nat → Option Nat} {ins : Nat → List Insn} {is is' : List Insn} {env : REnv} {st st' : RSt}
    {bs rest : Bytes} (h : placeMarkers idx ins is env st bs = .ok (is', st', rest)) : rest = bs := by
  unfold placeMarkers at h
  split at h
  · cases h
  · split at h <;> cases h
    rfl

/-- A body that is read has parts. -/
theorem code_cut_parts {f : List LocalVariable → List LocalVariable} {env : REnv} {st st' : RSt} {bs : Bytes} {k : Code}
    (h : (Code.readIn fun _ => f) env st bs = .ok (k, st', [])) : ∃ y : BodyParts, bs = y.bytes ∧ y.Sized := by
  unfold Code.readIn at h
  obtain ⟨a1, st1, bs1, k1, g1⟩ := Rd.bind_ok h
  obtain ⟨a2, st2, bs2, k2, g2⟩ := Rd.bind_ok g1
  obtain ⟨rfl, rfl⟩ := num16_cut k1
  obtain ⟨rfl, rfl⟩ := num16_cut k2
  obtain ⟨len, st3, bs3, k3, g3⟩ := Rd.bind_ok g2
  unfold rNum Rd.lift at k3
  split at k3
  rotate_left
  · cases k3
  rename_i k3'
  cases k3
  obtain rfl := num32_cut k3'
  obtain ⟨code, st4, bs4, k4, g4⟩ := Rd.bind_ok g3
  unfold rBytes Rd.lift at k4
  split at k4
  rotate_left
  · cases k4
  rename_i k4'
  cases k4
  obtain ⟨rfl, hl⟩ := readExact_ok k4'
  obtain ⟨pis, st5, bs5, k5, g5⟩ := Rd.bind_ok g4
  obtain rfl : bs5 = bs4 := by
    unfold readInsns at k5
    split at k5 <;> cases k5
    rfl
  obtain ⟨cs, st6, bs6, k6, g6⟩ := Rd.bind_ok g5
  obtain ⟨n, st7, bs7, k7, k8⟩ := Rd.bind_ok k6
  obtain ⟨rfl, rfl⟩ := num16_cut k7
  obtain ⟨hs, rfl, hn, hh⟩ := catches_cut _ k8
  obtain ⟨m, st8, bs8, k9, g7⟩ := Rd.bind_ok g6
  obtain ⟨rfl, rfl⟩ := num16_cut k9
  obtain ⟨acc, st9, bs9, k10, g8⟩ := Rd.bind_ok g7
  obtain ⟨as, rfl, hm, ha⟩ := codeAttrs_cut _ (show readCodeAttrs _ _ _ _ _ _ = _ from k10)
  obtain ⟨is, st10, bs10, k11, g9⟩ := Rd.bind_ok g8
  cases g9
  have k11 : bs9 = [] := (placeMarkers_rest k11).symm
  subst k11
  refine ⟨⟨U2 a1.toNat ++ U2 a2.toNat, code, hs, as⟩, ?_, ⟨rfl, hl ▸ len.toNat_lt, ?_, hh, hm ▸ m.toNat_lt, ha⟩⟩
  · rw [body_bytes, BodyParts.front, hl, hm, show hs.length = n.toNat from hn]
    simp only [List.append_assoc, List.append_nil]
  · rw [show hs.length = n.toNat from hn]
    exact n.toNat_lt

end Verif
