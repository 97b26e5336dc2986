import Verif.Lemmas.Loose
import Verif.Lemmas.Io
import Verif.Lemmas.Sound

/-! # What readers do on input of unknown origin -/

namespace Verif
open Spec

/-- When a reader may panic, which length errors it may give, and whether the strings of the pool may have 256
brackets in a row. -/
structure Harm where
  panics : Prop
  lens : UInt32 → UInt32 → Bytes → Prop
  runs : Prop

instance : CoeSort Harm Prop := ⟨Harm.panics⟩
instance : Coe Prop Harm := ⟨fun p => ⟨p, fun _ _ _ => False, p⟩⟩

/-- With overflow checks, so many brackets are a reason to panic. -/
class Harsh (H : Harm) : Prop where
  run : H.runs → H

instance {p : Prop} {l : UInt32 → UInt32 → Bytes → Prop} : Harsh ⟨p, l, p⟩ := ⟨id⟩

/-- An error that is neither undefined behaviour nor an endless loop, and a panic or a length error only if `H`
allows it. -/
def Calm (H : Harm) (e : Err) : Prop :=
  (e ≠ .ub ∧ ∀ l u n, e = .attrLen l u n → H.lens l u n) ∧ e ≠ .diverge ∧ (e = .panic → H)

/-- What is known about the strings in a pool. -/
structure FineStr (H : Harm) (s : Bytes) : Prop where
  loose : ∃ cs, LooseEnc cs s
  run : Run s → H.runs

def PoolFine (H : Harm) (P : Pool) : Prop := ∀ i s, P i = some (.utf8 s) → FineStr H s

/-- Where a reader is: the inputs it may meet, and the pool. -/
structure Place where
  here : Bytes → Prop
  pool : Pool

instance : CoeFun Place fun _ => Bytes → Prop := ⟨Place.here⟩

/-- Inputs that are closed under taking parts. -/
class Site (I : Place) : Prop where
  part : ∀ {a b}, a <:+: b → I b → I a

/-- The outcome of a reader: an allowed error, or a value, a rest of the input and new references `p`
with `Q`. -/
def Post {α : Type} (H : Harm) (Q : α → List UInt16 → Prop) (st : RSt) (bs : Bytes) : Res (α × RSt × Bytes) → Prop
  | .error e => Calm H e
  | .ok (v, st', rest) => rest <:+ bs ∧ st'.labels.isSome = st.labels.isSome ∧
    ∃ p, st'.pending = st.pending ++ p ∧ Q v p

/-- The pool is that of the place; in a body labels can be handed out. -/
def InBody (I : Place) (body : Bool) (env : REnv) (st : RSt) : Prop :=
  env.pool = I.pool ∧ (body = true → st.labels.isSome ∧ env.catches.isSome)

def Tame {α : Type} (I : Place) (H : Harm) (body : Bool) (Q : α → List UInt16 → Prop) (r : Rd α) : Prop :=
  ∀ env st bs, PoolFine H env.pool → InBody I body env st → I bs → Post H Q st bs (r env st bs)

/-- No references are registered. -/
def Mute {α : Type} (I : Place) (H : Harm) (body : Bool) (r : Rd α) : Prop :=
  Tame I H body (fun _ p => p = []) r

variable {α β : Type} {I : Place} {H : Harm} {body : Bool}

theorem calm_io : Calm H .io := ⟨⟨nofun, nofun⟩, nofun, nofun⟩
theorem calm_invalid : Calm H .invalid := ⟨⟨nofun, nofun⟩, nofun, nofun⟩
theorem calm_mutf : Calm H .mutf := ⟨⟨nofun, nofun⟩, nofun, nofun⟩
theorem calm_attrLen {l u : UInt32} {n : Bytes} (h : H.lens l u n) : Calm H (.attrLen l u n) :=
  ⟨⟨nofun, fun _ _ _ e => by cases e; exact h⟩, nofun, nofun⟩
theorem calm_panic (h : H) : Calm H .panic := ⟨⟨nofun, nofun⟩, nofun, fun _ => h⟩

theorem Tame.mono {Q Q' : α → List UInt16 → Prop} {r : Rd α} (h : Tame I H body Q r)
    (hq : ∀ a p, Q a p → Q' a p) : Tame I H body Q' r := by
  intro env st bs h1 h2 h3
  have := h env st bs h1 h2 h3
  rcases hr : r env st bs with e | ⟨v, st', rest⟩
  · rw [hr] at this; exact this
  · rw [hr] at this
    obtain ⟨a, b, p, c, d⟩ := this
    exact ⟨a, b, p, c, hq _ _ d⟩

theorem tame_pure {Q : α → List UInt16 → Prop} {a : α} (h : Q a []) : Tame I H body Q (Rd.pure a) :=
  fun _ _ _ _ _ _ => ⟨List.suffix_refl _, rfl, [], by simp, h⟩

theorem tame_fail {Q : α → List UInt16 → Prop} {e : Err} (h : Calm H e) :
    Tame I H body Q (Rd.fail (α := α) e) := fun _ _ _ _ _ _ => h

theorem tame_bind [Site I] {Q1 : α → List UInt16 → Prop} {Q : β → List UInt16 → Prop} {x : Rd α} {f : α → Rd β}
    (h1 : Tame I H body Q1 x) (h2 : ∀ a p, Q1 a p → Tame I H body (fun v q => Q v (p ++ q)) (f a)) :
    Tame I H body Q (Rd.bind x f) := by
  intro env st bs hp hb hi
  have h := h1 env st bs hp hb hi
  unfold Rd.bind
  rcases hr : x env st bs with e | ⟨a, st', rest⟩
  · rw [hr] at h; exact h
  · rw [hr] at h
    obtain ⟨s1, l1, p, e1, q1⟩ := h
    have h' := h2 a p q1 env st' rest hp ⟨hb.1, fun b => by rw [l1]; exact hb.2 b⟩ (Site.part s1.isInfix hi)
    simp only
    rcases hr' : f a env st' rest with e | ⟨b, st'', rest'⟩
    · rw [hr'] at h'; exact h'
    · rw [hr'] at h'
      obtain ⟨s2, l2, q, e2, q2⟩ := h'
      exact ⟨s2.trans s1, l2.trans l1, p ++ q, by rw [e2, e1, List.append_assoc], q2⟩

theorem tame_map [Site I] {Q : β → List UInt16 → Prop} {x : Rd α} {f : α → β}
    (h : Tame I H body (fun a p => Q (f a) p) x) : Tame I H body Q (Rd.map f x) := by
  refine tame_bind h fun a p ha => ?_
  refine tame_pure ?_
  rw [List.append_nil]
  exact ha

theorem tame_ap [Site I] {Q1 : α → List UInt16 → Prop} {Q : β → List UInt16 → Prop} {f : Rd (α → β)} {x : Rd α}
    (hf : Tame I H body (fun g p => ∀ a q, Q1 a q → Q (g a) (p ++ q)) f) (hx : Tame I H body Q1 x) :
    Tame I H body Q (Rd.ap f x) := by
  refine tame_bind hf fun g p hg => ?_
  refine tame_bind hx fun a q ha => ?_
  refine tame_pure ?_
  rw [List.append_nil]
  exact hg a q ha

theorem mute_pure {a : α} : Mute I H body (Rd.pure a) := tame_pure rfl

theorem mute_fail {e : Err} (h : Calm H e) : Mute I H body (Rd.fail (α := α) e) := tame_fail h

theorem mute_bind [Site I] {x : Rd α} {f : α → Rd β} (h1 : Mute I H body x) (h2 : ∀ a, Mute I H body (f a)) :
    Mute I H body (Rd.bind x f) := tame_bind h1 fun a p ha => by subst ha; exact h2 a

theorem mute_map [Site I] {x : Rd α} {f : α → β} (h : Mute I H body x) : Mute I H body (Rd.map f x) := tame_map h

theorem mute_ap [Site I] {f : Rd (α → β)} {x : Rd α} (hf : Mute I H body f) (hx : Mute I H body x) :
    Mute I H body (Rd.ap f x) :=
  mute_bind hf fun _ => mute_bind hx fun _ => mute_pure

/-- Readers that ignore the pool. -/
def Plain {α : Type} (r : Reader α) : Prop := ∀ bs, match r bs with
  | .error e => Calm False e
  | .ok (_, rest) => rest <:+ bs

theorem Calm.of_false {e : Err} (h : Calm False e) : Calm H e :=
  ⟨⟨h.1.1, fun _ _ _ he => (h.1.2 _ _ _ he).elim⟩, h.2.1, fun he => (h.2.2 he).elim⟩

theorem Calm.mono {P : Prop} {e : Err} (h : Calm P e) (hp : e = .panic → P → H) : Calm H e :=
  ⟨⟨h.1.1, fun _ _ _ he => (h.1.2 _ _ _ he).elim⟩, h.2.1, fun he => hp he (h.2.2 he)⟩

theorem mute_lift {r : Reader α} (h : Plain r) : Mute I H body (Rd.lift r) := by
  intro env st bs _ _ _
  have := h bs
  unfold Rd.lift
  rcases hr : r bs with e | ⟨a, rest⟩
  · rw [hr] at this; exact Calm.of_false this
  · rw [hr] at this; exact ⟨this, rfl, [], by simp, rfl⟩

theorem plain_readExact (n : Nat) : Plain (readExact n) := by
  intro bs
  unfold readExact
  split
  · rename_i h
    split at h
    · cases h
    · cases h; exact calm_io
  · rename_i h
    split at h
    · cases h; exact List.drop_suffix _ _
    · cases h

theorem plain_num {ν : Type} (c : NumCodec ν) : Plain c.read := by
  intro bs
  have := plain_readExact c.size bs
  unfold NumCodec.read
  rcases hr : readExact c.size bs with e | ⟨a, rest⟩
  · rw [hr] at this; exact this
  · rw [hr] at this; exact this

theorem plain_pure (a : α) : Plain (Reader.pure a) := fun bs => List.suffix_refl bs

theorem plain_fail {e : Err} (h : Calm False e) : Plain (Reader.fail (α := α) e) := fun _ => h

theorem plain_bind {r : Reader α} {f : α → Reader β} (h1 : Plain r) (h2 : ∀ a, Plain (f a)) :
    Plain (Reader.bind r f) := by
  intro bs
  have h := h1 bs
  unfold Reader.bind
  rcases hr : r bs with e | ⟨a, rest⟩
  · rw [hr] at h; exact h
  · rw [hr] at h
    have h' := h2 a rest
    simp only
    rcases hr' : f a rest with e | ⟨b, rest'⟩
    · rw [hr'] at h'; exact h'
    · rw [hr'] at h'; exact h'.trans h

theorem plain_map {r : Reader α} {f : α → β} (h : Plain r) : Plain (Reader.map f r) :=
  plain_bind h fun _ => plain_pure _

theorem plain_map2 {γ : Type} {r : Reader α} {s : Reader β} {f : α → β → γ} (h : Plain r) (h' : Plain s) :
    Plain (Reader.map2 f r s) := plain_bind h fun _ => plain_bind h' fun _ => plain_pure _

theorem plain_replicate {r : Reader α} (h : Plain r) (n : Nat) : Plain (Reader.replicate n r) := by
  induction n with
  | zero => exact plain_pure _
  | succ n ih => exact plain_bind h fun _ => plain_bind ih fun _ => plain_pure _

theorem mute_num {ν : Type} (c : NumCodec ν) : Mute I H body (rNum c) := mute_lift (plain_num c)

theorem tame_replicate [Site I] {Q : α → List UInt16 → Prop} {Qs : List α → List UInt16 → Prop} {r : Rd α}
    (h : Tame I H body Q r) (h0 : Qs [] []) (h1 : ∀ a p as ps, Q a p → Qs as ps → Qs (a :: as) (p ++ ps))
    (n : Nat) : Tame I H body Qs (Rd.replicate n r) := by
  induction n with
  | zero => exact tame_pure h0
  | succ n ih =>
    refine tame_bind h fun a p ha => ?_
    refine tame_bind ih fun as ps has => ?_
    refine tame_pure ?_
    rw [List.append_nil]
    exact h1 a p as ps ha has

theorem tame_vec [Site I] {ν : Type} {l : NumCodec ν} {Q : α → List UInt16 → Prop} {Qs : List α → List UInt16 → Prop}
    {r : Rd α} (h : Tame I H body Q r) (h0 : Qs [] [])
    (h1 : ∀ a p as ps, Q a p → Qs as ps → Qs (a :: as) (p ++ ps)) : Tame I H body Qs (rVec l r) := by
  refine tame_bind (mute_num l) fun n p hp => ?_
  subst hp
  exact tame_replicate h h0 h1 _

theorem mute_replicate [Site I] {r : Rd α} (h : Mute I H body r) (n : Nat) : Mute I H body (Rd.replicate n r) :=
  tame_replicate h rfl (fun _ _ _ _ h1 h2 => by rw [h1, h2]; rfl) n

theorem mute_vec [Site I] {ν : Type} {l : NumCodec ν} {r : Rd α} (h : Mute I H body r) :
    Mute I H body (rVec l r) := mute_bind (mute_num l) fun _ => mute_replicate h _

theorem tame_ofRes {Q : α → List UInt16 → Prop} {r : Res α} (he : ∀ e, r = .error e → Calm H e)
    (ho : ∀ a, r = .ok a → Q a []) : Tame I H body Q (Rd.ofRes r) := by
  intro env st bs _ _ _
  unfold Rd.ofRes
  cases r with
  | error e => exact he e rfl
  | ok a => exact ⟨List.suffix_refl _, rfl, [], by simp, ho a rfl⟩

theorem mute_ofRes {r : Res α} (he : ∀ e, r = .error e → Calm H e) : Mute I H body (Rd.ofRes r) :=
  tame_ofRes he fun _ _ => rfl

/-! ## Lookups -/

theorem tame_lookup {Q : α → List UInt16 → Prop} {f : Pool → UInt16 → Option α} {i : UInt16}
    (h : ∀ P a, PoolFine H P → f P i = some a → Q a []) : Tame I H body Q (rLookup f i) := by
  intro env st bs hp _ _
  unfold rLookup
  cases hf : f env.pool i with
  | none => exact calm_invalid
  | some a => exact ⟨List.suffix_refl _, rfl, [], by simp, h _ a hp hf⟩

theorem mute_lookup {f : Pool → UInt16 → Option α} {i : UInt16} : Mute I H body (rLookup f i) :=
  tame_lookup fun _ _ _ _ => rfl

theorem mute_lookupR {f : Pool → UInt16 → Res (Option α)} {i : UInt16}
    (h : ∀ P e, PoolFine H P → f P i = .error e → Calm H e) : Mute I H body (rLookupR f i) := by
  intro env st bs hp _ _
  unfold rLookupR
  rcases hf : f env.pool i with e | _ | a
  · exact h _ e hp hf
  · exact calm_invalid
  · exact ⟨List.suffix_refl _, rfl, [], by simp, rfl⟩

theorem tame_lookupD {Q : α → List UInt16 → Prop}
    {f : Pool → UInt16 → List UInt16 → Res (Option α × List UInt16)} {i : UInt16}
    (h : ∀ P p e, PoolFine H P → f P i p = .error e → Calm H e)
    (h' : ∀ P p a q, PoolFine H P → f P i p = .ok (some a, q) → ∃ d, q = p ++ d ∧ Q a d) :
    Tame I H body Q (rLookupD f i) := by
  intro env st bs hp _ _
  unfold rLookupD
  rcases hf : f env.pool i st.pending with e | ⟨_ | a, q⟩
  · exact h _ _ e hp hf
  · exact calm_invalid
  · obtain ⟨d, e, hd⟩ := h' _ _ _ _ hp hf
    exact ⟨List.suffix_refl _, rfl, d, e, hd⟩

theorem mute_idx [Site I] {f : Pool → UInt16 → Option α} : Mute I H body (rIdx f) :=
  mute_bind (mute_num _) fun _ => mute_lookup

theorem mute_opt [Site I] {f : UInt16 → Rd α} (h : ∀ i, Mute I H body (f i)) : Mute I H body (rOpt f) := by
  refine mute_bind (mute_num _) fun i => ?_
  split
  · exact mute_pure
  · exact mute_map (h i)

theorem tame_utf8 [Site I] : Tame I H body (fun s p => p = [] ∧ FineStr H s) rUtf8 := by
  refine tame_bind (mute_num _) fun i p hp => ?_
  subst hp
  refine tame_lookup fun P s hP h => ⟨rfl, hP i s ?_⟩
  unfold Pool.wtf8 at h
  split at h
  · rename_i hs; cases h; exact hs
  · cases h

theorem mute_utf8 [Site I] : Mute I H body rUtf8 := mute_idx
theorem mute_str [Site I] {tag : UInt8} : Mute I H body (rStr tag) := mute_idx

theorem parse_calm [Harsh H] {s : Bytes} (hs : FineStr H s) {e : Err} (h : JType.parseType s = .error e) : Calm H e := by
  obtain ⟨cs, hl⟩ := hs.loose
  rcases parseType_err hl h with rfl | ⟨rfl, hr⟩
  · exact calm_invalid
  · exact calm_panic (Harsh.run (hs.run hr))

theorem mute_type [Harsh H] [Site I] : Mute I H body rType :=
  tame_bind tame_utf8 fun s p hs => by
    rw [hs.1]
    exact mute_ofRes fun e he => parse_calm hs.2 he

theorem okOrNone_calm {r : Res α} {e : Err} (h : okOrNone r = .error e) (hr : ∀ e, r = .error e → Calm H e) :
    Calm H e := by
  unfold okOrNone at h
  split at h <;> cases h <;> exact hr _ rfl

theorem wtf8_fine {P : Pool} (hP : PoolFine H P) {i : UInt16} {s : Bytes} (h : Pool.wtf8 P i = some s) :
    FineStr H s := by
  unfold Pool.wtf8 at h
  split at h
  · rename_i hs; cases h; exact hP i s hs
  · cases h

theorem indirect_fine {P : Pool} (hP : PoolFine H P) {tag : UInt8} {i : UInt16} {s : Bytes}
    (h : Pool.indirect P tag i = some s) : FineStr H s := by
  unfold Pool.indirect at h
  split at h
  case h_5 => cases h
  all_goals
    split at h
    · exact wtf8_fine hP h
    · cases h

theorem nat_calm [Harsh H] {P : Pool} (hP : PoolFine H P) {i : UInt16} {e : Err} (h : Pool.nameAndType P i = .error e) :
    Calm H e := by
  unfold Pool.nameAndType at h
  split at h
  · split at h
    · split at h
      · rename_i s hs
        split at h
        · cases h
        · cases h
        · rename_i e' he
          cases h
          exact okOrNone_calm he fun e he => parse_calm (wtf8_fine hP hs) he
      · cases h
    · cases h
  · cases h

theorem memberParts_calm [Harsh H] {P : Pool} (hP : PoolFine H P) {b : Bool} {o nt : UInt16} {e : Err}
    (h : Pool.memberParts P b o nt = .error e) : Calm H e := by
  unfold Pool.memberParts at h
  split at h
  · split at h
    · cases h
    · cases h
    · rename_i he; cases h; exact nat_calm hP he
  · cases h

theorem member_calm [Harsh H] {P : Pool} (hP : PoolFine H P) {i : UInt16} {e : Err} (h : Pool.member P i = .error e) :
    Calm H e := by
  unfold Pool.member at h
  split at h
  · exact memberParts_calm hP h
  · exact memberParts_calm hP h
  · exact memberParts_calm hP h
  · cases h

theorem handle_calm [Harsh H] {P : Pool} (hP : PoolFine H P) {i : UInt16} {e : Err} (h : Pool.methodHandle P i = .error e) :
    Calm H e := by
  unfold Pool.methodHandle at h
  split at h
  · split at h
    · split at h <;> cases h
    · cases h
    · rename_i he; cases h; exact member_calm hP he
  · cases h

theorem constant_calm [Harsh H] {P : Pool} (hP : PoolFine H P) {i : UInt16} {e : Err} (h : Pool.constant P i = .error e) :
    Calm H e := by
  unfold Pool.constant at h
  split at h
  · cases h
  · cases h
  · cases h
  · cases h
  · cases h
  · cases h
  · split at h
    · rename_i s hs
      split at h
      · cases h
      · rename_i he
        cases h
        exact okOrNone_calm he fun e he => parse_calm (wtf8_fine hP hs) he
    · cases h
  · split at h
    · split at h <;> cases h
    · rename_i he; cases h; exact member_calm hP he
  · split at h
    · cases h
    · rename_i he; cases h; exact member_calm hP he

theorem parts_calm [Harsh H] {P : Pool} (hP : PoolFine H P) {b nt : UInt16} {p : List UInt16} {e : Err}
    (h : Pool.dynamicParts P b nt p = .error e) : Calm H e := by
  unfold Pool.dynamicParts at h
  split at h
  · cases h
  · cases h
  · rename_i he; cases h; exact nat_calm hP he

theorem parts_open {P : Pool} {b nt : UInt16} {p q : List UInt16} {d : Option Dynamic}
    (h : Pool.dynamicParts P b nt p = .ok (d, q)) : (d = none ∧ q = p) ∨ ∃ x, d = some x ∧ q = p ++ openD x := by
  unfold Pool.dynamicParts at h
  split at h
  · cases h; exact .inr ⟨_, rfl, rfl⟩
  · cases h; exact .inl ⟨rfl, rfl⟩
  · cases h

theorem indy_calm [Harsh H] {P : Pool} (hP : PoolFine H P) {i : UInt16} {p : List UInt16} {e : Err}
    (h : Pool.invokeDynamic P i p = .error e) : Calm H e := by
  unfold Pool.invokeDynamic at h
  split at h
  · exact parts_calm hP h
  · cases h

theorem indy_open {P : Pool} {i : UInt16} {p q : List UInt16} {x : Dynamic}
    (h : Pool.invokeDynamic P i p = .ok (some x, q)) : q = p ++ openD x := by
  unfold Pool.invokeDynamic at h
  split at h
  · rcases parts_open h with ⟨h1, _⟩ | ⟨y, h1, h2⟩
    · cases h1
    · cases h1; exact h2
  · cases h

theorem dynamic_calm [Harsh H] {P : Pool} (hP : PoolFine H P) {i : UInt16} {p : List UInt16} {e : Err}
    (h : Pool.dynamic P i p = .error e) : Calm H e := by
  unfold Pool.dynamic at h
  split at h
  · exact parts_calm hP h
  · cases h

theorem dynamic_open {P : Pool} {i : UInt16} {p q : List UInt16} {d : Option Dynamic}
    (h : Pool.dynamic P i p = .ok (d, q)) : (d = none ∧ q = p) ∨ ∃ x, d = some x ∧ q = p ++ openD x := by
  unfold Pool.dynamic at h
  split at h
  · exact parts_open h
  · cases h; exact .inl ⟨rfl, rfl⟩

theorem orDynamic_calm [Harsh H] {P : Pool} (hP : PoolFine H P) {f : UInt16 → Res (Option α)} {i : UInt16} {p : List UInt16}
    {e : Err} (hf : ∀ e, f i = .error e → Calm H e) (h : Pool.orDynamic P f i p = .error e) : Calm H e := by
  unfold Pool.orDynamic at h
  split at h
  · cases h
  · split at h
    · cases h
    · rename_i he; cases h; exact hf _ he
  · rename_i he; cases h; exact dynamic_calm hP he

theorem orDynamic_open {P : Pool} {f : UInt16 → Res (Option α)} {i : UInt16} {p q : List UInt16} {x : OrDynamic α}
    (h : Pool.orDynamic P f i p = .ok (some x, q)) : q = p ++ openO x := by
  unfold Pool.orDynamic at h
  split at h
  · rename_i hd
    cases h
    rcases dynamic_open hd with ⟨h1, _⟩ | ⟨y, h1, h2⟩
    · cases h1
    · cases h1; exact h2
  · rename_i hd
    rcases dynamic_open hd with ⟨_, h1⟩ | ⟨y, h1, _⟩
    · split at h
      · rename_i a ha
        cases a with
        | none => cases h
        | some a => cases h; rw [h1]; exact (List.append_nil _).symm
      · cases h
    · cases h1
  · cases h

/-! ## Labels -/

theorem mute_getLabel {o : UInt32} : Mute I H true (getLabel o) := by
  intro env st bs _ hb _
  obtain ⟨m, hm⟩ := Option.isSome_iff_exists.mp (hb.2 rfl).1
  unfold getLabel
  rw [hm]
  simp only
  split
  · exact ⟨List.suffix_refl _, rfl, [], by simp, rfl⟩
  · exact ⟨List.suffix_refl _, by rw [hm]; rfl, [], by simp, rfl⟩

theorem mute_label [Site I] : Mute I H true rLabel := mute_bind (mute_num _) fun _ => mute_getLabel

theorem mute_catch [Site I] : Mute I H true rCatch := by
  refine mute_bind (mute_num _) fun i => ?_
  intro env st bs _ hb _
  obtain ⟨m, hm⟩ := Option.isSome_iff_exists.mp (hb.2 rfl).2
  simp only
  rw [hm]
  simp only
  split
  · exact ⟨List.suffix_refl _, rfl, [], by simp, rfl⟩
  · exact calm_invalid

/-! ## Attributes -/

/-- The outcome of a reader that has to consume everything. -/
def Post0 {α : Type} (H : Harm) (Q : α → List UInt16 → Prop) (st : RSt) : Res (α × RSt × Bytes) → Prop
  | .error e => Calm H e
  | .ok (v, st', rest) => rest = [] → st'.labels.isSome = st.labels.isSome ∧
    ∃ p, st'.pending = st.pending ++ p ∧ Q v p

theorem Post.all {Q : α → List UInt16 → Prop} {st : RSt} {bs : Bytes} {r : Res (α × RSt × Bytes)}
    (h : Post H Q st bs r) : Post0 H Q st r := by
  rcases r with e | ⟨v, st', rest⟩
  · exact h
  · exact fun _ => h.2

theorem post_framed {nm : Bytes} {Q : α → List UInt16 → Prop} {r : Rd α} {env : REnv} {st : RSt} {bs : Bytes}
    (h : ∀ w rest, bs = U4 w.length ++ (w ++ rest) → Post0 H Q st (r env st w))
    (hl : ∀ w rest, bs = U4 w.length ++ (w ++ rest) → w.length < 4294967296 → ∀ a st' left,
      r env st w = .ok (a, st', left) → left ≠ [] →
      H.lens (UInt32.ofNat w.length) (UInt32.ofNat w.length - UInt32.ofNat left.length) nm) :
    Post H Q st bs (rFramed nm r env st bs) := by
  unfold rFramed
  have h1 := plain_num u32 bs
  rcases hr : u32.read bs with e | ⟨len, bs1⟩
  · rw [hr] at h1; exact Calm.of_false h1
  · rw [hr] at h1
    obtain ⟨b1, e1, rfl⟩ := takes_num u32_lawful _ _ _ hr
    simp only at h1 ⊢
    rcases hx : readExact len.toNat bs1 with e | ⟨b, bs2⟩
    · have := plain_readExact len.toNat bs1
      rw [hx] at this
      exact Calm.of_false this
    · obtain ⟨e2, hlen⟩ := readExact_parts hx
      simp only
      have h2 := h b bs2 (by rw [hlen, ← u32_write, e1, e2])
      rcases hr' : r env st b with e | ⟨a, st', rest⟩
      · rw [hr'] at h2; exact h2
      · rw [hr'] at h2
        cases rest with
        | nil =>
          obtain ⟨l2, q⟩ := h2 rfl
          exact ⟨List.IsSuffix.trans ⟨b, e2.symm⟩ h1, l2, q⟩
        | cons x xs =>
          have := hl b bs2 (by rw [hlen, ← u32_write, e1, e2]) (by have := len.toNat_lt; omega) _ _ _ hr' (by simp)
          rw [show UInt32.ofNat b.length = len from UInt32.toNat_inj.mp (by simp [hlen])] at this
          exact calm_attrLen this

theorem mute_rawBody : Mute I H body rRawBody := by
  intro env st bs _ _ _
  unfold rRawBody
  have h1 := plain_num u32 bs
  rcases hr : u32.read bs with e | ⟨len, bs1⟩
  · rw [hr] at h1; exact Calm.of_false h1
  · rw [hr] at h1
    simp only at h1 ⊢
    have h2 := plain_readExact len.toNat bs1
    rcases hx : readExact len.toNat bs1 with e | ⟨b, bs2⟩
    · rw [hx] at h2; exact Calm.of_false h2
    · rw [hx] at h2
      exact ⟨h2.trans h1, rfl, [], by simp, rfl⟩

/-- The input holds an attribute of this name with this payload. -/
def Place.Holds (I : Place) (name w : Bytes) : Prop :=
  ∃ i, IsUtf8 I.pool i name ∧ I (U2 i.toNat ++ (U4 w.length ++ w))

/-- `H` allows the length errors of attributes in `I` whose payload is longer than their content. -/
def Fair (I : Place) (H : Harm) (table : Bytes → Option (Rd α)) : Prop :=
  ∀ name r, table name = some r → ∀ env st w a st' left, env.pool = I.pool → r env st w = .ok (a, st', left) →
    left ≠ [] → w.length < 4294967296 → I.Holds name w →
    H.lens (UInt32.ofNat w.length) (UInt32.ofNat w.length - UInt32.ofNat left.length) name

theorem Fair.mono {I J : Place} {table : Bytes → Option (Rd α)} (h : Fair I H table) (hp : J.pool = I.pool)
    (hi : ∀ b, J b → I b) : Fair J H table := fun name r ht env st w a st' left he hr hn hl ⟨i, h1, h2⟩ =>
  h name r ht env st w a st' left (he.trans hp) hr hn hl ⟨i, hp ▸ h1, hi _ h2⟩

/-- Readers of attributes that look at the whole attribute. -/
theorem tame_attrAt [Site I] {Q : α → List UInt16 → Prop} {table : Bytes → Option (Rd α)} {raw : RawAttribute → α}
    (h : ∀ name r, FineStr H name → table name = some r → ∀ env st w, PoolFine H env.pool → InBody I body env st →
      I w → I.Holds name w → Post0 H Q st (r env st w))
    (hraw : ∀ a, Q (raw a) []) (hF : Fair I H table) : Tame I H body Q (rAttr table raw) := by
  intro env st bs hp hb hi
  unfold rAttr Rd.bind
  have h1 := tame_utf8 (I := I) (H := H) env st bs hp hb hi
  rcases hr : rUtf8 env st bs with e | ⟨s, st', rest⟩
  · rw [hr] at h1; exact h1
  rw [hr] at h1
  obtain ⟨h2, h3, p, h4, rfl, hs⟩ := h1
  simp only
  have hi' : I rest := Site.part h2.isInfix hi
  have hb' : InBody I body env st' := ⟨hb.1, fun b => by rw [h3]; exact hb.2 b⟩
  have key : Post H Q st' rest ((match table s with
      | some r => rFramed s r
      | none => Rd.map (fun b => raw ⟨s, b⟩) rRawBody) env st' rest) := by
    cases ht : table s with
    | none =>
      refine tame_map (I := I) (body := body) (mute_rawBody.mono ?_) env st' rest hp hb' hi'
      rintro b q rfl
      exact hraw _
    | some r =>
      have holds : ∀ w rest', rest = U4 w.length ++ (w ++ rest') → I.Holds s w := by
        intro w rest' he
        unfold rUtf8 rIdx Rd.bind at hr
        rcases hn : rNum u16 env st bs with e | ⟨i, st1, bs1⟩
        · rw [hn] at hr; cases hr
        rw [hn] at hr
        simp only at hr
        obtain ⟨rfl, hn'⟩ := rNum_ok hn
        obtain ⟨b, e1, rfl⟩ := takes_num u16_lawful _ _ _ hn'
        unfold rLookup at hr
        rcases hl : Pool.wtf8 env.pool i with _ | s'
        · rw [hl] at hr; cases hr
        · rw [hl] at hr
          cases hr
          refine ⟨i, ?_, Site.part ⟨[], rest', ?_⟩ hi⟩
          · unfold Pool.wtf8 at hl
            split at hl
            · rename_i hs'
              cases hl
              rw [hb.1] at hs'
              exact hs'
            · cases hl
          · rw [e1, he, ← u16_write]
            simp only [List.nil_append, List.append_assoc]
      refine post_framed (fun w rest' he => h s r hs ht env st' w hp hb' (Site.part ⟨U4 w.length, rest', ?_⟩ hi')
        (holds w rest' he)) fun w rest' he hw a st2 left hr' hn =>
          hF s r ht env st' w a st2 left hb.1 hr' hn hw (holds w rest' he)
      rw [he, List.append_assoc]
  have fin : ∀ res, Post H Q st' rest res → Post H Q st bs res := by
    intro res key
    rcases res with e | ⟨v, st2, rest2⟩
    · exact key
    · obtain ⟨k1, k2, p, k3, k4⟩ := key
      exact ⟨List.IsSuffix.trans k1 h2, k2.trans h3, p, by rw [k3, h4, List.append_nil], k4⟩
  exact fin _ key

theorem tame_attr [Site I] {Q : α → List UInt16 → Prop} {table : Bytes → Option (Rd α)} {raw : RawAttribute → α}
    (h : ∀ name r, FineStr H name → table name = some r → Tame I H body Q r)
    (hraw : ∀ a, Q (raw a) []) (hF : Fair I H table) : Tame I H body Q (rAttr table raw) :=
  tame_attrAt (fun name r hs ht env st w hp hb hi _ => (h name r hs ht env st w hp hb hi).all) hraw hF

end Verif
