import Verif.Lemmas.BulkText
import Verif.Lemmas.TameClass
import Verif.Lemmas.Legible

/-! What readers build, against what they consume.

Every byte of the input pays `price B`, where `B` is the length of the longest string of the pool: the values
that one index can name hold less than that. A label counts when it is first named, since it becomes an
instruction at the end of the body. -/

namespace Verif
open Spec Sig

variable {α β γ δ : Type} {B : Nat}

def price (B : Nat) : Nat := 16 * B + 16

/-- The strings of the pool have at most `B` bytes. -/
def PoolB (B : Nat) (P : Pool) : Prop := ∀ i s, P i = some (.utf8 s) → s.length ≤ B

/-- The handlers in scope have been looked up in such a pool. -/
def EnvB (B : Nat) (env : REnv) : Prop :=
  PoolB B env.pool ∧ ∀ cs, env.catches = some cs → ∀ c ∈ cs, bulkCatch c ≤ B + 2

def RSt.count (st : RSt) : Nat :=
  match st.labels with
  | none => 0
  | some m => m.length

/-- With `c` in hand, `r` can pay for its value with what it consumes: `Q a n` says that `n` is enough for `a`. -/
def Costs (B c : Nat) (Q : α → Nat → Prop) (r : Rd α) : Prop := ∀ env st bs a st' rest, EnvB B env →
  r env st bs = .ok (a, st', rest) →
  ∃ n, Q a n ∧ n + st'.count + price B * rest.length ≤ st.count + price B * bs.length + c

def W (f : α → Nat) (a : α) (n : Nat) : Prop := f a ≤ n
def Paid (B : Nat) (_ : α) (n : Nat) : Prop := n = price B
def Arr (Q1 : α → Nat → Prop) (Q : β → Nat → Prop) (g : α → β) (n : Nat) : Prop := ∀ b m, Q1 b m → Q (g b) (n + m)

/-- Arithmetic with budgets. -/
macro "tally" : tactic => `(tactic| ((try simp only [W, Paid, Arr] at *); (try dsimp only at *); omega))

theorem Costs.mono {c d : Nat} {Q Q' : α → Nat → Prop} {r : Rd α} (h : Costs B c Q r) (hc : c ≤ d)
    (hq : ∀ a n, Q a n → Q' a n) : Costs B d Q' r := by
  intro env st bs a st' rest he hr
  obtain ⟨n, h1, h2⟩ := h _ _ _ _ _ _ he hr
  exact ⟨n, hq _ _ h1, by omega⟩

theorem Costs.frame {c d k : Nat} {Q Q' : α → Nat → Prop} {r : Rd α} (h : Costs B c Q r) (hc : c + k ≤ d)
    (hq : ∀ a n, Q a n → Q' a (n + k)) : Costs B d Q' r := by
  intro env st bs a st' rest he hr
  obtain ⟨n, h1, h2⟩ := h _ _ _ _ _ _ he hr
  exact ⟨n + k, hq _ _ h1, by omega⟩

theorem costs_pure {c : Nat} {Q : α → Nat → Prop} {a : α} (h : Q a c) : Costs B c Q (Rd.pure a) := by
  intro env st bs x st' rest _ hr
  cases hr
  exact ⟨c, h, by omega⟩

theorem costs_fail {c : Nat} {Q : α → Nat → Prop} {e : Err} : Costs B c Q (Rd.fail e) := by
  intro env st bs x st' rest _ hr
  cases hr

theorem costs_bind {c : Nat} {Q1 : α → Nat → Prop} {Q : β → Nat → Prop} {x : Rd α} {f : α → Rd β} (h : Costs B c Q1 x)
    (hf : ∀ a n, Q1 a n → Costs B n Q (f a)) : Costs B c Q (Rd.bind x f) := by
  intro env st bs y st' rest he hr
  obtain ⟨a, st1, bs1, h1, h2⟩ := Rd.bind_ok hr
  obtain ⟨n, hq, hn⟩ := h _ _ _ _ _ _ he h1
  obtain ⟨m, hm, hk⟩ := hf a n hq _ _ _ _ _ _ he h2
  exact ⟨m, hm, by omega⟩

theorem costs_map {c : Nat} {Q1 : α → Nat → Prop} {Q : β → Nat → Prop} {x : Rd α} {f : α → β} (h : Costs B c Q1 x)
    (hf : ∀ a n, Q1 a n → Q (f a) n) : Costs B c Q (Rd.map f x) :=
  costs_bind h fun a n hn => costs_pure (hf a n hn)

/-- With something left over from before. -/
theorem costs_ap {c : Nat} {Q1 : α → Nat → Prop} {Q : β → Nat → Prop} {f : Rd (α → β)} {x : Rd α}
    (h : Costs B c (Arr Q1 Q) f) (hx : Costs B 0 Q1 x) : Costs B c Q (Rd.ap f x) :=
  costs_bind h fun _ n hn => costs_bind (Q1 := fun a m => Q1 a (m - n) ∧ n ≤ m)
    (hx.frame (k := n) (by omega) fun a m hm => ⟨by rwa [Nat.add_sub_cancel], by omega⟩)
    fun a m hm => costs_pure (by have := hn a _ hm.1; rwa [Nat.add_sub_cancel' hm.2] at this)

theorem costs_ite {c : Nat} {Q : α → Nat → Prop} {p : Prop} [Decidable p] {r s : Rd α} (h1 : Costs B c Q r)
    (h2 : Costs B c Q s) : Costs B c Q (if p then r else s) := by split <;> assumption

theorem costs_ofRes {c : Nat} {Q : α → Nat → Prop} {r : Res α} (h : ∀ a, r = .ok a → Q a c) : Costs B c Q (Rd.ofRes r) := by
  intro env st bs x st' rest _ hr
  unfold Rd.ofRes at hr
  split at hr
  · cases hr; exact ⟨c, h _ rfl, by omega⟩
  · cases hr

theorem readExact_pays {n : Nat} {bs a rest : Bytes} (h : readExact n bs = .ok (a, rest)) :
    price B * a.length + price B * rest.length = price B * bs.length ∧ a.length = n := by
  obtain ⟨rfl, hl⟩ := readExact_parts h
  exact ⟨by rw [List.length_append, Nat.mul_add], hl⟩

theorem num_pays {c : NumCodec α} (hc : 1 ≤ c.size) {bs rest : Bytes} {a : α} (h : c.read bs = .ok (a, rest)) :
    price B + price B * rest.length ≤ price B * bs.length := by
  unfold NumCodec.read at h
  split at h
  · rename_i x r he
    have he' : r = rest := by cases h; rfl
    subst he'
    have := readExact_pays (B := B) he
    have h2 : price B * 1 ≤ price B * x.length := Nat.mul_le_mul_left _ (by omega)
    omega
  · cases h

theorem costs_num {c : NumCodec α} (hc : 1 ≤ c.size := by decide) : Costs B 0 (Paid B) (rNum c) := by
  intro env st bs a st' rest _ hr
  unfold rNum Rd.lift at hr
  split at hr
  · rename_i h
    cases hr
    exact ⟨_, rfl, by have := num_pays (B := B) hc h; omega⟩
  · cases hr

theorem costs_flags {t : FlagType} : Costs B 0 (Paid B) (rFlags t) := by
  intro env st bs a st' rest _ hr
  unfold rFlags Rd.lift at hr
  split at hr
  · rename_i h
    cases hr
    obtain ⟨x, bs1, h1, h2⟩ := Reader.bind_ok h
    cases h2
    exact ⟨_, rfl, by have := num_pays (B := B) (c := u16) (by decide) h1; omega⟩
  · cases hr

theorem costs_replicate {f : α → Nat} {r : Rd α} (h : Costs B 0 (W f) r) : ∀ n, Costs B 1 (W (bulkL f)) (Rd.replicate n r)
  | 0 => costs_pure (Nat.le_refl _)
  | n + 1 => costs_bind (Q1 := fun a m => f a + 1 ≤ m) (h.frame (k := 1) (by omega) fun a m (hm : _ ≤ _) => by omega)
      fun a m hm => costs_bind (Q1 := fun as k => f a + bulkL f as ≤ k)
        ((costs_replicate h n).frame (k := m - 1) (by omega) fun as k (hk : _ ≤ _) => by omega)
        fun as k hk => costs_pure hk

theorem costs_vec {f : α → Nat} {ν : Type} {l : NumCodec ν} {r : Rd α} (h : Costs B 0 (W f) r)
    (hl : 1 ≤ l.size := by decide) : Costs B 0 (W fun xs => bulkL f xs + 8) (rVec l r) :=
  costs_bind (costs_num hl) fun n p hp => (costs_replicate h _).frame (k := 8)
    (by have : p = price B := hp; unfold price at this; omega) fun as k (hk : _ ≤ _) => by tally

theorem costs_lookup {f : Pool → UInt16 → Option α} {i : UInt16} {c : Nat} {g : α → Nat}
    (h : ∀ P a, PoolB B P → f P i = some a → g a ≤ c) : Costs B c (W g) (rLookup f i) := by
  intro env st bs x st' rest hp hr
  unfold rLookup at hr
  split at hr
  · rename_i he; cases hr; exact ⟨c, h _ _ hp.1 he, by omega⟩
  · cases hr

theorem costs_lookupR {f : Pool → UInt16 → Res (Option α)} {i : UInt16} {c : Nat} {g : α → Nat}
    (h : ∀ P a, PoolB B P → f P i = .ok (some a) → g a ≤ c) : Costs B c (W g) (rLookupR f i) := by
  intro env st bs x st' rest hp hr
  unfold rLookupR at hr
  split at hr
  · rename_i he; cases hr; exact ⟨c, h _ _ hp.1 he, by omega⟩
  · cases hr
  · cases hr

theorem costs_lookupD {f : Pool → UInt16 → List UInt16 → Res (Option α × List UInt16)} {i : UInt16} {c : Nat} {g : α → Nat}
    (h : ∀ P a p q, PoolB B P → f P i p = .ok (some a, q) → g a ≤ c) : Costs B c (W g) (rLookupD f i) := by
  intro env st bs x st' rest hp hr
  unfold rLookupD at hr
  split at hr
  · rename_i he; cases hr; exact ⟨c, h _ _ _ _ hp.1 he, by simp only [RSt.count]; omega⟩
  · cases hr
  · cases hr

theorem costs_idx {f : Pool → UInt16 → Option α} {g : α → Nat}
    (h : ∀ P i a, PoolB B P → f P i = some a → g a ≤ price B) : Costs B 0 (W g) (rIdx f) :=
  costs_bind costs_num fun i n hn => by
    cases (show n = price B from hn)
    exact costs_lookup fun P a hp => h P i a hp

theorem costs_idxR {f : Pool → UInt16 → Res (Option α)} {g : α → Nat}
    (h : ∀ P i a, PoolB B P → f P i = .ok (some a) → g a ≤ price B) : Costs B 0 (W g) (rIdxR f) :=
  costs_bind costs_num fun i n hn => by
    cases (show n = price B from hn)
    exact costs_lookupR fun P a hp => h P i a hp

theorem costs_opt {f : UInt16 → Rd α} {g : α → Nat} (h : ∀ i, Costs B (16 * B + 8) (W g) (f i)) :
    Costs B 0 (W fun x => bulkO g x + 8) (rOpt f) :=
  costs_bind costs_num fun i n hn => by
    have hn : n = 16 * B + 16 := hn
    subst hn
    refine costs_ite (costs_pure (show 0 + 8 ≤ _ by omega)) ?_
    exact costs_map ((h i).frame (k := 8) (Q' := W fun x => g x + 8) (by omega) fun a n (hn : _ ≤ _) => by tally) fun a n hn => hn

/-! ## The pool -/

theorem wtf8_bulk {P : Pool} (hP : PoolB B P) {i : UInt16} {s : Bytes} (h : Pool.wtf8 P i = some s) : s.length ≤ B := by
  unfold Pool.wtf8 at h
  split at h
  · rename_i hs; cases h; exact hP i s hs
  · cases h

theorem indirect_bulk {P : Pool} (hP : PoolB B P) {tag : UInt8} {i : UInt16} {s : Bytes}
    (h : Pool.indirect P tag i = some s) : s.length ≤ B := by
  unfold Pool.indirect at h
  split at h
  case h_5 => cases h
  all_goals
    split at h
    · exact wtf8_bulk hP h
    · cases h

theorem nat_bulk {P : Pool} (hP : PoolB B P) {i : UInt16} {p : Bytes × JType}
    (h : Pool.nameAndType P i = .ok (some p)) : p.1.length ≤ B ∧ bulkType p.2 ≤ 8 * B := by
  unfold Pool.nameAndType at h
  split at h
  · split at h
    · rename_i n hn
      split at h
      · rename_i s hs
        split at h
        · rename_i t ht
          cases h
          have h1 := wtf8_bulk hP hs
          have h2 := parseType_bulk (okOrNone_some ht)
          exact ⟨wtf8_bulk hP hn, by dsimp only; omega⟩
        · cases h
        · cases h
      · cases h
    · cases h
  · cases h

theorem memberParts_bulk {P : Pool} (hP : PoolB B P) {b : Bool} {o nt : UInt16} {m : MemberRef}
    (h : Pool.memberParts P b o nt = .ok (some m)) : bulkMember m ≤ 10 * B + 3 := by
  unfold Pool.memberParts at h
  split at h
  · rename_i s hs
    split at h
    · rename_i hn
      cases h
      have h1 := nat_bulk hP hn
      have h2 := indirect_bulk hP hs
      simp only [bulkMember, bulkS] at *
      omega
    · cases h
    · cases h
  · cases h

theorem member_bulk {P : Pool} (hP : PoolB B P) {i : UInt16} {m : MemberRef}
    (h : Pool.member P i = .ok (some m)) : bulkMember m ≤ 10 * B + 3 := by
  unfold Pool.member at h
  split at h
  · exact memberParts_bulk hP h
  · exact memberParts_bulk hP h
  · exact memberParts_bulk hP h
  · cases h

theorem methodHandle_bulk {P : Pool} (hP : PoolB B P) {i : UInt16} {m : MethodHandle}
    (h : Pool.methodHandle P i = .ok (some m)) : bulkHandle m ≤ 10 * B + 4 := by
  unfold Pool.methodHandle at h
  split at h
  · split at h
    · rename_i hm
      split at h
      · cases h
        have := member_bulk hP hm
        simp only [bulkHandle]
        omega
      · cases h
    · cases h
    · cases h
  · cases h

theorem constant_bulk {P : Pool} (hP : PoolB B P) {i : UInt16} {c : Constant}
    (h : Pool.constant P i = .ok (some c)) : bulkConst c ≤ 10 * B + 5 := by
  unfold Pool.constant at h
  split at h
  · cases h; simp only [bulkConst]; omega
  · cases h; simp only [bulkConst]; omega
  · cases h; simp only [bulkConst]; omega
  · cases h; simp only [bulkConst]; omega
  · rename_i s _
    rcases hs : Pool.wtf8 P s with _ | t
    · rw [hs] at h; cases h
    · rw [hs] at h; cases h; have := wtf8_bulk hP hs; simp only [bulkConst, bulkS]; omega
  · rename_i s _
    rcases hs : Pool.wtf8 P s with _ | t
    · rw [hs] at h; cases h
    · rw [hs] at h; cases h; have := wtf8_bulk hP hs; simp only [bulkConst, bulkS]; omega
  · split at h
    · rename_i s hs
      split at h
      · rename_i t ht
        cases t with
        | none => cases h
        | some t =>
          cases h
          have h1 := wtf8_bulk hP hs
          have h2 := parseType_bulk (okOrNone_some ht)
          simp only [bulkConst]
          omega
      · cases h
    · cases h
  · split at h
    · rename_i hm
      split at h
      · cases h
        have := member_bulk hP hm
        simp only [bulkConst, bulkHandle]
        omega
      · cases h
    · cases h
  · split at h
    · rename_i m hm
      cases m with
      | none => cases h
      | some m =>
        cases h
        have := member_bulk hP hm
        simp only [bulkConst]
        omega
    · cases h

theorem dynamicParts_bulk {P : Pool} (hP : PoolB B P) {b nt : UInt16} {p q : List UInt16} {d : Dynamic}
    (h : Pool.dynamicParts P b nt p = .ok (some d, q)) : bulkDynamic d ≤ 9 * B + 3 := by
  unfold Pool.dynamicParts at h
  split at h
  · rename_i hn
    cases h
    have := nat_bulk hP hn
    simp only [bulkDynamic, bulkS, bulkCell] at *
    omega
  · cases h
  · cases h

theorem indy_bulk {P : Pool} (hP : PoolB B P) {i : UInt16} {p q : List UInt16} {d : Dynamic}
    (h : Pool.invokeDynamic P i p = .ok (some d, q)) : bulkDynamic d ≤ 9 * B + 3 := by
  unfold Pool.invokeDynamic at h
  split at h
  · exact dynamicParts_bulk hP h
  · cases h

theorem dynamic_bulk {P : Pool} (hP : PoolB B P) {i : UInt16} {p q : List UInt16} {d : Dynamic}
    (h : Pool.dynamic P i p = .ok (some d, q)) : bulkDynamic d ≤ 9 * B + 3 := by
  unfold Pool.dynamic at h
  split at h
  · exact dynamicParts_bulk hP h
  · cases h

theorem orDynamic_bulk {P : Pool} (hP : PoolB B P) {g : α → Nat} {f : UInt16 → Res (Option α)} {i : UInt16}
    {p q : List UInt16} {x : OrDynamic α} (hf : ∀ a, f i = .ok (some a) → g a ≤ 10 * B + 5)
    (h : Pool.orDynamic P f i p = .ok (some x, q)) : bulkOrDyn g x ≤ 10 * B + 6 := by
  cases x with
  | static a =>
    have := hf a (orDynamic_static h)
    simp only [bulkOrDyn]
    omega
  | dynamic d =>
    unfold Pool.orDynamic at h
    split at h
    · rename_i hd
      cases h
      have := dynamic_bulk hP hd
      simp only [bulkOrDyn]
      omega
    · split at h
      · rename_i a _
        cases a <;> cases h
      · cases h
    · cases h

/-! ## Parts -/

theorem costs_utf8 : Costs B 0 (W fun s => bulkS s + 8) rUtf8 := costs_idx fun P i a hp h => by
  have := wtf8_bulk hp h
  simp only [price, bulkS]
  omega

theorem costs_str {tag : UInt8} : Costs B 0 (W fun s => bulkS s + 8) (rStr tag) := costs_idx fun P i a hp h => by
  have := indirect_bulk hp h
  simp only [price, bulkS]
  omega

/-- A string that is parsed. -/
theorem costs_text : Costs B 0 (W fun s => 16 * s.length + 16) rUtf8 := costs_idx fun P i a hp h => by
  have := wtf8_bulk hp h
  simp only [price]
  omega

theorem costs_type : Costs B 0 (W fun t => bulkType t + 8) rType :=
  costs_bind costs_text fun s n (hn : _ ≤ _) => costs_ofRes fun t ht => by
    have := parseType_bulk ht
    tally

theorem costs_sig {parse : Str → Res α} {g : α → Nat} (h : ∀ s a, parse s = .ok a → g a ≤ 8 * s.length + 1) :
    Costs B 0 (W fun x => g x + 8) (rSig parse) :=
  costs_bind costs_text fun s n (hn : _ ≤ _) => by
    split
    · exact costs_fail
    · rename_i cs hc
      refine costs_ofRes fun t ht => ?_
      have h1 := h _ _ ht
      have h2 := codepoints_len hc
      have h3 := lossy_len s _ 0 rfl
      have h4 : (Wtf8.toStringLossy s).length ≤ s.length - 0 := h3
      tally

theorem costs_const : Costs B 0 (W fun c => bulkConst c + 8) rConst := costs_idxR fun P i a hp h => by
  have := constant_bulk hp h
  simp only [price]
  omega

theorem costs_utf8Opt : Costs B 0 (W fun s => bulkO bulkS s + 8) rUtf8Opt :=
  costs_opt fun i => costs_lookup fun P a hp h => by
    have := wtf8_bulk hp h
    simp only [bulkS]
    omega

theorem costs_clsOpt : Costs B 0 (W fun s => bulkO bulkS s + 8) rClsOpt :=
  costs_opt fun i => costs_lookup fun P a hp h => by
    have := indirect_bulk hp h
    simp only [bulkS]
    omega

theorem costs_natOpt : Costs B 0 (W fun s => bulkO (fun p => bulkS p.1 + bulkType p.2) s + 8) rNatOpt :=
  costs_opt fun i => costs_lookupR fun P a hp h => by
    have := nat_bulk hp h
    simp only [bulkS]
    omega

theorem costs_getLabel {o : UInt32} {c : Nat} : Costs B (c + 1) (W fun _ => c) (getLabel o) := by
  intro env st bs x st' rest _ hr
  unfold getLabel at hr
  split at hr
  · cases hr
  · rename_i m hm
    split at hr
    · cases hr; exact ⟨c, Nat.le_refl _, by omega⟩
    · cases hr
      refine ⟨c, Nat.le_refl _, ?_⟩
      simp only [RSt.count, hm, List.length_append, List.length_singleton]
      omega

theorem costs_label : Costs B 0 (W fun _ => 8) rLabel :=
  costs_bind costs_num fun _ n hn => (costs_getLabel (c := 8)).mono (by
    have : n = price B := hn
    simp only [this, price]
    omega) fun _ _ h => h

theorem costs_catch : Costs B 0 (W fun c => bulkCatch c + 8) rCatch :=
  costs_bind costs_num fun i n hn => by
    intro env st bs x st' rest he hr
    simp only at hr
    split at hr
    · cases hr
    · rename_i cs hcs
      split at hr
      · rename_i c hc
        cases hr
        have := he.2 cs hcs _ (List.mem_of_getElem? hc)
        have hn : n = price B := hn
        exact ⟨n, show _ ≤ _ by simp only [hn, price]; omega, by omega⟩
      · cases hr

/-! ## Attributes -/

theorem costs_framed {nm : Bytes} {r : Rd α} {Q : α → Nat → Prop} {c : Nat} (h : Costs B (c + price B) Q r) :
    Costs B c Q (rFramed nm r) := by
  intro env st bs x st' rest hp hr
  unfold rFramed at hr
  split at hr
  · cases hr
  · rename_i len bs1 h1
    split at hr
    · cases hr
    · rename_i body bs2 h2
      split at hr
      · cases hr
      · rename_i a st1 h3
        cases hr
        obtain ⟨n, h4, h5⟩ := h _ _ _ _ _ _ hp h3
        have e1 := num_pays (B := B) (c := u32) (by decide) h1
        have e2 := (readExact_pays (B := B) h2).1
        refine ⟨n, h4, ?_⟩
        simp only [List.length_nil, Nat.mul_zero] at h5
        omega
      · cases hr

theorem costs_rawBody {c : Nat} : Costs B c (W fun b => bulkS b + 8 + c) rRawBody := by
  intro env st bs x st' rest hp hr
  unfold rRawBody at hr
  split at hr
  · cases hr
  · rename_i len bs1 h1
    split at hr
    · cases hr
    · rename_i body bs2 h2
      cases hr
      have e1 := num_pays (B := B) (c := u32) (by decide) h1
      have e2 := (readExact_pays (B := B) h2).1
      have e3 : 1 * x.length ≤ price B * x.length := Nat.mul_le_mul_right _ (by unfold price; omega)
      have e4 : 16 ≤ price B := by unfold price; omega
      refine ⟨bulkS x + 8 + c, Nat.le_refl _, ?_⟩
      simp only [bulkS]
      omega

theorem costs_attr {g : α → Nat} {table : Bytes → Option (Rd α)} {raw : RawAttribute → α}
    (h : ∀ name r, table name = some r → Costs B (price B) (W g) r) (hr : ∀ a, g (raw a) ≤ bulkRaw a + 8) :
    Costs B 0 (W g) (rAttr table raw) := by
  refine costs_bind costs_utf8 fun s n (hn : _ ≤ _) => ?_
  rcases ht : table s with _ | r
  · refine costs_map costs_rawBody fun b m (hm : _ ≤ _) => ?_
    have := hr ⟨s, b⟩
    simp only [bulkRaw] at this
    tally
  · exact costs_framed ((h s r ht).mono (by omega) fun _ _ h => h)

theorem costs_debugExt {c : Nat} : Costs B (c + 1) (W fun s => bulkS s + c) rDebugExt := by
  intro env st bs x st' rest hp hr
  unfold rDebugExt at hr
  split at hr
  · rename_i h
    cases hr
    have h1 := decode_len h
    have e3 : 1 * bs.length ≤ price B * bs.length := Nat.mul_le_mul_right _ (by unfold price; omega)
    refine ⟨bulkS x + c, Nat.le_refl _, ?_⟩
    simp only [bulkS, List.length_nil]
    omega
  · cases hr

end Verif
