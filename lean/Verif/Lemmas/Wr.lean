import Verif.Spec.Consts
import Verif.Lemmas.Class

/-! # When writers succeed, and which constants they leave in the pool -/

namespace Verif
open Spec Sig

/-! ## Sizes -/

theorem symSize_cons (s : Sym) (c : List Sym) : symSize (s :: c) = s.slots + symSize c := rfl

theorem symSize_perm {c c' : List Sym} (h : c.Perm c') : symSize c = symSize c' :=
  (h.map Sym.slots).sum_nat

/-- Constants without repetitions take up no more than any list that has them. -/
theorem symSize_le {N L : List Sym} (hN : N.Nodup) (h : ∀ s ∈ N, s ∈ L) : symSize N ≤ symSize L := by
  induction N generalizing L with
  | nil => exact Nat.zero_le _
  | cons s N ih =>
    obtain ⟨h1, h2⟩ := List.nodup_cons.mp hN
    have hs : s ∈ L := h s (by simp)
    rw [symSize_perm (List.perm_cons_erase hs), symSize_cons, symSize_cons]
    have := ih (L := L.erase s) h2 fun t ht => by
      refine (List.mem_erase_of_ne ?_).mpr (h t (by simp [ht]))
      rintro rfl
      exact h1 ht
    omega

/-! ## Constants in a pool -/

/-- No entry occurs twice. -/
def Inj (es : List Entry) : Prop := ∀ e (i j : UInt16), At es i.toNat e → At es j.toNat e → i = j

theorem VecCp.Inv.inj {cp : VecCp} (h : cp.Inv) : Inj cp.entries := by
  intro e i j h1 h2
  rw [← h.cache] at h1 h2
  rw [h1] at h2
  cases h2
  rfl

theorem at_mono {es es' : List Entry} (h : es <+: es') {i : Nat} {e : Entry} (ha : At es i e) : At es' i e := by
  obtain ⟨n, hn⟩ := h
  rw [← hn]
  exact ha.append n

theorem textAt_inj {es : List Entry} (h : Inj es) {s : Bytes} {i j : UInt16} (h1 : TextAt es i s) (h2 : TextAt es j s) :
    i = j := h _ _ _ h1 h2

theorem classAt_inj {es : List Entry} (h : Inj es) {s : Bytes} {i j : UInt16} (h1 : ClassAt es i s)
    (h2 : ClassAt es j s) : i = j := by
  obtain ⟨k, a1, a2⟩ := h1
  obtain ⟨l, b1, b2⟩ := h2
  cases textAt_inj h a1 b1
  exact h _ _ _ a2 b2

theorem natAt_inj {es : List Entry} (h : Inj es) {n d : Bytes} {i j : UInt16} (h1 : NatAt es i n d)
    (h2 : NatAt es j n d) : i = j := by
  obtain ⟨k, k', a1, a2, a3⟩ := h1
  obtain ⟨l, l', b1, b2, b3⟩ := h2
  cases textAt_inj h a1 b1
  cases textAt_inj h a2 b2
  exact h _ _ _ a3 b3

theorem sym_inj {es : List Entry} (h : Inj es) : {s : Sym} → {i j : UInt16} → s.Is es i → s.Is es j → i = j
  | .utf8 _, _, _, h1, h2 => h _ _ _ h1 h2
  | .int _, _, _, h1, h2 => h _ _ _ h1 h2
  | .float _, _, _, h1, h2 => h _ _ _ h1 h2
  | .long _, _, _, h1, h2 => h _ _ _ h1 h2
  | .double _, _, _, h1, h2 => h _ _ _ h1 h2
  | .cls _, _, _, h1, h2 => classAt_inj h h1 h2
  | .str _, _, _, ⟨_, a1, a2⟩, ⟨_, b1, b2⟩ => by cases textAt_inj h a1 b1; exact h _ _ _ a2 b2
  | .mtype _, _, _, ⟨_, a1, a2⟩, ⟨_, b1, b2⟩ => by cases textAt_inj h a1 b1; exact h _ _ _ a2 b2
  | .module _, _, _, ⟨_, a1, a2⟩, ⟨_, b1, b2⟩ => by cases textAt_inj h a1 b1; exact h _ _ _ a2 b2
  | .package _, _, _, ⟨_, a1, a2⟩, ⟨_, b1, b2⟩ => by cases textAt_inj h a1 b1; exact h _ _ _ a2 b2
  | .nat _ _, _, _, h1, h2 => natAt_inj h h1 h2
  | .field _ _ _, _, _, ⟨_, _, a1, a2, a3⟩, ⟨_, _, b1, b2, b3⟩ => by
    cases classAt_inj h a1 b1; cases natAt_inj h a2 b2; exact h _ _ _ a3 b3
  | .method _ _ _, _, _, ⟨_, _, a1, a2, a3⟩, ⟨_, _, b1, b2, b3⟩ => by
    cases classAt_inj h a1 b1; cases natAt_inj h a2 b2; exact h _ _ _ a3 b3
  | .imethod _ _ _, _, _, ⟨_, _, a1, a2, a3⟩, ⟨_, _, b1, b2, b3⟩ => by
    cases classAt_inj h a1 b1; cases natAt_inj h a2 b2; exact h _ _ _ a3 b3
  | .handle _ m, _, _, ⟨_, a1, a2⟩, ⟨_, b1, b2⟩ => by cases sym_inj (s := m) h a1 b1; exact h _ _ _ a2 b2

theorem textAt_mono {es es' : List Entry} (h : es <+: es') {s : Bytes} {i : UInt16} (h1 : TextAt es i s) :
    TextAt es' i s := at_mono h h1

theorem classAt_mono {es es' : List Entry} (h : es <+: es') {s : Bytes} {i : UInt16} (h1 : ClassAt es i s) :
    ClassAt es' i s := by
  obtain ⟨k, a1, a2⟩ := h1
  exact ⟨k, textAt_mono h a1, at_mono h a2⟩

theorem natAt_mono {es es' : List Entry} (h : es <+: es') {n d : Bytes} {i : UInt16} (h1 : NatAt es i n d) :
    NatAt es' i n d := by
  obtain ⟨k, k', a1, a2, a3⟩ := h1
  exact ⟨k, k', textAt_mono h a1, textAt_mono h a2, at_mono h a3⟩

theorem sym_mono {es es' : List Entry} (h : es <+: es') : {s : Sym} → {i : UInt16} → s.Is es i → s.Is es' i
  | .utf8 _, _, h1 => at_mono h h1
  | .int _, _, h1 => at_mono h h1
  | .float _, _, h1 => at_mono h h1
  | .long _, _, h1 => at_mono h h1
  | .double _, _, h1 => at_mono h h1
  | .cls _, _, h1 => classAt_mono h h1
  | .str _, _, ⟨_, a1, a2⟩ => ⟨_, textAt_mono h a1, at_mono h a2⟩
  | .mtype _, _, ⟨_, a1, a2⟩ => ⟨_, textAt_mono h a1, at_mono h a2⟩
  | .module _, _, ⟨_, a1, a2⟩ => ⟨_, textAt_mono h a1, at_mono h a2⟩
  | .package _, _, ⟨_, a1, a2⟩ => ⟨_, textAt_mono h a1, at_mono h a2⟩
  | .nat _ _, _, h1 => natAt_mono h h1
  | .field _ _ _, _, ⟨_, _, a1, a2, a3⟩ => ⟨_, _, classAt_mono h a1, natAt_mono h a2, at_mono h a3⟩
  | .method _ _ _, _, ⟨_, _, a1, a2, a3⟩ => ⟨_, _, classAt_mono h a1, natAt_mono h a2, at_mono h a3⟩
  | .imethod _ _ _, _, ⟨_, _, a1, a2, a3⟩ => ⟨_, _, classAt_mono h a1, natAt_mono h a2, at_mono h a3⟩
  | .handle _ m, _, ⟨_, a1, a2⟩ => ⟨_, sym_mono (s := m) h a1, at_mono h a2⟩

/-- The entry of a constant. -/
def Holder (e : Entry) : Sym → Prop
  | .utf8 s => e = .utf8 s
  | .int x => e = .int x
  | .float x => e = .float x
  | .long x => e = .long x
  | .double x => e = .double x
  | .cls _ => ∃ j, e = .cls j
  | .str _ => ∃ j, e = .str j
  | .mtype _ => ∃ j, e = .mtype j
  | .module _ => ∃ j, e = .module j
  | .package _ => ∃ j, e = .package j
  | .nat _ _ => ∃ j k, e = .nat j k
  | .field _ _ _ => ∃ j k, e = .field j k
  | .method _ _ _ => ∃ j k, e = .method j k
  | .imethod _ _ _ => ∃ j k, e = .imethod j k
  | .handle k _ => ∃ j, e = .handle k j

theorem textAt_fun {es : List Entry} {s t : Bytes} {i : UInt16} (h1 : TextAt es i s) (h2 : TextAt es i t) : s = t := by
  have := At.functional h1 h2
  cases this
  rfl

theorem classAt_fun {es : List Entry} {s t : Bytes} {i : UInt16} (h1 : ClassAt es i s) (h2 : ClassAt es i t) :
    s = t := by
  obtain ⟨k, a1, a2⟩ := h1
  obtain ⟨l, b1, b2⟩ := h2
  cases At.functional a2 b2
  exact textAt_fun a1 b1

theorem natAt_fun {es : List Entry} {n d n' d' : Bytes} {i : UInt16} (h1 : NatAt es i n d) (h2 : NatAt es i n' d') :
    n = n' ∧ d = d' := by
  obtain ⟨k, k', a1, a2, a3⟩ := h1
  obtain ⟨l, l', b1, b2, b3⟩ := h2
  cases At.functional a3 b3
  exact ⟨textAt_fun a1 b1, textAt_fun a2 b2⟩

theorem sym_entry {es : List Entry} {i : UInt16} : {s : Sym} → s.Is es i → ∃ e, At es i.toNat e ∧ Holder e s
  | .utf8 _, h => ⟨_, h, rfl⟩
  | .int _, h => ⟨_, h, rfl⟩
  | .float _, h => ⟨_, h, rfl⟩
  | .long _, h => ⟨_, h, rfl⟩
  | .double _, h => ⟨_, h, rfl⟩
  | .cls _, ⟨_, _, h⟩ => ⟨_, h, _, rfl⟩
  | .str _, ⟨_, _, h⟩ => ⟨_, h, _, rfl⟩
  | .mtype _, ⟨_, _, h⟩ => ⟨_, h, _, rfl⟩
  | .module _, ⟨_, _, h⟩ => ⟨_, h, _, rfl⟩
  | .package _, ⟨_, _, h⟩ => ⟨_, h, _, rfl⟩
  | .nat _ _, ⟨_, _, _, _, h⟩ => ⟨_, h, _, _, rfl⟩
  | .field _ _ _, ⟨_, _, _, _, h⟩ => ⟨_, h, _, _, rfl⟩
  | .method _ _ _, ⟨_, _, _, _, h⟩ => ⟨_, h, _, _, rfl⟩
  | .imethod _ _ _, ⟨_, _, _, _, h⟩ => ⟨_, h, _, _, rfl⟩
  | .handle _ _, ⟨_, _, h⟩ => ⟨_, h, _, rfl⟩

theorem sym_fun {es : List Entry} {s t : Sym} {i : UInt16} (h1 : s.Is es i) (h2 : t.Is es i) : s = t := by
  obtain ⟨e, ae, he⟩ := sym_entry h1
  obtain ⟨f, af, hf⟩ := sym_entry h2
  cases At.functional ae af
  induction s generalizing t i e with
  | utf8 s => cases he; cases t <;> simp [Holder] at hf; rw [hf]
  | int s => cases he; cases t <;> simp [Holder] at hf; rw [hf]
  | float s => cases he; cases t <;> simp [Holder] at hf; rw [hf]
  | long s => cases he; cases t <;> simp [Holder] at hf; rw [hf]
  | double s => cases he; cases t <;> simp [Holder] at hf; rw [hf]
  | cls s =>
    obtain ⟨_, rfl⟩ := he
    cases t <;> simp [Holder] at hf
    rw [classAt_fun h1 h2]
  | str s =>
    obtain ⟨_, rfl⟩ := he
    cases t <;> simp [Holder] at hf
    obtain ⟨_, a1, a2⟩ := h1
    obtain ⟨_, b1, b2⟩ := h2
    cases At.functional a2 b2
    rw [textAt_fun a1 b1]
  | mtype s =>
    obtain ⟨_, rfl⟩ := he
    cases t <;> simp [Holder] at hf
    obtain ⟨_, a1, a2⟩ := h1
    obtain ⟨_, b1, b2⟩ := h2
    cases At.functional a2 b2
    rw [textAt_fun a1 b1]
  | module s =>
    obtain ⟨_, rfl⟩ := he
    cases t <;> simp [Holder] at hf
    obtain ⟨_, a1, a2⟩ := h1
    obtain ⟨_, b1, b2⟩ := h2
    cases At.functional a2 b2
    rw [textAt_fun a1 b1]
  | package s =>
    obtain ⟨_, rfl⟩ := he
    cases t <;> simp [Holder] at hf
    obtain ⟨_, a1, a2⟩ := h1
    obtain ⟨_, b1, b2⟩ := h2
    cases At.functional a2 b2
    rw [textAt_fun a1 b1]
  | nat n d =>
    obtain ⟨_, _, rfl⟩ := he
    cases t <;> simp [Holder] at hf
    obtain ⟨a, b⟩ := natAt_fun h1 h2
    rw [a, b]
  | field o n d =>
    obtain ⟨_, _, rfl⟩ := he
    cases t <;> simp [Holder] at hf
    obtain ⟨_, _, a1, a2, a3⟩ := h1
    obtain ⟨_, _, b1, b2, b3⟩ := h2
    cases At.functional a3 b3
    obtain ⟨a, b⟩ := natAt_fun a2 b2
    rw [a, b, classAt_fun a1 b1]
  | method o n d =>
    obtain ⟨_, _, rfl⟩ := he
    cases t <;> simp [Holder] at hf
    obtain ⟨_, _, a1, a2, a3⟩ := h1
    obtain ⟨_, _, b1, b2, b3⟩ := h2
    cases At.functional a3 b3
    obtain ⟨a, b⟩ := natAt_fun a2 b2
    rw [a, b, classAt_fun a1 b1]
  | imethod o n d =>
    obtain ⟨_, _, rfl⟩ := he
    cases t <;> simp [Holder] at hf
    obtain ⟨_, _, a1, a2, a3⟩ := h1
    obtain ⟨_, _, b1, b2, b3⟩ := h2
    cases At.functional a3 b3
    obtain ⟨a, b⟩ := natAt_fun a2 b2
    rw [a, b, classAt_fun a1 b1]
  | handle k m ih =>
    obtain ⟨_, rfl⟩ := he
    cases t <;> simp [Holder] at hf
    obtain ⟨_, a1, a2⟩ := h1
    obtain ⟨_, b1, b2⟩ := h2
    cases At.functional a2 b2
    obtain ⟨e1, c1, c2⟩ := sym_entry a1
    obtain ⟨e2, d1, d2⟩ := sym_entry b1
    cases At.functional c1 d1
    rw [hf, ih a1 b1 _ c1 c2 d1 d2]

/-! ## Pools that hold given constants -/

theorem dyns_snoc (es : List Entry) (e : Entry) : dyns (es ++ [e]) = dyns es + if isDyn e then 1 else 0 := by
  unfold dyns
  rw [List.filter_append, List.length_append]
  by_cases h : isDyn e <;> simp [h]

/-- The pool has the constants `N`, each once, and dynamic constants that take up `d` entries. -/
structure Holds (N : List Sym) (cp : VecCp) (d : Nat) : Prop where
  inv : cp.Inv
  nodup : N.Nodup
  has : ∀ s ∈ N, ∃ i, s.Is cp.entries i
  only : ∀ (i : UInt16) e, At cp.entries i.toNat e → isDyn e ∨ ∃ s ∈ N, s.Is cp.entries i
  len : cp.len.toNat = 1 + symSize N + d
  dyns : dyns cp.entries = d

/-- From the pool `cp` the writer leaves the constants `c` in the pool besides those that were there, with at most
one entry for each of the bootstrap methods `l` it registers; if `p` then it succeeds when there is room. -/
def WrAt {α : Type} (p : Prop) (cp : VecCp) (w : Ins α) (c : List Sym) (l : List Bsm) : Prop :=
  ∀ N d, Holds N cp d →
    (∀ a cp', w cp = .ok (a, cp') → ∃ N' d', Holds N' cp' d' ∧ (∀ s, s ∈ N' ↔ s ∈ N ∨ s ∈ c) ∧
      d ≤ d' ∧ d' ≤ d + l.length ∧ cp'.bsm = cp.bsm ++ l) ∧
    (p → ∀ L, (∀ s ∈ N, s ∈ L) → (∀ s ∈ c, s ∈ L) → symSize L + d + l.length ≤ 65534 → ∃ r, w cp = .ok r)

def Wr {α : Type} (p : Prop) (w : Ins α) (c : List Sym) (l : List Bsm) : Prop := ∀ cp, WrAt p cp w c l

section
variable {p : Prop} {α β : Type}

namespace WrAt
variable {cp : VecCp}

theorem conv {w : Ins α} {c c' : List Sym} {l : List Bsm} (h : WrAt p cp w c l) (hc : ∀ s, s ∈ c ↔ s ∈ c') :
    WrAt p cp w c' l := by
  intro N d H
  obtain ⟨h1, h2⟩ := h N d H
  refine ⟨fun a cp' e => ?_, fun hp L hN hL => h2 hp L hN fun s hs => hL s ((hc s).mp hs)⟩
  obtain ⟨N', d', a1, a2, a3⟩ := h1 a cp' e
  exact ⟨N', d', a1, fun s => by rw [a2, hc], a3⟩

theorem pure (a : α) : WrAt p cp (Pure.pure a : Ins α) [] [] := by
  intro N d H
  refine ⟨fun b cp' h => ?_, fun _ _ _ _ _ => ⟨_, rfl⟩⟩
  cases h
  exact ⟨N, d, H, by simp, Nat.le_refl _, Nat.le_refl _, by simp⟩

theorem fail {e : Err} {c : List Sym} {l : List Bsm} (h : ¬ p) : WrAt p cp (Ins.fail e : Ins α) c l :=
  fun N d _ => ⟨fun b cp' h => (nomatch h), fun hp => absurd hp h⟩

theorem lift {r : Res α} (h : p → ∃ a, r = .ok a) : WrAt p cp (Ins.lift r) [] [] := by
  intro N d H
  refine ⟨fun b cp' h => ?_, fun hp _ _ _ _ => ?_⟩
  · obtain ⟨_, rfl⟩ := Ins.lift_ok h
    exact ⟨N, d, H, by simp, Nat.le_refl _, Nat.le_refl _, by simp⟩
  · obtain ⟨a, rfl⟩ := h hp
    exact ⟨_, rfl⟩

theorem bind {m : Ins α} {f : α → Ins β} {c c' : List Sym} {l l' : List Bsm} (h1 : WrAt p cp m c l)
    (h2 : ∀ a cp', cp.Inv → m cp = .ok (a, cp') → WrAt p cp' (f a) c' l') :
    WrAt p cp (m >>= f) (c ++ c') (l ++ l') := by
  intro N d H
  obtain ⟨A1, B1⟩ := h1 N d H
  constructor
  · intro b cp'' e
    obtain ⟨a, cp', e1, e2⟩ := Ins.bind_ok e
    obtain ⟨N1, d1, H1, m1, x1, y1, z1⟩ := A1 a cp' e1
    obtain ⟨A2, -⟩ := h2 a cp' H.inv e1 N1 d1 H1
    obtain ⟨N2, d2, H2, m2, x2, y2, z2⟩ := A2 b cp'' e2
    refine ⟨N2, d2, H2, fun s => ?_, by omega, by rw [List.length_append]; omega, by rw [z2, z1, List.append_assoc]⟩
    rw [m2, m1, List.mem_append, or_assoc]
  · intro hp L hN hc hL
    rw [List.length_append] at hL
    obtain ⟨⟨a, cp'⟩, e1⟩ := B1 hp L hN (fun s hs => hc s (by simp [hs])) (by omega)
    obtain ⟨N1, d1, H1, m1, x1, y1, z1⟩ := A1 a cp' e1
    obtain ⟨-, B2⟩ := h2 a cp' H.inv e1 N1 d1 H1
    obtain ⟨r, e2⟩ := B2 hp L (fun s hs => by
      rcases (m1 s).mp hs with h | h
      · exact hN s h
      · exact hc s (by simp [h])) (fun s hs => hc s (by simp [hs])) (by omega)
    refine ⟨r, ?_⟩
    simp only [Bind.bind, Ins.bind, e1, e2]

theorem bind0 {m : Ins α} {f : α → Ins β} {c c' : List Sym} {l' : List Bsm} (h1 : WrAt p cp m c [])
    (h2 : ∀ a cp', cp.Inv → m cp = .ok (a, cp') → WrAt p cp' (f a) c' l') :
    WrAt p cp (m >>= f) (c ++ c') l' := bind h1 h2

theorem bindN {m : Ins α} {f : α → Ins β} {c : List Sym} {l : List Bsm} (h1 : WrAt p cp m c l)
    (h2 : ∀ a cp', cp.Inv → m cp = .ok (a, cp') → WrAt p cp' (f a) [] []) :
    WrAt p cp (m >>= f) c l := by
  have := bind h1 h2
  rwa [List.append_nil, List.append_nil] at this

/-- An entry that stands for a constant. -/
theorem raw {e : Entry} {s : Sym} (he : ¬ isDyn e) (hs : s.slots = slots e)
    (h : ∀ es, cp.entries <+: es → Inj es → ∀ i, s.Is es i ↔ At es i.toNat e) : WrAt p cp (insertRaw e) [s] [] := by
  intro N d H
  have hiff := h cp.entries (List.prefix_refl _) H.inv.inj
  rcases hc : cp.cache.lookup e with _ | i
  · have hsN : s ∉ N := fun hm => by
      obtain ⟨i, hi⟩ := H.has s hm
      rw [hiff, ← H.inv.cache, hc] at hi
      cases hi
    have hnd : (s :: N).Nodup := List.nodup_cons.mpr ⟨hsN, H.nodup⟩
    constructor
    · intro a cp' ho
      obtain ⟨i1, i2, i3, i4⟩ := insertRaw_ok H.inv ho
      have hen : cp'.entries = cp.entries ++ [e] ∧ cp'.len = cp.len + e.size ∧ cp.len.toNat + e.size.toNat < 65536 ∧ a = cp.len := by
        unfold insertRaw at ho
        rw [hc] at ho
        simp only at ho
        split at ho
        · cases ho
          exact ⟨rfl, rfl, by assumption, rfl⟩
        · cases ho
      obtain ⟨k1, k2, k3, rfl⟩ := hen
      have hs' := (h cp'.entries i2.entries i1.inj cp.len).mpr i3
      refine ⟨s :: N, d, ⟨i1, hnd, ?_, ?_, ?_, by rw [k1, dyns_snoc, if_neg he]; exact H.dyns⟩, ?_, Nat.le_refl _,
        Nat.le_refl _, by simp [i4]⟩
      · intro t ht
        rcases List.mem_cons.mp ht with rfl | ht
        · exact ⟨_, hs'⟩
        · obtain ⟨i, hi⟩ := H.has t ht
          exact ⟨i, sym_mono i2.entries hi⟩
      · intro i x hx
        have hx' := hx
        rw [k1, At.snoc_iff] at hx
        rcases hx with hx | ⟨hx, rfl⟩
        · rcases H.only i x hx with hd | ⟨t, ht, hi⟩
          · exact .inl hd
          · exact .inr ⟨t, by simp [ht], sym_mono i2.entries hi⟩
        · exact .inr ⟨s, by simp, (h cp'.entries i2.entries i1.inj i).mpr hx'⟩
      · rw [k2, UInt16.toNat_add, Nat.mod_eq_of_lt (by omega), H.len, symSize_cons, hs, size_slots]
        omega
      · intro t
        simp only [List.mem_cons, List.not_mem_nil, or_false]
        exact or_comm
    · intro _ L hN hL hle
      have h1 := symSize_le hnd (L := L) fun t ht => by
        rcases List.mem_cons.mp ht with rfl | ht
        · exact hL _ (by simp)
        · exact hN t ht
      rw [symSize_cons, hs] at h1
      have h2 := H.len
      have h3 := size_slots e
      simp only [List.length_nil] at hle
      unfold insertRaw
      rw [hc]
      simp only
      rw [if_pos (by omega)]
      exact ⟨_, rfl⟩
  · constructor
    · intro a cp' ho
      unfold insertRaw at ho
      rw [hc] at ho
      cases ho
      refine ⟨N, d, H, fun t => ?_, Nat.le_refl _, Nat.le_refl _, by simp⟩
      have ha := (H.inv.cache e i).mp hc
      simp only [List.mem_singleton]
      constructor
      · exact .inl
      · rintro (h1 | rfl)
        · exact h1
        · rcases H.only i e ha with hd | ⟨t', ht, hi⟩
          · exact absurd hd he
          · rwa [sym_fun ((hiff i).mpr ha) hi]
    · intro _ L _ _ _
      unfold insertRaw
      rw [hc]
      exact ⟨_, rfl⟩

/-- A dynamic constant. -/
theorem rawDyn {e : Entry} (he : isDyn e) {N : List Sym} {d : Nat} (H : Holds N cp d) :
    (∀ a cp', insertRaw e cp = .ok (a, cp') → ∃ d', Holds N cp' d' ∧ d ≤ d' ∧ d' ≤ d + 1 ∧ cp'.bsm = cp.bsm) ∧
    (symSize N + d + 1 ≤ 65534 → ∃ r, insertRaw e cp = .ok r) := by
  have hsl : slots e = 1 := by cases e <;> first | rfl | cases he
  have h3 := size_slots e
  have h2 := H.len
  rcases hc : cp.cache.lookup e with _ | i
  · constructor
    · intro a cp' ho
      obtain ⟨i1, i2, i3, i4⟩ := insertRaw_ok H.inv ho
      have hen : cp'.entries = cp.entries ++ [e] ∧ cp'.len = cp.len + e.size ∧ cp.len.toNat + e.size.toNat < 65536 := by
        unfold insertRaw at ho
        rw [hc] at ho
        simp only at ho
        split at ho
        · cases ho
          exact ⟨rfl, rfl, by assumption⟩
        · cases ho
      obtain ⟨k1, k2, k3⟩ := hen
      refine ⟨d + 1, ⟨i1, H.nodup, ?_, ?_, ?_, by rw [k1, dyns_snoc, if_pos he, H.dyns]⟩, by omega, Nat.le_refl _, i4⟩
      · intro t ht
        obtain ⟨i, hi⟩ := H.has t ht
        exact ⟨i, sym_mono i2.entries hi⟩
      · intro i x hx
        rw [k1, At.snoc_iff] at hx
        rcases hx with hx | ⟨hx, rfl⟩
        · rcases H.only i x hx with hd | ⟨t, ht, hi⟩
          · exact .inl hd
          · exact .inr ⟨t, ht, sym_mono i2.entries hi⟩
        · exact .inl he
      · rw [k2, UInt16.toNat_add, Nat.mod_eq_of_lt (by omega)]
        omega
    · intro hle
      unfold insertRaw
      rw [hc]
      simp only
      rw [if_pos (by omega)]
      exact ⟨_, rfl⟩
  · constructor
    · intro a cp' ho
      unfold insertRaw at ho
      rw [hc] at ho
      cases ho
      exact ⟨d, H, Nat.le_refl _, by omega, rfl⟩
    · intro _
      unfold insertRaw
      rw [hc]
      exact ⟨_, rfl⟩

end WrAt

/-! ## Insertions -/

theorem text_rep {s : Bytes} {cp cp' : VecCp} {i : UInt16} (hi : cp.Inv) (h : insertWtf8 s cp = .ok (i, cp')) :
    cp'.Inv ∧ cp.entries <+: cp'.entries ∧ TextAt cp'.entries i s := by
  obtain ⟨h1, h2, h3, -⟩ := insertRaw_ok hi h
  exact ⟨h1, h2.entries, h3⟩

theorem class_rep {s : Bytes} {cp cp' : VecCp} {i : UInt16} (hi : cp.Inv) (h : insertClass s cp = .ok (i, cp')) :
    cp'.Inv ∧ cp.entries <+: cp'.entries ∧ ClassAt cp'.entries i s := by
  obtain ⟨j, cp1, e1, e2⟩ := Ins.bind_ok h
  obtain ⟨a1, a2, a3⟩ := text_rep hi e1
  obtain ⟨b1, b2, b3, -⟩ := insertRaw_ok a1 e2
  exact ⟨b1, a2.trans b2.entries, j, textAt_mono b2.entries a3, b3⟩

theorem nat_rep {n d : Bytes} {cp cp' : VecCp} {i : UInt16} (hi : cp.Inv)
    (h : insertNameAndType n d cp = .ok (i, cp')) :
    cp'.Inv ∧ cp.entries <+: cp'.entries ∧ NatAt cp'.entries i n d := by
  obtain ⟨j, cp1, e1, h⟩ := Ins.bind_ok h
  obtain ⟨k, cp2, e2, h⟩ := Ins.bind_ok h
  obtain ⟨a1, a2, a3⟩ := text_rep hi e1
  obtain ⟨b1, b2, b3⟩ := text_rep a1 e2
  obtain ⟨c1, c2, c3, -⟩ := insertRaw_ok b1 h
  exact ⟨c1, a2.trans (b2.trans c2.entries), j, k, textAt_mono (b2.trans c2.entries) a3, textAt_mono c2.entries b3, c3⟩

/-- The entry of a member with the class `o` and the name and type `nt`. -/
def memberEntry (m : MemberRef) (o nt : UInt16) : Entry :=
  if JType.isMethod m.descriptor then if m.itfs then .imethod o nt else .method o nt else .field o nt

theorem memberSym_is {m : MemberRef} {es : List Entry} {i : UInt16} : (memberSym m).Is es i ↔
    ∃ o nt, ClassAt es o m.owner ∧ NatAt es nt m.name (JType.display m.descriptor) ∧
      At es i.toNat (memberEntry m o nt) := by
  unfold memberSym memberEntry
  split
  · split <;> exact Iff.rfl
  · exact Iff.rfl

theorem member_rep {m : MemberRef} {cp cp' : VecCp} {i : UInt16} (hi : cp.Inv)
    (h : insertMember m cp = .ok (i, cp')) :
    cp'.Inv ∧ cp.entries <+: cp'.entries ∧ (memberSym m).Is cp'.entries i := by
  obtain ⟨j, cp1, e1, h⟩ := Ins.bind_ok h
  obtain ⟨k, cp2, e2, h⟩ := Ins.bind_ok h
  obtain ⟨a1, a2, a3⟩ := class_rep hi e1
  obtain ⟨b1, b2, b3⟩ := nat_rep a1 e2
  obtain ⟨c1, c2, c3, -⟩ := insertRaw_ok b1 h
  exact ⟨c1, a2.trans (b2.trans c2.entries),
    memberSym_is.mpr ⟨j, k, classAt_mono (b2.trans c2.entries) a3, natAt_mono c2.entries b3, c3⟩⟩

namespace Wr

theorem conv {w : Ins α} {c c' : List Sym} {l : List Bsm} (h : Wr p w c l) (hc : ∀ s, s ∈ c ↔ s ∈ c') :
    Wr p w c' l := fun cp => (h cp).conv hc

theorem pure (a : α) : Wr p (Pure.pure a : Ins α) [] [] := fun _ => .pure a
theorem fail {e : Err} {c : List Sym} {l : List Bsm} (h : ¬ p) : Wr p (Ins.fail e : Ins α) c l := fun _ => .fail h
theorem lift {r : Res α} (h : p → ∃ a, r = .ok a) : Wr p (Ins.lift r) [] [] := fun _ => .lift h

theorem bind {m : Ins α} {f : α → Ins β} {c c' : List Sym} {l l' : List Bsm} (h1 : Wr p m c l)
    (h2 : ∀ a, Wr p (f a) c' l') : Wr p (m >>= f) (c ++ c') (l ++ l') :=
  fun cp => (h1 cp).bind fun a cp' _ _ => h2 a cp'

theorem bind0 {m : Ins α} {f : α → Ins β} {c c' : List Sym} {l : List Bsm} (h1 : Wr p m c [])
    (h2 : ∀ a, Wr p (f a) c' l) : Wr p (m >>= f) (c ++ c') l := bind h1 h2

theorem bindN {m : Ins α} {f : α → Ins β} {c : List Sym} {l : List Bsm} (h1 : Wr p m c l)
    (h2 : ∀ a, Wr p (f a) [] []) : Wr p (m >>= f) c l := fun cp => (h1 cp).bindN fun a cp' _ _ => h2 a cp'

theorem text (s : Bytes) : Wr p (insertWtf8 s) [.utf8 s] [] :=
  fun _ => .raw (fun h => h) rfl fun _ _ _ _ => Iff.rfl

/-- A constant that is an entry by itself. -/
theorem lit {e : Entry} {s : Sym} (he : ¬ isDyn e) (hs : s.slots = slots e)
    (h : ∀ es i, s.Is es i ↔ At es i.toNat e) : Wr p (insertRaw e) [s] [] :=
  fun _ => .raw he hs fun es _ _ i => h es i

/-- A constant that refers to a string. -/
theorem ref {F : UInt16 → Entry} {s : Bytes} {t : Sym} (he : ∀ j, ¬ isDyn (F j)) (hs : ∀ j, t.slots = slots (F j))
    (h : ∀ es i, t.Is es i ↔ ∃ j, TextAt es j s ∧ At es i.toNat (F j)) :
    Wr p (insertWtf8 s >>= fun j => insertRaw (F j)) [.utf8 s, t] [] := fun cp => by
  refine WrAt.bind0 (c := [.utf8 s]) (c' := [t]) (text s cp) fun j cp' hi e => ?_
  have hj := (text_rep hi e).2.2
  refine WrAt.raw (he j) (hs j) fun es hes hinj i => ?_
  rw [h]
  constructor
  · rintro ⟨k, h1, h2⟩
    cases textAt_inj hinj h1 (textAt_mono hes hj)
    exact h2
  · exact fun h2 => ⟨j, textAt_mono hes hj, h2⟩

theorem cls (s : Bytes) : Wr p (insertClass s) (Sym.cls s).all [] :=
  ref (fun _ h => h) (fun _ => rfl) fun _ _ => Iff.rfl
theorem ind7 (s : Bytes) : Wr p (insertIndirect 7 s) (Sym.cls s).all [] :=
  ref (fun _ h => h) (fun _ => rfl) fun _ _ => Iff.rfl
theorem ind8 (s : Bytes) : Wr p (insertIndirect 8 s) (Sym.str s).all [] :=
  ref (fun _ h => h) (fun _ => rfl) fun _ _ => Iff.rfl
theorem ind19 (s : Bytes) : Wr p (insertIndirect 19 s) (Sym.module s).all [] :=
  ref (fun _ h => h) (fun _ => rfl) fun _ _ => Iff.rfl
theorem ind20 (s : Bytes) : Wr p (insertIndirect 20 s) (Sym.package s).all [] :=
  ref (fun _ h => h) (fun _ => rfl) fun _ _ => Iff.rfl
theorem mtype (s : Bytes) : Wr p (insertWtf8 s >>= fun d => insertRaw (.mtype d)) (Sym.mtype s).all [] :=
  ref (fun _ h => h) (fun _ => rfl) fun _ _ => Iff.rfl

theorem nat (n d : Bytes) : Wr p (insertNameAndType n d) (Sym.nat n d).all [] := fun cp => by
  refine WrAt.bind0 (c := [.utf8 n]) (c' := [.utf8 d, .nat n d]) (text n cp) fun j cp' hi e => ?_
  obtain ⟨a1, a2, a3⟩ := text_rep hi e
  refine WrAt.bind0 (c := [.utf8 d]) (c' := [.nat n d]) (text d cp') fun k cp'' hi' e' => ?_
  obtain ⟨b1, b2, b3⟩ := text_rep hi' e'
  refine WrAt.raw (fun h => h) rfl fun es hes hinj i => ?_
  constructor
  · rintro ⟨j', k', h1, h2, h3⟩
    cases textAt_inj hinj h1 (textAt_mono (b2.trans hes) a3)
    cases textAt_inj hinj h2 (textAt_mono hes b3)
    exact h3
  · exact fun h => ⟨j, k, textAt_mono (b2.trans hes) a3, textAt_mono hes b3, h⟩

theorem memberSym_all (m : MemberRef) : (memberSym m).all =
    (Sym.cls m.owner).all ++ ((Sym.nat m.name (JType.display m.descriptor)).all ++ [memberSym m]) := by
  unfold memberSym
  split
  · split <;> rfl
  · rfl

theorem member (m : MemberRef) : Wr p (insertMember m) (memberSym m).all [] := fun cp => by
  rw [memberSym_all]
  refine WrAt.bind0 (cls m.owner cp) fun j cp' hi e => ?_
  obtain ⟨a1, a2, a3⟩ := class_rep hi e
  refine WrAt.bind0 (nat _ _ cp') fun k cp'' hi' e' => ?_
  obtain ⟨b1, b2, b3⟩ := nat_rep hi' e'
  show WrAt p cp'' (insertRaw (memberEntry m j k)) _ _
  refine WrAt.raw ?_ ?_ fun es hes hinj i => ?_
  · unfold memberEntry
    split
    · split <;> exact fun h => h
    · exact fun h => h
  · unfold memberEntry memberSym
    split
    · split <;> rfl
    · rfl
  · rw [memberSym_is]
    constructor
    · rintro ⟨j', k', h1, h2, h3⟩
      cases classAt_inj hinj h1 (classAt_mono (b2.trans hes) a3)
      cases natAt_inj hinj h2 (natAt_mono hes b3)
      exact h3
    · exact fun h => ⟨j, k, classAt_mono (b2.trans hes) a3, natAt_mono hes b3, h⟩

theorem handle (h : MethodHandle) : Wr p (insertMethodHandle h) (handleSym h).all [] := fun cp => by
  refine WrAt.bind0 (c' := [handleSym h]) (member h.member cp) fun j cp' hi e => ?_
  obtain ⟨a1, a2, a3⟩ := member_rep hi e
  refine WrAt.raw (fun h => h) rfl fun es hes hinj i => ?_
  constructor
  · rintro ⟨j', h1, h2⟩
    cases sym_inj hinj h1 (sym_mono hes a3)
    exact h2
  · exact fun h => ⟨j, sym_mono hes a3, h⟩

theorem const (k : Constant) : Wr p (insertConstant k) (constSym k).all [] := by
  cases k with
  | i32 i => exact lit (fun h => h) rfl fun _ _ => Iff.rfl
  | f32 i => exact lit (fun h => h) rfl fun _ _ => Iff.rfl
  | i64 i => exact lit (fun h => h) rfl fun _ _ => Iff.rfl
  | f64 i => exact lit (fun h => h) rfl fun _ _ => Iff.rfl
  | string s => exact ind8 s
  | cls s => exact ind7 s
  | member m => exact member m
  | methodType t => exact mtype _
  | methodHandle h => exact handle h

theorem dynamic {d : Dynamic} (h : p → Filled d) : Wr p (insertDynamic d) (constsDyn d) (ownBsm d) := by
  intro cp N n H
  rcases hb : d.bsm with i | ⟨hd, as⟩
  · have : insertDynamic d cp = .error .panic := by
      simp only [insertDynamic, Bind.bind, Ins.bind, Ins.lift, Dynamic.getBsm, hb]
    rw [this]
    refine ⟨fun _ _ h => (nomatch h), fun hp => ?_⟩
    obtain ⟨_, _, h'⟩ := h hp
    rw [hb] at h'
    cases h'
  · have hown : ownBsm d = [⟨hd, as⟩] := by unfold ownBsm; rw [hb]
    let cp1 : VecCp := { cp with bsm := cp.bsm ++ [⟨hd, as⟩] }
    have H1 : Holds N cp1 n := ⟨⟨H.inv.len, H.inv.cache⟩, H.nodup, H.has, H.only, H.len, H.dyns⟩
    have hrun : insertDynamic d cp = (insertNameAndType d.name (JType.display d.descriptor) >>= fun nt =>
        insertRaw (if JType.isMethod d.descriptor then .indy (UInt16.ofNat cp.bsm.length) nt
          else .dyn (UInt16.ofNat cp.bsm.length) nt)) cp1 := by
      simp only [insertDynamic, Bind.bind, Ins.bind, Ins.lift, Dynamic.getBsm, hb, insertBsm, cp1]
    have hdyn : ∀ nt, isDyn (if JType.isMethod d.descriptor then .indy (UInt16.ofNat cp.bsm.length) nt
          else .dyn (UInt16.ofNat cp.bsm.length) nt) := fun nt => by split <;> trivial
    rw [hrun, hown]
    obtain ⟨A, B⟩ := nat (p := p) d.name (JType.display d.descriptor) cp1 N n H1
    constructor
    · intro a cp' e
      obtain ⟨nt, cp2, e1, e2⟩ := Ins.bind_ok e
      obtain ⟨N2, d2, H2, m2, x2, y2, z2⟩ := A _ _ e1
      obtain ⟨d3, H3, x3, y3, z3⟩ := (WrAt.rawDyn (hdyn nt) H2).1 _ _ e2
      simp only [List.length_nil, List.length_cons] at *
      exact ⟨N2, d3, H3, m2, by omega, by omega, by rw [z3, z2]; simp [cp1]⟩
    · intro hp L hN hc hL
      simp only [List.length_nil, List.length_cons] at *
      obtain ⟨⟨nt, cp2⟩, e1⟩ := B hp L hN hc (by omega)
      obtain ⟨N2, d2, H2, m2, x2, y2, z2⟩ := A _ _ e1
      have hle := symSize_le H2.nodup (L := L) fun s hs => by
        rcases (m2 s).mp hs with h | h
        · exact hN s h
        · exact hc s h
      obtain ⟨r, hr⟩ := (WrAt.rawDyn (hdyn nt) H2).2 (by omega)
      exact ⟨r, by simp only [Bind.bind, Ins.bind, e1, hr]⟩

theorem orDynamic {f : α → Ins UInt16} {g : α → List Sym} (hf : ∀ a, Wr p (f a) (g a) []) {x : OrDynamic α}
    (h : p → ∀ d ∈ orDynamics x, Filled d) :
    Wr p (insertOrDynamic f x) (constsOr g x) ((orDynamics x).flatMap ownBsm) := by
  cases x with
  | dynamic d =>
    show Wr p (insertDynamic d) _ _
    have := dynamic (p := p) (d := d) fun hp => h hp d (by simp [orDynamics])
    simpa [orDynamics, constsOr] using this
  | static a => exact hf a

/-! ## Combinators -/

theorem idx {i : Ins UInt16} {c : List Sym} {l : List Bsm} (h : Wr p i c l) : Wr p (wIdx i) c l :=
  bindN h fun _ => pure _

theorem nil : Wr p (wSeq []) [] [] := pure _

theorem consB {w : Ins Bytes} {ws : List (Ins Bytes)} {c c' : List Sym} {l l' : List Bsm} (h : Wr p w c l)
    (hs : Wr p (wSeq ws) c' l') : Wr p (wSeq (w :: ws)) (c ++ c') (l ++ l') :=
  bind h fun _ => bindN hs fun _ => pure _

theorem cons {w : Ins Bytes} {ws : List (Ins Bytes)} {c c' : List Sym} {l : List Bsm} (h : Wr p w c [])
    (hs : Wr p (wSeq ws) c' l) : Wr p (wSeq (w :: ws)) (c ++ c') l := consB h hs

/-- A part without constants. -/
theorem skip {w : Ins Bytes} {ws : List (Ins Bytes)} {c : List Sym} {l : List Bsm} (h : Wr p w [] [])
    (hs : Wr p (wSeq ws) c l) : Wr p (wSeq (w :: ws)) c l := consB h hs

theorem last {w : Ins Bytes} {c : List Sym} {l : List Bsm} (h : Wr p w c l) : Wr p (wSeq [w]) c l := by
  have := consB h nil
  rwa [List.append_nil, List.append_nil] at this

theorem cons1 {w : Ins Bytes} {ws : List (Ins Bytes)} {c : List Sym} {l : List Bsm} (h : Wr p w c l)
    (hs : Wr p (wSeq ws) [] []) : Wr p (wSeq (w :: ws)) c l := by
  have := consB h hs
  rwa [List.append_nil, List.append_nil] at this

theorem allB {w : α → Ins Bytes} {g : α → List Sym} {f : α → List Bsm} {xs : List α}
    (h : ∀ x ∈ xs, Wr p (w x) (g x) (f x)) : Wr p (wAll w xs) (xs.flatMap g) (xs.flatMap f) := by
  induction xs with
  | nil => exact pure _
  | cons x xs ih =>
    have h1 : Wr p (wAll w xs) (xs.flatMap g) (xs.flatMap f) := ih fun y hy => h y (by simp [hy])
    have := consB (h x (by simp)) h1
    rwa [List.flatMap_cons, List.flatMap_cons]

theorem all {w : α → Ins Bytes} {g : α → List Sym} {xs : List α}
    (h : ∀ x ∈ xs, Wr p (w x) (g x) []) : Wr p (wAll w xs) (xs.flatMap g) [] := by
  have := allB (f := fun _ => []) h
  rwa [show xs.flatMap (fun _ => ([] : List Bsm)) = [] by simp] at this

theorem vecB {ℓ : Type} {c : NumCodec ℓ} {w : α → Ins Bytes} {g : α → List Sym} {f : α → List Bsm} {xs : List α}
    (hl : p → xs.length < 256 ^ c.size) (h : ∀ x ∈ xs, Wr p (w x) (g x) (f x)) :
    Wr p (wVec c w xs) (xs.flatMap g) (xs.flatMap f) := by
  unfold wVec
  split
  · exact bindN (allB h) fun _ => pure _
  · rename_i hn
    exact fail fun hp => hn (hl hp)

theorem vec {ℓ : Type} {c : NumCodec ℓ} {w : α → Ins Bytes} {g : α → List Sym} {xs : List α}
    (hl : p → xs.length < 256 ^ c.size) (h : ∀ x ∈ xs, Wr p (w x) (g x) []) :
    Wr p (wVec c w xs) (xs.flatMap g) [] := by
  unfold wVec
  split
  · exact bindN (all h) fun _ => pure _
  · rename_i hn
    exact fail fun hp => hn (hl hp)

/-- A table of 65535 entries at most. -/
theorem tab {w : α → Ins Bytes} {g : α → List Sym} {xs : List α}
    (hl : p → Table xs) (h : ∀ x ∈ xs, Wr p (w x) (g x) []) : Wr p (wVec u16 w xs) (xs.flatMap g) [] :=
  vec hl h

/-- A table without constants. -/
theorem plain {ℓ : Type} {c : NumCodec ℓ} {w : α → Ins Bytes} {xs : List α}
    (hl : p → xs.length < 256 ^ c.size) (h : ∀ x ∈ xs, Wr p (w x) [] []) : Wr p (wVec c w xs) [] [] := by
  have := vec (g := fun _ => []) hl h
  rwa [List.flatMap_eq_nil_iff.mpr (by simp)] at this

theorem cutB {w : α → Ins Bytes} {g : α → List Sym} {f : α → List Bsm} {xs : List α}
    (h : ∀ x ∈ xs, Wr p (w x) (g x) (f x)) : Wr p (wCut w xs) (xs.flatMap g) (xs.flatMap f) :=
  skip (pure _) (last (allB h))

theorem cut {w : α → Ins Bytes} {g : α → List Sym} {xs : List α} (h : ∀ x ∈ xs, Wr p (w x) (g x) []) :
    Wr p (wCut w xs) (xs.flatMap g) [] := skip (pure _) (last (all h))

theorem num {c : NumCodec α} {x : α} : Wr p (wNum c x) [] [] := pure _
theorem flags {t : FlagType} {f : Flags t} : Wr p (wFlags f) [] [] := pure _
theorem wutf8 {s : Bytes} : Wr p (wUtf8 s) [.utf8 s] [] := idx (text s)
theorem wtype {t : JType} : Wr p (wType t) [.utf8 t.toWtf8] [] := idx (text _)
theorem wsig {t : Str} : Wr p (wSig t) [.utf8 (sigString t)] [] := idx (text _)
theorem wstr7 {s : Bytes} : Wr p (wStr 7 s) (Sym.cls s).all [] := idx (ind7 s)
theorem wstr19 {s : Bytes} : Wr p (wStr 19 s) (Sym.module s).all [] := idx (ind19 s)
theorem wstr20 {s : Bytes} : Wr p (wStr 20 s) (Sym.package s).all [] := idx (ind20 s)

theorem opt {f : α → Ins UInt16} {g : α → List Sym} {x : Option α} (hf : ∀ a, Wr p (f a) (g a) []) :
    Wr p (wOpt f x) (constsOpt g x) [] := by
  cases x with
  | none => exact pure _
  | some a => exact idx (hf a)

theorem utf8Opt {x : Option Bytes} : Wr p (wUtf8Opt x) (constsOpt (fun s => [.utf8 s]) x) [] := opt text
theorem clsOpt {x : Option Bytes} : Wr p (wClsOpt x) (constsOpt (fun s => (Sym.cls s).all) x) [] := opt ind7

theorem label {env : WEnv} {l : Label} (h : p → ∃ o, env.label l = .ok o) : Wr p (wLabel env l) [] [] :=
  bind0 (lift h) fun _ => pure _

theorem catch_ {env : WEnv} {k : Catch} (h : p → ∃ o, env.catch_ k = .ok o) : Wr p (wCatch env k) [] [] := by
  refine bind0 (lift h) fun o => ?_
  split <;> exact pure _

theorem attr {n : Bytes} {w : Ins Bytes} {c : List Sym} {l : List Bsm} (h : Wr p w c l) :
    Wr p (wAttr n w) (.utf8 n :: c) l :=
  bind0 (text n) fun _ => bindN h fun _ => pure _

theorem rawAttr {a : RawAttribute} : Wr p (wRaw a) [.utf8 a.name] [] := bindN (text _) fun _ => pure _

end Wr
end
end Verif
