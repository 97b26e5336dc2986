import Verif.Lemmas.Unambiguous
import Verif.Lemmas.CodeWrite

/-! Programs that correspond instruction by instruction do the same. -/

namespace Verif
open Spec

/-! ## Labels of switches -/

theorem tableLabel_ren (f : Label → Label) (d : Label) (low : Int32) (ls : List Label) (k : Int32) :
    tableLabel (f d) low (ls.map f) k = f (tableLabel d low ls k) := by
  unfold tableLabel
  split
  · rw [List.getElem?_map]
    cases ls[(k.toInt - low.toInt).toNat]? <;> rfl
  · rfl

theorem tableLabel_mem (d : Label) (low : Int32) (ls : List Label) (k : Int32) :
    tableLabel d low ls k ∈ d :: ls := by
  unfold tableLabel
  split
  · rcases h : ls[(k.toInt - low.toInt).toNat]? with _ | l
    · simp
    · exact List.mem_cons_of_mem _ (List.mem_of_getElem? h)
  · simp

theorem lookup_ren (f : Label → Label) (t : List (Int32 × Label)) (k : Int32) :
    (t.map fun e => (e.1, f e.2)).lookup k = (t.lookup k).map f := by
  induction t with
  | nil => rfl
  | cons e t ih =>
    obtain ⟨a, l⟩ := e
    simp only [List.map_cons, List.lookup_cons]
    cases k == a
    · exact ih
    · rfl

theorem lookup_mem' {t : List (Int32 × Label)} {k : Int32} {l : Label} (h : t.lookup k = some l) :
    l ∈ t.map Prod.snd := by
  induction t with
  | nil => cases h
  | cons e t ih =>
    obtain ⟨a, m⟩ := e
    rw [List.lookup_cons] at h
    split at h
    · cases h
      simp
    · exact List.mem_cons_of_mem _ (ih h)

theorem lookupLabel_ren (f : Label → Label) (d : Label) (t : List (Int32 × Label)) (k : Int32) :
    lookupLabel (f d) (t.map fun e => (e.1, f e.2)) k = f (lookupLabel d t k) := by
  unfold lookupLabel
  rw [lookup_ren]
  cases t.lookup k <;> rfl

theorem lookupLabel_mem (d : Label) (t : List (Int32 × Label)) (k : Int32) :
    lookupLabel d t k ∈ d :: t.map Prod.snd := by
  unfold lookupLabel
  rcases h : t.lookup k with _ | l
  · simp
  · exact List.mem_cons_of_mem _ (lookup_mem' h)

theorem flows_ren {i : Insn} (f : Label → Label) (h : Flows i) : renI f i = i ∧ Flows (renI f i) := by
  cases i <;> first | exact h.elim | exact ⟨rfl, h⟩

theorem plain_ren {i : Insn} (f : Label → Label) (h : targets i = []) (h' : ∀ l, i ≠ .label l) : renI f i = i := by
  cases i <;> first | rfl | (cases h; done) | exact absurd rfl (h' _)

theorem targets_ren (f : Label → Label) (i : Insn) : targets (renI f i) = (targets i).map f := by
  cases i <;> simp [renI, targets]

/-! ## Correspondence -/

/-- The label has one place in each program, and these correspond. -/
def SamePlace (P Q : Prog) (φ : Nat → Nat) (f : Label → Label) (l : Label) : Prop :=
  ∃ a, (∀ q, P.target l q ↔ q = a) ∧ ∀ q, Q.target (f l) q ↔ q = φ a

structure Hom (P Q : Prog) (φ : Nat → Nat) (f : Label → Label) : Prop where
  mono : ∀ a b, a < b → φ a < φ b
  zero : φ 0 = 0
  fwd : ∀ k i m, P.insn k i m → Q.insn (φ k) (renI f i) (φ m)
  back : ∀ p j n, Q.insn p j n → ∃ k i m, p = φ k ∧ P.insn k i m ∧ j = renI f i ∧ n = φ m
  solid : ∀ k i m, P.insn k i m → ∀ l, i ≠ .label l
  labels : ∀ k i m, P.insn k i m → ∀ l ∈ targets i, SamePlace P Q φ f l
  catches : Q.catches = P.catches.map (renCatch f)
  handlers : ∀ k ∈ P.catches, ∀ l ∈ catchLabels k, SamePlace P Q φ f l
  token : ∀ a, Q.token (φ a) = P.token a

theorem Hom.inj {P Q : Prog} {φ : Nat → Nat} {f : Label → Label} (h : Hom P Q φ f) {a b : Nat} (e : φ a = φ b) :
    a = b := by
  have h1 := h.mono a b
  have h2 := h.mono b a
  omega

theorem Hom.lt {P Q : Prog} {φ : Nat → Nat} {f : Label → Label} (h : Hom P Q φ f) (a b : Nat) :
    φ a < φ b ↔ a < b := by
  have h1 := h.mono a b
  have h2 := h.mono b a
  have h3 : a = b → φ a = φ b := congrArg φ
  omega

/-- Where the label is in the second program. -/
theorem SamePlace.fwd {P Q : Prog} {φ : Nat → Nat} {f : Label → Label} {l : Label} (h : SamePlace P Q φ f l) {a : Nat}
    (ha : P.target l a) : Q.target (f l) (φ a) := by
  obtain ⟨b, h1, h2⟩ := h
  obtain rfl := (h1 a).mp ha
  exact (h2 _).mpr rfl

theorem SamePlace.back {P Q : Prog} {φ : Nat → Nat} {f : Label → Label} {l : Label} (h : SamePlace P Q φ f l) {q : Nat}
    (hq : Q.target (f l) q) : ∃ a, q = φ a ∧ P.target l a := by
  obtain ⟨b, h1, h2⟩ := h
  exact ⟨b, (h2 q).mp hq, (h1 b).mpr rfl⟩

section
variable {P Q : Prog} {φ : Nat → Nat} {f : Label → Label} {σ : Type} {M : Machine σ}

theorem Hom.goes (h : Hom P Q φ f) {k n a : Nat} {i : Insn} {s s' : σ} (hi : P.insn k i n) (hg : Goes M P n i s a s') :
    Goes M Q (φ n) (renI f i) s (φ a) s' := by
  have hl := h.labels k i n hi
  cases hg with
  | plain h1 h2 =>
    rw [(flows_ren f h1).1]
    exact .plain h1 h2
  | taken h1 h2 h3 => exact .taken h1 h2 ((hl _ (by simp [targets])).fwd h3)
  | passed h1 h2 => exact .passed h1 h2
  | jsr h1 h2 => exact .jsr (by rw [h.token]; exact h1) ((hl _ (by simp [targets])).fwd h2)
  | ret h1 h2 =>
    obtain ⟨j, m, h2⟩ := h2
    exact .ret (by rw [h.token]; exact h1) ⟨_, _, h.fwd _ _ _ h2⟩
  | @table d low ls s s' k a h1 h2 =>
    refine .table h1 ?_
    rw [tableLabel_ren]
    exact (hl _ (tableLabel_mem d low ls k)).fwd h2
  | @lookup d t s s' k a h1 h2 =>
    refine .lookup h1 ?_
    rw [lookupLabel_ren]
    exact (hl _ (lookupLabel_mem d t k)).fwd h2

theorem Hom.comes (h : Hom P Q φ f) {k n q : Nat} {i : Insn} {s s' : σ} (hi : P.insn k i n)
    (hg : Goes M Q (φ n) (renI f i) s q s') : ∃ a, q = φ a ∧ Goes M P n i s a s' := by
  have hl := h.labels k i n hi
  generalize hj : renI f i = j at hg
  cases hg with
  | plain h1 h2 =>
    have : renI f i = i := by
      refine plain_ren f ?_ (h.solid k i n hi)
      have := targets_ren f i
      rw [hj] at this
      cases ht : targets i with
      | nil => rfl
      | cons l ls =>
        rw [ht] at this
        cases j <;> first | exact h1.elim | (cases this; done)
    rw [this] at hj
    subst hj
    exact ⟨n, rfl, .plain h1 h2⟩
  | @taken c l s s' q h1 h2 h3 =>
    cases i <;> cases hj
    rename_i l
    obtain ⟨a, rfl, h3'⟩ := (hl l (by simp [targets])).back h3
    exact ⟨a, rfl, .taken h1 h2 h3'⟩
  | passed h1 h2 =>
    cases i <;> cases hj
    exact ⟨n, rfl, .passed h1 h2⟩
  | jsr h1 h2 =>
    cases i <;> cases hj
    rename_i l
    obtain ⟨a, rfl, h2'⟩ := (hl l (by simp [targets])).back h2
    rw [h.token] at h1
    exact ⟨a, rfl, .jsr h1 h2'⟩
  | ret h1 h2 =>
    cases i <;> cases hj
    obtain ⟨j, m, h2⟩ := h2
    obtain ⟨a, i, m', rfl, h3, _⟩ := h.back _ _ _ h2
    rw [h.token] at h1
    exact ⟨a, rfl, .ret h1 ⟨_, _, h3⟩⟩
  | table h1 h2 =>
    cases i <;> cases hj
    rw [tableLabel_ren] at h2
    obtain ⟨a, rfl, h2'⟩ := (hl _ (tableLabel_mem _ _ _ _)).back h2
    exact ⟨a, rfl, .table h1 h2'⟩
  | lookup h1 h2 =>
    cases i <;> cases hj
    rw [lookupLabel_ren] at h2
    obtain ⟨a, rfl, h2'⟩ := (hl _ (lookupLabel_mem _ _ _)).back h2
    exact ⟨a, rfl, .lookup h1 h2'⟩

theorem Hom.handles (h : Hom P Q φ f) {k : Catch} (hk : k ∈ P.catches) (pc : Nat) (s : σ) :
    Handles M Q (renCatch f k) (φ pc) s ↔ Handles M P k pc s := by
  have hl := h.handlers k hk
  constructor
  · rintro ⟨⟨a, b, h1, h2, h3, h4⟩, h5⟩
    obtain ⟨a, rfl, h1'⟩ := (hl k.start (by simp [catchLabels])).back h1
    obtain ⟨b, rfl, h2'⟩ := (hl k.stop (by simp [catchLabels])).back h2
    refine ⟨⟨a, b, h1', h2', ?_, (h.lt _ _).mp h4⟩, h5⟩
    have := h.lt pc a
    omega
  · rintro ⟨⟨a, b, h1, h2, h3, h4⟩, h5⟩
    refine ⟨⟨φ a, φ b, (hl k.start (by simp [catchLabels])).fwd h1, (hl k.stop (by simp [catchLabels])).fwd h2, ?_,
      (h.lt _ _).mpr h4⟩, h5⟩
    have := h.lt pc a
    omega

theorem Hom.step (h : Hom P Q φ f) {c d : Conf σ} (hs : Step M P c d) : Step M Q (c.map φ) (d.map φ) := by
  cases hs with
  | go h1 h2 => exact .go (h.fwd _ _ _ h1) (h.goes h1 h2)
  | leave h1 h2 => exact .leave (h.fwd _ _ _ h1) h2
  | @handled pc n a i s s' ks ks' k h1 h2 h3 h4 h5 h6 h7 =>
    have e := plain_ren f h2 (h.solid _ _ _ h1)
    have hi := h.fwd _ _ _ h1
    rw [e] at hi
    have hm : ∀ x ∈ ks ++ k :: ks', x ∈ P.catches := fun x hx => by rw [h4]; exact hx
    have hk := hm k (by simp)
    refine .handled (ks := ks.map (renCatch f)) (ks' := ks'.map (renCatch f)) (k := renCatch f k) hi h2 h3 ?_ ?_ ?_ ?_
    · rw [h.catches, h4]
      simp
    · intro x hx
      obtain ⟨y, hy, rfl⟩ := List.mem_map.mp hx
      rw [h.handles (hm y (by simp [hy]))]
      exact h5 y hy
    · rw [h.handles hk]
      exact h6
    · exact (h.handlers k hk k.handler (by simp [catchLabels])).fwd h7
  | @escapes pc n i s s' h1 h2 h3 h4 =>
    have e := plain_ren f h2 (h.solid _ _ _ h1)
    have hi := h.fwd _ _ _ h1
    rw [e] at hi
    refine .escapes hi h2 h3 ?_
    intro x hx
    rw [h.catches] at hx
    obtain ⟨y, hy, rfl⟩ := List.mem_map.mp hx
    rw [h.handles hy]
    exact h4 y hy

theorem Hom.stepped (h : Hom P Q φ f) {c : Conf σ} {e : Conf σ} (hs : Step M Q (c.map φ) e) :
    ∃ d, e = d.map φ ∧ Step M P c d := by
  cases c with
  | returned => cases hs
  | thrown => cases hs
  | «at» pc s =>
    have key : ∀ {i n}, Q.insn (φ pc) i n → ∃ j m, P.insn pc j m ∧ i = renI f j ∧ n = φ m := by
      intro i n hi
      obtain ⟨k, j, m, e1, e2, e3, e4⟩ := h.back _ _ _ hi
      obtain rfl := h.inj e1
      exact ⟨j, m, e2, e3, e4⟩
    cases hs with
    | go h1 h2 =>
      obtain ⟨j, m, h3, rfl, rfl⟩ := key h1
      obtain ⟨a, rfl, h4⟩ := h.comes h3 h2
      exact ⟨.at a _, rfl, .go h3 h4⟩
    | leave h1 h2 =>
      obtain ⟨j, m, h3, e, rfl⟩ := key h1
      cases j <;> cases e
      exact ⟨.returned _, rfl, .leave h3 h2⟩
    | @handled _ n a i _ s' ks ks' k h1 h2 h3 h4 h5 h6 h7 =>
      obtain ⟨j, m, h8, rfl, rfl⟩ := key h1
      rw [targets_ren, List.map_eq_nil_iff] at h2
      rw [plain_ren f h2 (h.solid _ _ _ h8)] at h3
      rw [h.catches] at h4
      obtain ⟨l1, l2, e1, rfl, e2⟩ := List.map_eq_append_iff.mp h4
      obtain ⟨k, l3, rfl, rfl, rfl⟩ := List.map_eq_cons_iff.mp e2
      have hm : ∀ x ∈ l1 ++ k :: l3, x ∈ P.catches := fun x hx => by rw [e1]; exact hx
      have hk := hm k (by simp)
      obtain ⟨a, rfl, h7'⟩ := (h.handlers k hk k.handler (by simp [catchLabels])).back h7
      rw [h.handles hk] at h6
      refine ⟨.at a s', rfl, .handled h8 h2 h3 e1 ?_ h6 h7'⟩
      intro x hx
      rw [← h.handles (hm x (by simp [hx]))]
      exact h5 _ (List.mem_map_of_mem hx)
    | @escapes _ n i _ s' h1 h2 h3 h4 =>
      obtain ⟨j, m, h8, rfl, rfl⟩ := key h1
      rw [targets_ren, List.map_eq_nil_iff] at h2
      rw [plain_ren f h2 (h.solid _ _ _ h8)] at h3
      refine ⟨.thrown s', rfl, .escapes h8 h2 h3 ?_⟩
      intro x hx
      rw [← h.handles hx]
      refine h4 _ ?_
      rw [h.catches]
      exact List.mem_map_of_mem hx

end

theorem Hom.alike {P Q : Prog} {φ : Nat → Nat} {f : Label → Label} (h : Hom P Q φ f) : Alike P Q φ := by
  intro σ M s n
  have z : (Conf.at 0 s).map φ = .at 0 s := by simp only [Conf.map, h.zero]
  constructor
  · intro d hd
    rw [← z]
    clear z
    generalize Conf.at 0 s = c at hd ⊢
    induction hd with
    | zero => exact .zero
    | more _ h2 ih => exact .more ih (h.step h2)
  · intro e he
    generalize hc : Conf.at 0 s = c at he
    have z : c = c.map φ := by rw [← hc, z]
    clear hc
    induction he with
    | zero => exact ⟨_, z, .zero⟩
    | more h1 h2 ih =>
      obtain ⟨d, rfl, h3⟩ := ih z
      obtain ⟨e, rfl, h4⟩ := h.stepped h2
      exact ⟨e, rfl, .more h3 h4⟩

/-! ## Other names for labels -/

theorem normal_ren (f : Label → Label) (i : Insn) : normal (renI f i) = (normal i).map (renI f) := by
  cases i
  case conversion a b => cases a <;> cases b <;> rfl
  case convertInt a => cases a <;> rfl
  case push c => cases c <;> rfl
  case field o t c => cases c <;> rfl
  case invokeExact t c => cases c <;> rfl
  case invokeSpecial c => cases c <;> rfl
  case invokeInterface c n => cases c <;> rfl
  case lookupSwitch d t =>
    simp only [renI, normal, Option.map_some]
    rw [List.map_mergeSort]
    intro a _ b _
    rfl
  all_goals rfl

theorem norm_idem (m : MemberRef) : m.norm.norm = m.norm := by
  simp [MemberRef.norm]

theorem normal_idem {i j : Insn} (h : normal i = some j) : normal j = some j := by
  cases i
  case conversion a b => cases a <;> cases b <;> cases h <;> rfl
  case convertInt a => cases a <;> cases h <;> rfl
  case push c =>
    cases c with
    | dynamic => cases h; rfl
    | static c =>
      cases h
      cases c <;> simp [normal, Constant.norm, norm_idem]
  case field o t c => cases c <;> cases h <;> simp [normal, norm_idem]
  case invokeExact t c => cases c <;> cases h <;> simp [normal, norm_idem]
  case invokeSpecial c => cases c <;> cases h <;> simp [normal, norm_idem]
  case invokeInterface c n => cases c <;> cases h <;> simp [normal, norm_idem]
  case lookupSwitch d t =>
    cases h
    have h1 := List.pairwise_mergeSort (le := fun a b : Int32 × Label => decide (a.1.toInt ≤ b.1.toInt))
      (by intro a b c; simp; omega) (by intro a b; simp; omega) t
    simp only [normal, List.mergeSort_of_pairwise h1]
  all_goals first | (cases h; done) | (cases h; rfl)

/-- The context `c` with labels in other places. -/
def Spec.Ctx.at (c : Ctx) (g : Label → Option Nat) (k : Catch → Option Nat) : Ctx := ⟨c.pool, c.bsm, g, k⟩

section
variable {c : Ctx} {g : Label → Option Nat} {k : Catch → Option Nat} {f : Label → Label}

theorem near_ren (hf : ∀ l n, c.pos l = some n → g (f l) = some n) {p : Nat} {l : Label} {b : Bytes}
    (h : near p c l b) : near p (c.at g k) (f l) b := by
  obtain ⟨n, ⟨t, h1, h2⟩, h3⟩ := h
  exact ⟨n, ⟨t, hf l t h1, h2⟩, h3⟩

theorem far_ren (hf : ∀ l n, c.pos l = some n → g (f l) = some n) {p : Nat} {l : Label} {b : Bytes}
    (h : far p c l b) : far p (c.at g k) (f l) b := by
  obtain ⟨n, ⟨t, h1, h2⟩, h3⟩ := h
  exact ⟨n, ⟨t, hf l t h1, h2⟩, h3⟩

theorem all_ren {α β : Type} {u : Fmt α} {v : Fmt β} {c d : Ctx} {m : α → β} (h : ∀ x b, u c x b → v d (m x) b) :
    ∀ {xs : List α} {b : Bytes}, Fmt.all u c xs b → Fmt.all v d (xs.map m) b
  | [], _, h' => h'
  | _ :: _, _, ⟨b1, b2, e, h1, h2⟩ => ⟨b1, b2, e, h _ _ h1, all_ren h h2⟩

theorem enc_ren (hf : ∀ l n, c.pos l = some n → g (f l) = some n) {p : Nat} {i : Insn} {b : Bytes}
    (h : Enc c p i b) : Enc (c.at g k) p (renI f i) b := by
  cases h with
  | noArg h =>
    obtain ⟨_, _, _, _, _, _, _, h', _⟩ := plain_raw h
    rw [h']
    exact .noArg h
  | fromInt h => exact .fromInt h
  | sameType => exact .sameType
  | sameInt => exact .sameInt
  | bipush => exact .bipush
  | sipush => exact .sipush
  | @ldc x i h h1 h2 h3 => exact .ldc (by cases x <;> exact h) h1 h2 h3
  | @ldc_w x i h h1 h2 => exact .ldc_w (by cases x <;> exact h) h1 h2
  | @ldc2_w x i h h1 => exact .ldc2_w (by cases x <;> exact h) h1
  | var h => exact .var h
  | varWide => exact .varWide
  | ret h => exact .ret h
  | retWide => exact .retWide
  | iinc h => exact .iinc h
  | iincWide => exact .iincWide
  | @field _ _ x _ h => exact .field (by cases x <;> exact h)
  | @call _ x _ h => exact .call (by cases x <;> exact h)
  | @special x _ h => exact .special (by cases x <;> exact h)
  | @interface x _ _ h => exact .interface (by cases x <;> exact h)
  | dynamic h1 h2 => exact .dynamic h1 h2
  | @new x _ h => exact .new (by cases x <;> exact h)
  | newarray h => exact .newarray h
  | @anewarray x _ h => exact .anewarray (by cases x <;> exact h)
  | @multianewarray x _ _ h h1 h2 => exact .multianewarray (by cases x <;> exact h) h1 h2
  | @checkcast x _ h => exact .checkcast (by cases x <;> exact h)
  | @instanceof x _ h => exact .instanceof (by cases x <;> exact h)
  | jump h => exact .jump (near_ren hf h)
  | gotoWide h => exact .gotoWide (far_ren hf h)
  | jsr h => exact .jsr (near_ren hf h)
  | jsrWide h => exact .jsrWide (far_ren hf h)
  | @tableSwitch d low ls pad b b' h1 h2 h3 h4 h5 h6 h7 =>
    have := Enc.tableSwitch (c := c.at g k) (ls := ls.map f) (low := low) h1 h2 (by simpa using h3)
      (by simpa using h4) (by simpa using h5) (far_ren (k := k) hf h6) (all_ren (fun l b => far_ren hf) h7)
    rw [List.length_map] at this
    exact this
  | @lookupSwitch d t es pad b b' h1 h2 h3 h4 h5 h6 h7 =>
    have := Enc.lookupSwitch (c := c.at g k) (t := t.map fun e => (e.1, f e.2)) (es := es.map fun e => (e.1, f e.2))
      h1 h2 (h3.map _) (by rw [List.pairwise_map]; exact h4) (by simpa using h5) (far_ren (k := k) hf h6)
      (all_ren (u := pair p) (fun l b h => by
        obtain ⟨b', e, h⟩ := h
        exact ⟨b', e, far_ren hf h⟩) h7)
    rw [List.length_map] at this
    exact this
  | label h => exact .label (hf _ _ h)
  | line => exact .line

theorem Spec.Positioned.ren (hf : ∀ l n, c.pos l = some n → g (f l) = some n) {p : Nat} {is : List Insn} {bs : Bytes}
    {pis : List (Nat × Insn)} (h : Positioned c p is bs pis) :
    Positioned (c.at g k) p (is.map (renI f)) bs (pis.map fun e => (e.1, renI f e.2)) := by
  induction h with
  | nil => exact .nil
  | skip h1 h2 _ ih => exact .skip (enc_ren hf h1) (by rw [normal_ren, h2]; rfl) ih
  | keep h1 h2 _ ih => exact .keep (enc_ren hf h1) (by rw [normal_ren, h2]; rfl) ih

end

/-! ## Positions -/

theorem Spec.Positioned.sorted {c : Ctx} {p : Nat} {is : List Insn} {bs : Bytes} {pis : List (Nat × Insn)}
    (h : Positioned c p is bs pis) : (pis.map Prod.fst ++ [p + bs.length]).Pairwise (· < ·) := by
  induction h with
  | nil => simp
  | skip _ _ _ ih => exact ih
  | @keep p i j is b bs r h1 h2 h3 ih =>
    have hb : 0 < b.length := List.length_pos_iff.mpr (enc_some h1 h2)
    have e : p + b.length + bs.length = p + (b ++ bs).length := by simp only [List.length_append]; omega
    have hb' := h3.bounds.1
    rw [e] at ih hb'
    rw [List.map_cons, List.cons_append, List.pairwise_cons]
    refine ⟨fun q hq => ?_, ih⟩
    have := (hb' q hq).1
    omega

/-- The position of the instruction with a number; behind the end it goes on somehow. -/
def posOf (ps : List Nat) (len k : Nat) : Nat := (ps[k]?).getD (len + (k + 1 - ps.length))

theorem posOf_mono {ps : List Nat} {len : Nat} (h : ps.Pairwise (· < ·)) (hl : ∀ p ∈ ps, p ≤ len) (a b : Nat)
    (hab : a < b) : posOf ps len a < posOf ps len b := by
  unfold posOf
  by_cases hb : b < ps.length
  · rw [List.getElem?_eq_getElem hb, List.getElem?_eq_getElem (by omega)]
    exact List.pairwise_iff_getElem.mp h a b (by omega) hb hab
  · rw [List.getElem?_eq_none (by omega : ps.length ≤ b)]
    by_cases ha : a < ps.length
    · rw [List.getElem?_eq_getElem ha]
      have := hl _ (List.getElem_mem ha)
      simp only [Option.getD_some, Option.getD_none]
      omega
    · rw [List.getElem?_eq_none (by omega : ps.length ≤ a)]
      simp only [Option.getD_none]
      omega

theorem posOf_some {ps : List Nat} {len k p : Nat} (h : ps[k]? = some p) : posOf ps len k = p := by
  unfold posOf
  rw [h]
  rfl

/-! ## Instructions of a code array -/

theorem positioned_head {c : Ctx} (hT : c.bsm.length ≤ 65536) (hc : Apart c) {p : Nat} {is : List Insn}
    {bs b t : Bytes} {pis : List (Nat × Insn)} {i : Insn} (h : Positioned c p is bs pis) (hbs : bs = b ++ t)
    (hi : Enc c p i b) (hb : b ≠ []) :
    ∃ j is' pis', normal i = some j ∧ pis = (p, j) :: pis' ∧ Positioned c (p + b.length) is' t pis' := by
  induction h with
  | nil =>
    have := congrArg List.length hbs
    have := List.length_pos_iff.mpr hb
    simp only [List.length_nil, List.length_append] at *
    omega
  | skip _ _ _ ih => exact ih hbs hi
  | @keep p i' j is b' bs r h1 h2 h3 ih =>
    obtain ⟨e1, rfl, rfl⟩ := enc_unique hT hc h1 hi (enc_some h1 h2) hb hbs
    exact ⟨j, is, r, e1 ▸ h2, rfl, h3⟩

theorem begins_length {c : Ctx} {code : Bytes} {p : Nat} {t : Bytes} (h : Begins c code p t) :
    p + t.length = code.length := by
  induction h with
  | first => simp
  | next _ _ _ ih =>
    rw [List.length_append] at ih
    omega

theorem begins_drop {c : Ctx} {code : Bytes} {p : Nat} {t : Bytes} (h : Begins c code p t) : t = code.drop p := by
  induction h with
  | first => rfl
  | @next p i b t _ _ _ ih => rw [← List.drop_drop, ← ih, List.drop_left]

theorem begins_back {c : Ctx} (hT : c.bsm.length ≤ 65536) (hc : Apart c) {is : List Insn} {code : Bytes}
    {pis : List (Nat × Insn)} (h : Positioned c 0 is code pis) {p : Nat} {t : Bytes} (hb : Begins c code p t) :
    ∃ is' k, Positioned c p is' t (pis.drop k) := by
  induction hb with
  | first => exact ⟨is, 0, h⟩
  | next _ h2 h3 ih =>
    obtain ⟨is', k, h4⟩ := ih
    obtain ⟨j, is2, pis2, _, e, h5⟩ := positioned_head hT hc h4 rfl h2 h3
    refine ⟨is2, k + 1, ?_⟩
    have : pis.drop (k + 1) = pis2 := by rw [← List.drop_drop, e]; rfl
    rw [this]
    exact h5

theorem begins_fwd {c : Ctx} {code : Bytes} {p : Nat} {is : List Insn} {bs : Bytes} {pis : List (Nat × Insn)}
    (h : Positioned c p is bs pis) (hb : Begins c code p bs) {k q : Nat} {i : Insn} (hk : pis[k]? = some (q, i)) :
    ∃ j b t, Begins c code q (b ++ t) ∧ Enc c q j b ∧ normal j = some i ∧
      (pis.map Prod.fst ++ [p + bs.length])[k + 1]? = some (q + b.length) := by
  induction h generalizing k with
  | nil => cases hk
  | skip _ _ _ ih => exact ih hb hk
  | @keep p i' j is b bs r h1 h2 h3 ih =>
    have e : p + b.length + bs.length = p + (b ++ bs).length := by simp only [List.length_append]; omega
    cases k with
    | zero =>
      cases hk
      refine ⟨i', b, bs, hb, h1, h2, ?_⟩
      have := h3.zero
      rw [e] at this
      exact this
    | succ k =>
      obtain ⟨j', b', t, g1, g2, g3, g4⟩ := ih (.next hb h1 (enc_some h1 h2)) hk
      refine ⟨j', b', t, g1, g2, g3, ?_⟩
      rw [e] at g4
      exact g4

/-! ## An instruction list and its code array -/

/-- The position of a label as a label. -/
def absLabel (c : Ctx) (l : Label) : Label := UInt32.ofNat ((c.pos l).getD 0)

theorem absolute_apart (P : Pool) (T : List Bsm) : Apart (absolute P T) := by
  intro l l' n h h'
  simp only [absolute, Option.some.injEq] at h h'
  exact UInt32.toNat_inj.mp (h.trans h'.symm)

theorem source_binary {c : Ctx} (hT : c.bsm.length ≤ 65536) {is : List Insn} {ks : List Catch} {code : Bytes}
    {pis : List (Nat × Insn)} (h : Positioned c 0 is code pis) (hcode : code.length < 2 ^ 32)
    (hl : ∀ l p, c.pos l = some p → .label l ∈ is) (hk : ∀ k ∈ ks, ∀ l ∈ catchLabels k, ∃ p, c.pos l = some p) :
    Hom (source is ks (posOf (pis.map Prod.fst ++ [code.length]) code.length))
      (binary c.pool c.bsm code (ks.map (renCatch (absLabel c)))) (posOf (pis.map Prod.fst ++ [code.length]) code.length)
      (absLabel c) := by
  have hlen : ∀ p ∈ pis.map Prod.fst ++ [code.length], p ≤ code.length := by
    intro p hp
    have := h.bounds.1 p (by rw [Nat.zero_add]; exact hp)
    omega
  have hat : ∀ {l : Label} {p : Nat}, c.pos l = some p → ∃ a, place l is = some a ∧
      (pis.map Prod.fst ++ [code.length])[a]? = some p ∧ (absLabel c l).toNat = p := by
    intro l p hp
    obtain ⟨a, q, e1, e2, e3⟩ := h.place (hl l p hp)
    rw [hp] at e2
    cases e2
    rw [Nat.zero_add] at e3
    refine ⟨a, e1, e3, ?_⟩
    have := hlen p (List.mem_of_getElem? e3)
    simp only [absLabel, hp, Option.getD_some, UInt32.toNat_ofNat']
    omega
  have hf : ∀ l n, c.pos l = some n → (fun l : Label => some l.toNat) (absLabel c l) = some n := by
    intro l n hn
    obtain ⟨_, _, _, e⟩ := hat hn
    exact congrArg some e
  have hs := h.sorted
  have habs : Positioned (absolute c.pool c.bsm) 0 (is.map (renI (absLabel c))) code
      (pis.map fun e => (e.1, renI (absLabel c) e.2)) := h.ren (k := fun _ => none) hf
  have same : ∀ {l : Label} {p : Nat}, c.pos l = some p →
      SamePlace (source is ks (posOf (pis.map Prod.fst ++ [code.length]) code.length))
        (binary c.pool c.bsm code (ks.map (renCatch (absLabel c))))
        (posOf (pis.map Prod.fst ++ [code.length]) code.length) (absLabel c) l := by
    intro l p hp
    obtain ⟨a, e1, e2, e3⟩ := hat hp
    refine ⟨a, fun q => ?_, fun q => ?_⟩
    · show place l is = some q ↔ _
      rw [e1, Option.some.injEq]
      exact eq_comm
    · show q = (absLabel c l).toNat ↔ _
      rw [e3, posOf_some e2]
  have hin : ∀ {k : Nat} {i : Insn}, (is.filterMap normal)[k]? = some i ↔ ∃ p, pis[k]? = some (p, i) := by
    intro k i
    rw [← h.insns, List.getElem?_map]
    cases pis[k]? with
    | none => simp
    | some e => obtain ⟨p, j⟩ := e; simp
  have hps : ∀ {k p : Nat} {i : Insn}, pis[k]? = some (p, i) → (pis.map Prod.fst ++ [code.length])[k]? = some p := by
    intro k p i hk
    rw [List.getElem?_append_left (by simpa using (List.getElem?_eq_some_iff.mp hk).1), List.getElem?_map, hk]
    rfl
  have hfst : (pis.map fun e => (e.1, renI (absLabel c) e.2)).map Prod.fst = pis.map Prod.fst := by
    rw [List.map_map]
    rfl
  rw [Nat.zero_add] at hs
  refine ⟨posOf_mono hs hlen, ?_, ?_, ?_, ?_, ?_, rfl, ?_, fun _ => rfl⟩
  · have := h.zero
    rw [Nat.zero_add] at this
    exact posOf_some this
  · rintro k i m ⟨h1, rfl⟩
    obtain ⟨p, hp⟩ := hin.mp h1
    have hp' : (pis.map fun e => (e.1, renI (absLabel c) e.2))[k]? = some (p, renI (absLabel c) i) := by
      rw [List.getElem?_map, hp]
      rfl
    obtain ⟨j, b, t, g1, g2, g3, g4⟩ := begins_fwd habs .first hp'
    rw [hfst, Nat.zero_add] at g4
    rw [posOf_some (hps hp), posOf_some g4]
    exact ⟨j, b, t, g1, g2, g3, rfl⟩
  · rintro p j n ⟨i, b, t, h1, h2, h3, rfl⟩
    obtain ⟨is', k, g1⟩ := begins_back (c := absolute c.pool c.bsm) hT (absolute_apart _ _) habs h1
    obtain ⟨j', is2, pis2, g2, g3, g4⟩ :=
      positioned_head (c := absolute c.pool c.bsm) hT (absolute_apart _ _) g1 rfl h2 (enc_some h2 h3)
    rw [h3] at g2
    cases g2
    have e1 : (pis.map fun e => (e.1, renI (absLabel c) e.2))[k]? = some (p, j) := by
      have := congrArg (fun l : List (Nat × Insn) => l[0]?) g3
      simp only [List.getElem?_drop, Nat.add_zero] at this
      exact this
    have e2 := g4.zero
    have e3 : pis2 = (pis.map fun e => (e.1, renI (absLabel c) e.2)).drop (k + 1) := by
      rw [← List.drop_drop, g3]
      rfl
    have e4 := begins_length h1
    rw [List.length_append, ← Nat.add_assoc] at e4
    rw [e3, e4, List.map_drop, hfst] at e2
    have hkl : k < pis.length := by
      have := (List.getElem?_eq_some_iff.mp e1).1
      simpa using this
    rw [List.getElem?_map] at e1
    obtain ⟨⟨q, i'⟩, e5, e6⟩ := Option.map_eq_some_iff.mp e1
    cases e6
    refine ⟨k, i', k + 1, (posOf_some (hps e5)).symm, ⟨hin.mpr ⟨_, e5⟩, rfl⟩, rfl, (posOf_some ?_).symm⟩
    rw [← List.drop_append_of_le_length (by rw [List.length_map]; exact hkl), List.getElem?_drop] at e2
    exact e2
  · rintro k i m ⟨h1, rfl⟩ l
    obtain ⟨j, _, h2⟩ := List.mem_filterMap.mp (List.mem_of_getElem? h1)
    have := (normal_solid h2 id).2.1
    intro e
    subst e
    exact this l rfl
  · rintro k i m ⟨h1, rfl⟩ l hl
    obtain ⟨p, hp⟩ := hin.mp h1
    obtain ⟨_, h2⟩ := h.targets _ (List.mem_of_getElem? hp)
    obtain ⟨q, hq⟩ := h2 l hl
    exact same hq
  · intro k h1 l h2
    obtain ⟨q, hq⟩ := hk k h1 l h2
    exact same hq

/-! ## Bodies -/

theorem handlerEntry_abs {c : Ctx} {f : Label → Label} (hf : ∀ l n, c.pos l = some n → (f l).toNat = n) {k : Catch}
    {b : Bytes} (h : handlerEntry c k b) : handlerEntry (absolute c.pool c.bsm) (renCatch f k) b := by
  obtain ⟨b1, b1', rfl, ⟨p1, h1, h1'⟩, b2, b2', rfl, ⟨p2, h2, h2'⟩, b3, b3', rfl, ⟨p3, h3, h3'⟩, h4⟩ := h
  refine ⟨b1, _, rfl, ⟨p1, congrArg some (hf _ _ h1), h1'⟩, b2, _, rfl, ⟨p2, congrArg some (hf _ _ h2), h2'⟩, b3, _, rfl,
    ⟨p3, congrArg some (hf _ _ h3), h3'⟩, ?_⟩
  obtain ⟨b4, b5, e, h5, h6⟩ := h4
  refine ⟨b4, b5, e, ?_, h6⟩
  unfold Fmt.on at h5 ⊢
  show Fmt.indexOpt IsClass (absolute c.pool c.bsm) k.ty b4
  cases hk : k.ty with
  | none => rw [hk] at h5; exact h5
  | some t => rw [hk] at h5; exact h5

theorem label_unique {c : Ctx} (hc : Apart c) {l l' : Label} {b b' r r' : Bytes} (h : Fmt.label c l b)
    (h' : Fmt.label c l' b') (e : b ++ r = b' ++ r') : l = l' ∧ r = r' := by
  obtain ⟨n, h1, h2, rfl⟩ := h
  obtain ⟨n', h1', h2', rfl⟩ := h'
  obtain ⟨rfl, e'⟩ := u2_cancel h2 h2' e
  exact ⟨hc _ _ _ h1 h1', e'⟩

theorem clsOpt_unique {c : Ctx} {x y : Option Bytes} {b b' r r' : Bytes} (h : Fmt.indexOpt IsClass c x b)
    (h' : Fmt.indexOpt IsClass c y b') (e : b ++ r = b' ++ r') : x = y ∧ r = r' := by
  have two : ∀ {i : UInt16} {r r' : Bytes}, U2 0 ++ r = U2 i.toNat ++ r' → i = 0 ∧ r = r' := by
    intro i r r' e
    obtain ⟨e1, e2⟩ := u2_cancel (by omega) i.toNat_lt e
    exact ⟨UInt16.toNat_inj.mp e1.symm, e2⟩
  cases x with
  | none => cases y with
    | none =>
      have h : b = U2 0 := h
      have h' : b' = U2 0 := h'
      rw [h, h'] at e
      exact ⟨rfl, List.append_cancel_left e⟩
    | some y =>
      have h : b = U2 0 := h
      obtain ⟨i, h1, h2, rfl⟩ := h'
      rw [h] at e
      exact absurd (two e).1 h1
  | some x => cases y with
    | none =>
      obtain ⟨i, h1, h2, rfl⟩ := h
      have h' : b' = U2 0 := h'
      rw [h'] at e
      exact absurd (two e.symm).1 h1
    | some y =>
      obtain ⟨i, h1, h2, rfl⟩ := h
      obtain ⟨i', h1', h2', rfl⟩ := h'
      obtain ⟨rfl, e'⟩ := idx_cancel e
      exact ⟨by rw [isClass_unique h2 h2'], e'⟩

theorem handlerEntry_unique {c : Ctx} (hc : Apart c) {k k' : Catch} {b b' r r' : Bytes} (h : handlerEntry c k b)
    (h' : handlerEntry c k' b') (e : b ++ r = b' ++ r') : k = k' ∧ r = r' := by
  obtain ⟨b1, _, rfl, h1, b2, _, rfl, h2, b3, _, rfl, h3, b4, _, rfl, h4, rfl⟩ := h
  obtain ⟨b1', _, rfl, h1', b2', _, rfl, h2', b3', _, rfl, h3', b4', _, rfl, h4', rfl⟩ := h'
  simp only [List.append_assoc, List.nil_append] at e
  obtain ⟨g1, e1⟩ := label_unique hc h1 h1' e
  obtain ⟨g2, e2⟩ := label_unique hc h2 h2' e1
  obtain ⟨g3, e3⟩ := label_unique hc h3 h3' e2
  obtain ⟨g4, e4⟩ := clsOpt_unique h4 h4' e3
  obtain ⟨s, t, u, v⟩ := k
  obtain ⟨s', t', u', v'⟩ := k'
  dsimp only at g1 g2 g3 g4
  rw [g1, g2, g3, g4]
  exact ⟨rfl, e4⟩

/-- The content of the attribute determines the code array and the exception table. -/
theorem hasCode_unique {P : Pool} {T : List Bsm} {bs code code' : Bytes} {ks ks' : List Catch}
    (h : HasCode P T bs code ks) (h' : HasCode P T bs code' ks') : code = code' ∧ ks = ks' := by
  obtain ⟨ms, ml, hs, as, h1, rfl, h2⟩ := h
  obtain ⟨ms', ml', hs', as', h1', e, h2'⟩ := h'
  simp only [List.append_assoc] at e
  obtain ⟨_, e⟩ := idx_cancel e
  obtain ⟨_, e⟩ := idx_cancel e
  obtain ⟨hl, e⟩ := u4_cancel h1 h1' e
  obtain ⟨rfl, e'⟩ := List.append_inj e hl
  refine ⟨rfl, ?_⟩
  obtain ⟨g1, b, rfl, g2⟩ := h2
  obtain ⟨g1', b', rfl, g2'⟩ := h2'
  simp only [List.append_assoc] at e'
  obtain ⟨hn, e''⟩ := u2_cancel g1 g1' e'
  exact (all_unique (fun a b c => handlerEntry_unique (absolute_apart P T) a b c) hn g2 g2' e'').1

theorem body_hom {c : Ctx} (hT : c.bsm.length ≤ 65536) {x : Body} {b bs : Bytes} (h : bodyWith b c x bs)
    (hl : ∀ l p, c.pos l = some p → .label l ∈ x.code) :
    ∃ ks φ f, HasCode c.pool c.bsm bs b ks ∧ Hom (source x.code x.catches φ) (binary c.pool c.bsm b ks) φ f := by
  obtain ⟨hs, as, h1, h2, ⟨h3, hb, rfl, h4⟩, h5, rfl⟩ := h
  obtain ⟨pis, hp⟩ := layout_positioned h1
  have hh := source_binary (ks := x.catches) hT hp h2 hl (fun k hk => by
    obtain ⟨b, h⟩ := Fmt.all_mem h4 k hk
    exact handler_labels h)
  refine ⟨_, _, _, ⟨x.maxStack, x.maxLocals, _, as, h2, rfl, ?_⟩, hh⟩
  refine ⟨by simpa using h3, hb, by rw [List.length_map], all_ren (fun k b => handlerEntry_abs ?_) h4⟩
  intro l n hn
  obtain ⟨q, e1, e2⟩ := hp.label (hl l n hn)
  rw [hn] at e1
  cases e1
  have := (hp.bounds.1 n e2).2
  simp only [absLabel, hn, Option.getD_some, UInt32.toNat_ofNat']
  omega

/-! ## What was read -/

theorem filterMap_rebuild {ν : Nat → Option Label} {line : Nat → Option UInt16} {len : Nat} :
    ∀ {pis : List (Nat × Insn)}, (∀ e ∈ pis, normal e.2 = some e.2) →
      (rebuild ν line pis len).filterMap normal = pis.map Prod.snd := by
  have hm : ∀ p, (markers ν line p).filterMap normal = [] := by
    intro p
    unfold markers
    cases ν p <;> cases line p <;> rfl
  intro pis h
  induction pis with
  | nil => exact hm len
  | cons e r ih =>
    obtain ⟨p, i⟩ := e
    rw [rebuild, List.filterMap_append, hm, List.filterMap_cons_some (h (p, i) (by simp)),
      ih fun e he => h e (by simp [he])]
    rfl

theorem alike_id {P Q R : Prog} {φ : Nat → Nat} (h : Alike P Q id) (h' : Alike P R φ) : Alike Q R φ := by
  have hid : ∀ {σ : Type} (d : Conf σ), d.map id = d := fun d => by cases d <;> rfl
  intro σ M s n
  obtain ⟨h1, h2⟩ := h σ M s n
  obtain ⟨h3, h4⟩ := h' σ M s n
  constructor
  · intro d hd
    obtain ⟨d', e, hd'⟩ := h2 d hd
    rw [hid] at e
    subst e
    exact h3 _ hd'
  · intro e he
    obtain ⟨d, e1, hd⟩ := h4 e he
    refine ⟨d, e1, ?_⟩
    have := h1 d hd
    rwa [hid] at this

theorem describes_hom {c : Ctx} {x : Body} {b : Bytes} {pis : List (Nat × Insn)} {ν : Nat → Option Label}
    {ρ : Label → Label} {y : Code} (hp : Positioned c 0 x.code b pis) (hl : ∀ l p, c.pos l = some p → .label l ∈ x.code)
    (hk : ∀ k ∈ x.catches, ∀ l ∈ catchLabels k, ∃ p, c.pos l = some p) (h : Describes c b.length x pis ν ρ y)
    (τ : Nat → Nat) : Hom (source x.code x.catches τ) (source (y.code.map (resolveI c.bsm)) y.catches τ) id ρ := by
  have hn : ∀ e ∈ pis, ∃ i, normal i = some e.2 := fun e he => (hp.targets e he).1
  have hf : (y.code.map (resolveI c.bsm)).filterMap normal = (x.code.filterMap normal).map (renI ρ) := by
    rw [h.code, filterMap_rebuild, ← hp.insns, List.map_map, List.map_map]
    · rfl
    · intro e he
      obtain ⟨e', he', rfl⟩ := List.mem_map.mp he
      obtain ⟨i, hi⟩ := hn e' he'
      show normal (renI ρ e'.2) = _
      rw [normal_ren, normal_idem hi]
      rfl
  have same : ∀ {l : Label} {p : Nat}, c.pos l = some p → l ∈ x.labels →
      SamePlace (source x.code x.catches τ) (source (y.code.map (resolveI c.bsm)) y.catches τ) id ρ l := by
    intro l p hpos hx
    obtain ⟨a, q, e1, e2, e3⟩ := hp.place (hl l p hpos)
    rw [hpos] at e2
    cases e2
    rw [Nat.zero_add] at e3
    have hν := h.names l p hpos (List.mem_append_left _ (List.mem_filterMap.mpr ⟨l, hx, hpos⟩))
    have hpl := rebuild_place (line := lineAt (x.attrs.flatMap lineEntries)) h.inj
      (len := b.length) (pis := pis.map fun e => (e.1, renI ρ e.2)) (k := a) (q := p) (l := ρ l) (by
        intro e he
        obtain ⟨e', he', rfl⟩ := List.mem_map.mp he
        obtain ⟨i, hi⟩ := hn e' he'
        exact ⟨(normal_solid hi ρ).1, (normal_solid hi ρ).2.1⟩) (by
        rw [List.map_map]
        have := hp.bounds.2
        rw [Nat.zero_add] at this
        exact this) (by
        rw [List.map_map]
        exact e3) hν
    rw [← h.code] at hpl
    refine ⟨a, fun q => ?_, fun q => ?_⟩
    · show place l x.code = some q ↔ _
      rw [e1, Option.some.injEq]
      exact eq_comm
    · show place (ρ l) (y.code.map (resolveI c.bsm)) = some q ↔ _
      rw [hpl, Option.some.injEq]
      exact eq_comm
  refine ⟨fun _ _ h => h, rfl, ?_, ?_, ?_, ?_, ?_, ?_, fun _ => rfl⟩
  · rintro k i m ⟨h1, rfl⟩
    refine ⟨?_, rfl⟩
    rw [hf, List.getElem?_map, id, h1]
    rfl
  · rintro k i m ⟨h1, rfl⟩
    rw [hf, List.getElem?_map] at h1
    obtain ⟨j, h2, rfl⟩ := Option.map_eq_some_iff.mp h1
    exact ⟨k, j, k + 1, rfl, ⟨h2, rfl⟩, rfl, rfl⟩
  · rintro k i m ⟨h1, rfl⟩ l
    obtain ⟨j, _, h2⟩ := List.mem_filterMap.mp (List.mem_of_getElem? h1)
    have := (normal_solid h2 id).2.1
    intro e
    subst e
    exact this l rfl
  · rintro k i m ⟨h1, rfl⟩ l hl'
    rw [← hp.insns] at h1
    obtain ⟨e, he, rfl⟩ := List.mem_map.mp (List.mem_of_getElem? h1)
    obtain ⟨q, hq⟩ := (hp.targets e he).2 l hl'
    refine same hq (List.mem_append_left _ (List.mem_append_left _ (List.mem_flatMap.mpr ⟨e.2, ?_, hl'⟩)))
    rw [← hp.insns]
    exact List.mem_map_of_mem he
  · exact h.catches
  · intro k hk' l hl'
    obtain ⟨q, hq⟩ := hk k hk' l hl'
    exact same hq (List.mem_append_left _ (List.mem_append_right _ (List.mem_flatMap.mpr ⟨k, hk', hl'⟩)))

/-! ## Return addresses -/

theorem normal_sub {i j : Insn} (h : normal i = some j) (hi : (∀ l, i ≠ .jsr l) ∧ ∀ v, i ≠ .ret v) :
    (∀ l, j ≠ .jsr l) ∧ ∀ v, j ≠ .ret v := by
  cases i
  case jsr l => exact absurd rfl (hi.1 l)
  case ret v => exact absurd rfl (hi.2 v)
  case conversion a b => cases a <;> cases b <;> cases h <;> exact ⟨nofun, nofun⟩
  case convertInt a => cases a <;> cases h <;> exact ⟨nofun, nofun⟩
  case push c => cases c <;> cases h <;> exact ⟨nofun, nofun⟩
  case field o t c => cases c <;> cases h <;> exact ⟨nofun, nofun⟩
  case invokeExact t c => cases c <;> cases h <;> exact ⟨nofun, nofun⟩
  case invokeSpecial c => cases c <;> cases h <;> exact ⟨nofun, nofun⟩
  case invokeInterface c n => cases c <;> cases h <;> exact ⟨nofun, nofun⟩
  all_goals first | (cases h; done) | (cases h; exact ⟨nofun, nofun⟩)

theorem step_token {is : List Insn} {ks : List Catch} {τ τ' : Nat → Nat} (hn : NoSubroutines is) {σ : Type}
    {M : Machine σ} {c d : Conf σ} (h : Step M (source is ks τ) c d) : Step M (source is ks τ') c d := by
  cases h with
  | go h1 h2 =>
    refine .go (i := _) (n := _) h1 ?_
    obtain ⟨j, hj, h3⟩ := List.mem_filterMap.mp (List.mem_of_getElem? h1.1)
    have hs := normal_sub h3 (hn j hj)
    cases h2 with
    | plain a b => exact .plain a b
    | taken a b c => exact .taken a b c
    | passed a b => exact .passed a b
    | jsr => exact absurd rfl (hs.1 _)
    | ret => exact absurd rfl (hs.2 _)
    | table a b => exact .table a b
    | lookup a b => exact .lookup a b
  | leave h1 h2 => exact .leave (n := _) h1 h2
  | handled h1 h2 h3 h4 h5 h6 h7 => exact .handled (n := _) h1 h2 h3 h4 h5 h6 h7
  | escapes h1 h2 h3 h4 => exact .escapes (n := _) h1 h2 h3 h4

theorem alike_token {is : List Insn} {ks : List Catch} {τ τ' : Nat → Nat} (hn : NoSubroutines is) :
    Alike (source is ks τ) (source is ks τ') id := by
  have hid : ∀ {σ : Type} (d : Conf σ), d.map id = d := fun d => by cases d <;> rfl
  have key : ∀ (τ τ' : Nat → Nat) {σ : Type} {M : Machine σ} {n : Nat} {c d : Conf σ},
      Runs M (source is ks τ) n c d → Runs M (source is ks τ') n c d := by
    intro τ τ' σ M n c d h
    induction h with
    | zero => exact .zero
    | more _ h2 ih => exact .more ih (step_token hn h2)
  intro σ M s n
  refine ⟨fun d hd => ?_, fun e he => ⟨e, (hid e).symm, key τ' τ he⟩⟩
  rw [hid]
  exact key τ τ' hd

end Verif
