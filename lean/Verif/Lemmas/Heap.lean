import Verif.Spec.Alike
import Verif.Lemmas.Misc
import Verif.Lemmas.Circular

/-! # Comparing and hashing cells -/

namespace Verif
open Spec

/-! ## Types and constants are compared as they are -/

mutual
theorem JType.eq_iff : ∀ (a b : JType), a.eq b = true ↔ a = b := by
  intro a b
  cases a <;> cases b <;> simp only [JType.eq, Bool.false_eq_true, reduceCtorEq, Bool.and_eq_true, beq_iff_eq,
    JType.ref.injEq, JType.array.injEq, JType.method.injEq]
  case array d t d' t' => rw [JType.eq_iff t t']
  case method ps r ps' r' => rw [JType.eqs_iff ps ps', JType.eqOpt_iff r r']
theorem JType.eqs_iff : ∀ (a b : List JType), JType.eqs a b = true ↔ a = b := by
  intro a b
  cases a <;> cases b <;> simp only [JType.eqs, Bool.false_eq_true, reduceCtorEq, Bool.and_eq_true, List.cons.injEq]
  case cons t ts t' ts' => rw [JType.eq_iff t t', JType.eqs_iff ts ts']
theorem JType.eqOpt_iff : ∀ (a b : Option JType), JType.eqOpt a b = true ↔ a = b := by
  intro a b
  cases a <;> cases b <;> simp only [JType.eqOpt, Bool.false_eq_true, reduceCtorEq, Option.some.injEq]
  case some t t' => rw [JType.eq_iff t t']
end

theorem MemberRef.eq_iff (a b : MemberRef) : a.eq b = true ↔ a = b := by
  obtain ⟨o, n, d, i⟩ := a
  obtain ⟨o', n', d', i'⟩ := b
  simp only [MemberRef.eq, Bool.and_eq_true, beq_iff_eq, JType.eq_iff, MemberRef.mk.injEq, and_assoc]

theorem MethodHandle.eq_iff (a b : MethodHandle) : a.eq b = true ↔ a = b := by
  obtain ⟨k, m⟩ := a
  obtain ⟨k', m'⟩ := b
  simp only [MethodHandle.eq, Bool.and_eq_true, beq_iff_eq, MemberRef.eq_iff, MethodHandle.mk.injEq]

theorem Constant.eq_iff (a b : Constant) : a.eq b = true ↔ a = b := by
  cases a <;> cases b <;> simp only [Constant.eq, Bool.false_eq_true, reduceCtorEq, beq_iff_eq, JType.eq_iff,
    MemberRef.eq_iff, MethodHandle.eq_iff, Constant.i32.injEq, Constant.i64.injEq, Constant.f32.injEq,
    Constant.f64.injEq, Constant.string.injEq, Constant.cls.injEq, Constant.member.injEq, Constant.methodType.injEq,
    Constant.methodHandle.injEq]
  case f32 x y => rw [F32.eq_iff]; cases x; cases y; simp
  case f64 x y => rw [F64.eq_iff]; cases x; cases y; simp

/-! ## Steps -/

section
variable {α : Type}

theorem pairs_imp {β γ : Type} {R S : β → γ → Prop} : ∀ {as : List β} {bs : List γ}, Pairs R as bs →
    (∀ a ∈ as, ∀ b, R a b → S a b) → Pairs S as bs
  | _, _, .nil, _ => .nil
  | _, _, .cons h hs, hi => .cons (hi _ (by simp) _ h) (pairs_imp hs fun a ha => hi a (by simp [ha]))

theorem pairs_refl {β : Type} {R : β → β → Prop} (h : ∀ a, R a a) : ∀ as : List β, Pairs R as as
  | [] => .nil
  | a :: as => .cons (h a) (pairs_refl h as)

theorem pairs_length {β γ : Type} {R : β → γ → Prop} {as : List β} {bs : List γ} (h : Pairs R as bs) :
    as.length = bs.length := by
  induction h with
  | nil => rfl
  | cons _ _ ih => rw [List.length_cons, List.length_cons, ih]

theorem sameArg_imp {R S : α → α → Prop} (hi : ∀ a b, R a b → S a b) {x y : HArg α} (h : SameArg R x y) :
    SameArg S x y := by
  cases h with
  | dynamic n t h => exact .dynamic n t (hi _ _ h)
  | static c => exact .static c

theorem sameArg_refl {R : α → α → Prop} (hi : ∀ a, R a a) : ∀ x : HArg α, SameArg R x x
  | .dynamic ⟨a, n, t⟩ => .dynamic n t (hi a)
  | .static c => .static c

theorem sameStep_refl {H : Heap α} {R : α → α → Prop} (hi : ∀ a, R a a) (a : α) : SameStep H R a a := by
  cases h : H a with
  | none => exact .inl ⟨h, h⟩
  | some x => exact .inr ⟨x.handle, x.arguments, x.arguments, h, h, pairs_refl (sameArg_refl hi) _⟩

theorem sameStep_imp {H : Heap α} {R S : α → α → Prop} (hi : ∀ a b, R a b → S a b) {a b : α} (h : SameStep H R a b) :
    SameStep H S a b := by
  rcases h with h | ⟨x, as, bs, ha, hb, h⟩
  · exact .inl h
  · exact .inr ⟨x, as, bs, ha, hb, pairs_imp h fun _ _ _ h => sameArg_imp hi h⟩

theorem alike_step {H : Heap α} {a b : α} (h : SameCells H a b) : SameStep H (SameCells H) a b := by
  obtain ⟨R, hR, hs⟩ := h
  exact sameStep_imp (fun a b h => ⟨R, h, hs⟩) (hs a b hR)

/-! ## Comparing -/

variable [DecidableEq α]

/-- What the comparison of arguments comes to if the comparison of cells is `c`. -/
theorem argEq_true {c : α → α → Res Bool} {x y : HArg α} :
    x.eq c y = .ok true ↔ SameArg (fun a b => c a b = .ok true) x y := by
  constructor
  · intro h
    rcases x with ⟨a, n, t⟩ | x <;> rcases y with ⟨b, n', t'⟩ | y
    · rw [HArg.eq, HDynamic.eq] at h
      cases hc : c a b with
      | error e => rw [hc] at h; cases h
      | ok r =>
        rw [hc] at h
        cases r
        · cases h
        · simp only [Except.ok.injEq, Bool.and_eq_true, beq_iff_eq, JType.eq_iff] at h
          obtain ⟨rfl, rfl⟩ := h
          exact .dynamic _ _ hc
    · cases h
    · cases h
    · rw [HArg.eq] at h
      have := (Constant.eq_iff x y).mp (Except.ok.inj h)
      subst this
      exact .static _
  · intro h
    cases h with
    | dynamic n t h =>
      rw [HArg.eq, HDynamic.eq, h]
      simp only [beq_self_eq_true, Bool.true_and, (JType.eq_iff t t).mpr rfl]
    | static x => rw [HArg.eq, (Constant.eq_iff x x).mpr rfl]

theorem argsEq_true {c : α → α → Res Bool} : ∀ {as bs : List (HArg α)}, as.length = bs.length →
    (HArg.eqs c as bs = .ok true ↔ Pairs (SameArg fun a b => c a b = .ok true) as bs)
  | [], [], _ => ⟨fun _ => .nil, fun _ => rfl⟩
  | [], _ :: _, h => nomatch h
  | _ :: _, [], h => nomatch h
  | a :: as, b :: bs, h => by
    have ih := argsEq_true (c := c) (as := as) (bs := bs) (by simpa using h)
    rw [HArg.eqs]
    constructor
    · intro h
      cases hc : a.eq c b with
      | error e => rw [hc] at h; cases h
      | ok r =>
        rw [hc] at h
        cases r
        · cases h
        · exact .cons (argEq_true.mp hc) (ih.mp h)
    · rintro (_ | ⟨h, hs⟩)
      rw [argEq_true.mpr h]
      exact ih.mpr hs

theorem bsmEq_true {c : α → α → Res Bool} {x y : HBsm α} :
    x.eq c y = .ok true ↔ x.handle = y.handle ∧ Pairs (SameArg fun a b => c a b = .ok true) x.arguments y.arguments := by
  rw [HBsm.eq]
  constructor
  · intro h
    split at h
    · rename_i h1
      split at h
      · rename_i h2
        exact ⟨(MethodHandle.eq_iff _ _).mp h1, (argsEq_true h2).mp h⟩
      · cases h
    · cases h
  · rintro ⟨h1, h2⟩
    rw [if_pos ((MethodHandle.eq_iff _ _).mpr h1), if_pos (pairs_length h2)]
    exact (argsEq_true (pairs_length h2)).mpr h2

theorem heapEq_true {H : Heap α} {n : Nat} {a b : α} :
    H.eq (n + 1) a b = .ok true ↔ a = b ∨ SameStep H (fun a b => H.eq n a b = .ok true) a b := by
  rw [Heap.eq]
  split
  · rename_i h; exact ⟨fun _ => .inl h, fun _ => rfl⟩
  · rename_i hne
    cases ha : H a <;> cases hb : H b
    · exact ⟨fun _ => .inr (.inl ⟨ha, hb⟩), fun _ => rfl⟩
    · refine ⟨fun h => (nomatch h), ?_⟩
      rintro (h | h | ⟨x, as, bs, h1, h2, h3⟩)
      · exact absurd h hne
      · rw [hb] at h; cases h.2
      · rw [ha] at h1; cases h1
    · refine ⟨fun h => (nomatch h), ?_⟩
      rintro (h | h | ⟨x, as, bs, h1, h2, h3⟩)
      · exact absurd h hne
      · rw [ha] at h; cases h.1
      · rw [hb] at h2; cases h2
    · rename_i x y
      show x.eq (H.eq n) y = .ok true ↔ _
      rw [bsmEq_true]
      constructor
      · rintro ⟨h1, h2⟩
        obtain ⟨hx, as⟩ := x
        obtain ⟨hy, bs⟩ := y
        cases h1
        exact .inr (.inr ⟨hx, as, bs, ha, hb, h2⟩)
      · rintro (h | h | ⟨z, as, bs, h1, h2, h3⟩)
        · exact absurd h hne
        · rw [ha] at h; cases h.1
        · rw [ha] at h1
          rw [hb] at h2
          cases h1
          cases h2
          exact ⟨rfl, h3⟩

theorem heapEq_refl {H : Heap α} (n : Nat) (a : α) : H.eq (n + 1) a a = .ok true := heapEq_true.mpr (.inl rfl)

/-- A comparison that ends with `true` is right. -/
theorem alike_of_eq {H : Heap α} {n : Nat} {a b : α} (h : H.eq n a b = .ok true) : SameCells H a b := by
  refine ⟨fun a b => ∃ n, H.eq n a b = .ok true, ⟨n, h⟩, ?_⟩
  rintro a b ⟨n, h⟩
  cases n with
  | zero => cases h
  | succ n =>
    rcases heapEq_true.mp h with rfl | h
    · exact sameStep_refl (fun a => ⟨1, heapEq_refl 0 a⟩) a
    · exact sameStep_imp (fun a b h => ⟨n, h⟩) h

/-! ## Comparisons that do not fail -/

theorem argEq_ends {c : α → α → Res Bool} {x y : HArg α}
    (h : ∀ d e, x = .dynamic d → y = .dynamic e → ∃ r, c d.cell e.cell = .ok r) : ∃ r, x.eq c y = .ok r := by
  rcases x with d | x <;> rcases y with e | y
  · obtain ⟨r, h⟩ := h d e rfl rfl
    rw [HArg.eq, HDynamic.eq, h]
    cases r <;> exact ⟨_, rfl⟩
  all_goals exact ⟨_, rfl⟩

theorem argsEq_ends {c : α → α → Res Bool} : ∀ {as bs : List (HArg α)},
    (∀ d e, HArg.dynamic d ∈ as → HArg.dynamic e ∈ bs → ∃ r, c d.cell e.cell = .ok r) → ∃ r, HArg.eqs c as bs = .ok r
  | [], _, _ => ⟨_, by rw [HArg.eqs]; simp⟩
  | _ :: _, [], _ => ⟨_, by rw [HArg.eqs]; simp⟩
  | a :: as, b :: bs, h => by
    obtain ⟨r, h1⟩ := argEq_ends (c := c) (x := a) (y := b) fun d e hd he => h d e (by simp [hd]) (by simp [he])
    rw [HArg.eqs, h1]
    cases r
    · exact ⟨_, rfl⟩
    · exact argsEq_ends fun d e hd he => h d e (by simp [hd]) (by simp [he])

theorem bsmEq_ends {c : α → α → Res Bool} {x y : HBsm α}
    (h : ∀ d e, HArg.dynamic d ∈ x.arguments → HArg.dynamic e ∈ y.arguments → ∃ r, c d.cell e.cell = .ok r) :
    ∃ r, x.eq c y = .ok r := by
  rw [HBsm.eq]
  split
  · split
    · exact argsEq_ends h
    · exact ⟨_, rfl⟩
  · exact ⟨_, rfl⟩

/-- A comparison that has ended ends in the same way with more room. -/
theorem argsEq_mono {c c' : α → α → Res Bool} (h : ∀ a b r, c a b = .ok r → c' a b = .ok r) :
    ∀ {as bs : List (HArg α)} {r : Bool}, HArg.eqs c as bs = .ok r → HArg.eqs c' as bs = .ok r
  | [], _, _, e => by
    rw [HArg.eqs] at e ⊢
    · exact e
    · intro _ _ _ _ h; cases h
    · intro _ _ _ _ h; cases h
  | _ :: _, [], _, e => by
    rw [HArg.eqs] at e ⊢
    · exact e
    · intro _ _ _ _ _ h; cases h
    · intro _ _ _ _ _ h; cases h
  | a :: as, b :: bs, r, e => by
    have h1 : ∀ r, a.eq c b = .ok r → a.eq c' b = .ok r := by
      intro r e
      rcases a with d | x <;> rcases b with d' | y
      · rw [HArg.eq, HDynamic.eq] at e ⊢
        cases hc : c d.cell d'.cell with
        | error e' => rw [hc] at e; cases e
        | ok q => rw [h _ _ _ hc]; rw [hc] at e; exact e
      all_goals exact e
    rw [HArg.eqs] at e ⊢
    cases ha : a.eq c b with
    | error e' => rw [ha] at e; cases e
    | ok q =>
      rw [h1 q ha]
      rw [ha] at e
      cases q
      · exact e
      · exact argsEq_mono h e

theorem heapEq_mono {H : Heap α} : ∀ {n m : Nat} {a b : α} {r : Bool}, n ≤ m → H.eq n a b = .ok r → H.eq m a b = .ok r
  | 0, _, _, _, _, _, h => nomatch h
  | n + 1, 0, _, _, _, hm, _ => absurd hm (by omega)
  | n + 1, m + 1, a, b, r, hm, h => by
    rw [Heap.eq] at h ⊢
    split at h
    · rename_i he; rw [if_pos he]; exact h
    · rename_i he
      rw [if_neg he]
      cases ha : H a <;> cases hb : H b <;> rw [ha, hb] at h
      · exact h
      · exact h
      · exact h
      · rename_i x y
        show x.eq (H.eq m) y = .ok r
        change x.eq (H.eq n) y = .ok r at h
        rw [HBsm.eq] at h ⊢
        split
        · rename_i h1
          rw [if_pos h1] at h
          split
          · rename_i h2
            rw [if_pos h2] at h
            exact argsEq_mono (fun a b r h => heapEq_mono (by omega) h) h
          · rename_i h2
            rw [if_neg h2] at h
            exact h
        · rename_i h1
          rw [if_neg h1] at h
          exact h

/-- A comparison that ends with `false` is right. -/
theorem not_alike_of_eq {H : Heap α} : ∀ {n : Nat} {a b : α} {r : Bool}, H.eq n a b = .ok r → SameCells H a b → r = true
  | 0, _, _, _, h, _ => nomatch h
  | n + 1, a, b, r, h, hal => by
    have key : ∀ {a b : α} {r : Bool}, H.eq n a b = .ok r → SameCells H a b → r = true := not_alike_of_eq
    have hargs : ∀ {as bs : List (HArg α)} {r : Bool}, HArg.eqs (H.eq n) as bs = .ok r →
        Pairs (SameArg (SameCells H)) as bs → r = true := by
      intro as bs r h hp
      induction hp with
      | nil => rw [HArg.eqs] at h; · cases h; rfl
               · intro _ _ _ _ h; cases h
      | @cons x y as bs hxy _ ih =>
        rw [HArg.eqs] at h
        have hx : ∀ q, x.eq (H.eq n) y = .ok q → q = true := by
          intro q hq
          cases hxy with
          | @dynamic a b nm t hab =>
            rw [HArg.eq, HDynamic.eq] at hq
            cases hc : H.eq n a b with
            | error e => rw [hc] at hq; cases hq
            | ok q' =>
              rw [hc, key hc hab] at hq
              simp only [beq_self_eq_true, Bool.true_and, (JType.eq_iff t t).mpr rfl, Except.ok.injEq] at hq
              exact hq.symm
          | static c =>
            rw [HArg.eq, (Constant.eq_iff c c).mpr rfl] at hq
            cases hq; rfl
        cases hq : x.eq (H.eq n) y with
        | error e => rw [hq] at h; cases h
        | ok q =>
          rw [hq, hx q hq] at h
          exact ih h
    rw [Heap.eq] at h
    split at h
    · cases h; rfl
    · rcases alike_step hal with ⟨h1, h2⟩ | ⟨x, as, bs, h1, h2, h3⟩
      · rw [h1, h2] at h; cases h; rfl
      · rw [h1, h2] at h
        change HBsm.eq (H.eq n) ⟨x, as⟩ ⟨x, bs⟩ = .ok r at h
        rw [HBsm.eq, if_pos ((MethodHandle.eq_iff _ _).mpr rfl), if_pos (pairs_length h3)] at h
        exact hargs h h3

/-! ## When comparing ends -/

omit [DecidableEq α] in
theorem chain_of {P : α → Prop} {H : Heap α} (h : ∀ a, P a → ∃ b, Uses H a b ∧ P b) {a : α} (ha : P a) : Endless H a := by
  classical
  let next : {a // P a} → {a // P a} := fun a => ⟨(h a.1 a.2).choose, (h a.1 a.2).choose_spec.2⟩
  let f : Nat → {a // P a} := fun n => n.rec ⟨a, ha⟩ fun _ x => next x
  exact ⟨fun n => (f n).1, rfl, fun n => (h (f n).1 (f n).2).choose_spec.1⟩

omit [DecidableEq α] in
theorem acc_of {H : Heap α} {a : α} (h : ¬ Endless H a) : Acc (fun b a => Uses H a b) a := by
  apply Classical.byContradiction
  intro hn
  refine h (chain_of (P := fun a => ¬ Acc (fun b a => Uses H a b) a) ?_ hn)
  intro a ha
  apply Classical.byContradiction
  intro hc
  exact ha ⟨_, fun b hb => Classical.byContradiction fun hb' => hc ⟨b, hb, hb'⟩⟩

omit [DecidableEq α] in
theorem not_endless_of_acc {H : Heap α} {a : α} (h : Acc (fun b a => Uses H a b) a) : ¬ Endless H a := by
  induction h with
  | intro a _ ih =>
    rintro ⟨f, hf, hs⟩
    exact ih (f 1) (hf ▸ hs 0) ⟨fun n => f (n + 1), rfl, fun n => hs (n + 1)⟩

/-- One bound for the members of two lists. -/
theorem bound_for {β γ : Type} {P : β → γ → Nat → Prop} (hm : ∀ x y n m, n ≤ m → P x y n → P x y m)
    {l : List β} {l' : List γ} (h : ∀ x ∈ l, ∀ y ∈ l', ∃ n, P x y n) : ∃ n, ∀ x ∈ l, ∀ y ∈ l', P x y n := by
  have hone : ∀ (x : β) (l' : List γ), (∀ y ∈ l', ∃ n, P x y n) → ∃ n, ∀ y ∈ l', P x y n := by
    intro x l'
    induction l' with
    | nil => exact fun _ => ⟨0, fun _ h => nomatch h⟩
    | cons y l' ih =>
      intro h
      obtain ⟨n, hn⟩ := ih fun y hy => h y (by simp [hy])
      obtain ⟨m, hm'⟩ := h y (by simp)
      refine ⟨max n m, fun z hz => ?_⟩
      rcases List.mem_cons.mp hz with rfl | hz
      · exact hm _ _ _ _ (Nat.le_max_right _ _) hm'
      · exact hm _ _ _ _ (Nat.le_max_left _ _) (hn z hz)
  induction l with
  | nil => exact ⟨0, fun _ h => nomatch h⟩
  | cons x l ih =>
    obtain ⟨n, hn⟩ := ih fun x hx => h x (by simp [hx])
    obtain ⟨m, hm'⟩ := hone x l' (h x (by simp))
    refine ⟨max n m, fun z hz y hy => ?_⟩
    rcases List.mem_cons.mp hz with rfl | hz
    · exact hm _ _ _ _ (Nat.le_max_right _ _) (hm' y hy)
    · exact hm _ _ _ _ (Nat.le_max_left _ _) (hn z hz y hy)

theorem heapEq_step {H : Heap α} {a b : α}
    (h : ∀ a' b', Uses H a a' → Uses H b b' → ∃ n r, H.eq n a' b' = .ok r) : ∃ n r, H.eq n a b = .ok r := by
  by_cases hab : a = b
  · exact ⟨1, true, hab ▸ heapEq_refl 0 a⟩
  · cases ha : H a <;> cases hb : H b
    · exact ⟨1, true, by rw [Heap.eq, if_neg hab, ha, hb]⟩
    · exact ⟨1, false, by rw [Heap.eq, if_neg hab, ha, hb]⟩
    · exact ⟨1, false, by rw [Heap.eq, if_neg hab, ha, hb]⟩
    · rename_i x y
      have := bound_for (l := x.arguments) (l' := y.arguments)
        (P := fun u v n => ∀ d e : HDynamic α, u = .dynamic d → v = .dynamic e → ∃ r, H.eq n d.cell e.cell = .ok r)
        (by intro u v n m hnm h d e hd he; exact (h d e hd he).imp fun r hr => heapEq_mono hnm hr) (by
          intro u hu v hv
          rcases u with d | u
          · rcases v with e | v
            · obtain ⟨n, r, hr⟩ := h d.cell e.cell ⟨x, d.name, d.descriptor, ha, hu⟩ ⟨y, e.name, e.descriptor, hb, hv⟩
              exact ⟨n, fun _ _ hd he => by cases hd; cases he; exact ⟨r, hr⟩⟩
            · exact ⟨0, fun _ _ _ he => nomatch he⟩
          · exact ⟨0, fun _ _ hd => nomatch hd⟩)
      obtain ⟨n, hn⟩ := this
      obtain ⟨r, hr⟩ := bsmEq_ends (c := H.eq n) (x := x) (y := y) fun d e hd he => hn _ hd _ he d e rfl rfl
      refine ⟨n + 1, r, ?_⟩
      rw [Heap.eq, if_neg hab, ha, hb]
      exact hr

theorem heapEq_left {H : Heap α} {a : α} (h : Acc (fun b a => Uses H a b) a) : ∀ b, ∃ n r, H.eq n a b = .ok r := by
  induction h with
  | intro a _ ih => exact fun b => heapEq_step fun a' b' ha _ => ih a' ha b'

theorem heapEq_right {H : Heap α} {b : α} (h : Acc (fun b a => Uses H a b) b) : ∀ a, ∃ n r, H.eq n a b = .ok r := by
  induction h with
  | intro b _ ih => exact fun a => heapEq_step fun a' b' _ hb => ih b' hb a'

theorem heapEq_trans {H : Heap α} : ∀ {n m : Nat} {a b c : α}, H.eq n a b = .ok true → H.eq m b c = .ok true →
    H.eq (n + m) a c = .ok true
  | 0, _, _, _, _, h, _ => nomatch h
  | _ + 1, 0, _, _, _, _, h => nomatch h
  | n + 1, m + 1, a, b, c, h1, h2 => by
    rcases heapEq_true.mp h1 with rfl | s1
    · exact heapEq_mono (by omega) h2
    rcases heapEq_true.mp h2 with rfl | s2
    · exact heapEq_mono (by omega) h1
    have : n + 1 + (m + 1) = (n + m + 1) + 1 := by omega
    rw [this]
    refine heapEq_true.mpr (.inr ?_)
    rcases s1 with ⟨ha, hb⟩ | ⟨x, as, bs, ha, hb, hp⟩
    · rcases s2 with ⟨_, hc⟩ | ⟨_, _, _, hb', _⟩
      · exact .inl ⟨ha, hc⟩
      · rw [hb] at hb'; cases hb'
    · rcases s2 with ⟨hb', _⟩ | ⟨y, bs', cs, hb', hc, hq⟩
      · rw [hb] at hb'; cases hb'
      · rw [hb] at hb'
        cases hb'
        refine .inr ⟨x, as, cs, ha, hc, ?_⟩
        clear ha hb hc h1 h2
        induction hp generalizing cs with
        | nil => cases hq; exact .nil
        | cons h _ ih =>
          cases hq with
          | cons h' hq =>
            refine .cons ?_ (ih _ hq)
            cases h with
            | dynamic n t h =>
              cases h' with
              | dynamic _ _ h' => exact .dynamic n t (heapEq_mono (by omega) (heapEq_trans h h'))
            | static c => cases h'; exact .static c

theorem argsEq_flip {c c' : α → α → Res Bool} (h : ∀ a b r, c a b = .ok r → c' b a = .ok r) :
    ∀ {as bs : List (HArg α)} {r : Bool}, HArg.eqs c as bs = .ok r → HArg.eqs c' bs as = .ok r
  | [], bs, r, e => by
    have e1 : HArg.eqs c [] bs = .ok true := by rw [HArg.eqs]; intro _ _ _ _ h; cases h
    have e2 : HArg.eqs c' bs [] = .ok true := by cases bs <;> (rw [HArg.eqs]; intros; contradiction)
    rw [e1] at e; cases e; exact e2
  | a :: as, [], r, e => by
    have e1 : HArg.eqs c (a :: as) [] = .ok true := by rw [HArg.eqs]; intros; contradiction
    have e2 : HArg.eqs c' [] (a :: as) = .ok true := by rw [HArg.eqs]; intros; contradiction
    rw [e1] at e; cases e; exact e2
  | a :: as, b :: bs, r, e => by
    have hJ : ∀ x y : JType, x.eq y = y.eq x := fun x y => Bool.eq_iff_iff.mpr (by rw [JType.eq_iff, JType.eq_iff]; exact eq_comm)
    have hC : ∀ x y : Constant, x.eq y = y.eq x := fun x y => Bool.eq_iff_iff.mpr (by rw [Constant.eq_iff, Constant.eq_iff]; exact eq_comm)
    have hB : ∀ x y : Bytes, (x == y) = (y == x) := fun x y => Bool.eq_iff_iff.mpr (by rw [beq_iff_eq, beq_iff_eq]; exact eq_comm)
    have h1 : ∀ r, a.eq c b = .ok r → b.eq c' a = .ok r := by
      intro r e
      rcases a with d | x <;> rcases b with d' | y
      · rw [HArg.eq, HDynamic.eq] at e ⊢
        cases hc : c d.cell d'.cell with
        | error e' => rw [hc] at e; cases e
        | ok q =>
          rw [h _ _ _ hc]
          rw [hc] at e
          cases q
          · exact e
          · rw [← e]
            show Except.ok _ = Except.ok _
            rw [hJ, hB]
      · exact e
      · exact e
      · rw [HArg.eq] at e ⊢
        rw [hC, e]
    rw [HArg.eqs] at e ⊢
    cases ha : a.eq c b with
    | error e' => rw [ha] at e; cases e
    | ok q =>
      rw [h1 q ha]
      rw [ha] at e
      cases q
      · exact e
      · exact argsEq_flip h e

theorem heapEq_symm {H : Heap α} : ∀ {n : Nat} {a b : α} {r : Bool}, H.eq n a b = .ok r → H.eq n b a = .ok r
  | 0, _, _, _, h => nomatch h
  | n + 1, a, b, r, h => by
    rw [Heap.eq] at h ⊢
    split at h
    · rename_i he; rw [if_pos he.symm]; exact h
    · rename_i he
      rw [if_neg fun e => he e.symm]
      cases ha : H a <;> cases hb : H b <;> rw [ha, hb] at h
      · exact h
      · exact h
      · exact h
      · rename_i x y
        show y.eq (H.eq n) x = .ok r
        change x.eq (H.eq n) y = .ok r at h
        rw [HBsm.eq] at h ⊢
        have hs : x.handle.eq y.handle = y.handle.eq x.handle := by
          apply Bool.eq_iff_iff.mpr
          rw [MethodHandle.eq_iff, MethodHandle.eq_iff]
          exact eq_comm
        rw [← hs]
        split
        · rename_i h1
          rw [if_pos h1] at h
          split
          · rename_i h2
            rw [if_pos h2.symm] at h
            exact argsEq_flip (fun a b r h => heapEq_symm h) h
          · rename_i h2
            rw [if_neg fun e => h2 e.symm] at h
            exact h
        · rename_i h1
          rw [if_neg h1] at h
          exact h

end

/-! ## Hashing -/

section
variable {α : Type}

theorem argHash_same {c : α → Res (List Hashed)} {x y : HArg α} (h : SameArg (fun a b => c a = c b) x y) :
    x.hash c = y.hash c := by
  cases h with
  | dynamic n t h => rw [HArg.hash, HArg.hash, HDynamic.hash, HDynamic.hash, h]
  | static => rfl

theorem argsHash_same {c : α → Res (List Hashed)} {as bs : List (HArg α)}
    (h : Pairs (SameArg fun a b => c a = c b) as bs) : HArg.hashes c as = HArg.hashes c bs := by
  induction h with
  | nil => rfl
  | cons h _ ih => rw [HArg.hashes, HArg.hashes, argHash_same h, ih]

theorem heapHash_same {H : Heap α} : ∀ (n : Nat) {a b : α}, SameCells H a b → H.hash n a = H.hash n b
  | 0, _, _, _ => rfl
  | n + 1, a, b, h => by
    rw [Heap.hash, Heap.hash]
    rcases alike_step h with ⟨h1, h2⟩ | ⟨x, as, bs, h1, h2, h3⟩
    · rw [h1, h2]
    · rw [h1, h2]
      have : HBsm.hash (H.hash n) ⟨x, as⟩ = HBsm.hash (H.hash n) ⟨x, bs⟩ := by
        have e : HArg.hashes (H.hash n) as = HArg.hashes (H.hash n) bs := argsHash_same
          (pairs_imp h3 fun _ _ _ h => sameArg_imp (fun a b h => heapHash_same n h) h)
        simp only [HBsm.hash, e, pairs_length h3]
      simp only [this]

theorem argsHash_ends {c : α → Res (List Hashed)} : ∀ {as : List (HArg α)},
    (∃ ts, HArg.hashes c as = .ok ts) ↔ ∀ d, HArg.dynamic d ∈ as → ∃ ts, c d.cell = .ok ts
  | [] => ⟨fun _ _ h => (nomatch h), fun _ => ⟨[], rfl⟩⟩
  | a :: as => by
    have ih := argsHash_ends (c := c) (as := as)
    have ha : (∃ ts, a.hash c = .ok ts) ↔ ∀ d, HArg.dynamic d = a → ∃ ts, c d.cell = .ok ts := by
      rcases a with d | x
      · rw [HArg.hash, HDynamic.hash]
        cases hc : c d.cell with
        | error e =>
          refine ⟨fun h => (nomatch h), fun h => ?_⟩
          obtain ⟨ts, h⟩ := h d rfl
          rw [hc] at h; cases h
        | ok ts => exact ⟨fun _ e he => by cases he; exact ⟨ts, hc⟩, fun _ => ⟨_, rfl⟩⟩
      · exact ⟨fun _ _ h => (nomatch h), fun _ => ⟨_, rfl⟩⟩
    constructor
    · rintro ⟨ts, h⟩ d hd
      rw [HArg.hashes] at h
      cases h1 : a.hash c with
      | error e => rw [h1] at h; cases h
      | ok us =>
        rw [h1] at h
        cases h2 : HArg.hashes c as with
        | error e => rw [h2] at h; cases h
        | ok vs =>
          rcases List.mem_cons.mp hd with hd | hd
          · exact ha.mp ⟨us, h1⟩ d hd
          · exact ih.mp ⟨vs, h2⟩ d hd
    · intro h
      obtain ⟨us, h1⟩ := ha.mpr fun d hd => h d (by simp [hd])
      obtain ⟨vs, h2⟩ := ih.mpr fun d hd => h d (by simp [hd])
      rw [HArg.hashes, h1, h2]
      exact ⟨_, rfl⟩

theorem heapHash_ends {H : Heap α} {n : Nat} {a : α} :
    (∃ ts, H.hash (n + 1) a = .ok ts) ↔ ∀ b, Uses H a b → ∃ ts, H.hash n b = .ok ts := by
  rw [Heap.hash]
  cases ha : H a with
  | none =>
    refine ⟨fun _ b h => ?_, fun _ => ⟨_, rfl⟩⟩
    obtain ⟨x, _, _, hx, _⟩ := h
    rw [ha] at hx; cases hx
  | some x =>
    have : (∃ ts, x.hash (H.hash n) = .ok ts) ↔ ∃ ts, HArg.hashes (H.hash n) x.arguments = .ok ts := by
      rw [HBsm.hash]
      cases HArg.hashes (H.hash n) x.arguments with
      | error e => exact ⟨fun h => (nomatch h), fun h => (nomatch h)⟩
      | ok ts => exact ⟨fun _ => ⟨_, rfl⟩, fun _ => ⟨_, rfl⟩⟩
    rw [argsHash_ends] at this
    constructor
    · rintro ⟨ts, h⟩ b ⟨x', nm, t, hx, hm⟩
      rw [ha] at hx
      cases hx
      refine this.mp ?_ ⟨b, nm, t⟩ hm
      cases hc : x.hash (H.hash n) with
      | error e => simp only [hc] at h; cases h
      | ok us => exact ⟨us, rfl⟩
    · intro h
      obtain ⟨us, hu⟩ := this.mpr fun d hd => h d.cell ⟨x, d.name, d.descriptor, ha, hd⟩
      simp only [hu]
      exact ⟨_, rfl⟩

theorem heapHash_more {H : Heap α} : ∀ {n m : Nat} {a : α}, n ≤ m → (∃ ts, H.hash n a = .ok ts) → ∃ ts, H.hash m a = .ok ts
  | 0, _, _, _, h => nomatch h
  | n + 1, 0, _, hm, _ => absurd hm (by omega)
  | n + 1, m + 1, a, hm, h =>
    heapHash_ends.mpr fun b hb => heapHash_more (Nat.le_of_succ_le_succ hm) (heapHash_ends.mp h b hb)

theorem heapHash_acc {H : Heap α} {a : α} (h : Acc (fun b a => Uses H a b) a) : ∃ n ts, H.hash n a = .ok ts := by
  induction h with
  | intro a _ ih =>
    cases ha : H a with
    | none => exact ⟨1, _, by rw [Heap.hash, ha]⟩
    | some x =>
      obtain ⟨n, hn⟩ := bound_for (l := x.arguments) (l' := [()])
        (P := fun u _ n => ∀ d, u = HArg.dynamic d → ∃ ts, H.hash n d.cell = .ok ts)
        (fun u _ n m hnm h d hd => heapHash_more hnm (h d hd)) (by
          intro u hu _ _
          rcases u with d | u
          · obtain ⟨n, hn⟩ := ih d.cell ⟨x, d.name, d.descriptor, ha, hu⟩
            exact ⟨n, fun _ hd => by cases hd; exact hn⟩
          · exact ⟨0, fun _ hd => nomatch hd⟩)
      refine ⟨n + 1, heapHash_ends.mpr ?_⟩
      rintro b ⟨x', nm, t, hx, hm⟩
      rw [ha] at hx
      cases hx
      exact hn _ hm () (by simp) _ rfl

theorem acc_heapHash {H : Heap α} : ∀ {n : Nat} {a : α}, (∃ ts, H.hash n a = .ok ts) → Acc (fun b a => Uses H a b) a
  | 0, _, h => nomatch h
  | _ + 1, _, h => ⟨_, fun b hb => acc_heapHash (heapHash_ends.mp h b hb)⟩

end

/-! ## The cells of a class that was read -/

theorem placed_dynamic {p q : Nat × Nat} {a : Arg} {n : Bytes} {t : JType} (h : a.placed p = .dynamic ⟨q, n, t⟩) :
    q = p ∧ ∃ c, a = .dynamic c n t := by
  cases a with
  | dynamic c n' t' => cases h; exact ⟨rfl, c, rfl⟩
  | static c => cases h

/-- What a cell of a class leads to. -/
theorem readHeap_uses {T : List Bsm} {ds : List Dynamic} {p q : Nat × Nat} : Uses (readHeap T ds) p q ↔
    ∃ k b c n t, cellAt T ds p = some (.pending k) ∧ T[k.toNat]? = some b ∧ q.1 = k.toNat ∧
      b.arguments[q.2]? = some (.dynamic c n t) := by
  constructor
  · rintro ⟨x, n, t, hx, hm⟩
    rw [readHeap] at hx
    split at hx
    · rename_i k hk
      split at hx
      · rename_i b hb
        cases hx
        rw [Bsm.placed] at hm
        obtain ⟨j, hj, he⟩ := List.mem_mapIdx.mp hm
        obtain ⟨rfl, c, hc⟩ := placed_dynamic he
        exact ⟨k, b, c, n, t, hk, hb, rfl, by rw [← hc]; exact List.getElem?_eq_getElem hj⟩
      · cases hx
    · cases hx
  · rintro ⟨k, b, c, n, t, hk, hb, hq, hj⟩
    obtain ⟨hj', he⟩ := List.getElem?_eq_some_iff.mp hj
    refine ⟨b.placed k.toNat, n, t, by rw [readHeap, hk]; simp only [hb], ?_⟩
    rw [Bsm.placed]
    refine List.mem_mapIdx.mpr ⟨q.2, hj', ?_⟩
    rw [he, Arg.placed, ← hq]

theorem cellAt_arg {T : List Bsm} {ds : List Dynamic} {q : Nat × Nat} {b : Bsm} {c : Cell} {n : Bytes} {t : JType}
    (hb : T[q.1]? = some b) (hj : b.arguments[q.2]? = some (.dynamic c n t)) : cellAt T ds q = some c := by
  rw [cellAt]
  simp only [hb, hj]

theorem uses_entry {T : List Bsm} {ds : List Dynamic} {p q r : Nat × Nat} (h1 : Uses (readHeap T ds) p q)
    (h2 : Uses (readHeap T ds) q r) : UsesEntry T q.1 r.1 := by
  obtain ⟨k, b, c, n, t, _, hb, hq, hj⟩ := readHeap_uses.mp h1
  obtain ⟨k', b', _, _, _, hc, _, hr, _⟩ := readHeap_uses.mp h2
  rw [← hq] at hb
  rw [cellAt_arg hb hj] at hc
  cases hc
  exact ⟨b, k', n, t, hb, List.mem_of_getElem? hj, hr.symm⟩

theorem circular_of_chain {T : List Bsm} (g : Nat → Nat) (h : ∀ n, UsesEntry T (g n) (g (n + 1))) : Circular T := by
  apply Classical.byContradiction
  intro hc
  have hr : ∀ i d, Reaches T (g i) (g (i + d + 1)) := by
    intro i d
    induction d with
    | zero => exact .one (h i)
    | succ d ih => exact ih.trans (.one (h (i + d + 1)))
  have hlt : ∀ n, g n < T.length := by
    intro n
    obtain ⟨b, _, _, _, hb, _⟩ := h n
    exact (List.getElem?_eq_some_iff.mp hb).1
  have := nodup_below T.length ((List.range (T.length + 1)).map g) (by
      rw [List.Nodup, List.pairwise_map]
      refine List.pairwise_lt_range.imp ?_
      intro i j hij he
      refine hc ⟨g i, ?_⟩
      have := hr i (j - i - 1)
      rw [show i + (j - i - 1) + 1 = j by omega, ← he] at this
      exact this) (by
      intro x hx
      obtain ⟨i, _, rfl⟩ := List.mem_map.mp hx
      exact hlt i)
  rw [List.length_map, List.length_range] at this
  omega

theorem readHeap_ends {T : List Bsm} {ds : List Dynamic} (h : ¬ Circular T) (p : Nat × Nat) :
    ¬ Endless (readHeap T ds) p := by
  rintro ⟨f, _, hs⟩
  exact h (circular_of_chain (fun n => (f (n + 1)).1) fun n => uses_entry (hs n) (hs (n + 1)))

theorem readHeap_endless {T : List Bsm} {ds : List Dynamic} (h : Circular T) :
    ∃ p, p.1 < T.length ∧ Endless (readHeap T ds) p := by
  have hnext : ∀ i, Reaches T i i → ∃ j, UsesEntry T i j ∧ Reaches T j j := by
    intro i hi
    cases hi with
    | one h => exact ⟨i, h, .one h⟩
    | step h hs => exact ⟨_, h, hs.trans (.one h)⟩
  have hplace : ∀ i, Reaches T i i → ∃ p : Nat × Nat, p.1 = i ∧ ∃ k, cellAt T ds p = some (.pending k) ∧ Reaches T k.toNat k.toNat ∧
      ∃ b c n t, T[i]? = some b ∧ b.arguments[p.2]? = some (.dynamic c n t) := by
    intro i hi
    obtain ⟨j, ⟨b, k, n, t, hb, hm, hk⟩, hj⟩ := hnext i hi
    obtain ⟨m, hm⟩ := List.mem_iff_getElem?.mp hm
    exact ⟨(i, m), rfl, k, cellAt_arg hb hm, hk ▸ hj, b, _, n, t, hb, hm⟩
  obtain ⟨i, hi⟩ := h
  obtain ⟨p, hp, k, hk, hr, b, _, _, _, hb, _⟩ := hplace i hi
  refine ⟨p, by rw [hp]; exact (List.getElem?_eq_some_iff.mp hb).1, ?_⟩
  refine chain_of (P := fun p => ∃ k, cellAt T ds p = some (.pending k) ∧ Reaches T k.toNat k.toNat) ?_ ⟨k, hk, hr⟩
  rintro p ⟨k, hk, hr⟩
  obtain ⟨q, hq, k', hk', hr', b, c, n, t, hb, hj⟩ := hplace _ hr
  exact ⟨q, readHeap_uses.mpr ⟨k, b, c, n, t, hk, hb, hq, hj⟩, k', hk', hr'⟩

/-! ## Two classes -/

section
variable {α β : Type} {H : Heap α} {K : Heap β}

theorem uses_inl {a : α} {z : α ⊕ β} (h : Uses (H.both K) (.inl a) z) : ∃ b, z = .inl b ∧ Uses H a b := by
  obtain ⟨x, n, t, hx, hm⟩ := h
  rw [Heap.both] at hx
  obtain ⟨y, hy, rfl⟩ := Option.map_eq_some_iff.mp hx
  rw [HBsm.moved] at hm
  obtain ⟨u, hu, he⟩ := List.mem_map.mp hm
  cases u with
  | static c => cases he
  | dynamic d => cases he; exact ⟨d.cell, rfl, y, d.name, d.descriptor, hy, hu⟩

theorem uses_inr {b : β} {z : α ⊕ β} (h : Uses (H.both K) (.inr b) z) : ∃ c, z = .inr c ∧ Uses K b c := by
  obtain ⟨x, n, t, hx, hm⟩ := h
  rw [Heap.both] at hx
  obtain ⟨y, hy, rfl⟩ := Option.map_eq_some_iff.mp hx
  rw [HBsm.moved] at hm
  obtain ⟨u, hu, he⟩ := List.mem_map.mp hm
  cases u with
  | static c => cases he
  | dynamic d => cases he; exact ⟨d.cell, rfl, y, d.name, d.descriptor, hy, hu⟩

theorem acc_inl {a : α} (h : Acc (fun b a => Uses H a b) a) : Acc (fun b a => Uses (H.both K) a b) (.inl a) := by
  induction h with
  | intro a _ ih =>
    refine ⟨_, fun z hz => ?_⟩
    obtain ⟨b, rfl, hb⟩ := uses_inl hz
    exact ih b hb

theorem acc_inr {b : β} (h : Acc (fun b a => Uses K a b) b) : Acc (fun b a => Uses (H.both K) a b) (.inr b) := by
  induction h with
  | intro a _ ih =>
    refine ⟨_, fun z hz => ?_⟩
    obtain ⟨b, rfl, hb⟩ := uses_inr hz
    exact ih b hb

end

end Verif
