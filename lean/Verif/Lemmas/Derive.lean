import Verif.Spec.Derive
import Verif.Lemmas.Io
import Verif.Lemmas.Local

/-! # Lemmas about the derive macros -/

namespace Verif.Derive
open Verif.Spec

variable {K : Crate}

/-! ## Sequencing -/

theorem ins_bind {α β : Type} {x : Ins α} {f : α → Ins β} {cp cp'' : VecCp} {b : β} :
    (x >>= f) cp = .ok (b, cp'') ↔ ∃ a cp', x cp = .ok (a, cp') ∧ f a cp' = .ok (b, cp'') := by
  refine ⟨Ins.bind_ok, ?_⟩
  rintro ⟨a, cp', h1, h2⟩
  simp only [Bind.bind, Ins.bind, h1, h2]

theorem ins_pure {α : Type} {a b : α} {cp cp' : VecCp} :
    (pure a : Ins α) cp = .ok (b, cp') ↔ a = b ∧ cp = cp' := by
  show Except.ok (a, cp) = _ ↔ _
  simp

theorem rd_bind {α β : Type} {x : Rd α} {f : α → Rd β} {env : REnv} {st st'' : RSt} {bs bs'' : Bytes}
    {b : β} : Rd.bind x f env st bs = .ok (b, st'', bs'') ↔
      ∃ a st' bs', x env st bs = .ok (a, st', bs') ∧ f a env st' bs' = .ok (b, st'', bs'') := by
  unfold Rd.bind
  constructor
  · intro h
    split at h
    · rename_i a st' bs' e
      exact ⟨a, st', bs', e, h⟩
    · cases h
  · rintro ⟨a, st', bs', h1, h2⟩
    rw [h1]
    exact h2

theorem rd_map {α β : Type} {x : Rd α} {f : α → β} {env : REnv} {st st' : RSt} {bs bs' : Bytes}
    {b : β} : Rd.map f x env st bs = .ok (b, st', bs') ↔
      ∃ a, x env st bs = .ok (a, st', bs') ∧ b = f a := by
  unfold Rd.map
  rw [rd_bind]
  constructor
  · rintro ⟨a, st1, bs1, h1, h2⟩
    cases h2
    exact ⟨a, h1, rfl⟩
  · rintro ⟨a, h1, rfl⟩
    exact ⟨a, st', bs', h1, rfl⟩

theorem wSeq_cons {w : Ins Bytes} {ws : List (Ins Bytes)} {cp cp' : VecCp} {bs : Bytes} :
    wSeq (w :: ws) cp = .ok (bs, cp') ↔
      ∃ a cp1 b, w cp = .ok (a, cp1) ∧ wSeq ws cp1 = .ok (b, cp') ∧ bs = a ++ b := by
  rw [wSeq, ins_bind]
  constructor
  · rintro ⟨a, cp1, h1, h2⟩
    obtain ⟨b, cp2, h3, h4⟩ := ins_bind.mp h2
    obtain ⟨rfl, rfl⟩ := ins_pure.mp h4
    exact ⟨a, cp1, b, h1, h3, rfl⟩
  · rintro ⟨a, cp1, b, h1, h2, rfl⟩
    exact ⟨a, cp1, h1, ins_bind.mpr ⟨b, cp', h2, rfl⟩⟩

theorem wNum_ok {α : Type} {c : NumCodec α} {x : α} {cp cp' : VecCp} {bs : Bytes} :
    wNum c x cp = .ok (bs, cp') ↔ bs = c.write x ∧ cp' = cp := by
  unfold wNum
  rw [ins_pure]
  exact ⟨fun h => ⟨h.1.symm, h.2.symm⟩, fun h => ⟨h.1.symm, h.2.symm⟩⟩

theorem toBe_eq (n v : Nat) : toBe n v = bigEndian n v := by
  induction n with
  | zero => rfl
  | succ n ih =>
    rw [toBe, ih]
    unfold bigEndian
    rw [List.range_succ_eq_map, List.map_cons, List.map_map]
    congr 1
    apply List.map_congr_left
    intro k hk
    have := List.mem_range.mp hk
    simp only [Function.comp]
    congr 3
    omega

theorem length_bigEndian (n v : Nat) : (bigEndian n v).length = n := by
  rw [← toBe_eq]; exact toBe_length n v

/-- Reading a number of some bytes. -/
theorem rNum_nat {ty : IntTy} {env : REnv} {st st' : RSt} {bs rest : Bytes} {n : Nat} :
    rNum ty.codec env st bs = .ok (n, st', rest) ↔
      n < 256 ^ ty.size ∧ bs = bigEndian ty.size n ++ rest ∧ st' = st := by
  unfold rNum Rd.lift NumCodec.read readExact
  simp only [show ty.codec.size = ty.size from rfl, show ∀ m, ty.codec.ofBits m = m from fun _ => rfl]
  constructor
  · intro h
    by_cases hl : ty.size ≤ bs.length
    · rw [if_pos hl] at h
      cases h
      have h1 : (bs.take ty.size).length = ty.size := by rw [List.length_take]; omega
      have h2 := fromBe_lt (bs.take ty.size)
      have h3 := toBe_fromBe (bs.take ty.size)
      rw [h1] at h2 h3
      exact ⟨h2, by rw [← toBe_eq, h3, List.take_append_drop], rfl⟩
    · rw [if_neg hl] at h
      cases h
  · rintro ⟨h1, rfl, rfl⟩
    have hl := length_bigEndian ty.size n
    rw [if_pos (by simp [hl]), List.take_left' hl, List.drop_left' hl]
    simp only
    rw [← toBe_eq, fromBe_toBe, Nat.mod_eq_of_lt h1]

theorem limit_le (ty : IntTy) : ty.limit ≤ 256 ^ ty.size := by
  cases ty <;> decide

/-! ## Fields -/

theorem resolve_declared (f : FieldDecl K) : resolve f.ty f.as_ = declared f := by
  unfold resolve declared
  cases f.as_ <;> rfl

theorem wFields_spec : ∀ (fs : List (FieldDecl K)) (w : Tuple K fs → List (Ins Bytes)),
    wFields fs (config fs) = some w → ∀ (x : Tuple K fs) (cp : VecCp) (bs : Bytes) (cp' : VecCp),
      wSeq (w x) cp = .ok (bs, cp') ↔ FieldsWritten fs x cp bs cp'
  | [], w, h, x, cp, bs, cp' => by
    cases h
    cases x
    constructor
    · intro h
      obtain ⟨rfl, rfl⟩ := ins_pure.mp h
      exact .nil
    · intro h
      cases h
      rfl
  | f :: fs, w, h, x, cp, bs, cp' => by
    simp only [config, List.map_cons, wFields, Option.bind_eq_bind, Option.bind_eq_some_iff] at h
    obtain ⟨i, hi, k, hk, e⟩ := h
    cases e
    rw [resolve_declared] at hi
    obtain ⟨a, y⟩ := x
    rw [wSeq_cons]
    constructor
    · rintro ⟨b, cp1, c, h1, h2, rfl⟩
      exact .cons hi h1 ((wFields_spec fs k hk y cp1 c cp').mp h2)
    · intro h
      cases h with
      | cons hi' h1 h2 =>
        rw [hi] at hi'
        cases hi'
        exact ⟨_, _, _, h1, (wFields_spec fs k hk y _ _ cp').mpr h2, rfl⟩

theorem rFields_spec (env : REnv) : ∀ (fs : List (FieldDecl K)) (r : Rd (Tuple K fs)),
    rFields fs (config fs) = some r → ∀ (st : RSt) (bs : Bytes) (x : Tuple K fs) (st' : RSt)
      (rest : Bytes), r env st bs = .ok (x, st', rest) ↔ FieldsRead env fs st bs x st' rest
  | [], r, h, st, bs, x, st', rest => by
    cases h
    cases x
    constructor
    · intro h
      cases h
      exact .nil
    · intro h
      cases h
      rfl
  | f :: fs, r, h, st, bs, x, st', rest => by
    simp only [config, List.map_cons, rFields, Option.bind_eq_bind, Option.bind_eq_some_iff] at h
    obtain ⟨i, hi, k, hk, e⟩ := h
    cases e
    rw [resolve_declared] at hi
    obtain ⟨a, y⟩ := x
    refine rd_bind.trans ?_
    constructor
    · rintro ⟨b, st1, bs1, h1, h2⟩
      obtain ⟨c, h3, e⟩ := rd_map.mp h2
      cases e
      exact .cons hi h1 ((rFields_spec env fs k hk st1 bs1 y st' rest).mp h3)
    · intro h
      cases h with
      | cons hi' h1 h2 =>
        rw [hi] at hi'
        cases hi'
        exact ⟨_, _, _, h1, rd_map.mpr ⟨_, (rFields_spec env fs k hk _ _ y st' rest).mpr h2, rfl⟩⟩

theorem wFields_isSome (fs : List (FieldDecl K)) :
    (wFields fs (config fs)).isSome ↔ Compiles fs := by
  induction fs with
  | nil => simp [wFields, config, Compiles]
  | cons f fs ih =>
    simp only [config, List.map_cons, wFields, resolve_declared, Option.bind_eq_bind]
    unfold Compiles at *
    simp only [List.forall_mem_cons]
    rw [← ih]
    cases hd : declared f with
    | none => simp
    | some i =>
      simp only [Option.bind_some, Option.isSome_some, true_and]
      cases hw : wFields fs (config fs) with
      | none => rw [config] at hw; rw [hw]; simp
      | some k => rw [config] at hw; rw [hw]; simp

theorem rFields_isSome (fs : List (FieldDecl K)) :
    (rFields fs (config fs)).isSome ↔ Compiles fs := by
  induction fs with
  | nil => simp [rFields, config, Compiles]
  | cons f fs ih =>
    simp only [config, List.map_cons, rFields, resolve_declared, Option.bind_eq_bind]
    unfold Compiles at *
    simp only [List.forall_mem_cons]
    rw [← ih]
    cases hd : declared f with
    | none => simp
    | some i =>
      simp only [Option.bind_some, Option.isSome_some, true_and]
      cases hw : rFields fs (config fs) with
      | none => rw [config] at hw; rw [hw]; simp
      | some k => rw [config] at hw; rw [hw]; simp

/-! ## Tags -/

/-- Every discriminant that counts is an integer literal. -/
def Literal (vs : List (VariantDecl K)) : Prop :=
  ∀ v ∈ vs, v.tag = none → ∀ n, v.disc ≠ some (.expr n)

/-- `docTag` where the first variant without a tag of its own has the tag `fb`. -/
def docTagFrom (fb : Nat) (vs : List (VariantDecl K)) : Nat → Nat
  | 0 => ((vs[0]?).bind ownTag).getD fb
  | i + 1 => ((vs[i + 1]?).bind ownTag).getD (docTagFrom fb vs i + 1)

theorem docTagFrom_zero (vs : List (VariantDecl K)) (i : Nat) : docTagFrom 0 vs i = docTag vs i := by
  induction i with
  | zero => rfl
  | succ i ih => rw [docTagFrom, docTag, ih]

theorem docTagFrom_cons (fb : Nat) (v : VariantDecl K) (vs : List (VariantDecl K)) (i : Nat) :
    docTagFrom fb (v :: vs) (i + 1) = docTagFrom (docTagFrom fb (v :: vs) 0 + 1) vs i := by
  induction i with
  | zero => simp [docTagFrom]
  | succ i ih =>
    rw [docTagFrom.eq_2 fb, ih, docTagFrom.eq_2 _ vs, List.getElem?_cons_succ]

theorem length_tags (fb : Nat) (vs : List (VariantDecl K)) : (tags fb vs).length = vs.length := by
  induction vs generalizing fb with
  | nil => rfl
  | cons v vs ih => simp [tags, ih]

theorem tags_spec (vs : List (VariantDecl K)) (h : Literal vs) (fb i : Nat) (hi : i < vs.length) :
    (tags fb vs)[i]? = some (docTagFrom fb vs i) := by
  induction vs generalizing fb i with
  | nil => simp at hi
  | cons v vs ih =>
    have hv := h v (by simp)
    have h0 : (match v.tag with
      | some t => t
      | none => match v.disc with
        | some (.lit n) => n
        | _ => fb) = docTagFrom fb (v :: vs) 0 := by
      simp only [docTagFrom, List.getElem?_cons_zero, Option.bind_some, ownTag]
      cases ht : v.tag with
      | some t => rfl
      | none =>
        cases hd : v.disc with
        | none => rfl
        | some d =>
          cases d with
          | lit n => rfl
          | expr n => exact absurd hd (hv ht n)
    cases i with
    | zero =>
      rw [tags, List.getElem?_cons_zero]
      exact congrArg some h0
    | succ i =>
      rw [tags, List.getElem?_cons_succ, docTagFrom_cons,
        ih (fun w hw => h w (by simp [hw])) _ _ (by simpa using hi)]
      exact congrArg (fun t => some (docTagFrom (t + 1) vs i)) h0

theorem tags_doc (vs : List (VariantDecl K)) (h : Literal vs) (i : Nat) (hi : i < vs.length) :
    (tags 0 vs)[i]? = some (docTag vs i) := by
  rw [tags_spec vs h 0 i hi, docTagFrom_zero]

/-! ## Enums -/

theorem length_ctors (vs : List (VariantDecl K)) : (ctors vs).length = vs.length := by
  induction vs with
  | nil => rfl
  | cons v vs ih => simp [ctors, ih]

theorem ctors_cons_succ {v : VariantDecl K} {vs : List (VariantDecl K)} {i : Nat}
    {c : (w : VariantDecl K) × (Tuple K w.fields → Sum K (v :: vs))} :
    (ctors (v :: vs))[i + 1]? = some c ↔
      ∃ d, (ctors vs)[i]? = some d ∧ c = ⟨d.1, fun t => Sum.inr (d.2 t)⟩ := by
  rw [ctors, List.getElem?_cons_succ, List.getElem?_map]
  cases (ctors vs)[i]? with
  | none => simp
  | some d => simp [eq_comm]

theorem ctors_surjective : ∀ (vs : List (VariantDecl K)) (y : Sum K vs),
    ∃ (i : Nat) (v : VariantDecl K) (c : Tuple K v.fields → Sum K vs) (x : Tuple K v.fields),
      (ctors vs)[i]? = some ⟨v, c⟩ ∧ y = c x
  | [], y => nomatch y
  | v :: vs, .inl x => ⟨0, v, Sum.inl, x, rfl, rfl⟩
  | v :: vs, .inr y => by
    obtain ⟨i, w, c, x, h, rfl⟩ := ctors_surjective vs y
    exact ⟨i + 1, w, _, x, ctors_cons_succ.mpr ⟨_, h, rfl⟩, rfl⟩

theorem ctors_variant : ∀ (vs : List (VariantDecl K)) (i : Nat) (v : VariantDecl K)
    (c : Tuple K v.fields → Sum K vs), (ctors vs)[i]? = some ⟨v, c⟩ → vs[i]? = some v
  | [], i, v, c, h => by simp [ctors] at h
  | w :: vs, 0, v, c, h => by
    simp only [ctors, List.getElem?_cons_zero, Option.some.injEq] at h
    cases h
    rfl
  | w :: vs, i + 1, v, c, h => by
    obtain ⟨⟨u, d⟩, hd, e⟩ := ctors_cons_succ.mp h
    cases e
    exact ctors_variant vs i _ d hd

theorem wArms_spec (ty : IntTy) : ∀ (vs : List (VariantDecl K)) (ts : List Nat)
    (w : Sum K vs → Ins Bytes), wArms ty vs ts = some w →
    ∀ (i : Nat) (v : VariantDecl K) (c : Tuple K v.fields → Sum K vs) (t : Nat),
      (ctors vs)[i]? = some ⟨v, c⟩ → ts[i]? = some t →
      ∀ (x : Tuple K v.fields) (cp : VecCp) (bs : Bytes) (cp' : VecCp),
        w (c x) cp = .ok (bs, cp') ↔
          ∃ b, bs = bigEndian ty.size t ++ b ∧ FieldsWritten v.fields x cp b cp'
  | [], ts, w, h, i, v, c, t, hc => by simp [ctors] at hc
  | u :: vs, [], w, h, i, v, c, t, hc => by simp [wArms] at h
  | u :: vs, t0 :: ts, w, h, i, v, c, t, hc => by
    intro ht x cp bs cp'
    simp only [wArms, Option.bind_eq_bind, Option.bind_eq_some_iff] at h
    obtain ⟨wf, hf, k, hk, e⟩ := h
    cases e
    cases i with
    | zero =>
      simp only [ctors, List.getElem?_cons_zero, Option.some.injEq] at hc ht
      cases hc
      subst ht
      show wSeq (wNum ty.codec t0 :: wf x) cp = _ ↔ _
      rw [wSeq_cons]
      constructor
      · rintro ⟨a, cp1, b, h1, h2, rfl⟩
        obtain ⟨rfl, rfl⟩ := wNum_ok.mp h1
        exact ⟨b, by rw [← toBe_eq]; rfl, (wFields_spec _ wf hf x _ _ _).mp h2⟩
      · rintro ⟨b, rfl, h2⟩
        exact ⟨_, cp, b, wNum_ok.mpr ⟨rfl, rfl⟩, (wFields_spec _ wf hf x _ _ _).mpr h2,
          by rw [← toBe_eq]; rfl⟩
    | succ i =>
      obtain ⟨⟨u', d⟩, hd, e⟩ := ctors_cons_succ.mp hc
      cases e
      rw [List.getElem?_cons_succ] at ht
      exact wArms_spec ty vs ts k hk i _ d t hd ht x cp bs cp'

theorem rArms_spec (env : REnv) : ∀ (vs : List (VariantDecl K)) (ts : List Nat)
    (r : Nat → Rd (Sum K vs)), rArms vs ts = some r →
    ∀ (n : Nat) (st : RSt) (bs : Bytes) (y : Sum K vs) (st' : RSt) (rest : Bytes),
      r n env st bs = .ok (y, st', rest) ↔
        ∃ (i : Nat) (v : VariantDecl K) (c : Tuple K v.fields → Sum K vs) (x : Tuple K v.fields),
          (ctors vs)[i]? = some ⟨v, c⟩ ∧ ts[i]? = some n ∧ (∀ j < i, ts[j]? ≠ some n) ∧
          y = c x ∧ FieldsRead env v.fields st bs x st' rest
  | [], ts, r, h, n, st, bs, y, st', rest => nomatch y
  | u :: vs, [], r, h, n, st, bs, y, st', rest => by simp [rArms] at h
  | u :: vs, t0 :: ts, r, h, n, st, bs, y, st', rest => by
    simp only [rArms, Option.bind_eq_bind, Option.bind_eq_some_iff] at h
    obtain ⟨rf, hf, k, hk, e⟩ := h
    cases e
    have ih := rArms_spec env vs ts k hk n st bs
    by_cases hn : n = t0
    · subst hn
      show (if n = n then _ else _ : Rd _) env st bs = _ ↔ _
      rw [if_pos rfl]
      refine rd_map.trans ?_
      constructor
      · rintro ⟨x, h1, rfl⟩
        exact ⟨0, u, Sum.inl, x, rfl, rfl, by simp, rfl, (rFields_spec env _ rf hf _ _ _ _ _).mp h1⟩
      · rintro ⟨i, v, c, x, hc, ht, hj, rfl, h1⟩
        cases i with
        | zero =>
          simp only [ctors, List.getElem?_cons_zero, Option.some.injEq] at hc
          cases hc
          exact ⟨x, (rFields_spec env _ rf hf _ _ _ _ _).mpr h1, rfl⟩
        | succ i => exact absurd rfl (hj 0 (by omega))
    · show (if n = t0 then _ else _ : Rd _) env st bs = _ ↔ _
      rw [if_neg hn]
      refine rd_map.trans ?_
      constructor
      · rintro ⟨z, h1, rfl⟩
        obtain ⟨i, v, c, x, hc, ht, hj, rfl, h2⟩ := (ih z st' rest).mp h1
        refine ⟨i + 1, v, _, x, ctors_cons_succ.mpr ⟨_, hc, rfl⟩, by simpa using ht, ?_, rfl, h2⟩
        intro j hlt
        cases j with
        | zero => simp; exact fun e => hn e.symm
        | succ j => rw [List.getElem?_cons_succ]; exact hj j (by omega)
      · rintro ⟨i, v, c, x, hc, ht, hj, rfl, h1⟩
        cases i with
        | zero => simp at ht; exact absurd ht.symm hn
        | succ i =>
          obtain ⟨⟨u', d⟩, hd, e⟩ := ctors_cons_succ.mp hc
          cases e
          refine ⟨d x, (ih _ _ _).mpr ⟨i, _, d, x, hd, by simpa using ht, ?_, rfl, h1⟩, rfl⟩
          intro j hlt
          have := hj (j + 1) (by omega)
          rwa [List.getElem?_cons_succ] at this

theorem rArms_unknown (env : REnv) : ∀ (vs : List (VariantDecl K)) (ts : List Nat)
    (r : Nat → Rd (Sum K vs)), ts.length = vs.length → rArms vs ts = some r → ∀ (n : Nat), n ∉ ts →
      ∀ (st : RSt) (bs : Bytes), r n env st bs = .error .invalid
  | [], ts, r, hl, h, n, hn, st, bs => by cases h; rfl
  | u :: vs, [], r, hl, h, n, hn, st, bs => by simp [rArms] at h
  | u :: vs, t0 :: ts, r, hl, h, n, hn, st, bs => by
    simp only [rArms, Option.bind_eq_bind, Option.bind_eq_some_iff] at h
    obtain ⟨rf, hf, k, hk, e⟩ := h
    cases e
    simp only [List.mem_cons, not_or] at hn
    show (if n = t0 then _ else _ : Rd _) env st bs = _
    rw [if_neg hn.1]
    unfold Rd.map Rd.bind
    rw [rArms_unknown env vs ts k (by simpa using hl) hk n hn.2]

theorem wArms_isSome (ty : IntTy) : ∀ (vs : List (VariantDecl K)) (ts : List Nat),
    ts.length = vs.length → ((wArms ty vs ts).isSome ↔ ∀ v ∈ vs, Compiles v.fields)
  | [], _, _ => by simp [wArms]
  | u :: vs, [], h => by simp at h
  | u :: vs, t :: ts, h => by
    have ih := wArms_isSome ty vs ts (by simpa using h)
    rw [List.forall_mem_cons, ← ih, ← wFields_isSome, wArms]
    cases wFields u.fields (config u.fields) with
    | none => simp
    | some w => cases wArms ty vs ts <;> simp

theorem rArms_isSome : ∀ (vs : List (VariantDecl K)) (ts : List Nat),
    ts.length = vs.length → ((rArms vs ts).isSome ↔ ∀ v ∈ vs, Compiles v.fields)
  | [], _, _ => by simp [rArms]
  | u :: vs, [], h => by simp at h
  | u :: vs, t :: ts, h => by
    have ih := rArms_isSome vs ts (by simpa using h)
    rw [List.forall_mem_cons, ← ih, ← rFields_isSome, rArms]
    cases rFields u.fields (config u.fields) with
    | none => simp
    | some w => cases rArms vs ts <;> simp

/-! ## Attribute enums -/

theorem attrCtors_cons_succ {v : AttrDecl K} {vs : List (AttrDecl K)} {i : Nat}
    {c : (w : AttrDecl K) × (w.Val → AttrSum K (v :: vs))} :
    (attrCtors (v :: vs))[i + 1]? = some c ↔
      ∃ d, (attrCtors vs)[i]? = some d ∧ c = ⟨d.1, fun t => Sum.inr (d.2 t)⟩ := by
  rw [attrCtors, List.getElem?_cons_succ, List.getElem?_map]
  cases (attrCtors vs)[i]? with
  | none => simp
  | some d => simp [eq_comm]

theorem attrCtors_surjective : ∀ (vs : List (AttrDecl K)) (y : AttrSum K vs),
    ∃ (i : Nat) (v : AttrDecl K) (c : v.Val → AttrSum K vs) (x : v.Val),
      (attrCtors vs)[i]? = some ⟨v, c⟩ ∧ y = c x
  | [], y => nomatch y
  | v :: vs, .inl x => ⟨0, v, Sum.inl, x, rfl, rfl⟩
  | v :: vs, .inr y => by
    obtain ⟨i, w, c, x, h, rfl⟩ := attrCtors_surjective vs y
    exact ⟨i + 1, w, _, x, attrCtors_cons_succ.mpr ⟨_, h, rfl⟩, rfl⟩

theorem attrCtors_variant : ∀ (vs : List (AttrDecl K)) (i : Nat) (v : AttrDecl K)
    (c : v.Val → AttrSum K vs), (attrCtors vs)[i]? = some ⟨v, c⟩ → vs[i]? = some v
  | [], i, v, c, h => by simp [attrCtors] at h
  | w :: vs, 0, v, c, h => by
    simp only [attrCtors, List.getElem?_cons_zero, Option.some.injEq] at h
    cases h
    rfl
  | w :: vs, i + 1, v, c, h => by
    obtain ⟨⟨u, d⟩, hd, e⟩ := attrCtors_cons_succ.mp h
    cases e
    exact attrCtors_variant vs i _ d hd

theorem u4_mod (n : Nat) : u32.write (UInt32.ofNat n) = U4 (n % 4294967296) := by
  rw [u32_write]
  congr 1

/-- Name, length, content. -/
theorem wAttr_ok {name : Bytes} {w : Ins Bytes} {cp cp' : VecCp} {bs : Bytes} :
    wAttr name w cp = .ok (bs, cp') ↔ ∃ (k : UInt16) (cp1 : VecCp) (b : Bytes),
      insertWtf8 name cp = .ok (k, cp1) ∧ w cp1 = .ok (b, cp') ∧
        bs = U2 k.toNat ++ U4 (b.length % 4294967296) ++ b := by
  unfold wAttr
  rw [ins_bind]
  constructor
  · rintro ⟨k, cp1, h1, h2⟩
    obtain ⟨b, cp2, h3, h4⟩ := ins_bind.mp h2
    obtain ⟨rfl, rfl⟩ := ins_pure.mp h4
    exact ⟨k, cp1, b, h1, h3, by rw [u16_write, u4_mod]⟩
  · rintro ⟨k, cp1, b, h1, h2, rfl⟩
    exact ⟨k, cp1, h1, ins_bind.mpr ⟨b, cp', h2, ins_pure.mpr ⟨by rw [u16_write, u4_mod], rfl⟩⟩⟩

theorem wRaw_ok {a : RawAttribute} {cp cp' : VecCp} {bs : Bytes} :
    wRaw a cp = .ok (bs, cp') ↔ ∃ k : UInt16, insertWtf8 a.name cp = .ok (k, cp') ∧
      bs = U2 k.toNat ++ U4 (a.inner.length % 4294967296) ++ a.inner := by
  unfold wRaw
  rw [ins_bind]
  constructor
  · rintro ⟨k, cp1, h1, h2⟩
    obtain ⟨rfl, rfl⟩ := ins_pure.mp h2
    exact ⟨k, h1, by rw [u16_write, u4_mod]⟩
  · rintro ⟨k, h1, rfl⟩
    exact ⟨k, cp', h1, ins_pure.mpr ⟨by rw [u16_write, u4_mod], rfl⟩⟩

theorem wAttrArms_known : ∀ (vs : List (AttrDecl K)) (w : AttrSum K vs → Ins Bytes),
    wAttrArms vs (vs.map AttrDecl.config) = some w →
    ∀ (i : Nat) (name : Bytes) (fs : List (FieldDecl K)) (c : Tuple K fs → AttrSum K vs),
      (attrCtors vs)[i]? = some ⟨(⟨name, some fs⟩ : AttrDecl K), c⟩ →
      ∀ (x : Tuple K fs) (cp : VecCp) (bs : Bytes) (cp' : VecCp),
        w (c x) cp = .ok (bs, cp') ↔ ∃ (k : UInt16) (cp1 : VecCp) (b : Bytes),
          insertWtf8 name cp = .ok (k, cp1) ∧ FieldsWritten fs x cp1 b cp' ∧
            bs = U2 k.toNat ++ U4 (b.length % 4294967296) ++ b
  | [], w, h, i, name, fs, c, hc => by simp [attrCtors] at hc
  | ⟨n0, none⟩ :: vs, w, h, i, name, fs, c, hc => by
    intro x cp bs cp'
    simp only [List.map_cons, wAttrArms, Option.bind_eq_bind, Option.bind_eq_some_iff] at h
    obtain ⟨k, hk, e⟩ := h
    cases e
    cases i with
    | zero =>
      simp only [attrCtors, List.getElem?_cons_zero, Option.some.injEq] at hc
      cases hc
    | succ i =>
      obtain ⟨⟨u', d⟩, hd, e⟩ := attrCtors_cons_succ.mp hc
      cases e
      exact wAttrArms_known vs k hk i name fs d hd x cp bs cp'
  | ⟨n0, some fs0⟩ :: vs, w, h, i, name, fs, c, hc => by
    intro x cp bs cp'
    simp only [List.map_cons, wAttrArms, Option.bind_eq_bind, Option.bind_eq_some_iff] at h
    obtain ⟨wf, hf, k, hk, e⟩ := h
    cases e
    cases i with
    | zero =>
      simp only [attrCtors, List.getElem?_cons_zero, Option.some.injEq] at hc
      cases hc
      show wAttr n0 (wSeq (wf x)) cp = _ ↔ _
      rw [wAttr_ok]
      have hs := wFields_spec fs0 wf hf x
      constructor
      · rintro ⟨k, cp1, b, h1, h2, h3⟩
        exact ⟨k, cp1, b, h1, (hs _ _ _).mp h2, h3⟩
      · rintro ⟨k, cp1, b, h1, h2, h3⟩
        exact ⟨k, cp1, b, h1, (hs _ _ _).mpr h2, h3⟩
    | succ i =>
      obtain ⟨⟨u', d⟩, hd, e⟩ := attrCtors_cons_succ.mp hc
      cases e
      exact wAttrArms_known vs k hk i name fs d hd x cp bs cp'

theorem wAttrArms_raw : ∀ (vs : List (AttrDecl K)) (w : AttrSum K vs → Ins Bytes),
    wAttrArms vs (vs.map AttrDecl.config) = some w →
    ∀ (i : Nat) (name : Bytes) (c : RawAttribute → AttrSum K vs),
      (attrCtors vs)[i]? = some ⟨⟨name, none⟩, c⟩ → ∀ a, w (c a) = wRaw a
  | [], w, h, i, name, c, hc => by simp [attrCtors] at hc
  | ⟨n0, none⟩ :: vs, w, h, i, name, c, hc => by
    intro a
    simp only [List.map_cons, wAttrArms, Option.bind_eq_bind, Option.bind_eq_some_iff] at h
    obtain ⟨k, hk, e⟩ := h
    cases e
    cases i with
    | zero =>
      simp only [attrCtors, List.getElem?_cons_zero, Option.some.injEq] at hc
      cases hc
      rfl
    | succ i =>
      obtain ⟨⟨u', d⟩, hd, e⟩ := attrCtors_cons_succ.mp hc
      cases e
      exact wAttrArms_raw vs k hk i name d hd a
  | ⟨n0, some fs0⟩ :: vs, w, h, i, name, c, hc => by
    intro a
    simp only [List.map_cons, wAttrArms, Option.bind_eq_bind, Option.bind_eq_some_iff] at h
    obtain ⟨wf, hf, k, hk, e⟩ := h
    cases e
    cases i with
    | zero =>
      simp only [attrCtors, List.getElem?_cons_zero, Option.some.injEq] at hc
      cases hc
    | succ i =>
      obtain ⟨⟨u', d⟩, hd, e⟩ := attrCtors_cons_succ.mp hc
      cases e
      exact wAttrArms_raw vs k hk i name d hd a

/-- Nothing follows the raw variant. -/
def RawLast : List (AttrDecl K) → Prop
  | [] => True
  | v :: vs => (v.fields = none → vs = []) ∧ RawLast vs

theorem rawCtor_spec : ∀ (vs : List (AttrDecl K)) (raw : RawAttribute → AttrSum K vs),
    rawCtor vs = some raw → ∀ (i : Nat) (name : Bytes) (c : RawAttribute → AttrSum K vs),
      (attrCtors vs)[i]? = some ⟨⟨name, none⟩, c⟩ → c = raw
  | [], raw, h, i, name, c, hc => by simp [attrCtors] at hc
  | ⟨n0, none⟩ :: vs, raw, h, i, name, c, hc => by
    rw [rawCtor] at h
    split at h
    · rename_i ha
      cases h
      cases i with
      | zero =>
        simp only [attrCtors, List.getElem?_cons_zero, Option.some.injEq] at hc
        cases hc
        rfl
      | succ i =>
        have := attrCtors_variant _ _ _ _ hc
        rw [List.getElem?_cons_succ] at this
        have := List.all_eq_true.mp ha _ (List.mem_of_getElem? this)
        simp at this
    · cases h
  | ⟨n0, some fs⟩ :: vs, raw, h, i, name, c, hc => by
    simp only [rawCtor, Option.bind_eq_bind, Option.bind_eq_some_iff] at h
    obtain ⟨k, hk, e⟩ := h
    cases e
    cases i with
    | zero =>
      simp only [attrCtors, List.getElem?_cons_zero, Option.some.injEq] at hc
      cases hc
    | succ i =>
      obtain ⟨⟨u', d⟩, hd, e⟩ := attrCtors_cons_succ.mp hc
      cases e
      obtain rfl := rawCtor_spec vs k hk i name d hd
      rfl

theorem rawCtor_exists : ∀ (vs : List (AttrDecl K)) (raw : RawAttribute → AttrSum K vs),
    rawCtor vs = some raw → ∃ (i : Nat) (name : Bytes),
      (attrCtors vs)[i]? = some ⟨(⟨name, none⟩ : AttrDecl K), raw⟩
  | [], raw, h => by simp [rawCtor] at h
  | ⟨n0, none⟩ :: vs, raw, h => by
    rw [rawCtor] at h
    split at h
    · cases h
      exact ⟨0, n0, rfl⟩
    · cases h
  | ⟨n0, some fs⟩ :: vs, raw, h => by
    simp only [rawCtor, Option.bind_eq_bind, Option.bind_eq_some_iff] at h
    obtain ⟨k, hk, e⟩ := h
    cases e
    obtain ⟨i, name, hd⟩ := rawCtor_exists vs k hk
    exact ⟨i + 1, name, attrCtors_cons_succ.mpr ⟨_, hd, rfl⟩⟩

theorem attrNames_cons_none (n0 : Bytes) (vs : List (AttrDecl K)) :
    attrNames (⟨n0, none⟩ :: vs) = attrNames vs := by simp [attrNames]

theorem attrNames_cons_some (n0 : Bytes) (fs : List (FieldDecl K)) (vs : List (AttrDecl K)) :
    attrNames (⟨n0, some fs⟩ :: vs) = n0 :: attrNames vs := by simp [attrNames]

theorem attrCtors_name (vs : List (AttrDecl K)) (i : Nat) (name : Bytes) (fs : List (FieldDecl K))
    (c : Tuple K fs → AttrSum K vs) (h : (attrCtors vs)[i]? = some ⟨(⟨name, some fs⟩ : AttrDecl K), c⟩) :
    name ∈ attrNames vs := by
  have := List.mem_of_getElem? (attrCtors_variant vs i (⟨name, some fs⟩ : AttrDecl K) c h)
  unfold attrNames
  rw [List.mem_map]
  exact ⟨_, List.mem_filter.mpr ⟨this, rfl⟩, rfl⟩

/-- The reader that is chosen for a name. -/
theorem rAttrArms_spec : ∀ (vs : List (AttrDecl K)) (r : Bytes → Option (Rd (AttrSum K vs))),
    RawLast vs → (attrNames vs).Nodup → rAttrArms vs (vs.map AttrDecl.config) = some r →
    ∀ (name : Bytes) (rd : Rd (AttrSum K vs)), r name = some rd ↔
      ∃ (i : Nat) (fs : List (FieldDecl K)) (c : Tuple K fs → AttrSum K vs) (rf : Rd (Tuple K fs)),
        (attrCtors vs)[i]? = some ⟨(⟨name, some fs⟩ : AttrDecl K), c⟩ ∧
        rFields fs (config fs) = some rf ∧ rd = Rd.map c rf
  | [], r, hl, hn, h, name, rd => by
    cases h
    simp [attrCtors]
  | ⟨n0, none⟩ :: vs, r, hl, hn, h, name, rd => by
    obtain ⟨h1, h2⟩ := hl
    obtain rfl := h1 rfl
    simp only [List.map_cons, List.map_nil, rAttrArms, Option.bind_eq_bind, Option.bind_some,
      Option.some.injEq] at h
    subst h
    simp only [Option.map_none]
    constructor
    · intro h; cases h
    · rintro ⟨i, fs, c, rf, hc, _⟩
      cases i with
      | zero =>
        simp only [attrCtors, List.getElem?_cons_zero, Option.some.injEq] at hc
        cases hc
      | succ i => simp [attrCtors] at hc
  | ⟨n0, some fs0⟩ :: vs, r, hl, hn, h, name, rd => by
    simp only [List.map_cons, rAttrArms, Option.bind_eq_bind, Option.bind_eq_some_iff] at h
    obtain ⟨rf, hf, k, hk, e⟩ := h
    cases e
    rw [attrNames_cons_some, List.nodup_cons] at hn
    have ih := rAttrArms_spec vs k hl.2 hn.2 hk name
    by_cases he : name = n0
    · subst he
      show (if name = name then _ else _ : Option _) = _ ↔ _
      rw [if_pos rfl]
      constructor
      · intro h
        cases h
        exact ⟨0, fs0, Sum.inl, rf, rfl, hf, rfl⟩
      · rintro ⟨i, fs, c, rf', hc, hf', rfl⟩
        cases i with
        | zero =>
          simp only [attrCtors, List.getElem?_cons_zero, Option.some.injEq] at hc
          cases hc
          change rFields fs0 (config fs0) = _ at hf
          rw [hf] at hf'
          cases hf'
          rfl
        | succ i =>
          obtain ⟨⟨u', d⟩, hd, e⟩ := attrCtors_cons_succ.mp hc
          cases e
          exact absurd (attrCtors_name vs i _ _ d hd) hn.1
    · show (if name = n0 then _ else _ : Option _) = _ ↔ _
      rw [if_neg he]
      constructor
      · intro h
        obtain ⟨rd', h1, rfl⟩ := Option.map_eq_some_iff.mp h
        obtain ⟨i, fs, c, rf', hc, hf', rfl⟩ := (ih rd').mp h1
        refine ⟨i + 1, fs, _, rf', attrCtors_cons_succ.mpr ⟨_, hc, rfl⟩, hf', ?_⟩
        funext env st bs
        unfold Rd.map Rd.bind
        cases rf' env st bs with
        | error e => rfl
        | ok p => rfl
      · rintro ⟨i, fs, c, rf', hc, hf', rfl⟩
        cases i with
        | zero =>
          simp only [attrCtors, List.getElem?_cons_zero, Option.some.injEq] at hc
          cases hc
          exact absurd rfl he
        | succ i =>
          obtain ⟨⟨u', d⟩, hd, e⟩ := attrCtors_cons_succ.mp hc
          cases e
          refine Option.map_eq_some_iff.mpr ⟨Rd.map d rf', (ih _).mpr ⟨i, fs, d, rf', hd, hf', rfl⟩, ?_⟩
          funext env st bs
          unfold Rd.map Rd.bind
          cases rf' env st bs with
          | error e => rfl
          | ok p => rfl

theorem rAttrArms_none : ∀ (vs : List (AttrDecl K)) (cfg : List (List (Option K.Helper)))
    (r : Bytes → Option (Rd (AttrSum K vs))), rAttrArms vs cfg = some r →
    ∀ (name : Bytes), r name = none ↔ name ∉ attrNames vs
  | [], cfg, r, h, name => by cases h; simp [attrNames]
  | ⟨n0, none⟩ :: vs, cfg, r, h, name => by
    simp only [rAttrArms, Option.bind_eq_bind, Option.bind_eq_some_iff] at h
    obtain ⟨k, hk, e⟩ := h
    cases e
    rw [Option.map_eq_none_iff, attrNames_cons_none]
    exact rAttrArms_none vs cfg k hk name
  | ⟨n0, some fs⟩ :: vs, [], r, h, name => by simp [rAttrArms] at h
  | ⟨n0, some fs⟩ :: vs, c :: cfg, r, h, name => by
    simp only [rAttrArms, Option.bind_eq_bind, Option.bind_eq_some_iff] at h
    obtain ⟨rf, hf, k, hk, e⟩ := h
    cases e
    rw [attrNames_cons_some, List.mem_cons, not_or, ← rAttrArms_none vs cfg k hk name]
    by_cases he : name = n0
    · simp [he]
    · simp [he]

theorem wAttrArms_isSome : ∀ (vs : List (AttrDecl K)),
    (wAttrArms vs (vs.map AttrDecl.config)).isSome ↔ ∀ v ∈ vs, ∀ fs, v.fields = some fs → Compiles fs
  | [] => by simp [wAttrArms]
  | ⟨n0, none⟩ :: vs => by
    rw [List.forall_mem_cons, ← wAttrArms_isSome vs, List.map_cons, wAttrArms]
    cases wAttrArms vs (vs.map AttrDecl.config) <;> simp
  | ⟨n0, some fs⟩ :: vs => by
    have h : (∀ gs, (⟨n0, some fs⟩ : AttrDecl K).fields = some gs → Compiles gs) ↔ Compiles fs :=
      ⟨fun h => h fs rfl, fun h gs e => by cases e; exact h⟩
    rw [List.forall_mem_cons, ← wAttrArms_isSome vs, h, ← wFields_isSome, List.map_cons, wAttrArms]
    rw [show (⟨n0, some fs⟩ : AttrDecl K).config = config fs from rfl]
    cases wFields fs (config fs) with
    | none => simp
    | some w => cases wAttrArms vs (vs.map AttrDecl.config) <;> simp

theorem rAttrArms_isSome : ∀ (vs : List (AttrDecl K)), RawLast vs →
    ((rAttrArms vs (vs.map AttrDecl.config)).isSome ↔
      ∀ v ∈ vs, ∀ fs, v.fields = some fs → Compiles fs)
  | [], _ => by simp [rAttrArms]
  | ⟨n0, none⟩ :: vs, hl => by
    obtain rfl := hl.1 rfl
    simp [rAttrArms]
  | ⟨n0, some fs⟩ :: vs, hl => by
    have h : (∀ gs, (⟨n0, some fs⟩ : AttrDecl K).fields = some gs → Compiles gs) ↔ Compiles fs :=
      ⟨fun h => h fs rfl, fun h gs e => by cases e; exact h⟩
    rw [List.forall_mem_cons, ← rAttrArms_isSome vs hl.2, h, ← rFields_isSome, List.map_cons, rAttrArms]
    rw [show (⟨n0, some fs⟩ : AttrDecl K).config = config fs from rfl]
    cases rFields fs (config fs) with
    | none => simp
    | some w => cases rAttrArms vs (vs.map AttrDecl.config) <;> simp

theorem rawCtor_isSome : ∀ (vs : List (AttrDecl K)),
    (rawCtor vs).isSome ↔ (vs.filter fun v => v.fields.isNone).length = 1
  | [] => by simp [rawCtor]
  | ⟨n0, none⟩ :: vs => by
    rw [rawCtor]
    have : (vs.all fun v => v.fields.isSome) = true ↔ vs.filter (fun v => v.fields.isNone) = [] := by
      rw [List.all_eq_true, List.filter_eq_nil_iff]
      simp only [Option.isNone_iff_eq_none, Option.isSome_iff_ne_none, ne_eq]
    by_cases h : (vs.all fun v => v.fields.isSome) = true
    · rw [if_pos h]
      simp only [List.filter_cons, Option.isNone_none, if_true, this.mp h]
      exact ⟨fun _ => rfl, fun _ => rfl⟩
    · rw [if_neg h]
      simp [List.length_eq_zero_iff, ← this, h]
  | ⟨n0, some fs⟩ :: vs => by
    rw [rawCtor]
    simp only [List.filter_cons, Option.isNone_some, Bool.false_eq_true, if_false]
    rw [← rawCtor_isSome vs]
    cases rawCtor vs with
    | none => exact Iff.rfl
    | some k => exact ⟨fun _ => rfl, fun _ => rfl⟩

/-! ## Reading an attribute -/

theorem rNum_u16 {env : REnv} {st st' : RSt} {bs rest : Bytes} {k : UInt16} :
    rNum u16 env st bs = .ok (k, st', rest) ↔ bs = U2 k.toNat ++ rest ∧ st' = st := by
  unfold rNum Rd.lift
  constructor
  · intro h
    split at h
    · rename_i a rest' h'
      cases h
      refine ⟨?_, rfl⟩
      unfold NumCodec.read at h'
      split at h'
      · rename_i b rest'' hb
        cases h'
        obtain ⟨rfl, hl⟩ := readExact_ok hb
        rw [← u16_write]
        congr 1
        show b = toBe 2 (UInt16.ofNat (fromBe b)).toNat
        have h1 := fromBe_lt b
        rw [hl] at h1
        rw [UInt16.toNat_ofNat_of_lt' (by simpa [u16] using h1)]
        have h2 := toBe_fromBe b
        rw [hl] at h2
        exact h2.symm
      · cases h'
    · cases h
  · rintro ⟨rfl, rfl⟩
    rw [← u16_write, NumCodec.reads u16_lawful]

theorem rUtf8_ok {env : REnv} {st st' : RSt} {bs rest name : Bytes} :
    rUtf8 env st bs = .ok (name, st', rest) ↔
      ∃ k : UInt16, bs = U2 k.toNat ++ rest ∧ IsUtf8 env.pool k name ∧ st' = st := by
  unfold rUtf8 rIdx
  rw [rd_bind]
  constructor
  · rintro ⟨k, st1, bs1, h1, h2⟩
    obtain ⟨rfl, rfl⟩ := rNum_u16.mp h1
    unfold rLookup at h2
    split at h2
    · rename_i a ha
      cases h2
      refine ⟨k, rfl, ?_, rfl⟩
      unfold Pool.wtf8 at ha
      split at ha
      · rename_i s hs
        cases ha
        exact hs
      · cases ha
    · cases h2
  · rintro ⟨k, rfl, h, rfl⟩
    refine ⟨k, st', rest, rNum_u16.mpr ⟨rfl, rfl⟩, ?_⟩
    simp only [rLookup, wtf8_of h]

theorem frame_ok {bs body rest : Bytes} :
    (∃ len bs', u32.read bs = .ok (len, bs') ∧ readExact len.toNat bs' = .ok (body, rest)) ↔
      body.length < 2 ^ 32 ∧ bs = U4 body.length ++ body ++ rest := by
  constructor
  · rintro ⟨len, bs', h1, h2⟩
    obtain ⟨rfl, hl⟩ := readExact_ok h2
    unfold NumCodec.read at h1
    split at h1
    · rename_i b rest'' hb
      cases h1
      obtain ⟨rfl, hb4⟩ := readExact_ok hb
      have h1 := fromBe_lt b
      have h3 := toBe_fromBe b
      rw [hb4] at h1 h3
      have h4 : (u32.ofBits (fromBe b)).toNat = fromBe b :=
        UInt32.toNat_ofNat_of_lt' (by simpa [u32] using h1)
      rw [h4] at hl
      refine ⟨by rw [hl]; exact h1, ?_⟩
      rw [hl, ← toBe4]
      rw [show toBe 4 (fromBe b) = b from h3, List.append_assoc]
    · cases h1
  · rintro ⟨h1, rfl⟩
    refine ⟨UInt32.ofNat body.length, body ++ rest, ?_, ?_⟩
    · rw [List.append_assoc, show U4 body.length = u32.write (UInt32.ofNat body.length) by
        rw [u32_write, UInt32.toNat_ofNat_of_lt' h1], NumCodec.reads u32_lawful]
    · rw [UInt32.toNat_ofNat_of_lt' h1]
      exact readExact_append _ _ _ rfl

theorem rFramed_ok {α : Type} {nm : Bytes} {r : Rd α} {env : REnv} {st st' : RSt} {bs rest : Bytes} {a : α} :
    rFramed nm r env st bs = .ok (a, st', rest) ↔ ∃ body : Bytes, body.length < 2 ^ 32 ∧
      bs = U4 body.length ++ body ++ rest ∧ r env st body = .ok (a, st', []) := by
  constructor
  · intro h
    unfold rFramed at h
    split at h
    · cases h
    · rename_i len bs' h1
      split at h
      · cases h
      · rename_i body rest' h2
        split at h
        · cases h
        · rename_i h3
          cases h
          obtain ⟨h4, h5⟩ := frame_ok.mp ⟨_, _, h1, h2⟩
          exact ⟨body, h4, h5, h3⟩
        · cases h
  · rintro ⟨body, h1, h2, h3⟩
    obtain ⟨len, bs', h4, h5⟩ := frame_ok.mpr ⟨h1, h2⟩
    simp only [rFramed, h4, h5, h3]

theorem rRawBody_ok {env : REnv} {st st' : RSt} {bs rest body : Bytes} :
    rRawBody env st bs = .ok (body, st', rest) ↔ body.length < 2 ^ 32 ∧
      bs = U4 body.length ++ body ++ rest ∧ st' = st := by
  constructor
  · intro h
    unfold rRawBody at h
    split at h
    · cases h
    · rename_i len bs' h1
      split at h
      · cases h
      · rename_i body rest' h2
        cases h
        obtain ⟨h4, h5⟩ := frame_ok.mp ⟨_, _, h1, h2⟩
        exact ⟨h4, h5, rfl⟩
  · rintro ⟨h1, h2, rfl⟩
    obtain ⟨len, bs', h4, h5⟩ := frame_ok.mpr ⟨h1, h2⟩
    simp only [rRawBody, h4, h5]

theorem rAttr_ok {α : Type} {table : Bytes → Option (Rd α)} {raw : RawAttribute → α} {env : REnv}
    {st st' : RSt} {bs rest : Bytes} {y : α} :
    rAttr table raw env st bs = .ok (y, st', rest) ↔
      ∃ (k : UInt16) (name body : Bytes), body.length < 2 ^ 32 ∧
        bs = U2 k.toNat ++ (U4 body.length ++ body ++ rest) ∧ IsUtf8 env.pool k name ∧
        ((∃ r, table name = some r ∧ r env st body = .ok (y, st', [])) ∨
          (table name = none ∧ y = raw ⟨name, body⟩ ∧ st' = st)) := by
  unfold rAttr
  rw [rd_bind]
  constructor
  · rintro ⟨name, st1, bs1, h1, h2⟩
    obtain ⟨k, rfl, hk, rfl⟩ := rUtf8_ok.mp h1
    cases hr : table name with
    | some r =>
      rw [hr] at h2
      obtain ⟨body, h3, rfl, h4⟩ := rFramed_ok.mp h2
      exact ⟨k, name, body, h3, rfl, hk, .inl ⟨r, hr, h4⟩⟩
    | none =>
      rw [hr] at h2
      obtain ⟨body, h3, rfl⟩ := rd_map.mp h2
      obtain ⟨h4, rfl, rfl⟩ := rRawBody_ok.mp h3
      exact ⟨k, name, body, h4, rfl, hk, .inr ⟨hr, rfl, rfl⟩⟩
  · rintro ⟨k, name, body, h1, rfl, hk, h⟩
    refine ⟨name, st, _, rUtf8_ok.mpr ⟨k, rfl, hk, rfl⟩, ?_⟩
    rcases h with ⟨r, hr, h2⟩ | ⟨hr, rfl, rfl⟩
    · rw [hr]
      exact rFramed_ok.mpr ⟨body, h1, rfl, h2⟩
    · rw [hr]
      exact rd_map.mpr ⟨body, rRawBody_ok.mpr ⟨h1, rfl, rfl⟩, rfl⟩

/-! ## Round trips -/

theorem built_inv {cp : VecCp} (h : Built cp) : cp.Inv := by
  obtain ⟨bsm, h⟩ := h
  exact (steps_ok h ⟨VecCp.inv_new.len, VecCp.inv_new.cache⟩).1

theorem built_steps {cp cp' : VecCp} (h : Built cp) (s : Steps cp cp') : Built cp' := by
  obtain ⟨bsm, h⟩ := h
  exact ⟨bsm, h.trans s⟩

theorem fields_return : ∀ (fs : List (FieldDecl K)) (x : Tuple K fs), FieldsReturn fs x →
    ∀ (cp : VecCp) (bs : Bytes) (cp' : VecCp), Built cp → FieldsWritten fs x cp bs cp' →
      Steps cp cp' ∧ ∀ W : World, W.Fits cp' → ∀ catches st rest,
        ∃ st', FieldsRead ⟨W.pool, catches⟩ fs st (bs ++ rest) x st' rest
  | [], x, _, cp, bs, cp', _, h => by
    cases h
    exact ⟨.refl _, fun W _ c st rest => ⟨st, .nil⟩⟩
  | f :: fs, x, hr, cp, bs, cp', hi, h => by
    cases h with
    | cons hd h1 h2 =>
      obtain ⟨s1, r1⟩ := hr.1 _ hd _ _ _ hi h1
      have i1 := built_steps hi s1
      obtain ⟨s2, r2⟩ := fields_return fs _ hr.2 _ _ _ i1 h2
      refine ⟨s1.trans s2, fun W hW c st rest => ?_⟩
      obtain ⟨st1, e1⟩ := r1 W (hW.mono (steps_ok s2 (built_inv i1)).2) c st (_ ++ rest)
      obtain ⟨st2, e2⟩ := r2 W hW c st1 rest
      refine ⟨st2, ?_⟩
      rw [List.append_assoc]
      exact .cons hd e1 e2

theorem returns_num {α : Type} {c : NumCodec α} (h : c.Lawful) (x : α) :
    Returns ⟨wNum c, rNum c⟩ x := by
  intro cp bs cp' _ h1
  obtain ⟨rfl, rfl⟩ := wNum_ok.mp h1
  refine ⟨.refl _, fun W _ cs st rest => ⟨st, ?_⟩⟩
  simp only [rNum, Rd.lift, NumCodec.reads h x rest]

theorem returns_idx {α : Type} {i : Ins UInt16} {f : Pool → UInt16 → Option α} {x : α} {w : α → Ins Bytes}
    (hw : w x = wIdx i) (h : Good i fun P k => f P k = some x) : Returns ⟨w, rIdx f⟩ x := by
  intro cp bs cp' hi h1
  simp only [hw, wIdx] at h1
  obtain ⟨k, cp1, h2, h3⟩ := ins_bind.mp h1
  obtain ⟨rfl, rfl⟩ := ins_pure.mp h3
  obtain ⟨s, p⟩ := h cp k cp1 (built_inv hi) h2
  refine ⟨s, fun W hW cs st rest => ⟨st, ?_⟩⟩
  simp only [rIdx]
  rw [rd_bind]
  refine ⟨k, st, rest, rNum_u16.mpr ⟨by rw [u16_write], rfl⟩, ?_⟩
  simp only [rLookup, p _ hW.agrees]

theorem returns_utf8 (s : Bytes) : Returns ⟨wUtf8, rUtf8⟩ s :=
  returns_idx rfl fun cp a cp' hi h => ⟨(good_wtf8 s cp a cp' hi h).1,
    fun P hP => wtf8_of ((good_wtf8 s cp a cp' hi h).2 P hP)⟩

theorem returns_cls (s : Bytes) : Returns ⟨wStr 7, rStr 7⟩ s :=
  returns_idx rfl fun cp a cp' hi h => ⟨(good_class0 s cp a cp' hi h).1,
    fun P hP => class_of ((good_class0 s cp a cp' hi h).2 P hP).1⟩

end Verif.Derive
