import Verif.Spec.Attr
import Verif.Lemmas.Annotation
import Verif.Lemmas.Instr
import Verif.Lemmas.TySound
import Verif.Props.Signature
import Verif.Props.Misc
import Verif.Props.Mutf8

/-! # Lemmas about attributes -/

namespace Verif
open Spec Sig

/-! ## Layouts of bounded size -/

theorem Writes.toSmall {α : Type} {env : WEnv} {w : Ins Bytes} {f : Fmt α} {x : α}
    (h : Writes env w f x) : Writes env w (Fmt.small f) x := h.weaken (fun _ _ h _ => h)

theorem Writes.snil {α : Type} (env : WEnv) (x : α) :
    Writes env (wSeq []) (Fmt.small (Fmt.struct [])) x := (Writes.nil env x).toSmall

theorem Writes.scons {α : Type} {env : WEnv} {w : Ins Bytes} {ws : List (Ins Bytes)} {f : Fmt α}
    {fs : List (Fmt α)} {x : α} (h : Writes env w (Fmt.small f) x)
    (hs : Writes env (wSeq ws) (Fmt.small (Fmt.struct fs)) x) :
    Writes env (wSeq (w :: ws)) (Fmt.small (Fmt.struct (f :: fs))) x := by
  have hs' : Writes env (wSeq ws) (Fmt.struct [Fmt.small (Fmt.struct fs)]) x :=
    hs.weaken (fun _ bs h => ⟨bs, [], by simp, h, rfl⟩)
  refine (Writes.cons h hs').weaken ?_
  rintro P bs ⟨b, b', rfl, h1, b1, b2, rfl, h2, rfl⟩ hl
  simp only [List.length_append, List.length_nil, Nat.add_zero] at hl
  exact ⟨b, b1 ++ [], rfl, h1 (by omega), by rw [List.append_nil]; exact h2 (by omega)⟩

theorem Fmt.all_small {α : Type} {f : Fmt α} {c : Ctx} : ∀ {xs : List α} {bs : Bytes},
    Fmt.all (Fmt.small f) c xs bs → bs.length < 4294967296 → Fmt.all f c xs bs
  | [], _, h, _ => h
  | x :: xs, bs, h, hl => by
    obtain ⟨b, b', rfl, h1, h2⟩ := h
    simp only [List.length_append] at hl
    exact ⟨b, b', rfl, h1 (by omega), Fmt.all_small h2 (by omega)⟩

theorem Writes.sall {α : Type} {env : WEnv} {w : α → Ins Bytes} {f : Fmt α} {xs : List α}
    (h : ∀ x ∈ xs, Writes env (w x) (Fmt.small f) x) :
    Writes env (wAll w xs) (Fmt.small (Fmt.all f)) xs :=
  (Writes.all h).weaken (fun _ _ h => Fmt.all_small h)

theorem Writes.svec2 {α : Type} {env : WEnv} {w : α → Ins Bytes} {f : Fmt α} {xs : List α}
    (h : ∀ x ∈ xs, Writes env (w x) (Fmt.small f) x) :
    Writes env (wVec u16 w xs) (Fmt.small (Fmt.table2 f)) xs := by
  refine (Writes.vec2 h).weaken ?_
  rintro P bs ⟨h0, b, rfl, h1⟩ hl
  simp only [List.length_append] at hl
  exact ⟨h0, b, rfl, Fmt.all_small h1 (by omega)⟩

theorem Writes.svec1 {α : Type} {env : WEnv} {w : α → Ins Bytes} {f : Fmt α} {xs : List α}
    (h : ∀ x ∈ xs, Writes env (w x) (Fmt.small f) x) :
    Writes env (wVec u8 w xs) (Fmt.small (Fmt.table1 f)) xs := by
  refine (Writes.vec1 h).weaken ?_
  rintro P bs ⟨h0, b, rfl, h1⟩ hl
  simp only [List.length_append] at hl
  exact ⟨h0, b, rfl, Fmt.all_small h1 (by omega)⟩

theorem Writes.sattr {α : Type} {env : WEnv} {name : Bytes} {w : Ins Bytes} {f : Fmt α} {x : α}
    (h : Writes env w (Fmt.small f) x) :
    Writes env (wAttr name w) (Fmt.small (Fmt.attr name f)) x := by
  unfold wAttr Writes
  refine GoodW.bind (good_wtf8 name).toW
    (q := fun i P bs => ∃ body, (body.length < 4294967296 → f (env.ctx P) x body) ∧
      bs = U2 i.toNat ++ U4 (UInt32.ofNat body.length).toNat ++ body)
    (fun i => GoodW.bind h
      (q := fun body _ bs => bs = U2 i.toNat ++ U4 (UInt32.ofNat body.length).toNat ++ body)
      (fun body => GoodW.pure _ (fun _ => by rw [u16_write, u32_write])) ?_) ?_
  · rintro P body bs h1 rfl
    exact ⟨body, h1, rfl⟩
  · rintro P i bs h1 ⟨body, h2, rfl⟩ hl
    simp only [List.length_append] at hl
    have hb : body.length < 4294967296 := by omega
    refine ⟨i, body, h1, h2 hb, hb, ?_⟩
    simp only [UInt32.toNat_ofNat']
    rw [Nat.mod_eq_of_lt (by omega)]

theorem wRaw_eq (a : RawAttribute) : wRaw a = wAttr a.name (pure a.inner) := rfl

theorem writes_raw (env : WEnv) (a : RawAttribute) :
    Writes env (wRaw a) (Fmt.small (Fmt.attr a.name Fmt.bytes)) a.inner := by
  rw [wRaw_eq]
  exact Writes.sattr (Writes.toSmall (GoodW.pure _ (fun _ => rfl)))

/-! ## Reading up to a relation -/

/-- `bs` is read as a value with the property `R`; no outer labels are involved, and references are to
entries of `T`. -/
def RReads {α : Type} (T : List Bsm) (r : Rd α) (env : REnv) (bs : Bytes) (R : α → Prop) : Prop :=
  ∃ v pend, R v ∧ (∀ k ∈ pend, k.toNat < T.length) ∧ Reads r env bs (fun _ => v) [] pend

theorem PReads.r {α : Type} {T : List Bsm} {r : Rd α} {env : REnv} {bs : Bytes} {x : α} {R : α → Prop}
    (h : PReads r env bs x) (hR : R x) : RReads T r env bs R := ⟨x, [], hR, by simp, h.reads⟩

theorem RReads.mono {T : List Bsm} {α : Type} {r : Rd α} {env : REnv} {bs : Bytes} {R S : α → Prop}
    (h : RReads T r env bs R) (hS : ∀ x, R x → S x) : RReads T r env bs S := by
  obtain ⟨v, p, h1, hp, h2⟩ := h
  exact ⟨v, p, hS v h1, hp, h2⟩

theorem RReads.cast {T : List Bsm} {α : Type} {r : Rd α} {env : REnv} {bs bs' : Bytes} {R : α → Prop}
    (h : RReads T r env bs R) (hb : bs = bs') : RReads T r env bs' R := hb ▸ h

theorem RReads.map {T : List Bsm} {α β : Type} {r : Rd α} {f : α → β} {env : REnv} {bs : Bytes} {R : α → Prop}
    {S : β → Prop} (h : RReads T r env bs R) (hS : ∀ x, R x → S (f x)) : RReads T (Rd.map f r) env bs S := by
  obtain ⟨v, p, h1, hp, h2⟩ := h
  exact ⟨f v, p, hS v h1, hp, Reads.map (f := f) h2⟩

theorem RReads.bind {T : List Bsm} {α β : Type} {r : Rd α} {f : α → Rd β} {env : REnv} {b1 b2 : Bytes} {R : α → Prop}
    {S : β → Prop} (h : RReads T r env b1 R) (h2 : ∀ x, R x → RReads T (f x) env b2 S) :
    RReads T (Rd.bind r f) env (b1 ++ b2) S := by
  obtain ⟨v, p, hv, hp, h1⟩ := h
  obtain ⟨w, q, hw, hq, h3⟩ := h2 v hv
  exact ⟨w, p ++ q, hw, fun k hk => (List.mem_append.mp hk).elim (hp k) (hq k), Reads.bind (f := f) (o2 := []) (p2 := q) h1 (fun _ => h3)⟩

theorem RReads.ap {T : List Bsm} {α β : Type} {g : Rd (α → β)} {r : Rd α} {env : REnv} {b1 b2 : Bytes}
    {G : (α → β) → Prop} {R : α → Prop} {S : β → Prop} (h1 : RReads T g env b1 G) (h2 : RReads T r env b2 R)
    (hS : ∀ f x, G f → R x → S (f x)) : RReads T (Rd.ap g r) env (b1 ++ b2) S :=
  RReads.bind h1 (fun f hf => RReads.map h2 (fun x hx => hS f x hf hx))

theorem RReads.replicate {T : List Bsm} {α β : Type} {f : Fmt β} {r : Rd α} {c : Ctx} {cs : Option (List Catch)}
    {R : β → α → Prop} {xs : List β} {bs : Bytes} (ha : Fmt.all f c xs bs)
    (hr : ∀ x ∈ xs, ∀ bs, f c x bs → RReads T r ⟨c.pool, cs⟩ bs (R x)) :
    RReads T (Rd.replicate xs.length r) ⟨c.pool, cs⟩ bs (fun ys => Matched R xs ys) := by
  induction xs generalizing bs with
  | nil =>
    cases ha
    exact (Rd.reads_pure _ _).r .nil
  | cons x xs ih =>
    obtain ⟨b, b', rfl, h1, h2⟩ := ha
    refine RReads.bind (hr x (by simp) b h1) (fun y hy => ?_)
    exact RReads.map (f := fun as => y :: as) (ih h2 (fun z hz => hr z (by simp [hz])))
      (fun ys hys => .cons hy hys)

theorem RReads.vec2 {T : List Bsm} {α β : Type} {f : Fmt β} {r : Rd α} {c : Ctx} {cs : Option (List Catch)}
    {R : β → α → Prop} {xs : List β} {bs : Bytes} (h : Fmt.table2 f c xs bs)
    (hr : ∀ x ∈ xs, ∀ bs, f c x bs → RReads T r ⟨c.pool, cs⟩ bs (R x)) :
    RReads T (rVec u16 r) ⟨c.pool, cs⟩ bs (fun ys => Matched R xs ys) := by
  obtain ⟨h0, b, rfl, h1⟩ := h
  refine RReads.bind (R := fun n => u16.bits n = xs.length) ((reads_u2' _ h0).r ?_) (fun n hn => ?_)
  · simp [u16]; omega
  · rw [hn]; exact RReads.replicate h1 hr

theorem RReads.vec1 {T : List Bsm} {α β : Type} {f : Fmt β} {r : Rd α} {c : Ctx} {cs : Option (List Catch)}
    {R : β → α → Prop} {xs : List β} {bs : Bytes} (h : Fmt.table1 f c xs bs)
    (hr : ∀ x ∈ xs, ∀ bs, f c x bs → RReads T r ⟨c.pool, cs⟩ bs (R x)) :
    RReads T (rVec u8 r) ⟨c.pool, cs⟩ bs (fun ys => Matched R xs ys) := by
  obtain ⟨h0, b, rfl, h1⟩ := h
  refine RReads.bind (R := fun n => u8.bits n = xs.length) ((reads_u1' _ h0).r ?_) (fun n hn => ?_)
  · simp [u8]; omega
  · rw [hn]; exact RReads.replicate h1 hr

theorem PReads.replicateM {α : Type} {f : Fmt α} {r : Rd α} {c : Ctx} {cs : Option (List Catch)}
    {xs : List α} {bs : Bytes} (ha : Fmt.all f c xs bs)
    (hr : ∀ x ∈ xs, ∀ bs, f c x bs → PReads r ⟨c.pool, cs⟩ bs x) :
    PReads (Rd.replicate xs.length r) ⟨c.pool, cs⟩ bs xs := by
  induction xs generalizing bs with
  | nil =>
    cases ha
    exact Rd.reads_pure _ _
  | cons x xs ih =>
    obtain ⟨b, b', rfl, h1, h2⟩ := ha
    exact PReads.bind (hr x (by simp) b h1) (PReads.map (f := fun as => x :: as)
      (ih h2 (fun z hz => hr z (by simp [hz]))))

theorem PReads.vec2M {α : Type} {f : Fmt α} {r : Rd α} {c : Ctx} {cs : Option (List Catch)}
    {xs : List α} {bs : Bytes} (h : Fmt.table2 f c xs bs)
    (hr : ∀ x ∈ xs, ∀ bs, f c x bs → PReads r ⟨c.pool, cs⟩ bs x) :
    PReads (rVec u16 r) ⟨c.pool, cs⟩ bs xs := by
  obtain ⟨h0, b, rfl, h1⟩ := h
  refine PReads.bind (reads_u2' _ h0) ?_
  have : u16.bits (UInt16.ofNat xs.length) = xs.length := by simp [u16]; omega
  rw [this]
  exact PReads.replicateM h1 hr

theorem PReads.vec1M {α : Type} {f : Fmt α} {r : Rd α} {c : Ctx} {cs : Option (List Catch)}
    {xs : List α} {bs : Bytes} (h : Fmt.table1 f c xs bs)
    (hr : ∀ x ∈ xs, ∀ bs, f c x bs → PReads r ⟨c.pool, cs⟩ bs x) :
    PReads (rVec u8 r) ⟨c.pool, cs⟩ bs xs := by
  obtain ⟨h0, b, rfl, h1⟩ := h
  refine PReads.bind (reads_u1' _ h0) ?_
  have : u8.bits (UInt8.ofNat xs.length) = xs.length := by simp [u8]; omega
  rw [this]
  exact PReads.replicateM h1 hr

theorem forall2_map {α : Type} {g : α → α} {xs ys : List α}
    (h : Matched (fun x y => g y = x) xs ys) : ys.map g = xs := by
  induction h with
  | nil => rfl
  | cons h1 _ ih => rw [List.map_cons, h1, ih]

/-! ## Attribute frames -/

theorem RReads.attr {T : List Bsm} {α : Type} {table : Bytes → Option (Rd α)} {raw : RawAttribute → α} {c : Ctx}
    {cs : Option (List Catch)} {name body : Bytes} {i : UInt16} {r : Rd α} {R : α → Prop}
    (hi : IsUtf8 c.pool i name) (ht : table name = some r) (h : RReads T r ⟨c.pool, cs⟩ body R)
    (hl : body.length < 4294967296) :
    RReads T (rAttr table raw) ⟨c.pool, cs⟩ (U2 i.toNat ++ U4 body.length ++ body) R := by
  refine (RReads.bind (b2 := U4 body.length ++ body) (R := fun x => x = name)
    ((reads_utf8 ⟨i, hi, rfl⟩ cs).r rfl) ?_).cast (by simp)
  rintro x rfl
  rw [ht]
  obtain ⟨v, p, h1, hp, h2⟩ := h
  exact ⟨v, p, h1, hp, h2.framed hl⟩

theorem PReads.attr {α : Type} {table : Bytes → Option (Rd α)} {raw : RawAttribute → α} {c : Ctx}
    {cs : Option (List Catch)} {name body : Bytes} {i : UInt16} {r : Rd α} {x : α}
    (hi : IsUtf8 c.pool i name) (ht : table name = some r) (h : PReads r ⟨c.pool, cs⟩ body x)
    (hl : body.length < 4294967296) :
    PReads (rAttr table raw) ⟨c.pool, cs⟩ (U2 i.toNat ++ U4 body.length ++ body) x := by
  refine (PReads.bind (b2 := U4 body.length ++ body) (reads_utf8 ⟨i, hi, rfl⟩ cs) ?_).cast (by simp)
  rw [ht]
  exact h.framed hl

theorem PReads.rawAttr {α : Type} {table : Bytes → Option (Rd α)} {raw : RawAttribute → α} {c : Ctx}
    {cs : Option (List Catch)} {name body : Bytes} {i : UInt16}
    (hi : IsUtf8 c.pool i name) (ht : table name = none) (hl : body.length < 4294967296) :
    PReads (rAttr table raw) ⟨c.pool, cs⟩ (U2 i.toNat ++ U4 body.length ++ body) (raw ⟨name, body⟩) := by
  refine (PReads.bind (b2 := U4 body.length ++ body) (reads_utf8 ⟨i, hi, rfl⟩ cs) ?_).cast (by simp)
  rw [ht]
  refine PReads.map (f := fun b => raw ⟨name, b⟩) ?_
  intro st rest
  unfold rRawBody
  rw [List.append_assoc, readsU4' _ hl]
  simp only [UInt32.toNat_ofNat', Nat.mod_eq_of_lt (show body.length < 2 ^ 32 by omega)]
  rw [readExact_append _ _ _ rfl]

/-! ## Parts -/

theorem foldl_pushChar (cs ds : List Nat) (h : ∀ c ∈ ds, IsCodePoint c) :
    ds.foldl JType.pushChar (encodeCps cs) = encodeCps (cs ++ ds) := by
  induction ds generalizing cs with
  | nil => simp
  | cons d ds ih =>
    rw [List.foldl_cons, JType.pushChar_encode cs d (h d (by simp)), ih _ (fun c hc => h c (by simp [hc]))]
    simp

theorem writes_sig {α : Type} (env : WEnv) {text : α → Str → Prop} {show_ : α → Str} {x : α}
    (hs : ∀ cs, text x cs → show_ x = cs) (h : SigText text x) :
    Writes env (wSig (show_ x)) (Fmt.sig text) x := by
  obtain ⟨cs, h1, h2⟩ := h
  refine writes_idx (Good.weaken (good_wtf8 _) ?_)
  intro P i hi
  refine ⟨cs, h1, h2, ?_⟩
  rw [hs cs h1] at hi
  rwa [show cs.foldl JType.pushChar [] = encodeCps cs from
    foldl_pushChar [] cs (fun c hc => (h2 c hc).1)] at hi

theorem reads_sig {α : Type} {text : α → Str → Prop} {parse : Str → Res α} {c : Ctx} {x : α} {bs : Bytes}
    (hp : ∀ cs, text x cs → parse cs = .ok x) (h : Fmt.sig text c x bs) (cs : Option (List Catch)) :
    PReads (rSig parse) ⟨c.pool, cs⟩ bs x := by
  obtain ⟨i, ⟨ds, h1, h2, h3⟩, rfl⟩ := h
  refine (PReads.bind (PReads.idx (wtf8_of h3)) ?_).cast (List.append_nil _)
  have e : Wtf8.codepoints (Wtf8.toStringLossy (encodeCps ds)) = some ds := by
    rw [JType.toStringLossy_encode ds (fun c hc => (h2 c hc).1),
      Wtf8.map_repl_of_none ds (fun c hc => (h2 c hc).2),
      Wtf8.codepoints_encode ds (fun c hc => (h2 c hc).1)]
  rw [e]
  exact PReads.ofRes (hp ds h1)

theorem writes_flags (env : WEnv) {t : FlagType} {f : Flags t} (h : KnownFlags f) :
    Writes env (wFlags f) (Fmt.flags t) f :=
  GoodW.pure _ (fun _ => ⟨h, (Props.C28_roundtrip t f h []).1⟩)

theorem reads_flags {t : FlagType} {c : Ctx} {f : Flags t} {bs : Bytes} (h : Fmt.flags t c f bs)
    (cs : Option (List Catch)) : PReads (rFlags t) ⟨c.pool, cs⟩ bs f := by
  obtain ⟨h1, rfl⟩ := h
  refine PReads.lift (fun rest => ?_)
  have := Props.C28_roundtrip t f h1 rest
  rw [this.1] at this
  exact this.2

theorem writes_const (env : WEnv) {k : Constant} (h : PlainConst k) :
    Writes env (wConst k) Fmt.constant k := writes_idx (good_constant k h)

theorem reads_const {c : Ctx} {k : Constant} {bs : Bytes} (h : Fmt.constant c k bs) (hk : k.norm = k)
    (cs : Option (List Catch)) : PReads rConst ⟨c.pool, cs⟩ bs k := by
  obtain ⟨i, h1, rfl⟩ := h
  have := constant_of h1
  rw [hk] at this
  exact PReads.idxR this

theorem writes_clsOpt (env : WEnv) (x : Option Bytes) : Writes env (wClsOpt x) Fmt.clsOpt x :=
  writes_opt (fun a _ => good_class0 a)
theorem writes_utf8Opt (env : WEnv) (x : Option Bytes) : Writes env (wUtf8Opt x) Fmt.utf8Opt x :=
  writes_opt (fun a _ => good_wtf80 a)
theorem writes_natOpt (env : WEnv) {x : Option (Bytes × JType)} (h : ∀ p, x = some p → Printable p.2) :
    Writes env (wNatOpt x) Fmt.natOpt x :=
  writes_opt (fun a ha => good_nat0 a.1 (h a ha))

theorem reads_clsOpt {c : Ctx} {x : Option Bytes} {bs : Bytes} (h : Fmt.clsOpt c x bs)
    (cs : Option (List Catch)) : PReads rClsOpt ⟨c.pool, cs⟩ bs x :=
  reads_opt (fun _ _ h => PReads.lookup (f := fun P i => Pool.indirect P 7 i) (class_of h)) h
theorem reads_utf8Opt {c : Ctx} {x : Option Bytes} {bs : Bytes} (h : Fmt.utf8Opt c x bs)
    (cs : Option (List Catch)) : PReads rUtf8Opt ⟨c.pool, cs⟩ bs x :=
  reads_opt (fun _ _ h => PReads.lookup (wtf8_of h)) h
theorem reads_natOpt {c : Ctx} {x : Option (Bytes × JType)} {bs : Bytes} (h : Fmt.natOpt c x bs)
    (cs : Option (List Catch)) : PReads rNatOpt ⟨c.pool, cs⟩ bs x :=
  reads_opt (fun _ _ h => PReads.lookupR (nat_of h)) h

theorem writes_text (env : WEnv) {s : Bytes} (h : WellFormed s) : Writes env (wDebugExt s) Fmt.text s := by
  obtain ⟨cs, hc, rfl⟩ := h
  have hu : HasUtf16 (encodeCps cs) (utf16All cs) := ⟨cs, hc, rfl, rfl⟩
  refine GoodW.lift (fun W a ha => ⟨_, hu, ?_⟩)
  rw [Props.C09_encode_conforms _ _ hu] at ha
  cases ha
  rfl

theorem reads_text {c : Ctx} {s bs : Bytes} (h : Fmt.text c s bs) (cs : Option (List Catch)) (st : RSt) :
    rDebugExt ⟨c.pool, cs⟩ st bs = .ok (s, st, []) := by
  obtain ⟨v, h1, rfl⟩ := h
  have hw : WellFormed s := by
    obtain ⟨cs, hc, hs, _⟩ := h1
    exact ⟨cs, hc, hs⟩
  obtain ⟨m, e1, e2⟩ := Props.C08_roundtrip s hw
  rw [Props.C09_encode_conforms _ _ h1] at e1
  cases e1
  simp only [rDebugExt, e2]

/-- A payload that is read to its end. -/
theorem PReads.framed' {α : Type} {nm : Bytes} {r : Rd α} {env : REnv} {body : Bytes} {x : α}
    (h : ∀ st, r env st body = .ok (x, st, [])) (hl : body.length < 4294967296) :
    PReads (rFramed nm r) env (U4 body.length ++ body) x := by
  intro st rest
  unfold rFramed
  rw [List.append_assoc, readsU4' _ hl]
  simp only [UInt32.toNat_ofNat', Nat.mod_eq_of_lt (show body.length < 2 ^ 32 by omega)]
  rw [readExact_append _ _ _ rfl]
  simp only [h]

theorem PReads.attr' {α : Type} {table : Bytes → Option (Rd α)} {raw : RawAttribute → α} {c : Ctx}
    {cs : Option (List Catch)} {name body : Bytes} {i : UInt16} {r : Rd α} {x : α}
    (hi : IsUtf8 c.pool i name) (ht : table name = some r)
    (h : ∀ st, r ⟨c.pool, cs⟩ st body = .ok (x, st, [])) (hl : body.length < 4294967296) :
    PReads (rAttr table raw) ⟨c.pool, cs⟩ (U2 i.toNat ++ U4 body.length ++ body) x := by
  refine (PReads.bind (b2 := U4 body.length ++ body) (reads_utf8 ⟨i, hi, rfl⟩ cs) ?_).cast (by simp)
  rw [ht]
  exact PReads.framed' h hl

/-! ## Bootstrap methods -/

theorem good_arg (env : WEnv) {a : Arg} (h : ArgWritable a) :
    Writes env (wIdx (insertOrDynamic insertConstant a.toOrDynamic)) arg a := by
  refine GoodW.bind (p := fun W i => IsOrDyn IsConstant (env.ctx W) i a.toOrDynamic)
    (good_orDyn env (ok := ConstOk) (fun k hk => good_constant k hk) ?_)
    (q := fun i _ bs => bs = U2 i.toNat) (fun i => GoodW.pure _ (fun _ => u16_write i)) ?_
  · cases a with
    | static k => exact h
    | dynamic cell n t => exact ⟨h.1, h.2.1⟩
  · rintro W i bs h1 rfl
    refine ⟨i, rfl, ?_⟩
    cases a with
    | static k => exact h1
    | dynamic cell n t => exact h1

theorem writes_bsm (env : WEnv) {b : Bsm} (h : BsmWritable b) : Writes env b.write bsm b := by
  have h2 : Writes env (wNum u16 (UInt16.ofNat b.arguments.length))
      (fun _ (b : Bsm) bs => bs = U2 b.arguments.length) b := by
    refine GoodW.pure _ (fun _ => ?_)
    rw [u16_write]
    simp only [UInt16.toNat_ofNat']
    rw [Nat.mod_eq_of_lt (by have := h.2.1; omega)]
  refine (Writes.cons (Writes.on (f := Fmt.index IsHandle) (writes_idx (good_handle b.handle h.1)))
    (Writes.cons h2 (Writes.cons (Writes.on (p := Bsm.arguments) (Writes.all (f := arg)
      fun a ha => good_arg env (h.2.2 a ha))) (Writes.nil env b)))).weaken ?_
  rintro P bs ⟨b1, b2, rfl, h1, b3, b4, rfl, h3, b5, b6, rfl, h4, rfl⟩
  exact ⟨b1, _, rfl, h1, b3 ++ (b5 ++ []), [], by simp, ⟨h.2.1, b5, by rw [List.append_nil]; rw [h3], h4⟩, rfl⟩

theorem isConst_not_dyn {P : Pool} {i : UInt16} {k : Constant} (h : IsConstant P i k) (b nt : UInt16) :
    P i ≠ some (.dyn b nt) := by
  cases h with
  | member m h => exact isMember_not_dyn h b nt
  | cls s h => exact isClass_not_dyn h b nt
  | string s h => obtain ⟨j, h1, _⟩ := h; simp [h1]
  | methodHandle x h => obtain ⟨j, h1, _⟩ := h; simp [h1]
  | _ => simp_all

theorem reads_arg {c : Ctx} (cs : Option (List Catch)) {a : Arg} {bs : Bytes} (hT : c.bsm.length ≤ 65536)
    (h : arg c a bs) (hs : StaticArg a) :
    RReads c.bsm rArg ⟨c.pool, cs⟩ bs (fun v => resolveArg c.bsm v = a) := by
  obtain ⟨i, rfl, h⟩ := h
  have h' : IsOrDyn IsConstant c i a.toOrDynamic := by cases a <;> exact h
  obtain ⟨v, pend, h1, hq, h2⟩ := reads_orDyn cs (f := Pool.constant) (g := Constant.norm)
    (fun _ h => constant_of h) (fun _ h => isConst_not_dyn h) hT h'
  refine ⟨v.toArg, pend, ?_, hq, ?_⟩
  · cases a with
    | static k =>
      cases v with
      | static k' =>
        simp only [resolveO, Arg.toOrDynamic, OrDynamic.map, OrDynamic.static.injEq] at h1
        rw [hs] at h1
        subst h1
        rfl
      | dynamic d => simp [resolveO, Arg.toOrDynamic, OrDynamic.map] at h1
    | dynamic cell n t =>
      cases v with
      | static k' => simp [resolveO, Arg.toOrDynamic, OrDynamic.map] at h1
      | dynamic d =>
        simp only [resolveO, Arg.toOrDynamic, OrDynamic.map, OrDynamic.dynamic.injEq] at h1
        obtain ⟨db, dn, dt⟩ := d
        cases db with
        | filled hd as =>
          simp only [resolveD, Dynamic.mk.injEq] at h1
          obtain ⟨rfl, rfl, rfl⟩ := h1
          rfl
        | pending k =>
          simp only [resolveD, OrDynamic.toArg, resolveArg] at h1 ⊢
          split at h1
          all_goals
            rename_i e
            simp only [Dynamic.mk.injEq] at h1
            obtain ⟨rfl, rfl, rfl⟩ := h1
            rw [e]
  · exact (PReads.bindR (reads_u2 _ i) (Reads.map (f := OrDynamic.toArg) h2)).cast
      (List.append_nil _) rfl rfl rfl

theorem reads_bsm {c : Ctx} (cs : Option (List Catch)) {b : Bsm} {bs : Bytes} (hT : c.bsm.length ≤ 65536)
    (h : bsm c b bs) (hs : BsmReadable b) :
    RReads c.bsm Bsm.read ⟨c.pool, cs⟩ bs (fun v => resolveBsm c.bsm v = b) := by
  obtain ⟨b1, b2, rfl, ⟨i, h1, rfl⟩, b3, b4, rfl, h2, rfl⟩ := h
  have hh := handle_of h1
  rw [hs.1] at hh
  refine (RReads.ap (G := fun f => f = Bsm.mk b.handle)
    ((PReads.map (f := Bsm.mk) (PReads.idxR (env := ⟨c.pool, cs⟩) (f := Pool.methodHandle) hh)).r rfl)
    (RReads.vec2 (R := fun x v => resolveArg c.bsm v = x) h2
      (fun a ha bs h => reads_arg cs hT h (hs.2 a ha))) ?_).cast (by simp)
  rintro f as rfl has
  obtain ⟨bh, ba⟩ := b
  simp only [resolveBsm, forall2_map has]

/-! ## Fixed structures -/

theorem writes_innerClass (env : WEnv) {x : InnerClass} (h : KnownFlags x.access) :
    Writes env x.write innerClass x :=
  Writes.cons (Writes.on (writes_cls env _)) (Writes.cons (Writes.on (writes_clsOpt env _))
    (Writes.cons (Writes.on (writes_utf8Opt env _)) (Writes.cons (Writes.on (writes_flags env h))
      (Writes.nil env _))))

theorem reads_innerClass {c : Ctx} (cs : Option (List Catch)) {x : InnerClass} {bs : Bytes}
    (h : innerClass c x bs) : PReads InnerClass.read ⟨c.pool, cs⟩ bs x := by
  obtain ⟨b, b', rfl, h1, b1, b2, rfl, h2, b3, b4, rfl, h3, b5, b6, rfl, h4, rfl⟩ := h
  exact (PReads.ap (PReads.ap (PReads.ap (PReads.map (f := InnerClass.mk) (reads_cls h1 cs))
    (reads_clsOpt h2 cs)) (reads_utf8Opt h3 cs)) (reads_flags h4 cs)).cast (by simp)

theorem writes_require (env : WEnv) {x : Require} (h : KnownFlags x.flags) :
    Writes env x.write require x :=
  Writes.cons (Writes.on (writes_module env _)) (Writes.cons (Writes.on (writes_flags env h))
    (Writes.cons (Writes.on (writes_utf8Opt env _)) (Writes.nil env _)))

theorem reads_require {c : Ctx} (cs : Option (List Catch)) {x : Require} {bs : Bytes}
    (h : require c x bs) : PReads Require.read ⟨c.pool, cs⟩ bs x := by
  obtain ⟨b, b', rfl, h1, b1, b2, rfl, h2, b3, b4, rfl, h3, rfl⟩ := h
  exact (PReads.ap (PReads.ap (PReads.map (f := Require.mk) (reads_module h1 cs)) (reads_flags h2 cs))
    (reads_utf8Opt h3 cs)).cast (by simp)

theorem writes_export (env : WEnv) {x : Export} (h : KnownFlags x.flags) :
    Writes env x.write export_ x :=
  Writes.cons (Writes.on (writes_package env _)) (Writes.cons (Writes.on (writes_flags env h))
    (Writes.cons (Writes.on (Writes.vec2 fun y _ => writes_module env y)) (Writes.nil env _)))

theorem reads_export {c : Ctx} (cs : Option (List Catch)) {x : Export} {bs : Bytes}
    (h : export_ c x bs) : PReads Export.read ⟨c.pool, cs⟩ bs x := by
  obtain ⟨b, b', rfl, h1, b1, b2, rfl, h2, b3, b4, rfl, h3, rfl⟩ := h
  exact (PReads.ap (PReads.ap (PReads.map (f := Export.mk) (reads_package h1 cs)) (reads_flags h2 cs))
    (PReads.vec2 (fun _ _ h => reads_module h cs) h3)).cast (by simp)

theorem writes_provide (env : WEnv) (x : Provide) : Writes env x.write provide x :=
  Writes.cons (Writes.on (writes_cls env _))
    (Writes.cons (Writes.on (Writes.vec2 fun y _ => writes_cls env y)) (Writes.nil env _))

theorem reads_provide {c : Ctx} (cs : Option (List Catch)) {x : Provide} {bs : Bytes}
    (h : provide c x bs) : PReads Provide.read ⟨c.pool, cs⟩ bs x := by
  obtain ⟨b, b', rfl, h1, b1, b2, rfl, h2, rfl⟩ := h
  exact (PReads.ap (PReads.map (f := Provide.mk) (reads_cls h1 cs))
    (PReads.vec2 (fun _ _ h => reads_cls h cs) h2)).cast (by simp)

theorem writes_module_attr (env : WEnv) {x : Module} (h : ModuleWritable x) :
    Writes env x.write moduleAttr x :=
  Writes.cons (Writes.on (writes_module env _)) (Writes.cons (Writes.on (writes_flags env h.1))
    (Writes.cons (Writes.on (writes_utf8Opt env _))
    (Writes.cons (Writes.on (Writes.vec2 fun y hy => writes_require env (h.2.1 y hy)))
    (Writes.cons (Writes.on (Writes.vec2 fun y hy => writes_export env (h.2.2.1 y hy)))
    (Writes.cons (Writes.on (Writes.vec2 fun y hy => writes_export env (h.2.2.2 y hy)))
    (Writes.cons (Writes.on (Writes.vec2 fun y _ => writes_cls env y))
    (Writes.cons (Writes.on (Writes.vec2 fun y _ => writes_provide env y)) (Writes.nil env _))))))))

theorem reads_module_attr {c : Ctx} (cs : Option (List Catch)) {x : Module} {bs : Bytes}
    (h : moduleAttr c x bs) : PReads Module.read ⟨c.pool, cs⟩ bs x := by
  obtain ⟨b, b', rfl, h1, b1, b2, rfl, h2, b3, b4, rfl, h3, b5, b6, rfl, h4, b7, b8, rfl, h5, b9, ba, rfl,
    h6, bb, bc, rfl, h7, bd, be, rfl, h8, rfl⟩ := h
  exact (PReads.ap (PReads.ap (PReads.ap (PReads.ap (PReads.ap (PReads.ap (PReads.ap
    (PReads.map (f := Module.mk) (reads_module h1 cs)) (reads_flags h2 cs)) (reads_utf8Opt h3 cs))
    (PReads.vec2 (fun _ _ h => reads_require cs h) h4)) (PReads.vec2 (fun _ _ h => reads_export cs h) h5))
    (PReads.vec2 (fun _ _ h => reads_export cs h) h6)) (PReads.vec2 (fun _ _ h => reads_cls h cs) h7))
    (PReads.vec2 (fun _ _ h => reads_provide cs h) h8)).cast (by simp)

theorem writes_methodParameter (env : WEnv) {x : MethodParameter} (h : KnownFlags x.access) :
    Writes env x.write methodParameter x :=
  Writes.cons (Writes.on (writes_utf8Opt env _)) (Writes.cons (Writes.on (writes_flags env h))
    (Writes.nil env _))

theorem reads_methodParameter {c : Ctx} (cs : Option (List Catch)) {x : MethodParameter} {bs : Bytes}
    (h : methodParameter c x bs) : PReads MethodParameter.read ⟨c.pool, cs⟩ bs x := by
  obtain ⟨b, b', rfl, h1, b1, b2, rfl, h2, rfl⟩ := h
  exact (PReads.ap (PReads.map (f := MethodParameter.mk) (reads_utf8Opt h1 cs)) (reads_flags h2 cs)).cast
    (by simp)

/-! ## Attributes -/

theorem writes_unit (env : WEnv) : Writes env (wSeq []) Fmt.unit () := GoodW.pure _ (fun _ => rfl)

theorem writes_pair {α β : Type} {env : WEnv} {w w' : Ins Bytes} {f : Fmt α} {g : Fmt β} {x : α × β}
    (h1 : Writes env w f x.1) (h2 : Writes env w' g x.2) :
    Writes env (wSeq [w, w']) (Fmt.pair f g) x := by
  refine (Writes.cons (x := x) (Writes.on (p := Prod.fst) h1) (Writes.cons (Writes.on (p := Prod.snd) h2)
    (Writes.nil env x))).weaken ?_
  rintro P bs ⟨b, b', rfl, h1, b1, b2, rfl, h2, rfl⟩
  exact ⟨b, b1, by simp, h1, h2⟩

theorem writes_anns (env : WEnv) {as : List Annotation} (h : ∀ a ∈ as, AnnWritable a) :
    Writes env (wVec u16 Annotation.write as) (Fmt.table2 annotation) as :=
  Writes.vec2 fun a ha => writes_annotation env (h a ha).1 (h a ha).2.1 (h a ha).2.2

theorem writes_tanns {T : Type} {env : WEnv} {w : T → Ins Bytes} {f : Fmt T}
    (hw : ∀ x, Writes env (w x) f x) {as : List (TypeAnnotation T)} (h : ∀ a ∈ as, TypeAnnWritable a) :
    Writes env (wVec u16 (TypeAnnotation.write w) as) (Fmt.table2 (typeAnnotation f)) as :=
  Writes.vec2 fun a ha => writes_typeAnnotation (hw _) ⟨(h a ha).1, (h a ha).2.1, (h a ha).2.2⟩

theorem reads_anns {c : Ctx} (cs : Option (List Catch)) {as : List Annotation} {bs : Bytes}
    (h : Fmt.table2 annotation c as bs) (hd : ∀ a ∈ as, Keyed a.vals) :
    PReads (rVec u16 Annotation.read) ⟨c.pool, cs⟩ bs as :=
  PReads.vec2M h (fun a ha _ h => reads_annotation cs h (hd a ha))

theorem reads_tanns {T : Type} {r : Rd T} {f : Fmt T} {c : Ctx} {cs : Option (List Catch)}
    (hr : ∀ x bs, f c x bs → PReads r ⟨c.pool, cs⟩ bs x) {as : List (TypeAnnotation T)} {bs : Bytes}
    (h : Fmt.table2 (typeAnnotation f) c as bs) (hd : ∀ a ∈ as, Keyed a.vals) :
    PReads (rVec u16 (TypeAnnotation.read r)) ⟨c.pool, cs⟩ bs as :=
  PReads.vec2M h (fun a ha _ h => reads_typeAnnotation cs hr h (hd a ha))

theorem writes_fieldAttr (env : WEnv) (a : FieldAttr) (h : a.Writable) :
    Writes env a.write (Fmt.small fieldAttr) a := by
  cases a with
  | deprecated => exact Writes.weaken (Writes.sattr (writes_unit env).toSmall) (fun _ _ h => h)
  | synthetic => exact Writes.weaken (Writes.sattr (writes_unit env).toSmall) (fun _ _ h => h)
  | signature s =>
    exact Writes.weaken (Writes.sattr (writes_sig env (fun _ h => Props.C18_print h) h).toSmall)
      (fun _ _ h => h)
  | constantValue k => exact Writes.weaken (Writes.sattr (writes_const env h).toSmall) (fun _ _ h => h)
  | visible as => exact Writes.weaken (Writes.sattr (writes_anns env h).toSmall) (fun _ _ h => h)
  | invisible as => exact Writes.weaken (Writes.sattr (writes_anns env h).toSmall) (fun _ _ h => h)
  | visibleType as =>
    exact Writes.weaken (Writes.sattr (writes_tanns (writes_fieldTarget env) h).toSmall) (fun _ _ h => h)
  | invisibleType as =>
    exact Writes.weaken (Writes.sattr (writes_tanns (writes_fieldTarget env) h).toSmall) (fun _ _ h => h)
  | raw a => exact Writes.weaken (writes_raw env a) (fun _ _ h => h)

theorem fieldTable_none {n : Bytes} (h : n ∉ fieldAttrNames) : FieldAttr.table n = none := by
  simp only [fieldAttrNames, List.mem_cons, List.not_mem_nil, or_false, not_or] at h
  simp only [FieldAttr.table, h, if_false]

theorem reads_fieldAttr {c : Ctx} (cs : Option (List Catch)) {a : FieldAttr} {bs : Bytes}
    (h : fieldAttr c a bs) (hr : a.Readable) : PReads FieldAttr.read ⟨c.pool, cs⟩ bs a := by
  cases a with
  | deprecated =>
    obtain ⟨i, body, hi, rfl, hl, rfl⟩ := h
    exact PReads.attr hi rfl (Rd.reads_pure _ _) hl
  | synthetic =>
    obtain ⟨i, body, hi, rfl, hl, rfl⟩ := h
    exact PReads.attr hi rfl (Rd.reads_pure _ _) hl
  | signature s =>
    obtain ⟨i, body, hi, hb, hl, rfl⟩ := h
    exact PReads.attr hi rfl (PReads.map (f := FieldAttr.signature)
      (reads_sig (fun _ h => Props.C18_parse h) hb cs)) hl
  | constantValue k =>
    obtain ⟨i, body, hi, hb, hl, rfl⟩ := h
    exact PReads.attr hi rfl (PReads.map (f := FieldAttr.constantValue) (reads_const hb hr cs)) hl
  | visible as =>
    obtain ⟨i, body, hi, hb, hl, rfl⟩ := h
    exact PReads.attr hi rfl (PReads.map (f := FieldAttr.visible) (reads_anns cs hb hr)) hl
  | invisible as =>
    obtain ⟨i, body, hi, hb, hl, rfl⟩ := h
    exact PReads.attr hi rfl (PReads.map (f := FieldAttr.invisible) (reads_anns cs hb hr)) hl
  | visibleType as =>
    obtain ⟨i, body, hi, hb, hl, rfl⟩ := h
    exact PReads.attr hi rfl (PReads.map (f := FieldAttr.visibleType)
      (reads_tanns (fun _ _ h => reads_fieldTarget cs h) hb hr)) hl
  | invisibleType as =>
    obtain ⟨i, body, hi, hb, hl, rfl⟩ := h
    exact PReads.attr hi rfl (PReads.map (f := FieldAttr.invisibleType)
      (reads_tanns (fun _ _ h => reads_fieldTarget cs h) hb hr)) hl
  | raw a =>
    obtain ⟨i, body, hi, rfl, hl, rfl⟩ := h
    exact PReads.rawAttr hi (fieldTable_none hr) hl

theorem writes_field (env : WEnv) {f : Field} (h : f.Writable) :
    Writes env f.write (Fmt.small field) f :=
  Writes.scons (Writes.on (f := Fmt.small _) (writes_flags env h.1).toSmall)
    (Writes.scons (Writes.on (f := Fmt.small _) (writes_utf8 env _).toSmall)
    (Writes.scons (Writes.on (f := Fmt.small _) (writes_type env h.2.1).toSmall)
    (Writes.scons (Writes.on (f := Fmt.small _) (Writes.svec2 fun a ha => writes_fieldAttr env a (h.2.2 a ha)))
      (Writes.snil env _))))

theorem reads_field {c : Ctx} (cs : Option (List Catch)) {f : Field} {bs : Bytes} (h : field c f bs)
    (hr : ∀ a ∈ f.attrs, a.Readable) : PReads Field.read ⟨c.pool, cs⟩ bs f := by
  obtain ⟨b, b', rfl, h1, b1, b2, rfl, h2, b3, b4, rfl, h3, b5, b6, rfl, h4, rfl⟩ := h
  exact (PReads.ap (PReads.ap (PReads.ap (PReads.map (f := Field.mk) (reads_flags h1 cs))
    (reads_utf8 h2 cs)) (reads_descr h3 cs))
    (PReads.vec2M h4 (fun a ha _ h => reads_fieldAttr cs h (hr a ha)))).cast (by simp)

theorem writes_classAttr (env : WEnv) (a : ClassAttr) (h : a.Writable) :
    Writes env a.write (Fmt.small classAttr) a := by
  cases a with
  | signature s =>
    exact Writes.weaken (Writes.sattr (writes_sig env (fun _ h => Props.C19_print_class h) h).toSmall)
      (fun _ _ h => h)
  | deprecated => exact Writes.weaken (Writes.sattr (writes_unit env).toSmall) (fun _ _ h => h)
  | synthetic => exact Writes.weaken (Writes.sattr (writes_unit env).toSmall) (fun _ _ h => h)
  | sourceFile s => exact Writes.weaken (Writes.sattr (writes_utf8 env s).toSmall) (fun _ _ h => h)
  | innerClasses cs =>
    exact Writes.weaken (Writes.sattr (Writes.vec2 fun x hx => writes_innerClass env (h x hx)).toSmall)
      (fun _ _ h => h)
  | enclosingMethod o m =>
    exact Writes.weaken (Writes.sattr (writes_pair (x := (o, m)) (writes_cls env o)
      (writes_natOpt env h)).toSmall) (fun _ _ h => h)
  | debugExtension s => exact Writes.weaken (Writes.sattr (writes_text env h).toSmall) (fun _ _ h => h)
  | bootstrapMethods ms =>
    exact Writes.weaken (Writes.sattr (Writes.vec2 fun x hx => writes_bsm env (h x hx)).toSmall)
      (fun _ _ h => h)
  | module_ m => exact Writes.weaken (Writes.sattr (writes_module_attr env h).toSmall) (fun _ _ h => h)
  | modulePackages ps =>
    exact Writes.weaken (Writes.sattr (Writes.vec2 fun x _ => writes_package env x).toSmall)
      (fun _ _ h => h)
  | mainClass o => exact Writes.weaken (Writes.sattr (writes_cls env o).toSmall) (fun _ _ h => h)
  | nestHost o => exact Writes.weaken (Writes.sattr (writes_cls env o).toSmall) (fun _ _ h => h)
  | nestMembers ps =>
    exact Writes.weaken (Writes.sattr (Writes.vec2 fun x _ => writes_cls env x).toSmall)
      (fun _ _ h => h)
  | visible as => exact Writes.weaken (Writes.sattr (writes_anns env h).toSmall) (fun _ _ h => h)
  | invisible as => exact Writes.weaken (Writes.sattr (writes_anns env h).toSmall) (fun _ _ h => h)
  | visibleType as =>
    exact Writes.weaken (Writes.sattr (writes_tanns (writes_classTarget env) h).toSmall) (fun _ _ h => h)
  | invisibleType as =>
    exact Writes.weaken (Writes.sattr (writes_tanns (writes_classTarget env) h).toSmall) (fun _ _ h => h)
  | raw a => exact Writes.weaken (writes_raw env a) (fun _ _ h => h)

theorem classTable_none {n : Bytes} (h : n ∉ classAttrNames) : ClassAttr.table n = none := by
  simp only [classAttrNames, List.mem_cons, List.not_mem_nil, or_false, not_or] at h
  simp only [ClassAttr.table, h, if_false]

theorem reads_classAttr {c : Ctx} (cs : Option (List Catch)) (hT : c.bsm.length ≤ 65536) {a : ClassAttr}
    {bs : Bytes} (h : classAttr c a bs) (hr : a.Readable) :
    RReads c.bsm ClassAttr.read ⟨c.pool, cs⟩ bs (fun v => resolveClassAttr c.bsm v = a) := by
  cases a with
  | signature s =>
    obtain ⟨i, body, hi, hb, hl, rfl⟩ := h
    exact (PReads.attr hi rfl (PReads.map (f := ClassAttr.signature)
      (reads_sig (fun _ h => Props.C19_class_partial h hr) hb cs)) hl).r rfl
  | deprecated =>
    obtain ⟨i, body, hi, rfl, hl, rfl⟩ := h
    exact (PReads.attr hi rfl (Rd.reads_pure _ _) hl).r rfl
  | synthetic =>
    obtain ⟨i, body, hi, rfl, hl, rfl⟩ := h
    exact (PReads.attr hi rfl (Rd.reads_pure _ _) hl).r rfl
  | sourceFile s =>
    obtain ⟨i, body, hi, hb, hl, rfl⟩ := h
    exact (PReads.attr hi rfl (PReads.map (f := ClassAttr.sourceFile) (reads_utf8 hb cs)) hl).r rfl
  | innerClasses xs =>
    obtain ⟨i, body, hi, hb, hl, rfl⟩ := h
    exact (PReads.attr hi rfl (PReads.map (f := ClassAttr.innerClasses)
      (PReads.vec2 (fun _ _ h => reads_innerClass cs h) hb)) hl).r rfl
  | enclosingMethod o m =>
    obtain ⟨i, body, hi, ⟨b1, b2, rfl, h1, h2⟩, hl, rfl⟩ := h
    exact (PReads.attr hi rfl (PReads.ap (PReads.map (f := ClassAttr.enclosingMethod) (reads_cls h1 cs))
      (reads_natOpt h2 cs)) hl).r rfl
  | debugExtension s =>
    obtain ⟨i, body, hi, hb, hl, rfl⟩ := h
    refine (PReads.attr' (r := Rd.map ClassAttr.debugExtension rDebugExt) (x := .debugExtension s) hi rfl (fun st => ?_) hl).r rfl
    unfold Rd.map Rd.bind
    rw [reads_text hb cs st]
    rfl
  | bootstrapMethods ms =>
    obtain ⟨i, body, hi, hb, hl, rfl⟩ := h
    refine RReads.attr hi rfl (RReads.map (f := ClassAttr.bootstrapMethods)
      (RReads.vec2 (R := fun x v => resolveBsm c.bsm v = x) hb
        (fun b hb' bs h => reads_bsm cs hT h (hr b hb'))) ?_) hl
    intro x hx
    simp only [resolveClassAttr, forall2_map hx]
  | module_ m =>
    obtain ⟨i, body, hi, hb, hl, rfl⟩ := h
    exact (PReads.attr hi rfl (PReads.map (f := ClassAttr.module_) (reads_module_attr cs hb)) hl).r rfl
  | modulePackages ps =>
    obtain ⟨i, body, hi, hb, hl, rfl⟩ := h
    exact (PReads.attr hi rfl (PReads.map (f := ClassAttr.modulePackages)
      (PReads.vec2 (fun _ _ h => reads_package h cs) hb)) hl).r rfl
  | mainClass o =>
    obtain ⟨i, body, hi, hb, hl, rfl⟩ := h
    exact (PReads.attr hi rfl (PReads.map (f := ClassAttr.mainClass) (reads_cls hb cs)) hl).r rfl
  | nestHost o =>
    obtain ⟨i, body, hi, hb, hl, rfl⟩ := h
    exact (PReads.attr hi rfl (PReads.map (f := ClassAttr.nestHost) (reads_cls hb cs)) hl).r rfl
  | nestMembers ps =>
    obtain ⟨i, body, hi, hb, hl, rfl⟩ := h
    exact (PReads.attr hi rfl (PReads.map (f := ClassAttr.nestMembers)
      (PReads.vec2 (fun _ _ h => reads_cls h cs) hb)) hl).r rfl
  | visible as =>
    obtain ⟨i, body, hi, hb, hl, rfl⟩ := h
    exact (PReads.attr hi rfl (PReads.map (f := ClassAttr.visible) (reads_anns cs hb hr)) hl).r rfl
  | invisible as =>
    obtain ⟨i, body, hi, hb, hl, rfl⟩ := h
    exact (PReads.attr hi rfl (PReads.map (f := ClassAttr.invisible) (reads_anns cs hb hr)) hl).r rfl
  | visibleType as =>
    obtain ⟨i, body, hi, hb, hl, rfl⟩ := h
    exact (PReads.attr hi rfl (PReads.map (f := ClassAttr.visibleType)
      (reads_tanns (fun _ _ h => reads_classTarget cs h) hb hr)) hl).r rfl
  | invisibleType as =>
    obtain ⟨i, body, hi, hb, hl, rfl⟩ := h
    exact (PReads.attr hi rfl (PReads.map (f := ClassAttr.invisibleType)
      (reads_tanns (fun _ _ h => reads_classTarget cs h) hb hr)) hl).r rfl
  | raw a =>
    obtain ⟨i, body, hi, rfl, hl, rfl⟩ := h
    exact (PReads.rawAttr hi (classTable_none hr) hl).r rfl

end Verif
