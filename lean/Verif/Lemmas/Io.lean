import Verif.Lemmas.CpInsert
import Verif.Spec.Fmt

/-! # Lemmas about the pool-dependent readers and writers -/

namespace Verif
open Spec

/-! ## Label numbering -/

namespace LabelMap

/-- Give a number to an offset if it has none. -/
def add (m : LabelMap) (o : UInt32) : LabelMap :=
  if (m.lookup o).isSome then m else m ++ [(o, UInt32.ofNat m.length)]

def addAll (m : LabelMap) : List UInt32 → LabelMap
  | [] => m
  | o :: os => addAll (m.add o) os

/-- The label of an offset. -/
def num (m : LabelMap) (o : UInt32) : Label := (m.lookup o).getD 0

theorem prefix_add (m : LabelMap) (o : UInt32) : m <+: m.add o := by
  unfold add
  split
  · exact List.prefix_refl _
  · exact List.prefix_append _ _

theorem prefix_addAll (m : LabelMap) (os : List UInt32) : m <+: m.addAll os := by
  induction os generalizing m with
  | nil => exact List.prefix_refl _
  | cons o os ih => exact (prefix_add m o).trans (ih _)

theorem addAll_append (m : LabelMap) (a b : List UInt32) :
    m.addAll (a ++ b) = (m.addAll a).addAll b := by
  induction a generalizing m with
  | nil => rfl
  | cons o os ih => exact ih _

theorem lookup_prefix {m m' : LabelMap} (h : m <+: m') {o : UInt32} {l : Label}
    (hl : m.lookup o = some l) : m'.lookup o = some l := by
  obtain ⟨t, rfl⟩ := h
  rw [List.lookup_append, hl]
  rfl

theorem num_prefix {m m' : LabelMap} (h : m <+: m') {o : UInt32} {l : Label}
    (hl : m.lookup o = some l) : m'.num o = l := by
  unfold num
  rw [lookup_prefix h hl]
  rfl

theorem lookup_add (m : LabelMap) (o : UInt32) : ∃ l, (m.add o).lookup o = some l := by
  unfold add
  split
  · rename_i h
    exact Option.isSome_iff_exists.mp h
  · rename_i h
    have h0 : m.lookup o = none := Option.not_isSome_iff_eq_none.mp h
    refine ⟨UInt32.ofNat m.length, ?_⟩
    rw [List.lookup_append, h0]
    simp

end LabelMap

/-! ## Readers -/

/-- `bs` is read as `v n`, whatever follows, where `n` is the final numbering of the offsets; the
offsets `offs` are numbered and the cells `pend` registered on the way. -/
def Reads {α : Type} (r : Rd α) (env : REnv) (bs : Bytes) (v : (UInt32 → Label) → α)
    (offs : List UInt32) (pend : List UInt16) : Prop :=
  ∀ (st : RSt) (rest : Bytes), (offs ≠ [] → st.labels ≠ none) →
    ∀ m : LabelMap, (∀ ls, st.labels = some ls → LabelMap.addAll ls offs <+: m) →
      r env st (bs ++ rest) = .ok (v m.num,
        ⟨st.pending ++ pend, st.labels.map fun ls => LabelMap.addAll ls offs⟩, rest)

/-- `bs` is read as `x`; no labels or cells are involved. -/
def PReads {α : Type} (r : Rd α) (env : REnv) (bs : Bytes) (x : α) : Prop :=
  ∀ (st : RSt) (rest : Bytes), r env st (bs ++ rest) = .ok (x, st, rest)

theorem PReads.reads {α : Type} {r : Rd α} {env : REnv} {bs : Bytes} {x : α} (h : PReads r env bs x) :
    Reads r env bs (fun _ => x) [] [] := by
  intro st rest _ m _
  rw [h st rest]
  rcases st with ⟨p, ls⟩
  cases ls <;> simp [LabelMap.addAll]

theorem Reads.cast {α : Type} {r : Rd α} {env : REnv} {bs bs' : Bytes} {v v' : (UInt32 → Label) → α}
    {o o' : List UInt32} {p p' : List UInt16} (h : Reads r env bs v o p) (hb : bs = bs') (hv : v = v')
    (ho : o = o') (hp : p = p') : Reads r env bs' v' o' p' := by
  subst hb hv ho hp
  exact h

theorem Reads.bind {α β : Type} {x : Rd α} {f : α → Rd β} {env : REnv} {b1 b2 : Bytes}
    {v : (UInt32 → Label) → α} {w : (UInt32 → Label) → (UInt32 → Label) → β} {o1 o2 : List UInt32}
    {p1 p2 : List UInt16} (h1 : Reads x env b1 v o1 p1)
    (h2 : ∀ n, Reads (f (v n)) env b2 (w n) o2 p2) :
    Reads (Rd.bind x f) env (b1 ++ b2) (fun n => w n n) (o1 ++ o2) (p1 ++ p2) := by
  intro st rest hs m hm
  unfold Rd.bind
  have hm1 : ∀ ls, st.labels = some ls → LabelMap.addAll ls o1 <+: m := by
    intro ls hls
    have := hm ls hls
    rw [LabelMap.addAll_append] at this
    exact (LabelMap.prefix_addAll _ _).trans this
  have e1 := h1 st (b2 ++ rest) (fun h => hs (by simp [h])) m hm1
  rw [← List.append_assoc] at e1
  rw [e1]
  have e2 := h2 m.num ⟨st.pending ++ p1, st.labels.map fun ls => LabelMap.addAll ls o1⟩ rest
    (by
      intro h
      have := hs (by simp [h])
      simpa using this) m (by
      intro ls hls
      rcases hl : st.labels with _ | ls0
      · simp [hl] at hls
      · simp only [hl, Option.map_some, Option.some.injEq] at hls
        rw [← hls, ← LabelMap.addAll_append]
        exact hm ls0 hl)
  show f (v m.num) env _ (b2 ++ rest) = _
  rw [e2]
  simp only [List.append_assoc, Option.map_map, Function.comp_def, LabelMap.addAll_append]

theorem PReads.bindR {α β : Type} {x : Rd α} {f : α → Rd β} {env : REnv} {b1 b2 : Bytes} {a : α}
    {v : (UInt32 → Label) → β} {o : List UInt32} {p : List UInt16} (h1 : PReads x env b1 a)
    (h2 : Reads (f a) env b2 v o p) : Reads (Rd.bind x f) env (b1 ++ b2) v o p :=
  Reads.bind h1.reads (fun _ => h2)

theorem Rd.reads_pure {α : Type} (env : REnv) (a : α) : PReads (Rd.pure a) env [] a :=
  fun _ _ => rfl

theorem Reads.map {α β : Type} {x : Rd α} {f : α → β} {env : REnv} {b : Bytes}
    {v : (UInt32 → Label) → α} {o : List UInt32} {p : List UInt16} (h : Reads x env b v o p) :
    Reads (Rd.map f x) env b (fun n => f (v n)) o p := by
  have := Reads.bind (f := fun a => Rd.pure (f a)) h (fun n => (Rd.reads_pure env (f (v n))).reads)
  exact this.cast (by simp) rfl (by simp) (by simp)

theorem Reads.ap {α β : Type} {g : Rd (α → β)} {x : Rd α} {env : REnv} {b1 b2 : Bytes}
    {v : (UInt32 → Label) → α → β} {w : (UInt32 → Label) → α} {o1 o2 : List UInt32}
    {p1 p2 : List UInt16} (h1 : Reads g env b1 v o1 p1) (h2 : Reads x env b2 w o2 p2) :
    Reads (Rd.ap g x) env (b1 ++ b2) (fun n => v n (w n)) (o1 ++ o2) (p1 ++ p2) :=
  Reads.bind (f := fun (f : α → β) => Rd.bind x fun a => Rd.pure (f a)) (w := fun n n' => v n (w n')) h1
    (fun n => Reads.map (f := v n) h2)

theorem PReads.bind {α β : Type} {x : Rd α} {f : α → Rd β} {env : REnv} {b1 b2 : Bytes} {a : α} {y : β}
    (h1 : PReads x env b1 a) (h2 : PReads (f a) env b2 y) : PReads (Rd.bind x f) env (b1 ++ b2) y := by
  intro st rest
  unfold Rd.bind
  rw [List.append_assoc, h1]
  exact h2 st rest

theorem PReads.map {α β : Type} {x : Rd α} {f : α → β} {env : REnv} {b : Bytes} {a : α}
    (h : PReads x env b a) : PReads (Rd.map f x) env b (f a) := by
  intro st rest
  unfold Rd.map Rd.bind
  rw [h]
  rfl

theorem PReads.ap {α β : Type} {g : Rd (α → β)} {x : Rd α} {env : REnv} {b1 b2 : Bytes} {f : α → β}
    {a : α} (h1 : PReads g env b1 f) (h2 : PReads x env b2 a) :
    PReads (Rd.ap g x) env (b1 ++ b2) (f a) :=
  PReads.bind h1 (PReads.map h2)

theorem PReads.cast {α : Type} {r : Rd α} {env : REnv} {bs bs' : Bytes} {x : α}
    (h : PReads r env bs x) (hb : bs = bs') : PReads r env bs' x := hb ▸ h

theorem PReads.lift {α : Type} {r : Reader α} {env : REnv} {b : Bytes} {a : α} (h : ReadsTo r b a) :
    PReads (Rd.lift r) env b a := by
  intro st rest
  unfold Rd.lift
  rw [h]

theorem reads_u1 (env : REnv) (x : UInt8) : PReads (rNum u8) env (U1 x.toNat) x := .lift (readsU1 x)
theorem reads_u2 (env : REnv) (x : UInt16) : PReads (rNum u16) env (U2 x.toNat) x := .lift (readsU2 x)
theorem reads_u4 (env : REnv) (x : UInt32) : PReads (rNum u32) env (U4 x.toNat) x := .lift (readsU4 x)
theorem reads_u1' (env : REnv) {n : Nat} (h : n < 256) : PReads (rNum u8) env (U1 n) (UInt8.ofNat n) :=
  .lift (readsU1' n h)
theorem reads_u2' (env : REnv) {n : Nat} (h : n < 65536) :
    PReads (rNum u16) env (U2 n) (UInt16.ofNat n) := .lift (readsU2' n h)
theorem reads_u4' (env : REnv) {n : Nat} (h : n < 4294967296) :
    PReads (rNum u32) env (U4 n) (UInt32.ofNat n) := .lift (readsU4' n h)

theorem PReads.lookup {α : Type} {f : Pool → UInt16 → Option α} {env : REnv} {i : UInt16} {a : α}
    (h : f env.pool i = some a) : PReads (rLookup f i) env [] a := by
  intro st rest
  unfold rLookup
  rw [h]
  rfl

theorem PReads.idx {α : Type} {f : Pool → UInt16 → Option α} {env : REnv} {i : UInt16} {a : α}
    (h : f env.pool i = some a) : PReads (rIdx f) env (U2 i.toNat) a :=
  (PReads.bind (reads_u2 env i) (PReads.lookup h)).cast (by simp)

theorem PReads.lookupR {α : Type} {f : Pool → UInt16 → Res (Option α)} {env : REnv} {i : UInt16} {a : α}
    (h : f env.pool i = .ok (some a)) : PReads (rLookupR f i) env [] a := by
  intro st rest
  unfold rLookupR
  rw [h]
  rfl

theorem PReads.idxR {α : Type} {f : Pool → UInt16 → Res (Option α)} {env : REnv} {i : UInt16} {a : α}
    (h : f env.pool i = .ok (some a)) : PReads (rIdxR f) env (U2 i.toNat) a :=
  (PReads.bind (reads_u2 env i) (PReads.lookupR h)).cast (by simp)

theorem PReads.ofRes {α : Type} {r : Res α} {env : REnv} {a : α} (h : r = .ok a) :
    PReads (Rd.ofRes r) env [] a := by
  intro st rest
  unfold Rd.ofRes
  rw [h]
  rfl

theorem reads_utf8 {c : Ctx} {s : Bytes} {bs : Bytes} (h : Fmt.utf8 c s bs) (cs : Option (List Catch)) :
    PReads rUtf8 ⟨c.pool, cs⟩ bs s := by
  obtain ⟨i, h1, rfl⟩ := h
  exact PReads.idx (wtf8_of h1)

theorem reads_cls {c : Ctx} {s : Bytes} {bs : Bytes} (h : Fmt.cls c s bs) (cs : Option (List Catch)) :
    PReads (rStr 7) ⟨c.pool, cs⟩ bs s := by
  obtain ⟨i, h1, rfl⟩ := h
  exact PReads.idx (f := fun P i => Pool.indirect P 7 i) (class_of h1)

theorem reads_module {c : Ctx} {s : Bytes} {bs : Bytes} (h : Fmt.module c s bs)
    (cs : Option (List Catch)) : PReads (rStr 19) ⟨c.pool, cs⟩ bs s := by
  obtain ⟨i, h1, rfl⟩ := h
  exact PReads.idx (f := fun P i => Pool.indirect P 19 i) (module_of h1)

theorem reads_package {c : Ctx} {s : Bytes} {bs : Bytes} (h : Fmt.package c s bs)
    (cs : Option (List Catch)) : PReads (rStr 20) ⟨c.pool, cs⟩ bs s := by
  obtain ⟨i, h1, rfl⟩ := h
  exact PReads.idx (f := fun P i => Pool.indirect P 20 i) (package_of h1)

theorem reads_descr {c : Ctx} {t : JType} {bs : Bytes} (h : Fmt.descr c t bs)
    (cs : Option (List Catch)) : PReads rType ⟨c.pool, cs⟩ bs t := by
  obtain ⟨i, ⟨h1, ds, h2, h3⟩, rfl⟩ := h
  exact (PReads.bind (PReads.idx (wtf8_of h3)) (PReads.ofRes (parse_desc h1 h2))).cast (by simp)

theorem reads_opt {α : Type} {is : Pool → UInt16 → α → Prop} {f : UInt16 → Rd α} {c : Ctx}
    {cs : Option (List Catch)} (hf : ∀ i x, is c.pool i x → PReads (f i) ⟨c.pool, cs⟩ [] x)
    {x : Option α} {bs : Bytes} (h : Fmt.indexOpt is c x bs) : PReads (rOpt f) ⟨c.pool, cs⟩ bs x := by
  cases x with
  | none =>
    cases h
    exact (PReads.bind (reads_u2 _ 0) (by rw [if_pos rfl]; exact Rd.reads_pure _ _)).cast (by simp)
  | some x =>
    obtain ⟨i, h0, h1, rfl⟩ := h
    exact (PReads.bind (reads_u2 _ i) (by rw [if_neg h0]; exact (hf i x h1).map)).cast (by simp)

theorem PReads.replicate {α : Type} {f : Fmt α} {r : Rd α} {c : Ctx} {cs : Option (List Catch)}
    (hr : ∀ x bs, f c x bs → PReads r ⟨c.pool, cs⟩ bs x) : ∀ {xs : List α} {bs : Bytes},
    Fmt.all f c xs bs → PReads (Rd.replicate xs.length r) ⟨c.pool, cs⟩ bs xs
  | [], bs, h => by
    cases h
    exact Rd.reads_pure _ _
  | x :: xs, bs, h => by
    obtain ⟨b, b', rfl, h1, h2⟩ := h
    refine PReads.bind (hr x b h1) ?_
    exact PReads.map (f := fun as => x :: as) (PReads.replicate hr h2)

/-- The same when labels are involved: the value read for `x` is `g n x`, the offsets are
`offs x`, in order. -/
theorem Reads.replicate {α : Type} {f : Fmt α} {r : Rd α} {c : Ctx} {cs : Option (List Catch)}
    {g : (UInt32 → Label) → α → α} {offs : α → List UInt32} {pend : α → List UInt16}
    {xs : List α} {bs : Bytes} (ha : Fmt.all f c xs bs)
    (hr : ∀ x ∈ xs, ∀ bs, f c x bs → Reads r ⟨c.pool, cs⟩ bs (fun n => g n x) (offs x) (pend x)) :
    Reads (Rd.replicate xs.length r) ⟨c.pool, cs⟩ bs (fun n => xs.map (g n)) (xs.flatMap offs)
      (xs.flatMap pend) := by
  induction xs generalizing bs with
  | nil =>
    cases ha
    exact (Rd.reads_pure _ _).reads
  | cons x xs ih =>
    obtain ⟨b, b', rfl, h1, h2⟩ := ha
    have hx := hr x (by simp) b h1
    have hxs := ih h2 (fun y hy => hr y (by simp [hy]))
    exact Reads.bind (f := fun a => Rd.bind (Rd.replicate xs.length r) fun as => Rd.pure (a :: as))
      (w := fun n n' => g n x :: xs.map (g n')) hx (fun n => Reads.map (f := fun as => g n x :: as) hxs)

theorem PReads.vec2 {α : Type} {f : Fmt α} {r : Rd α} {c : Ctx} {cs : Option (List Catch)}
    (hr : ∀ x bs, f c x bs → PReads r ⟨c.pool, cs⟩ bs x) {xs : List α} {bs : Bytes}
    (h : Fmt.table2 f c xs bs) : PReads (rVec u16 r) ⟨c.pool, cs⟩ bs xs := by
  obtain ⟨h0, b, rfl, h1⟩ := h
  refine PReads.bind (reads_u2' _ h0) ?_
  have : u16.bits (UInt16.ofNat xs.length) = xs.length := by simp [u16]; omega
  rw [this]
  exact PReads.replicate hr h1

theorem PReads.vec1 {α : Type} {f : Fmt α} {r : Rd α} {c : Ctx} {cs : Option (List Catch)}
    (hr : ∀ x bs, f c x bs → PReads r ⟨c.pool, cs⟩ bs x) {xs : List α} {bs : Bytes}
    (h : Fmt.table1 f c xs bs) : PReads (rVec u8 r) ⟨c.pool, cs⟩ bs xs := by
  obtain ⟨h0, b, rfl, h1⟩ := h
  refine PReads.bind (reads_u1' _ h0) ?_
  have : u8.bits (UInt8.ofNat xs.length) = xs.length := by simp [u8]; omega
  rw [this]
  exact PReads.replicate hr h1

theorem Reads.vec2 {α : Type} {f : Fmt α} {r : Rd α} {c : Ctx} {cs : Option (List Catch)}
    {g : (UInt32 → Label) → α → α} {offs : α → List UInt32} {pend : α → List UInt16}
    {xs : List α} {bs : Bytes} (h : Fmt.table2 f c xs bs)
    (hr : ∀ x ∈ xs, ∀ bs, f c x bs → Reads r ⟨c.pool, cs⟩ bs (fun n => g n x) (offs x) (pend x)) :
    Reads (rVec u16 r) ⟨c.pool, cs⟩ bs (fun n => xs.map (g n)) (xs.flatMap offs)
      (xs.flatMap pend) := by
  obtain ⟨h0, b, rfl, h1⟩ := h
  refine PReads.bindR (reads_u2' _ h0) ?_
  have : u16.bits (UInt16.ofNat xs.length) = xs.length := by simp [u16]; omega
  rw [this]
  exact Reads.replicate h1 hr

theorem reads_getLabel (env : REnv) (o : UInt32) : Reads (getLabel o) env [] (fun n => n o) [o] [] := by
  intro st rest hs m hm
  rcases hl : st.labels with _ | ls
  · exact absurd hl (hs (by simp))
  · have hp := hm ls hl
    have hp' : ls.add o <+: m := hp
    obtain ⟨l, hlook⟩ := LabelMap.lookup_add ls o
    have hn : m.num o = l := LabelMap.num_prefix hp' hlook
    unfold getLabel
    simp only [hl, List.nil_append, Option.map_some, List.append_nil]
    rw [show LabelMap.addAll ls [o] = ls.add o from rfl]
    unfold LabelMap.add at hlook ⊢
    rcases h0 : ls.lookup o with _ | l0
    · simp only [h0, Option.isSome_none, Bool.false_eq_true, if_false, List.lookup_append,
        Option.none_or, List.lookup_cons_self, Option.some.injEq] at hlook ⊢
      rw [hn, hlook]
    · simp only [h0, Option.isSome_some, if_true, Option.some.injEq] at hlook ⊢
      rw [hn, hlook, ← hl]

theorem reads_label (env : REnv) {n : Nat} (h : n < 65536) :
    Reads rLabel env (U2 n) (fun num => num (UInt32.ofNat n)) [UInt32.ofNat n] [] := by
  refine (PReads.bindR (reads_u2' env h) (reads_getLabel env _)).cast (by simp) ?_ ?_ rfl
  all_goals
    have : (UInt16.ofNat n).toUInt32 = UInt32.ofNat n := by
      apply UInt32.toNat_inj.mp
      simp
      omega
    simp [this]

/-! ## Writers -/

theorem Spec.World.Fits.mono {W : World} {a b : VecCp} (h : W.Fits b) (he : VecCp.Ext a b) : W.Fits a :=
  ⟨h.agrees.mono he, he.bsm.trans h.bsm⟩

/-- Like `Good`, where the result may also refer to the bootstrap table. -/
def GoodW {α : Type} (m : Ins α) (post : World → α → Prop) : Prop :=
  ∀ cp a cp', cp.Inv → m cp = .ok (a, cp') → Steps cp cp' ∧ ∀ W, W.Fits cp' → post W a

theorem Good.toW {α : Type} {m : Ins α} {post : Pool → α → Prop} (h : Good m post) :
    GoodW m (fun W => post W.pool) :=
  fun cp a cp' hi he => ⟨(h cp a cp' hi he).1, fun W hW => (h cp a cp' hi he).2 _ hW.agrees⟩

theorem GoodW.pure {α : Type} (a : α) {post : World → α → Prop} (h : ∀ W, post W a) :
    GoodW (pure a : Ins α) post := by
  intro cp x cp' _ h1
  cases h1
  exact ⟨.refl _, fun W _ => h W⟩

theorem GoodW.bind {α β : Type} {x : Ins α} {f : α → Ins β} {p : World → α → Prop}
    {q : α → World → β → Prop} {post : World → β → Prop} (h1 : GoodW x p) (h2 : ∀ a, GoodW (f a) (q a))
    (h3 : ∀ W a b, p W a → q a W b → post W b) : GoodW (x >>= f) post := by
  intro cp b cp'' hi h
  obtain ⟨a, cp', e1, e2⟩ := Ins.bind_ok h
  have g1 := h1 cp a cp' hi e1
  have i1 := steps_ok g1.1 hi
  have g2 := h2 a cp' b cp'' i1.1 e2
  have i2 := steps_ok g2.1 i1.1
  exact ⟨g1.1.trans g2.1, fun W hW => h3 W a b (g1.2 W (hW.mono i2.2)) (g2.2 W hW)⟩

theorem GoodW.weaken {α : Type} {m : Ins α} {p q : World → α → Prop} (h : GoodW m p)
    (hw : ∀ W a, p W a → q W a) : GoodW m q :=
  fun cp a cp' hi he => ⟨(h cp a cp' hi he).1, fun W hW => hw W a ((h cp a cp' hi he).2 W hW)⟩

theorem GoodW.lift {α : Type} {r : Res α} {post : World → α → Prop} (h : ∀ W a, r = .ok a → post W a) :
    GoodW (Ins.lift r) post := by
  intro cp a cp' _ he
  obtain ⟨h1, rfl⟩ := Ins.lift_ok he
  exact ⟨.refl _, fun W _ => h W a h1⟩

theorem GoodW.fail {α : Type} (e : Err) (post : World → α → Prop) : GoodW (Ins.fail e) post := by
  intro cp a cp' _ he
  cases he

/-- Whatever `w` writes is laid out as `f` says for `x`. -/
def Writes {α : Type} (env : WEnv) (w : Ins Bytes) (f : Fmt α) (x : α) : Prop :=
  GoodW w (fun W bs => f (env.ctx W) x bs)

theorem Writes.nil {α : Type} (env : WEnv) (x : α) : Writes env (wSeq []) (Fmt.struct []) x :=
  GoodW.pure _ (fun _ => rfl)

theorem Writes.cons {α : Type} {env : WEnv} {w : Ins Bytes} {ws : List (Ins Bytes)} {f : Fmt α}
    {fs : List (Fmt α)} {x : α} (h : Writes env w f x) (hs : Writes env (wSeq ws) (Fmt.struct fs) x) :
    Writes env (wSeq (w :: ws)) (Fmt.struct (f :: fs)) x := by
  unfold Writes wSeq
  refine GoodW.bind h (q := fun a P bs => ∃ b, bs = a ++ b ∧ Fmt.struct fs (env.ctx P) x b)
    (fun a => GoodW.bind hs (q := fun b _ bs => bs = a ++ b) (fun b => GoodW.pure _ (fun _ => rfl)) ?_) ?_
  · intro P b bs h1 h2
    exact ⟨b, h2, h1⟩
  · rintro P a bs h1 ⟨b, rfl, h2⟩
    exact ⟨a, b, rfl, h1, h2⟩

theorem Writes.weaken {α β : Type} {env : WEnv} {w : Ins Bytes} {f : Fmt α} {g : Fmt β} {x : α} {y : β}
    (h : Writes env w f x) (hw : ∀ P bs, f (env.ctx P) x bs → g (env.ctx P) y bs) :
    Writes env w g y := GoodW.weaken h (fun P bs => hw P bs)

theorem Writes.on {α β : Type} {env : WEnv} {w : Ins Bytes} {f : Fmt β} {p : α → β} {x : α}
    (h : Writes env w f (p x)) : Writes env w (Fmt.on p f) x := h

theorem Writes.all {α : Type} {env : WEnv} {w : α → Ins Bytes} {f : Fmt α} {xs : List α}
    (h : ∀ x ∈ xs, Writes env (w x) f x) : Writes env (wAll w xs) (Fmt.all f) xs := by
  induction xs with
  | nil => exact GoodW.pure _ (fun _ => rfl)
  | cons x xs ih =>
    unfold Writes wAll
    rw [List.map_cons, wSeq]
    refine GoodW.bind (h x (by simp)) (q := fun a P bs => ∃ b, bs = a ++ b ∧ Fmt.all f (env.ctx P) xs b)
      (fun a => GoodW.bind (ih (fun y hy => h y (by simp [hy]))) (q := fun b _ bs => bs = a ++ b)
        (fun b => GoodW.pure _ (fun _ => rfl)) ?_) ?_
    · intro P b bs h1 h2
      exact ⟨b, h2, h1⟩
    · rintro P a bs h1 ⟨b, rfl, h2⟩
      exact ⟨a, b, rfl, h1, h2⟩

theorem Writes.vec2 {α : Type} {env : WEnv} {w : α → Ins Bytes} {f : Fmt α} {xs : List α}
    (h : ∀ x ∈ xs, Writes env (w x) f x) : Writes env (wVec u16 w xs) (Fmt.table2 f) xs := by
  unfold wVec
  split
  · rename_i hl
    have hl : xs.length < 65536 := by simpa [u16] using hl
    refine GoodW.bind (Writes.all h) (q := fun a _ bs => bs = U2 xs.length ++ a)
      (fun a => GoodW.pure _ (fun _ => ?_)) ?_
    · rw [u16_write]
      simp only [u16, UInt16.toNat_ofNat']
      rw [Nat.mod_eq_of_lt (by omega)]
    · intro P a bs h1 h2
      exact ⟨hl, a, h2, h1⟩
  · exact GoodW.fail _ _

theorem Writes.vec1 {α : Type} {env : WEnv} {w : α → Ins Bytes} {f : Fmt α} {xs : List α}
    (h : ∀ x ∈ xs, Writes env (w x) f x) : Writes env (wVec u8 w xs) (Fmt.table1 f) xs := by
  unfold wVec
  split
  · rename_i hl
    have hl : xs.length < 256 := by simpa [u8] using hl
    refine GoodW.bind (Writes.all h) (q := fun a _ bs => bs = U1 xs.length ++ a)
      (fun a => GoodW.pure _ (fun _ => ?_)) ?_
    · rw [u8_write]
      simp only [u8, UInt8.toNat_ofNat']
      rw [Nat.mod_eq_of_lt (by omega)]
    · intro P a bs h1 h2
      exact ⟨hl, a, h2, h1⟩
  · exact GoodW.fail _ _

theorem writes_u1 (env : WEnv) (x : UInt8) : Writes env (wNum u8 x) Fmt.byte x :=
  GoodW.pure _ (fun _ => u8_write x)
theorem writes_u2 (env : WEnv) (x : UInt16) : Writes env (wNum u16 x) Fmt.word x :=
  GoodW.pure _ (fun _ => u16_write x)
theorem writes_u4 (env : WEnv) (x : UInt32) : Writes env (wNum u32 x) Fmt.dword x :=
  GoodW.pure _ (fun _ => u32_write x)

theorem writes_tag {α : Type} (env : WEnv) (n : UInt8) (x : α) :
    Writes env (wNum u8 n) (Fmt.tag n.toNat) x :=
  GoodW.pure _ (fun _ => u8_write n)

theorem writes_idx {α : Type} {env : WEnv} {i : Ins UInt16} {is : Pool → UInt16 → α → Prop} {x : α}
    (h : Good i (fun P i => is P i x)) : Writes env (wIdx i) (Fmt.index is) x :=
  GoodW.bind h.toW (q := fun i _ bs => bs = U2 i.toNat) (fun i => GoodW.pure _ (fun _ => u16_write i))
    (fun _ i _ h1 h2 => ⟨i, h1, h2⟩)

theorem writes_utf8 (env : WEnv) (s : Bytes) : Writes env (wUtf8 s) Fmt.utf8 s := writes_idx (good_wtf8 s)
theorem writes_cls (env : WEnv) (s : Bytes) : Writes env (wStr 7 s) Fmt.cls s :=
  writes_idx (good_indirect7 s)
theorem writes_module (env : WEnv) (s : Bytes) : Writes env (wStr 19 s) Fmt.module s :=
  writes_idx (good_indirect19 s)
theorem writes_package (env : WEnv) (s : Bytes) : Writes env (wStr 20 s) Fmt.package s :=
  writes_idx (good_indirect20 s)

theorem At_pos {es : List Entry} {i : Nat} {e : Entry} (h : At es i e) : i ≠ 0 := by
  obtain ⟨pre, suf, _, rfl⟩ := h
  omega

/-- Like `good_raw`; moreover index 0 is never handed out. -/
theorem good_raw0 (e : Entry) : Good (insertRaw e) (fun P i => P i = some e ∧ i ≠ 0) := by
  intro cp i cp' hi h
  have := insertRaw_ok hi h
  refine ⟨.raw (.refl _) h, fun P hP => ⟨hP i e this.2.2.1, ?_⟩⟩
  rintro rfl
  exact At_pos this.2.2.1 rfl

theorem good_wtf80 (s : Bytes) : Good (insertWtf8 s) (fun P i => IsUtf8 P i s ∧ i ≠ 0) := good_raw0 _

theorem good_class0 (s : Bytes) : Good (insertIndirect 7 s) (fun P i => IsClass P i s ∧ i ≠ 0) :=
  (good_wtf8 s).bind (fun _ => good_raw0 _) (fun _ a _ h1 h2 => ⟨⟨a, h2.1, h1⟩, h2.2⟩)

theorem good_cls0 (s : Bytes) : Good (insertClass s) (fun P i => IsClass P i s ∧ i ≠ 0) :=
  (good_wtf8 s).bind (fun _ => good_raw0 _) (fun _ a _ h1 h2 => ⟨⟨a, h2.1, h1⟩, h2.2⟩)

theorem good_nat0 (n : Bytes) {t : JType} (h : Printable t) :
    Good (insertNameAndType n (JType.display t)) (fun P i => IsNat P i n t ∧ i ≠ 0) := by
  obtain ⟨cs, hd, he⟩ := display_printable h
  rw [he]
  refine Good.bind (good_wtf8 n) (fun a => Good.bind (good_wtf8 _) (fun b => good_raw0 (.nat a b))
    (post := fun P i => (∃ b, P i = some (.nat a b) ∧ IsUtf8 P b (encodeCps cs)) ∧ i ≠ 0)
    (fun P b i h1 h2 => ⟨⟨b, h2.1, h1⟩, h2.2⟩)) ?_
  rintro P a i h1 ⟨⟨b, h2, h3⟩, h0⟩
  exact ⟨⟨a, b, h2, h1, h.1, cs, hd, h3⟩, h0⟩

theorem writes_opt {α : Type} {env : WEnv} {f : α → Ins UInt16} {is : Pool → UInt16 → α → Prop}
    {x : Option α} (h : ∀ a, x = some a → Good (f a) (fun P i => is P i a ∧ i ≠ 0)) :
    Writes env (wOpt f x) (Fmt.indexOpt is) x := by
  cases x with
  | none => exact GoodW.pure _ (fun _ => u16_write 0)
  | some a =>
    exact GoodW.bind (h a rfl).toW (q := fun i _ bs => bs = U2 i.toNat)
      (fun i => GoodW.pure _ (fun _ => u16_write i)) (fun _ i _ h1 h2 => ⟨i, h1.2, h1.1, h2⟩)

theorem writes_type (env : WEnv) {t : JType} (h : IsDescriptor t) :
    Writes env (wType t) Fmt.descr t := by
  refine writes_idx (Good.weaken (good_wtf8 _) ?_)
  intro P i hi
  obtain ⟨cs, hd⟩ := Props.C15_text_exists h
  refine ⟨h, cs, hd, ?_⟩
  rwa [Props.C15_write_text hd] at hi

theorem writes_label (env : WEnv) (l : Label) : Writes env (wLabel env l) Fmt.label l := by
  refine GoodW.bind (p := fun _ o => env.label l = .ok o) (GoodW.lift (fun _ _ h => h))
    (q := fun o _ bs => bs = U2 o.toNat) (fun o => GoodW.pure _ (fun _ => u16_write o)) ?_
  intro P o bs h1 h2
  refine ⟨o.toNat, ?_, o.toNat_lt, h2⟩
  simp only [WEnv.ctx, h1]

theorem wSeq_cons_ok {w : Ins Bytes} {ws : List (Ins Bytes)} {cp cp' cp'' : VecCp} {a b : Bytes}
    (h1 : w cp = .ok (a, cp')) (h2 : wSeq ws cp' = .ok (b, cp'')) :
    wSeq (w :: ws) cp = .ok (a ++ b, cp'') := by
  simp only [wSeq, Bind.bind, Ins.bind, h1, h2]
  rfl

/-! ## Attribute frames -/

theorem writes_attr {α : Type} {env : WEnv} {name : Bytes} {w : Ins Bytes} {f : Fmt α} {x : α}
    (h : Writes env w f x) (hl : ∀ P bs, f (env.ctx P) x bs → bs.length < 4294967296) :
    Writes env (wAttr name w) (Fmt.attr name f) x := by
  unfold wAttr Writes
  refine GoodW.bind (good_wtf8 name).toW
    (q := fun i P bs => ∃ body, f (env.ctx P) x body ∧ body.length < 4294967296 ∧
      bs = U2 i.toNat ++ U4 body.length ++ body)
    (fun i => GoodW.bind h
      (q := fun body _ bs => bs = U2 i.toNat ++ U4 (UInt32.ofNat body.length).toNat ++ body)
      (fun body => GoodW.pure _ (fun _ => by rw [u16_write, u32_write])) ?_) ?_
  · rintro P body bs h1 rfl
    have := hl P body h1
    refine ⟨body, h1, this, ?_⟩
    simp only [UInt32.toNat_ofNat']
    rw [Nat.mod_eq_of_lt (by omega)]
  · rintro P i bs h1 ⟨body, h2, h3, h4⟩
    exact ⟨i, body, h1, h2, h3, h4⟩

theorem Reads.framed {α : Type} {nm : Bytes} {r : Rd α} {env : REnv} {body : Bytes} {v : (UInt32 → Label) → α}
    {o : List UInt32} {p : List UInt16} (h : Reads r env body v o p) (hl : body.length < 4294967296) :
    Reads (rFramed nm r) env (U4 body.length ++ body) v o p := by
  intro st rest hs m hm
  unfold rFramed
  rw [List.append_assoc, readsU4' _ hl]
  simp only [UInt32.toNat_ofNat', Nat.mod_eq_of_lt (show body.length < 2 ^ 32 by omega)]
  rw [readExact_append _ _ _ rfl]
  have := h st [] hs m hm
  rw [List.append_nil] at this
  simp only [this]

theorem PReads.framed {α : Type} {nm : Bytes} {r : Rd α} {env : REnv} {body : Bytes} {x : α}
    (h : PReads r env body x) (hl : body.length < 4294967296) :
    PReads (rFramed nm r) env (U4 body.length ++ body) x := by
  intro st rest
  unfold rFramed
  rw [List.append_assoc, readsU4' _ hl]
  simp only [UInt32.toNat_ofNat', Nat.mod_eq_of_lt (show body.length < 2 ^ 32 by omega)]
  rw [readExact_append _ _ _ rfl]
  have := h st []
  rw [List.append_nil] at this
  simp only [this]

end Verif
