import Verif.Lemmas.Local
import Verif.Spec.Stream

/-! # Readers take their input from a stream -/

namespace Verif
open Spec Sig

/-! ## Readers that agree on every input -/

/-- The readers fail alike, leave the same input and give related values. -/
def Par {α : Type} (R : α → α → Prop) (r r' : Rd α) : Prop := ∀ env st bs,
  (∃ e, r env st bs = .error e ∧ r' env st bs = .error e) ∨
  ∃ a a' st' rest, r env st bs = .ok (a, st', rest) ∧ r' env st bs = .ok (a', st', rest) ∧ R a a'

theorem Par.refl {α : Type} {R : α → α → Prop} (hR : ∀ a, R a a) (r : Rd α) : Par R r r := by
  intro env st bs
  rcases h : r env st bs with e | ⟨a, st', rest⟩
  · exact .inl ⟨e, rfl, rfl⟩
  · exact .inr ⟨a, a, st', rest, rfl, rfl, hR a⟩

theorem Par.bind {α β : Type} {R : α → α → Prop} {S : β → β → Prop} {x x' : Rd α} {f f' : α → Rd β}
    (hx : Par R x x') (hf : ∀ a a', R a a' → Par S (f a) (f' a')) : Par S (Rd.bind x f) (Rd.bind x' f') := by
  intro env st bs
  unfold Rd.bind
  rcases hx env st bs with ⟨e, h1, h2⟩ | ⟨a, a', st', rest, h1, h2, h3⟩
  · exact .inl ⟨e, by rw [h1], by rw [h2]⟩
  · rw [h1, h2]
    exact hf a a' h3 env st' rest

theorem Par.same {α β : Type} {S : β → β → Prop} {x : Rd α} {f f' : α → Rd β}
    (hf : ∀ a, Par S (f a) (f' a)) : Par S (Rd.bind x f) (Rd.bind x f') :=
  Par.bind (R := Eq) (Par.refl (fun _ => rfl) x) (fun a a' h => h ▸ hf a)

/-! ## Readers on longer inputs -/

/-- On an input that goes on with `t`, the second reader fails like the first or gives a related value,
and leaves `t`; unless the input was too short for the first. -/
def Flows {α : Type} (t : Bytes) (R : α → α → Prop) (r r' : Rd α) : Prop := ∀ env st bs,
  r env st bs = .error .io ∨
  (∃ e, r env st bs = .error e ∧ r' env st (bs ++ t) = .error e) ∨
  ∃ a a' st' rest, r env st bs = .ok (a, st', rest) ∧ r' env st (bs ++ t) = .ok (a', st', rest ++ t) ∧ R a a'

theorem Flows.bind {α β : Type} {t : Bytes} {R : α → α → Prop} {S : β → β → Prop} {x x' : Rd α}
    {f f' : α → Rd β} (hx : Flows t R x x') (hf : ∀ a a', R a a' → Flows t S (f a) (f' a')) :
    Flows t S (Rd.bind x f) (Rd.bind x' f') := by
  intro env st bs
  unfold Rd.bind
  rcases hx env st bs with h | ⟨e, h1, h2⟩ | ⟨a, a', st', rest, h1, h2, h3⟩
  · exact .inl (by rw [h])
  · exact .inr (.inl ⟨e, by rw [h1], by rw [h2]⟩)
  · rw [h1, h2]
    exact hf a a' h3 env st' rest

theorem Flows.same {α β : Type} {t : Bytes} {S : β → β → Prop} {x : Rd α} {f f' : α → Rd β}
    (hx : Flows t Eq x x) (hf : ∀ a, Flows t S (f a) (f' a)) : Flows t S (Rd.bind x f) (Rd.bind x f') :=
  hx.bind (fun a _ h => h ▸ hf a)

theorem Flows.pure {α : Type} {t : Bytes} {R : α → α → Prop} {a a' : α} (h : R a a') :
    Flows t R (Rd.pure a) (Rd.pure a') :=
  fun _ st bs => .inr (.inr ⟨a, a', st, bs, rfl, rfl, h⟩)

theorem Flows.fail {α : Type} {t : Bytes} {R : α → α → Prop} (e : Err) :
    Flows t R (Rd.fail e : Rd α) (Rd.fail e) :=
  fun _ _ _ => .inr (.inl ⟨e, rfl, rfl⟩)

theorem Flows.map {α β : Type} {t : Bytes} {R : α → α → Prop} {S : β → β → Prop} {x x' : Rd α} {f f' : α → β}
    (hx : Flows t R x x') (h : ∀ a a', R a a' → S (f a) (f' a')) : Flows t S (Rd.map f x) (Rd.map f' x') :=
  hx.bind (fun a a' ha => .pure (h a a' ha))

theorem Flows.map' {α β : Type} {t : Bytes} {x : Rd α} {f : α → β} (hx : Flows t Eq x x) :
    Flows t Eq (Rd.map f x) (Rd.map f x) := hx.map (fun _ _ h => congrArg f h)

theorem Flows.ap {α β : Type} {t : Bytes} {R : α → α → Prop} {S : β → β → Prop} {g g' : Rd (α → β)}
    {x x' : Rd α} (hg : Flows t (fun f f' => ∀ a a', R a a' → S (f a) (f' a')) g g') (hx : Flows t R x x') :
    Flows t S (Rd.ap g x) (Rd.ap g' x') :=
  hg.bind (fun f f' hf => hx.bind (fun a a' ha => .pure (hf a a' ha)))

theorem Flows.ap' {α β : Type} {t : Bytes} {g : Rd (α → β)} {x : Rd α} (hg : Flows t Eq g g)
    (hx : Flows t Eq x x) : Flows t Eq (Rd.ap g x) (Rd.ap g x) :=
  hg.same (fun _ => hx.same (fun _ => .pure rfl))

theorem Flows.ite {α : Type} {t : Bytes} {R : α → α → Prop} {p : Prop} [Decidable p] {x y x' y' : Rd α}
    (h : Flows t R x x') (h' : Flows t R y y') : Flows t R (if p then x else y) (if p then x' else y') := by
  split
  · exact h
  · exact h'

theorem Flows.replicate {α : Type} {t : Bytes} {R : α → α → Prop} {r r' : Rd α} (h : Flows t R r r') :
    ∀ n, Flows t (Each R) (Rd.replicate n r) (Rd.replicate n r')
  | 0 => .pure .nil
  | n + 1 => h.bind (fun _ _ ha => (Flows.replicate h n).bind (fun _ _ hs => .pure (.cons ha hs)))

theorem Flows.mono {α : Type} {t : Bytes} {R S : α → α → Prop} {r r' : Rd α} (h : Flows t R r r')
    (hS : ∀ a a', R a a' → S a a') : Flows t S r r' := by
  intro env st bs
  rcases h env st bs with h | ⟨e, h1, h2⟩ | ⟨a, a', st', rest, h1, h2, h3⟩
  · exact .inl h
  · exact .inr (.inl ⟨e, h1, h2⟩)
  · exact .inr (.inr ⟨a, a', st', rest, h1, h2, hS a a' h3⟩)

theorem each_eq {α : Type} {as bs : List α} (h : Each Eq as bs) : as = bs := by
  induction h with
  | nil => rfl
  | cons h _ ih => rw [h, ih]

/-- The same for readers without a pool. -/
def Runs {α : Type} (t : Bytes) (r : Reader α) : Prop := ∀ bs,
  r bs = .error .io ∨ (∃ e, r bs = .error e ∧ r (bs ++ t) = .error e) ∨
  ∃ a rest, r bs = .ok (a, rest) ∧ r (bs ++ t) = .ok (a, rest ++ t)

theorem Runs.exact {t : Bytes} (n : Nat) : Runs t (readExact n) := by
  intro bs
  rcases h : readExact n bs with e | ⟨a, rest⟩
  · unfold readExact at h
    split at h <;> cases h
    exact .inl rfl
  · exact .inr (.inr ⟨a, rest, rfl, readExact_more t h⟩)

theorem Runs.bind {α β : Type} {t : Bytes} {x : Reader α} {f : α → Reader β} (hx : Runs t x)
    (hf : ∀ a, Runs t (f a)) : Runs t (Reader.bind x f) := by
  intro bs
  unfold Reader.bind
  rcases hx bs with h | ⟨e, h1, h2⟩ | ⟨a, rest, h1, h2⟩
  · exact .inl (by rw [h])
  · exact .inr (.inl ⟨e, by rw [h1], by rw [h2]⟩)
  · rw [h1, h2]
    exact hf a rest

theorem Runs.pure {α : Type} {t : Bytes} (a : α) : Runs t (Reader.pure a) :=
  fun bs => .inr (.inr ⟨a, bs, rfl, rfl⟩)

theorem Runs.fail {α : Type} {t : Bytes} (e : Err) : Runs t (Reader.fail e : Reader α) :=
  fun _ => .inr (.inl ⟨e, rfl, rfl⟩)

theorem Runs.map {α β : Type} {t : Bytes} {x : Reader α} {f : α → β} (hx : Runs t x) :
    Runs t (x.map f) := hx.bind (fun _ => .pure _)

theorem Runs.map2 {α β γ : Type} {t : Bytes} {x : Reader α} {y : Reader β} {f : α → β → γ} (hx : Runs t x)
    (hy : Runs t y) : Runs t (Reader.map2 f x y) := hx.bind (fun _ => hy.bind (fun _ => .pure _))

theorem Runs.num {α : Type} {t : Bytes} (c : NumCodec α) : Runs t c.read := by
  have : c.read = Reader.bind (readExact c.size) (fun b => Reader.pure (c.ofBits (fromBe b))) := by
    funext bs
    unfold NumCodec.read Reader.bind
    split
    · rename_i h; rw [h]; rfl
    · rename_i h; rw [h]
  rw [this]
  exact (Runs.exact _).bind (fun _ => .pure _)

theorem Flows.lift {α : Type} {t : Bytes} {r : Reader α} (h : Runs t r) : Flows t Eq (Rd.lift r) (Rd.lift r) := by
  intro env st bs
  unfold Rd.lift
  rcases h bs with h | ⟨e, h1, h2⟩ | ⟨a, rest, h1, h2⟩
  · exact .inl (by rw [h])
  · exact .inr (.inl ⟨e, by rw [h1], by rw [h2]⟩)
  · exact .inr (.inr ⟨a, a, st, rest, by rw [h1], by rw [h2], rfl⟩)

theorem Flows.num {α : Type} {t : Bytes} (c : NumCodec α) : Flows t Eq (rNum c) (rNum c) := .lift (.num c)
theorem Flows.flags {t : Bytes} (k : FlagType) : Flows t Eq (rFlags k) (rFlags k) := .lift (.map (.num _))

/-- What does not touch the input. -/
theorem Flows.still {α : Type} {t : Bytes} {r : Rd α}
    (h : ∀ env st, (∃ e, ∀ bs, r env st bs = .error e) ∨ ∃ a st', ∀ bs, r env st bs = .ok (a, st', bs)) :
    Flows t Eq r r := by
  intro env st bs
  rcases h env st with ⟨e, h⟩ | ⟨a, st', h⟩
  · exact .inr (.inl ⟨e, h _, h _⟩)
  · exact .inr (.inr ⟨a, a, st', bs, h _, h _, rfl⟩)

theorem Flows.lookup {α : Type} {t : Bytes} (f : Pool → UInt16 → Option α) (i : UInt16) :
    Flows t Eq (rLookup f i) (rLookup f i) := by
  refine .still (fun env st => ?_)
  unfold rLookup
  split
  · exact .inr ⟨_, _, fun _ => rfl⟩
  · exact .inl ⟨_, fun _ => rfl⟩

theorem Flows.ofRes {α : Type} {t : Bytes} (r : Res α) : Flows t Eq (Rd.ofRes r) (Rd.ofRes r) := by
  refine .still (fun env st => ?_)
  unfold Rd.ofRes
  split
  · exact .inr ⟨_, _, fun _ => rfl⟩
  · exact .inl ⟨_, fun _ => rfl⟩

theorem Flows.vec {ℓ α : Type} {t : Bytes} {l : NumCodec ℓ} {R : α → α → Prop} {r r' : Rd α}
    (h : Flows t R r r') : Flows t (Each R) (rVec l r) (rVec l r') :=
  (Flows.num l).same (fun _ => h.replicate _)

theorem Flows.vec' {ℓ α : Type} {t : Bytes} {l : NumCodec ℓ} {r : Rd α} (h : Flows t Eq r r) :
    Flows t Eq (rVec l r) (rVec l r) := h.vec.mono (fun _ _ => each_eq)

theorem Flows.idx {α : Type} {t : Bytes} (f : Pool → UInt16 → Option α) : Flows t Eq (rIdx f) (rIdx f) :=
  (Flows.num _).same (fun _ => .lookup _ _)
theorem Flows.utf8 {t : Bytes} : Flows t Eq rUtf8 rUtf8 := .idx _
theorem Flows.str {t : Bytes} (k : UInt8) : Flows t Eq (rStr k) (rStr k) := .idx _
theorem Flows.type {t : Bytes} : Flows t Eq rType rType := Flows.utf8.same (fun _ => .ofRes _)
theorem Flows.clsOpt {t : Bytes} : Flows t Eq rClsOpt rClsOpt :=
  (Flows.num _).same (fun _ => .ite (.pure rfl) (.map' (.lookup _ _)))

theorem Flows.rawBody {t : Bytes} : Flows t Eq rRawBody rRawBody := by
  intro env st bs
  unfold rRawBody
  rcases Runs.num (t := t) u32 bs with h | ⟨e, h1, h2⟩ | ⟨n, bs1, h1, h2⟩
  · exact .inl (by rw [h])
  · exact .inr (.inl ⟨e, by rw [h1], by rw [h2]⟩)
  · rw [h1, h2]
    simp only
    rcases Runs.exact (t := t) n.toNat bs1 with h | ⟨e, h1, h2⟩ | ⟨body, bs2, h1, h2⟩
    · exact .inl (by rw [h])
    · exact .inr (.inl ⟨e, by rw [h1], by rw [h2]⟩)
    · exact .inr (.inr ⟨body, body, st, bs2, by rw [h1], by rw [h2], rfl⟩)

theorem Flows.framed {α : Type} {nm : Bytes} {t : Bytes} {R : α → α → Prop} {r r' : Rd α} (h : Par R r r') :
    Flows t R (rFramed nm r) (rFramed nm r') := by
  intro env st bs
  unfold rFramed
  rcases Runs.num (t := t) u32 bs with h' | ⟨e, h1, h2⟩ | ⟨n, bs1, h1, h2⟩
  · exact .inl (by rw [h'])
  · exact .inr (.inl ⟨e, by rw [h1], by rw [h2]⟩)
  · rw [h1, h2]
    simp only
    rcases Runs.exact (t := t) n.toNat bs1 with h' | ⟨e, h1, h2⟩ | ⟨body, bs2, h1, h2⟩
    · exact .inl (by rw [h'])
    · exact .inr (.inl ⟨e, by rw [h1], by rw [h2]⟩)
    · rw [h1, h2]
      simp only
      rcases h env st body with ⟨e, h3, h4⟩ | ⟨a, a', st', left, h3, h4, hR⟩
      · exact .inr (.inl ⟨e, by rw [h3], by rw [h4]⟩)
      · rw [h3, h4]
        cases left with
        | nil => exact .inr (.inr ⟨a, a', st', bs2, rfl, rfl, hR⟩)
        | cons => exact .inr (.inl ⟨_, rfl, rfl⟩)

theorem Flows.attr {α : Type} {t : Bytes} {R : α → α → Prop} (hR : ∀ a, R a a)
    {table table' : Bytes → Option (Rd α)} {raw : RawAttribute → α}
    (h : ∀ n, (table n = none ∧ table' n = none) ∨
      ∃ r r', table n = some r ∧ table' n = some r' ∧ Par R r r') :
    Flows t R (rAttr table raw) (rAttr table' raw) := by
  refine Flows.utf8.same (fun name => ?_)
  rcases h name with ⟨h1, h2⟩ | ⟨r, r', h1, h2, h3⟩
  · rw [h1, h2]
    exact Flows.rawBody.map (fun a a' ha => ha ▸ hR _)
  · rw [h1, h2]
    exact .framed h3

theorem Flows.attr' {α : Type} {t : Bytes} {table : Bytes → Option (Rd α)} {raw : RawAttribute → α} :
    Flows t Eq (rAttr table raw) (rAttr table raw) := by
  refine .attr (fun _ => rfl) (fun n => ?_)
  rcases h : table n with _ | r
  · exact .inl ⟨rfl, rfl⟩
  · exact .inr ⟨r, r, rfl, rfl, .refl (fun _ => rfl) r⟩

/-! ## Methods -/

theorem each_refl {α : Type} {R : α → α → Prop} (h : ∀ a, R a a) : ∀ as : List α, Each R as as
  | [] => .nil
  | a :: as => .cons (h a) (each_refl h as)

theorem each_append {α : Type} {R : α → α → Prop} {as as' bs bs' : List α} (h : Each R as as')
    (h' : Each R bs bs') : Each R (as ++ bs) (as' ++ bs') := by
  induction h with
  | nil => exact h'
  | cons h _ ih => exact .cons h ih

theorem shuffledCode_refl (x : Code) : ShuffledCode x x := ⟨x.attrs, rfl, each_refl (fun _ => .inl rfl) _⟩

/-- The order in which variables are listed matters for nothing else. -/
theorem Par.code {R : Code → Code → Prop} {o o' : Nat → List LocalVariable → List LocalVariable}
    (h : ∀ n s l is cs as vs, R ⟨s, l, is, cs, as ++ [.locals (o n vs)]⟩ ⟨s, l, is, cs, as ++ [.locals (o' n vs)]⟩)
    (hR : ∀ x, R x x) : Par R (Code.read o) (Code.read o') := by
  have key : Par R (Code.readIn o) (Code.readIn o') := by
    unfold Code.readIn
    refine .same fun s => .same fun l => .same fun len => .same fun code => .same fun pis => .same fun cs =>
      .same fun n => .same fun acc => .same fun is => ?_
    intro env st bs
    refine .inr ⟨_, _, st, bs, rfl, rfl, ?_⟩
    split
    · exact hR _
    · exact h _ _ _ _ _ _ _
  intro env st bs
  unfold Code.read
  rcases key { env with catches := some [] } ⟨st.pending, some []⟩ bs with ⟨e, h1, h2⟩ | ⟨a, a', st', rest, h1, h2, h3⟩
  · exact .inl ⟨e, by rw [h1], by rw [h2]⟩
  · exact .inr ⟨a, a', ⟨st'.pending, st.labels⟩, rest, by rw [h1], by rw [h2], h3⟩

theorem Par.methodTable {R : Code → Code → Prop} {o o' : Nat → List LocalVariable → List LocalVariable}
    (h : Par R (Code.read o) (Code.read o')) (n : Bytes) :
    (MethodAttr.table o n = none ∧ MethodAttr.table o' n = none) ∨
      ∃ r r', MethodAttr.table o n = some r ∧ MethodAttr.table o' n = some r' ∧ Par (SimilarAttr R) r r' := by
  unfold MethodAttr.table
  by_cases h1 : n = N.code
  · rw [if_pos h1, if_pos h1]
    exact .inr ⟨_, _, rfl, rfl, h.bind (fun a a' ha => by
      intro env st bs
      exact .inr ⟨_, _, st, bs, rfl, rfl, .inr ⟨a, a', rfl, rfl, ha⟩⟩)⟩
  · rw [if_neg h1, if_neg h1]
    generalize (if n = N.deprecated then _ else _ : Option (Rd MethodAttr)) = tb
    cases tb with
    | none => exact .inl ⟨rfl, rfl⟩
    | some r => exact .inr ⟨r, r, rfl, rfl, .refl (fun _ => .inl rfl) r⟩

theorem Flows.method {t : Bytes} {R : Code → Code → Prop} {ord ord' : Order}
    (h : ∀ n, Par R (Code.read (ord n)) (Code.read (ord' (n + t.length)))) :
    Flows t (SimilarMethod R) (Method.read ord) (Method.read ord') := by
  have ha : Flows t (SimilarAttr R) (MethodAttr.read ord) (MethodAttr.read ord') := by
    intro env st bs
    unfold MethodAttr.read
    rw [List.length_append]
    exact Flows.attr (fun _ => .inl rfl) (Par.methodTable (h bs.length)) env st bs
  refine Flows.ap (R := Each (SimilarAttr R)) ?_ (.vec ha)
  refine Flows.mono (R := fun f f' => (∃ a n d, f = MethodOf.mk a n d) ∧ f = f') ?_ ?_
  · refine .ap (R := Eq) (.ap (R := Eq) (.map (R := Eq) (.flags _) ?_) .utf8) .type
    rintro a _ rfl b _ rfl c _ rfl
    exact ⟨⟨a, b, c, rfl⟩, rfl⟩
  · rintro _ _ ⟨⟨a, n, d, rfl⟩, rfl⟩ as as' hs
    exact ⟨as', rfl, hs⟩

theorem Flows.field {t : Bytes} : Flows t Eq Field.read Field.read :=
  .ap' (.ap' (.ap' (.map' (.flags _)) .utf8) .type) (.vec' .attr')

theorem Flows.classBody {t : Bytes} {R : Code → Code → Prop} {ord ord' : Order} (v : Version)
    (h : ∀ n, Par R (Code.read (ord n)) (Code.read (ord' (n + t.length)))) :
    Flows t (SimilarClass R) (Class.readBody ord v) (Class.readBody ord' v) := by
  refine .ap (R := Eq) (.ap (R := Each (SimilarMethod R)) (Flows.mono (R := fun f f' =>
    (∃ a n s is fs, f = ClassOf.mk v a n s is fs) ∧ f = f') (.ap (R := Eq) (.ap (R := Eq) (.ap (R := Eq)
    (.ap (R := Eq) (.map (R := Eq) (.flags _) ?_) (.str _)) .clsOpt) (.vec' (.str _))) (.vec' .field)) ?_)
    (.vec (.method h))) (.vec' .attr')
  · rintro a _ rfl b _ rfl c _ rfl d _ rfl e _ rfl
    exact ⟨⟨a, b, c, d, e, rfl⟩, rfl⟩
  · rintro _ _ ⟨⟨a, n, s, is, fs, rfl⟩, rfl⟩ ms ms' hs as _ rfl
    exact ⟨ms', rfl, hs⟩

theorem similarAttr_eq {a b : MethodAttr} (h : SimilarAttr Eq a b) : a = b := by
  rcases h with h | ⟨x, y, rfl, rfl, rfl⟩
  · exact h
  · rfl

theorem each_mono {α : Type} {R S : α → α → Prop} (h : ∀ a b, R a b → S a b) {as bs : List α}
    (hs : Each R as bs) : Each S as bs := by
  induction hs with
  | nil => exact .nil
  | cons ha _ ih => exact .cons (h _ _ ha) ih

theorem similarMethod_eq {m n : Method} (h : SimilarMethod Eq m n) : m = n := by
  obtain ⟨as, rfl, h⟩ := h
  rw [← each_eq (each_mono (fun _ _ => similarAttr_eq) h)]

theorem similarClass_eq {c d : Class} (h : SimilarClass Eq c d) : c = d := by
  obtain ⟨ms, rfl, h⟩ := h
  rw [← each_eq (each_mono (fun _ _ => similarMethod_eq) h)]

/-! ## Classes -/

theorem Runs.string {t : Bytes} : Runs t readString := by
  intro bs
  unfold readString
  rcases Runs.num (t := t) u16 bs with h | ⟨e, h1, h2⟩ | ⟨n, bs1, h1, h2⟩
  · exact .inl (by rw [h])
  · exact .inr (.inl ⟨e, by rw [h1], by rw [h2]⟩)
  rw [h1, h2]
  simp only
  rcases Runs.exact (t := t) n.toNat bs1 with h | ⟨e, h1, h2⟩ | ⟨buf, bs2, h1, h2⟩
  · exact .inl (by rw [h])
  · exact .inr (.inl ⟨e, by rw [h1], by rw [h2]⟩)
  rw [h1, h2]
  simp only
  rcases Mutf8.decode buf with e | s
  · exact .inr (.inl ⟨e, rfl, rfl⟩)
  · exact .inr (.inr ⟨s, bs2, rfl, rfl⟩)

theorem Runs.entry {t : Bytes} : Runs t Entry.read := by
  refine (Runs.num _).bind (fun tag => ?_)
  unfold Entry.readPayload
  split
  all_goals first
    | exact .map .string
    | exact .map (.num _)
    | exact .map2 (.num _) (.num _)
    | exact .fail _

theorem Runs.poolLoop {t : Bytes} (count : UInt16) : ∀ (k : Nat) (i : UInt16) (acc : List (UInt16 × Entry)),
    65536 - i.toNat ≤ k → Runs t (MapCp.readLoop count i acc) := by
  intro k
  induction k with
  | zero => intro i _ h; have := i.toNat_lt; omega
  | succ k ih =>
    intro i acc hk bs
    unfold MapCp.readLoop
    by_cases h : i < count
    · rw [if_pos h, if_pos h]
      rcases Runs.entry (t := t) bs with h | ⟨e, h1, h2⟩ | ⟨e, rest, h1, h2⟩
      · exact .inl (by rw [h])
      · exact .inr (.inl ⟨e, by rw [h1], by rw [h2]⟩)
      · rw [h1, h2]
        simp only
        by_cases hc : i.toNat + e.size.toNat < 65536
        · rw [if_pos hc, if_pos hc]
          refine ih _ _ ?_ rest
          have h1 : 1 ≤ e.size.toNat := by cases e <;> simp [Entry.size]
          rw [UInt16.toNat_add, Nat.mod_eq_of_lt hc]
          omega
        · rw [if_neg hc, if_neg hc]
          exact .inr (.inl ⟨_, rfl, rfl⟩)
    · rw [if_neg h, if_neg h]
      exact .inr (.inr ⟨_, _, rfl, rfl⟩)

theorem Runs.pool {t : Bytes} : Runs t MapCp.read :=
  (Runs.num _).bind (fun _ => Runs.poolLoop _ _ _ _ (Nat.le_refl _))

theorem Runs.version {t : Bytes} : Runs t Version.read := by
  refine .map2 (.num _) ((Runs.num _).bind (fun n => ?_))
  rcases Major.ofTag n with _ | m
  · exact .fail _
  · exact .pure _

/-- Reading a class from a stream. -/
theorem class_flows {t : Bytes} {R : Code → Code → Prop} {ord ord' : Order}
    (h : ∀ n, Par R (Code.read (ord n)) (Code.read (ord' (n + t.length)))) (bs : Bytes) :
    Class.read ord bs = .error .io ∨
    (∃ e, Class.read ord bs = .error e ∧ Class.read ord' (bs ++ t) = .error e) ∨
    ∃ c c' rest, Class.read ord bs = .ok (c, rest) ∧ Class.read ord' (bs ++ t) = .ok (c', rest ++ t) ∧
      SimilarClass R c c' := by
  unfold Class.read
  rcases Runs.num (t := t) u32 bs with h1 | ⟨e, h1, h2⟩ | ⟨magic, bs1, h1, h2⟩
  · exact .inl (by rw [h1])
  · exact .inr (.inl ⟨e, by rw [h1], by rw [h2]⟩)
  rw [h1, h2]
  simp only
  by_cases hm : magic = jvmMagic
  · rw [if_pos hm, if_pos hm]
    rcases Runs.version (t := t) bs1 with h1 | ⟨e, h1, h2⟩ | ⟨v, bs2, h1, h2⟩
    · exact .inl (by rw [h1])
    · exact .inr (.inl ⟨e, by rw [h1], by rw [h2]⟩)
    rw [h1, h2]
    simp only
    rcases Runs.pool (t := t) bs2 with h1 | ⟨e, h1, h2⟩ | ⟨cp, bs3, h1, h2⟩
    · exact .inl (by rw [h1])
    · exact .inr (.inl ⟨e, by rw [h1], by rw [h2]⟩)
    rw [h1, h2]
    simp only
    rcases Flows.classBody v h ⟨cp.get, none⟩ ⟨[], none⟩ bs3 with h1 | ⟨e, h1, h2⟩ | ⟨c, c', st, rest, h1, h2, hR⟩
    · exact .inl (by rw [h1])
    · exact .inr (.inl ⟨e, by rw [h1], by rw [h2]⟩)
    rw [h1, h2]
    simp only
    have ha : c'.attrs = c.attrs := by
      obtain ⟨ms, rfl, _⟩ := hR
      rfl
    rw [ha]
    rcases hc : resolveCells st.pending c.attrs with e | ⟨⟩
    · exact .inr (.inl ⟨e, rfl, rfl⟩)
    · exact .inr (.inr ⟨c, c', rest, rfl, rfl, hR⟩)
  · rw [if_neg hm, if_neg hm]
    exact .inr (.inl ⟨_, rfl, rfl⟩)

end Verif
