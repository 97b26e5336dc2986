import Verif.Spec.Traits
import Verif.Lemmas.CpInsert

/-!
# Lemmas about the pool traits
-/

namespace Verif
open Spec

theorem Act.bind_ok {σ α β : Type} {x : Act σ α} {f : α → Act σ β} {s s'' : σ} {b : β}
    (h : (x >>= f) s = .ok (b, s'')) : ∃ a s', x s = .ok (a, s') ∧ f a s' = .ok (b, s'') := by
  change Act.bind x f s = _ at h
  unfold Act.bind at h
  split at h
  · rename_i a s' e
    exact ⟨a, s', e, h⟩
  · cases h

theorem Act.lift_ok {σ α : Type} {r : Res α} {s s' : σ} {a : α}
    (h : (Act.lift r : Act σ α) s = .ok (a, s')) : r = .ok a ∧ s' = s := by
  unfold Act.lift at h
  split at h
  · cases h; exact ⟨rfl, rfl⟩
  · cases h

/-! ## Writers -/

theorem indirect_bad {σ : Type} (W : CpWriter σ) {tag : UInt8} {n : Bytes} (h7 : tag ≠ 7) (h8 : tag ≠ 8)
    (h19 : tag ≠ 19) (h20 : tag ≠ 20) :
    W.indirect tag n = W.wtf8 n >>= fun _ => Act.fail .panic := by
  unfold CpWriter.indirect
  congr
  funext i
  split <;> first | contradiction | rfl

section writer
variable {σ : Type} {W : CpWriter σ} {ok : σ → Prop} {holds : σ → UInt16 → Entry → Prop}
  {table : σ → UInt16 → Bsm → Prop}

theorem Spec.Inserts.trans {a b c : σ} (h1 : Inserts W a b) (h2 : Inserts W b c) : Inserts W a c := by
  induction h2 with
  | refl => exact h1
  | raw _ hr ih => exact .raw ih hr
  | bsm _ hr ih => exact .bsm ih hr

theorem Spec.KeepsEntries.inserts (K : KeepsEntries W ok holds) {a b : σ} (h : Inserts W a b) (ha : ok a) :
    ok b ∧ ∀ j f, holds a j f → holds b j f := by
  induction h with
  | refl => exact ⟨ha, fun _ _ h => h⟩
  | raw _ hr ih =>
    have h2 := K.raw ih.1 hr
    exact ⟨h2.1, fun j f h => h2.2.2 j f (ih.2 j f h)⟩
  | bsm _ hr ih =>
    have h2 := K.bsm ih.1 hr
    exact ⟨h2.1, fun j f h => h2.2 j f (ih.2 j f h)⟩

theorem Spec.KeepsTable.inserts (K : KeepsTable W ok table) {a b : σ} (h : Inserts W a b) (ha : ok a) :
    ok b ∧ ∀ j f, table a j f → table b j f := by
  induction h with
  | refl => exact ⟨ha, fun _ _ h => h⟩
  | raw _ hr ih =>
    have h2 := K.raw ih.1 hr
    exact ⟨h2.1, fun j f h => h2.2 j f (ih.2 j f h)⟩
  | bsm _ hr ih =>
    have h2 := K.bsm ih.1 hr
    exact ⟨h2.1, fun j f h => h2.2.2 j f (ih.2 j f h)⟩

theorem Spec.Serves.mono {P : Pool} {h1 h2 : UInt16 → Entry → Prop} (h : Serves P h2)
    (hm : ∀ j f, h1 j f → h2 j f) : Serves P h1 := fun i e ha => h i e (hm i e ha)

/-- The counterpart of `Good` for any implementation. -/
def Fine (W : CpWriter σ) (ok : σ → Prop) (holds : σ → UInt16 → Entry → Prop) {α : Type} (m : Act σ α)
    (post : Pool → α → Prop) : Prop :=
  ∀ s a s', ok s → m s = .ok (a, s') → Inserts W s s' ∧ ∀ P, Serves P (holds s') → post P a

theorem Fine.bind (K : KeepsEntries W ok holds) {α β : Type} {x : Act σ α} {f : α → Act σ β}
    {p : Pool → α → Prop} {q : α → Pool → β → Prop} {post : Pool → β → Prop} (h1 : Fine W ok holds x p)
    (h2 : ∀ a, Fine W ok holds (f a) (q a)) (h3 : ∀ P a b, p P a → q a P b → post P b) :
    Fine W ok holds (x >>= f) post := by
  intro s b s'' hi h
  obtain ⟨a, s', e1, e2⟩ := Act.bind_ok h
  have g1 := h1 s a s' hi e1
  have i1 := K.inserts g1.1 hi
  have g2 := h2 a s' b s'' i1.1 e2
  have i2 := K.inserts g2.1 i1.1
  exact ⟨g1.1.trans g2.1, fun P hP => h3 P a b (g1.2 P (hP.mono i2.2)) (g2.2 P hP)⟩

theorem Fine.weaken {α : Type} {m : Act σ α} {p q : Pool → α → Prop} (h : Fine W ok holds m p)
    (hw : ∀ P a, p P a → q P a) : Fine W ok holds m q :=
  fun s a s' hi he => ⟨(h s a s' hi he).1, fun P hP => hw P a ((h s a s' hi he).2 P hP)⟩

variable (K : KeepsEntries W ok holds)
include K

theorem fine_raw (e : Entry) : Fine W ok holds (W.raw e) (fun P i => P i = some e) :=
  fun _ i _ hi h => ⟨.raw (.refl _) h, fun _ hP => hP i e (K.raw hi h).2.1⟩

theorem fine_wtf8 (s : Bytes) : Fine W ok holds (W.wtf8 s) (fun P i => IsUtf8 P i s) := fine_raw K _

theorem fine_class (s : Bytes) : Fine W ok holds (W.cls s) (fun P i => IsClass P i s) :=
  (fine_wtf8 K s).bind K (fun _ => fine_raw K _) (fun _ a _ h1 h2 => ⟨a, h2, h1⟩)

theorem fine_package (s : Bytes) : Fine W ok holds (W.package s) (fun P i => IsPackage P i s) :=
  (fine_wtf8 K s).bind K (fun _ => fine_raw K _) (fun _ a _ h1 h2 => ⟨a, h2, h1⟩)

theorem fine_indirect (tag : UInt8) (s : Bytes) :
    Fine W ok holds (W.indirect tag s) (fun P i => IsIndirect tag P i s) := by
  by_cases h7 : tag = 7
  · subst h7
    exact (fine_wtf8 K s).bind K (fun _ => fine_raw K _) (fun _ a _ h1 h2 => .inl ⟨rfl, a, h2, h1⟩)
  by_cases h8 : tag = 8
  · subst h8
    exact (fine_wtf8 K s).bind K (fun _ => fine_raw K _) (fun _ a _ h1 h2 => .inr (.inl ⟨rfl, a, h2, h1⟩))
  by_cases h19 : tag = 19
  · subst h19
    exact (fine_wtf8 K s).bind K (fun _ => fine_raw K _)
      (fun _ a _ h1 h2 => .inr (.inr (.inl ⟨rfl, a, h2, h1⟩)))
  by_cases h20 : tag = 20
  · subst h20
    exact (fine_wtf8 K s).bind K (fun _ => fine_raw K _)
      (fun _ a _ h1 h2 => .inr (.inr (.inr ⟨rfl, a, h2, h1⟩)))
  intro cp i cp' hi h
  obtain ⟨j, cp1, h1, h2⟩ := Act.bind_ok h
  split at h2 <;> first | contradiction | cases h2

theorem fine_nat (n : Bytes) {t : JType} (h : Printable t) :
    Fine W ok holds (W.nameAndType n (JType.display t)) (fun P i => IsNat P i n t) := by
  obtain ⟨cs, hd, he⟩ := display_printable h
  rw [he]
  refine Fine.bind K (fine_wtf8 K n) (fun a => Fine.bind K (fine_wtf8 K _) (fun b => fine_raw K (.nat a b))
    (post := fun P i => ∃ b, P i = some (.nat a b) ∧ IsUtf8 P b (encodeCps cs))
    (fun P b i h1 h2 => ⟨b, h2, h1⟩)) ?_
  rintro P a i h1 ⟨b, h2, h3⟩
  exact ⟨a, b, h2, h1, h.1, cs, hd, h3⟩

theorem fine_member (m : MemberRef) (h : Printable m.descriptor) :
    Fine W ok holds (W.member m) (fun P i => IsMember P i m) := by
  refine Fine.bind K (fine_class K m.owner) (fun o => Fine.bind K (fine_nat K m.name h)
    (fun nt => fine_raw K _) (post := fun P i => IsClass P o m.owner → IsMember P i m) ?_)
    (fun P o i h1 h2 => h2 h1)
  intro P nt i h1 h2 h3
  split at h2
  · rename_i hm
    obtain ⟨ps, r, hd⟩ := (isMethod_iff _).mp hm
    split at h2
    · rename_i hf
      exact .imethod o nt ps r h2 hd hf h3 h1
    · rename_i hf
      exact .method o nt ps r h2 hd (by simpa using hf) h3 h1
  · rename_i hm
    exact .field o nt h2 (isMethod_false _ hm) h3 h1

theorem fine_handle (x : MethodHandle) (h : Printable x.member.descriptor) :
    Fine W ok holds (W.methodHandle x) (fun P i => IsHandle P i x) := by
  refine Fine.bind K (fine_member K _ h) (fun m => fine_raw K _) ?_
  intro P m i h1 h2
  exact ⟨m, by rw [h2, toU8_refKind], h1⟩

theorem fine_constant (c : Constant) (h : ConstOk c) :
    Fine W ok holds (W.constant c) (fun P i => IsConstant P i c) := by
  cases c with
  | i32 x => exact (fine_raw K _).weaken (fun _ _ h => .int _ h)
  | f32 x => exact (fine_raw K _).weaken (fun _ _ h => .float _ h)
  | i64 x => exact (fine_raw K _).weaken (fun _ _ h => .long _ h)
  | f64 x => exact (fine_raw K _).weaken (fun _ _ h => .double _ h)
  | string s =>
    exact (fine_wtf8 K s).bind K (fun _ => fine_raw K _) (fun _ a _ h1 h2 => .string _ ⟨a, h2, h1⟩)
  | cls s =>
    exact (fine_wtf8 K s).bind K (fun _ => fine_raw K _) (fun _ a _ h1 h2 => .cls _ ⟨a, h2, h1⟩)
  | member m => exact (fine_member K _ h).weaken (fun _ _ h => .member _ h)
  | methodType t =>
    obtain ⟨cs, hd, he⟩ := display_printable h
    refine Fine.bind K (fine_wtf8 K _) (fun _ => fine_raw K _) ?_
    intro P a i h1 h2
    rw [he] at h1
    exact .methodType t a h2 ⟨h.1, cs, hd, h1⟩
  | methodHandle x => exact (fine_handle K x h).weaken (fun _ _ h => .methodHandle _ h)

/-- `insert_dynamic` calls `insert_bsm` first; the rest are insertions of entries. -/
theorem fine_dynamic {d : Dynamic} {s s' : σ} {i : UInt16} (hp : Printable d.descriptor) (hi : ok s)
    (h : W.dynamic d s = .ok (i, s')) :
    ∃ b k s1, d.getBsm = .ok b ∧ W.bsm b s = .ok (k, s1) ∧ Inserts W s1 s' ∧
      ∀ P, Serves P (holds s') → IsDynamic P i k d.name d.descriptor := by
  unfold CpWriter.dynamic at h
  obtain ⟨b, c0, h0, h1⟩ := Act.bind_ok h
  obtain ⟨hb, rfl⟩ := Act.lift_ok h0
  obtain ⟨k, c1, h2, h3⟩ := Act.bind_ok h1
  have g2 := K.bsm hi h2
  have hg : Fine W ok holds (do
      let nt ← W.nameAndType d.name (JType.display d.descriptor)
      W.raw (if JType.isMethod d.descriptor then .indy k nt else .dyn k nt))
      (fun P i => IsDynamic P i k d.name d.descriptor) := by
    refine Fine.bind K (fine_nat K d.name hp) (fun nt => fine_raw K _) ?_
    intro P nt i h1 h2
    split at h2
    · rename_i hm
      obtain ⟨ps, r, hd⟩ := (isMethod_iff _).mp hm
      exact .callSite nt ps r h2 hd h1
    · rename_i hm
      exact .constant nt h2 (isMethod_false _ hm) h1
  have g3 := hg c1 i s' g2.1 h3
  exact ⟨b, k, c1, hb, h2, g3.1, g3.2⟩

end writer

/-! ## One implementation doing as another -/

/-- Started in related states, `x` does as `y`, and the states stay related. -/
def Mirrors {τ σ α : Type} (rel : τ → σ → Prop) (x : Act τ α) (y : Act σ α) : Prop :=
  ∀ t s, rel t s → match y s with
    | .ok (a, s') => ∃ t', x t = .ok (a, t') ∧ rel t' s'
    | .error e => x t = .error e

section mirror
variable {τ σ : Type} {rel : τ → σ → Prop}

theorem Mirrors.pure {α : Type} (a : α) : Mirrors rel (pure a) (pure a) := fun t _ h => ⟨t, rfl, h⟩

theorem Mirrors.fail {α : Type} (e : Err) : Mirrors rel (Act.fail e : Act τ α) (Act.fail e) :=
  fun _ _ _ => rfl

theorem Mirrors.lift {α : Type} (r : Res α) : Mirrors rel (Act.lift r) (Act.lift r) := by
  intro t s h
  cases r with
  | ok a => exact ⟨t, rfl, h⟩
  | error e => rfl

theorem Mirrors.bind {α β : Type} {x : Act τ α} {y : Act σ α} {f : α → Act τ β} {g : α → Act σ β}
    (h1 : Mirrors rel x y) (h2 : ∀ a, Mirrors rel (f a) (g a)) : Mirrors rel (x >>= f) (y >>= g) := by
  intro t s h
  have e1 := h1 t s h
  change match Act.bind y g s with
    | .ok (a, s') => ∃ t', Act.bind x f t = .ok (a, t') ∧ rel t' s'
    | .error e => Act.bind x f t = .error e
  unfold Act.bind
  cases hy : y s with
  | error e =>
    rw [hy] at e1
    simp only [e1]
  | ok p =>
    obtain ⟨a, s'⟩ := p
    rw [hy] at e1
    obtain ⟨t', hx, hr⟩ := e1
    simp only [hx]
    exact h2 a t' s' hr

/-- Two readers in step. -/
structure MirrorsR (rel : τ → σ → Prop) (R : CpReader τ) (S : CpReader σ) : Prop where
  raw : ∀ i, Mirrors rel (R.raw i) (S.raw i)
  later : ∀ b, Mirrors rel (R.later b) (S.later b)

/-- Two writers in step. -/
structure MirrorsW (rel : τ → σ → Prop) (W : CpWriter τ) (V : CpWriter σ) : Prop where
  raw : ∀ e, Mirrors rel (W.raw e) (V.raw e)
  bsm : ∀ b, Mirrors rel (W.bsm b) (V.bsm b)

namespace MirrorsW
variable {W : CpWriter τ} {V : CpWriter σ} (M : MirrorsW rel W V)
include M

theorem wtf8 (s : Bytes) : Mirrors rel (W.wtf8 s) (V.wtf8 s) := M.raw _

theorem indirect (tag : UInt8) (s : Bytes) : Mirrors rel (W.indirect tag s) (V.indirect tag s) := by
  refine (M.wtf8 s).bind fun i => ?_
  by_cases h7 : tag = 7
  · subst h7; exact M.raw _
  by_cases h8 : tag = 8
  · subst h8; exact M.raw _
  by_cases h19 : tag = 19
  · subst h19; exact M.raw _
  by_cases h20 : tag = 20
  · subst h20; exact M.raw _
  have e : ∀ {ρ : Type} (U : CpWriter ρ), (match tag with
    | 7 => U.raw (.cls i)
    | 8 => U.raw (.str i)
    | 19 => U.raw (.module i)
    | 20 => U.raw (.package i)
    | _ => Act.fail .panic) = Act.fail .panic := by
    intro ρ U
    split <;> first | contradiction | rfl
  intro t s hr
  have e1 := congrFun (e W) t
  have e2 := congrFun (e V) s
  have := Mirrors.fail (rel := rel) (α := UInt16) .panic t s hr
  rw [← e1, ← e2] at this
  exact this

theorem nameAndType (n d : Bytes) : Mirrors rel (W.nameAndType n d) (V.nameAndType n d) :=
  (M.wtf8 n).bind fun _ => (M.wtf8 d).bind fun _ => M.raw _

theorem cls (s : Bytes) : Mirrors rel (W.cls s) (V.cls s) := (M.wtf8 s).bind fun _ => M.raw _

theorem package (s : Bytes) : Mirrors rel (W.package s) (V.package s) := (M.wtf8 s).bind fun _ => M.raw _

theorem member (m : MemberRef) : Mirrors rel (W.member m) (V.member m) :=
  (M.cls _).bind fun _ => (M.nameAndType _ _).bind fun _ => M.raw _

theorem methodHandle (h : MethodHandle) : Mirrors rel (W.methodHandle h) (V.methodHandle h) :=
  (M.member _).bind fun _ => M.raw _

theorem constant (c : Constant) : Mirrors rel (W.constant c) (V.constant c) := by
  cases c with
  | string s => exact M.indirect 8 s
  | cls s => exact M.indirect 7 s
  | member m => exact M.member m
  | methodType t => exact (M.wtf8 _).bind fun _ => M.raw _
  | methodHandle h => exact M.methodHandle h
  | _ => exact M.raw _

theorem dynamic (d : Dynamic) : Mirrors rel (W.dynamic d) (V.dynamic d) :=
  (Mirrors.lift _).bind fun _ => (M.bsm _).bind fun _ => (M.nameAndType _ _).bind fun _ => M.raw _

theorem orDynamic {α : Type} {f : α → Act τ UInt16} {g : α → Act σ UInt16}
    (h : ∀ a, Mirrors rel (f a) (g a)) (x : OrDynamic α) :
    Mirrors rel (W.orDynamic f x) (V.orDynamic g x) := by
  cases x with
  | dynamic d => exact M.dynamic d
  | static a => exact h a

end MirrorsW

namespace MirrorsR
variable {R : CpReader τ} {S : CpReader σ} (M : MirrorsR rel R S)
include M

theorem wtf8 (i : UInt16) : Mirrors rel (R.wtf8 i) (S.wtf8 i) := by
  refine (M.raw i).bind fun o => ?_
  rcases o with _ | e
  · exact .pure _
  · cases e <;> exact .pure _

theorem nameAndType (i : UInt16) : Mirrors rel (R.nameAndType i) (S.nameAndType i) := by
  refine (M.raw i).bind fun o => ?_
  rcases o with _ | e
  · exact .pure _
  cases e with
  | nat n t =>
    refine (M.wtf8 n).bind fun n => ?_
    cases n with
    | none => exact .pure _
    | some n =>
      refine (M.wtf8 t).bind fun t => ?_
      cases t with
      | none => exact .pure _
      | some t =>
        refine (Mirrors.lift _).bind fun t => ?_
        cases t <;> exact .pure _
  | _ => exact .pure _

theorem indirect (tag : UInt8) (i : UInt16) : Mirrors rel (R.indirect tag i) (S.indirect tag i) := by
  refine (M.raw i).bind fun o => ?_
  rcases o with _ | e
  · exact .pure _
  cases e with
  | module u =>
    by_cases h : tag = 19
    · subst h; exact M.wtf8 u
    · simp only [if_neg h]; exact .pure _
  | package u =>
    by_cases h : tag = 20
    · subst h; exact M.wtf8 u
    · simp only [if_neg h]; exact .pure _
  | str u =>
    by_cases h : tag = 8
    · subst h; exact M.wtf8 u
    · simp only [if_neg h]; exact .pure _
  | cls u =>
    by_cases h : tag = 7
    · subst h; exact M.wtf8 u
    · simp only [if_neg h]; exact .pure _
  | _ => exact .pure _

theorem memberParts (f : Bool) (o nt : UInt16) :
    Mirrors rel (R.memberParts f o nt) (S.memberParts f o nt) := by
  refine (M.indirect 7 o).bind fun o => ?_
  cases o with
  | none => exact .pure _
  | some o =>
    refine (M.nameAndType nt).bind fun p => ?_
    cases p <;> exact .pure _

theorem member (i : UInt16) : Mirrors rel (R.member i) (S.member i) := by
  refine (M.raw i).bind fun o => ?_
  rcases o with _ | e
  · exact .pure _
  cases e with
  | method o nt => exact M.memberParts _ _ _
  | field o nt => exact M.memberParts _ _ _
  | imethod o nt => exact M.memberParts _ _ _
  | _ => exact .pure _

theorem methodHandle (i : UInt16) : Mirrors rel (R.methodHandle i) (S.methodHandle i) := by
  refine (M.raw i).bind fun o => ?_
  rcases o with _ | e
  · exact .pure _
  cases e with
  | handle k m =>
    refine (M.member m).bind fun m => ?_
    cases m with
    | none => exact .pure _
    | some m => cases HandleKind.ofU8 k <;> exact .pure _
  | _ => exact .pure _

theorem constant (i : UInt16) : Mirrors rel (R.constant i) (S.constant i) := by
  refine (M.raw i).bind fun o => ?_
  rcases o with _ | e
  · exact (M.member i).bind fun _ => .pure _
  cases e with
  | int x => exact .pure _
  | long x => exact .pure _
  | float x => exact .pure _
  | double x => exact .pure _
  | str s => exact (M.wtf8 s).bind fun _ => .pure _
  | cls s => exact (M.wtf8 s).bind fun _ => .pure _
  | mtype m =>
    refine (M.wtf8 m).bind fun t => ?_
    cases t with
    | none => exact .pure _
    | some t => exact (Mirrors.lift _).bind fun _ => .pure _
  | handle k m =>
    refine (M.member m).bind fun m => ?_
    cases HandleKind.ofU8 k <;> cases m <;> exact .pure _
  | _ => exact (M.member i).bind fun _ => .pure _

theorem int (i : UInt16) : Mirrors rel (R.int i) (S.int i) := by
  refine (M.raw i).bind fun o => ?_
  rcases o with _ | e
  · exact .pure _
  · cases e <;> exact .pure _

theorem long (i : UInt16) : Mirrors rel (R.long i) (S.long i) := by
  refine (M.raw i).bind fun o => ?_
  rcases o with _ | e
  · exact .pure _
  · cases e <;> exact .pure _

theorem float (i : UInt16) : Mirrors rel (R.float i) (S.float i) := by
  refine (M.raw i).bind fun o => ?_
  rcases o with _ | e
  · exact .pure _
  · cases e <;> exact .pure _

theorem double (i : UInt16) : Mirrors rel (R.double i) (S.double i) := by
  refine (M.raw i).bind fun o => ?_
  rcases o with _ | e
  · exact .pure _
  · cases e <;> exact .pure _

theorem dynamicParts (b nt : UInt16) : Mirrors rel (R.dynamicParts b nt) (S.dynamicParts b nt) := by
  refine (M.nameAndType nt).bind fun p => ?_
  cases p with
  | none => exact .pure _
  | some p => exact (M.later b).bind fun _ => .pure _

theorem invokeDynamic (i : UInt16) : Mirrors rel (R.invokeDynamic i) (S.invokeDynamic i) := by
  refine (M.raw i).bind fun o => ?_
  rcases o with _ | e
  · exact .pure _
  cases e with
  | indy b nt => exact M.dynamicParts b nt
  | _ => exact .pure _

theorem dynamic (i : UInt16) : Mirrors rel (R.dynamic i) (S.dynamic i) := by
  refine (M.raw i).bind fun o => ?_
  rcases o with _ | e
  · exact .pure _
  cases e with
  | dyn b nt => exact M.dynamicParts b nt
  | _ => exact .pure _

theorem orDynamic {α : Type} {f : UInt16 → Act τ (Option α)} {g : UInt16 → Act σ (Option α)}
    (h : ∀ i, Mirrors rel (f i) (g i)) (i : UInt16) :
    Mirrors rel (R.orDynamic f i) (S.orDynamic g i) := by
  refine (M.dynamic i).bind fun o => ?_
  cases o with
  | some d => exact .pure _
  | none => exact (h i).bind fun _ => .pure _

end MirrorsR
end mirror

/-! ## The pool as a reader -/

section pool
variable (P : Pool)

theorem Act.bind_lift {σ α β : Type} {x : Act σ α} {a : α} (h : x = Act.lift (.ok a)) (f : α → Act σ β) :
    x >>= f = f a := by subst h; rfl

theorem Act.bind_err {σ α β : Type} {x : Act σ α} {e : Err} (h : x = Act.lift (.error e))
    (f : α → Act σ β) : x >>= f = Act.lift (.error e) := by subst h; rfl

theorem reader_raw (i : UInt16) : P.reader.raw i = Act.lift (.ok (P i)) := rfl

theorem reader_wtf8 (i : UInt16) : P.reader.wtf8 i = Act.lift (.ok (P.wtf8 i)) := by
  unfold CpReader.wtf8 Pool.wtf8
  rw [Act.bind_lift (reader_raw P i)]
  generalize P i = o
  rcases o with _ | e
  · rfl
  · cases e <;> rfl

theorem reader_nat (i : UInt16) : P.reader.nameAndType i = Act.lift (P.nameAndType i) := by
  unfold CpReader.nameAndType Pool.nameAndType
  rw [Act.bind_lift (reader_raw P i)]
  generalize P i = o
  rcases o with _ | e
  · rfl
  cases e with
  | nat n t =>
    simp only
    rw [Act.bind_lift (reader_wtf8 P n)]
    cases P.wtf8 n with
    | none => rfl
    | some n =>
      simp only
      rw [Act.bind_lift (reader_wtf8 P t)]
      cases P.wtf8 t with
      | none => rfl
      | some t =>
        simp only
        generalize okOrNone (JType.parseType t) = r
        rcases r with e | _ | t <;> rfl
  | _ => rfl

theorem reader_indirect (tag : UInt8) (i : UInt16) :
    P.reader.indirect tag i = Act.lift (.ok (P.indirect tag i)) := by
  unfold CpReader.indirect Pool.indirect
  rw [Act.bind_lift (reader_raw P i)]
  generalize P i = o
  rcases o with _ | e
  · rfl
  cases e with
  | module u => simp only; split; exact reader_wtf8 P u; rfl
  | package u => simp only; split; exact reader_wtf8 P u; rfl
  | str u => simp only; split; exact reader_wtf8 P u; rfl
  | cls u => simp only; split; exact reader_wtf8 P u; rfl
  | _ => rfl

theorem reader_memberParts (f : Bool) (o nt : UInt16) :
    P.reader.memberParts f o nt = Act.lift (P.memberParts f o nt) := by
  unfold CpReader.memberParts Pool.memberParts
  rw [Act.bind_lift (reader_indirect P 7 o)]
  cases P.indirect 7 o with
  | none => rfl
  | some o =>
    simp only
    rw [reader_nat]
    rcases P.nameAndType nt with e | _ | ⟨n, t⟩ <;> rfl

theorem reader_member (i : UInt16) : P.reader.member i = Act.lift (P.member i) := by
  unfold CpReader.member Pool.member
  rw [Act.bind_lift (reader_raw P i)]
  generalize P i = o
  rcases o with _ | e
  · rfl
  cases e with
  | method o nt => exact reader_memberParts P _ _ _
  | field o nt => exact reader_memberParts P _ _ _
  | imethod o nt => exact reader_memberParts P _ _ _
  | _ => rfl

theorem reader_handle (i : UInt16) : P.reader.methodHandle i = Act.lift (P.methodHandle i) := by
  unfold CpReader.methodHandle Pool.methodHandle
  rw [Act.bind_lift (reader_raw P i)]
  generalize P i = o
  rcases o with _ | e
  · rfl
  cases e with
  | handle k m =>
    simp only
    rw [reader_member]
    rcases P.member m with e | _ | m
    · rfl
    · rfl
    · simp only
      cases HandleKind.ofU8 k <;> rfl
  | _ => rfl

theorem reader_constant (i : UInt16) : P.reader.constant i = Act.lift (P.constant i) := by
  unfold CpReader.constant Pool.constant
  rw [Act.bind_lift (reader_raw P i)]
  have hm : ∀ i, (do pure ((← P.reader.member i).map Constant.member) : Act (List UInt16) (Option Constant)) =
      Act.lift (match P.member i with
        | .ok m => .ok (m.map .member)
        | .error e => .error e) := by
    intro i
    rw [reader_member]
    rcases P.member i with e | m <;> rfl
  generalize P i = o
  rcases o with _ | e
  · exact hm i
  cases e with
  | int x => rfl
  | long x => rfl
  | float x => rfl
  | double x => rfl
  | str s => simp only; rw [Act.bind_lift (reader_wtf8 P s)]; rfl
  | cls s => simp only; rw [Act.bind_lift (reader_wtf8 P s)]; rfl
  | mtype m =>
    simp only
    rw [Act.bind_lift (reader_wtf8 P m)]
    cases P.wtf8 m with
    | none => rfl
    | some t =>
      simp only
      generalize okOrNone (JType.parseType t) = r
      rcases r with e | t <;> rfl
  | handle k m =>
    simp only
    rw [reader_member]
    rcases P.member m with e | m
    · rfl
    · change (match HandleKind.ofU8 k, m with
        | some k, some m => pure (some (.methodHandle ⟨k, m⟩))
        | _, _ => pure none : Act (List UInt16) (Option Constant)) = _
      simp only
      cases HandleKind.ofU8 k <;> cases m <;> rfl
  | _ => exact hm i

theorem reader_int (i : UInt16) : P.reader.int i = Act.lift (.ok (P.int i)) := by
  unfold CpReader.int Pool.int
  rw [Act.bind_lift (reader_raw P i)]
  generalize P i = o
  rcases o with _ | e
  · rfl
  · cases e <;> rfl

theorem reader_long (i : UInt16) : P.reader.long i = Act.lift (.ok (P.long i)) := by
  unfold CpReader.long Pool.long
  rw [Act.bind_lift (reader_raw P i)]
  generalize P i = o
  rcases o with _ | e
  · rfl
  · cases e <;> rfl

theorem reader_float (i : UInt16) : P.reader.float i = Act.lift (.ok (P.float i)) := by
  unfold CpReader.float Pool.float
  rw [Act.bind_lift (reader_raw P i)]
  generalize P i = o
  rcases o with _ | e
  · rfl
  · cases e <;> rfl

theorem reader_double (i : UInt16) : P.reader.double i = Act.lift (.ok (P.double i)) := by
  unfold CpReader.double Pool.double
  rw [Act.bind_lift (reader_raw P i)]
  generalize P i = o
  rcases o with _ | e
  · rfl
  · cases e <;> rfl

theorem reader_dynamicParts (b nt : UInt16) : P.reader.dynamicParts b nt = P.dynamicParts b nt := by
  unfold CpReader.dynamicParts
  funext s
  unfold Pool.dynamicParts
  rw [reader_nat]
  rcases P.nameAndType nt with e | _ | ⟨n, t⟩ <;> rfl

theorem reader_indy (i : UInt16) : P.reader.invokeDynamic i = P.invokeDynamic i := by
  unfold CpReader.invokeDynamic
  rw [Act.bind_lift (reader_raw P i)]
  funext s
  unfold Pool.invokeDynamic
  generalize P i = o
  rcases o with _ | e
  · rfl
  cases e with
  | indy b nt => exact congrFun (reader_dynamicParts P b nt) s
  | _ => rfl

theorem reader_dyn (i : UInt16) : P.reader.dynamic i = P.dynamic i := by
  unfold CpReader.dynamic
  rw [Act.bind_lift (reader_raw P i)]
  funext s
  unfold Pool.dynamic
  generalize P i = o
  rcases o with _ | e
  · rfl
  cases e with
  | dyn b nt => exact congrFun (reader_dynamicParts P b nt) s
  | _ => rfl

theorem reader_orDyn {α : Type} (f : UInt16 → Res (Option α)) (i : UInt16) :
    P.reader.orDynamic (fun i => Act.lift (f i)) i = P.orDynamic f i := by
  unfold CpReader.orDynamic
  rw [reader_dyn]
  funext s
  unfold Pool.orDynamic
  change Act.bind (P.dynamic i) _ s = _
  unfold Act.bind
  rcases P.dynamic i s with e | ⟨_ | d, p⟩
  · rfl
  · change Act.bind (Act.lift (f i)) _ p = _
    rcases f i with e | a <;> rfl
  · rfl

end pool

/-! ## Readers that answer as a pool -/

section answers
variable {σ : Type} {R : CpReader σ} {ok : σ → Prop} {P : Pool} {log : σ → List UInt16}

theorem Spec.Answers.mirrors (A : Answers R ok P log) :
    MirrorsR (fun t s => ok t ∧ log t = s) R P.reader where
  raw i := by
    rintro t s ⟨h, rfl⟩
    obtain ⟨t', e, h1, h2⟩ := A.raw i h
    exact ⟨t', e, h1, h2⟩
  later b := by
    rintro t s ⟨h, rfl⟩
    obtain ⟨t', e, h1, h2⟩ := A.later b h
    exact ⟨t', e, h1, h2⟩

theorem Mirrors.does {α : Type} {m : Act σ α} {r : Res α}
    (h : Mirrors (fun t s => ok t ∧ log t = s) m (Act.lift r)) : GivesRes ok log m r := by
  intro t ht
  have := h t (log t) ⟨ht, rfl⟩
  cases r with
  | ok a => exact this
  | error e => exact this

theorem Mirrors.doesLog {α : Type} {m : Act σ α} {r : List UInt16 → Res (α × List UInt16)}
    (h : Mirrors (fun t s => ok t ∧ log t = s) m r) : GivesLog ok log m r := by
  intro t ht
  have := h t (log t) ⟨ht, rfl⟩
  revert this
  cases r (log t) <;> exact id

theorem Spec.GivesRes.mirrors {α : Type} {m : Act σ α} {r : Res α} (h : GivesRes ok log m r) :
    Mirrors (fun t s => ok t ∧ log t = s) m (Act.lift r) := by
  rintro t s ⟨ht, rfl⟩
  have := h t ht
  cases r with
  | ok a => exact this
  | error e => exact this

end answers

end Verif
