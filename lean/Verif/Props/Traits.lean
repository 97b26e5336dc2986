import Verif.Lemmas.Traits
import Verif.Props.Cp

/-!
# C95: the pool traits with any implementation
-/

namespace Verif.Props
open Spec

section
variable {σ τ : Type} {W : CpWriter σ} {ok : σ → Prop} {holds : σ → UInt16 → Entry → Prop}
  {R : CpReader τ} {okR : τ → Prop} {P : Pool} {log : τ → List UInt16}

/-- C95. Every provided method of a reader gives what the entries of the pool say, for every index,
whatever the implementation does on the side. (C24–C26 and what follows are stated with these functions
of the pool.) -/
theorem C95_reads (A : Answers R okR P log) (i : UInt16) :
    GivesRes okR log (R.wtf8 i) (.ok (P.wtf8 i)) ∧ GivesRes okR log (R.int i) (.ok (P.int i)) ∧
    GivesRes okR log (R.long i) (.ok (P.long i)) ∧ GivesRes okR log (R.float i) (.ok (P.float i)) ∧
    GivesRes okR log (R.double i) (.ok (P.double i)) ∧ GivesRes okR log (R.cls i) (.ok (P.cls i)) ∧
    (∀ tag, GivesRes okR log (R.indirect tag i) (.ok (P.indirect tag i))) ∧
    GivesRes okR log (R.nameAndType i) (P.nameAndType i) ∧ GivesRes okR log (R.member i) (P.member i) ∧
    GivesRes okR log (R.methodHandle i) (P.methodHandle i) ∧ GivesRes okR log (R.constant i) (P.constant i) ∧
    GivesLog okR log (R.invokeDynamic i) (P.invokeDynamic i) ∧
    GivesLog okR log (R.dynamic i) (P.dynamic i) := by
  have M := A.mirrors
  refine ⟨?_, ?_, ?_, ?_, ?_, ?_, fun tag => ?_, ?_, ?_, ?_, ?_, ?_, ?_⟩
  · have := M.wtf8 i; rw [reader_wtf8] at this; exact this.does
  · have := M.int i; rw [reader_int] at this; exact this.does
  · have := M.long i; rw [reader_long] at this; exact this.does
  · have := M.float i; rw [reader_float] at this; exact this.does
  · have := M.double i; rw [reader_double] at this; exact this.does
  · have := M.indirect 7 i; rw [reader_indirect] at this; exact this.does
  · have := M.indirect tag i; rw [reader_indirect] at this; exact this.does
  · have := M.nameAndType i; rw [reader_nat] at this; exact this.does
  · have := M.member i; rw [reader_member] at this; exact this.does
  · have := M.methodHandle i; rw [reader_handle] at this; exact this.does
  · have := M.constant i; rw [reader_constant] at this; exact this.does
  · have := M.invokeDynamic i; rw [reader_indy] at this; exact this.doesLog
  · have := M.dynamic i; rw [reader_dyn] at this; exact this.doesLog

/-- C95. The same for `read_or_dynamic`, whose closure does as the function `g`. -/
theorem C95_reads_or {α : Type} (A : Answers R okR P log) {f : UInt16 → Act τ (Option α)}
    {g : UInt16 → Res (Option α)} (h : ∀ i, GivesRes okR log (f i) (g i)) (i : UInt16) :
    GivesLog okR log (R.orDynamic f i) (P.orDynamic g i) := by
  have := A.mirrors.orDynamic (fun i => (h i).mirrors) i
  rw [reader_orDyn] at this
  exact this.doesLog

/-- What is inserted is still there after further insertions. -/
theorem fine_kept {α : Type} {m : Act σ α} {post : Pool → α → Prop} (K : KeepsEntries W ok holds)
    (h : Fine W ok holds m post) {s s1 s2 : σ} {a : α} (hs : ok s) (h1 : m s = .ok (a, s1))
    (h2 : Inserts W s1 s2) (hP : Serves P (holds s2)) : post P a := by
  have g := h s a s1 hs h1
  have i1 := K.inserts g.1 hs
  exact g.2 P (hP.mono (K.inserts h2 i1.1).2)

/-- C95. A constant inserted with `insert_constant` of any implementation, is read back with
`read_constant` of any implementation that answers what the first holds, after any further
insertions. -/
theorem C95_constant (K : KeepsEntries W ok holds) (A : Answers R okR P log) {c : Constant} {s s1 s2 : σ}
    {i : UInt16} (hc : Plain c) (hs : ok s) (h1 : W.constant c s = .ok (i, s1)) (h2 : Inserts W s1 s2)
    (hP : Serves P (holds s2)) {r : τ} (hr : okR r) :
    IsConstant P i c ∧ ∃ r', R.constant i r = .ok (some (clearFlags c), r') ∧ okR r' ∧ log r' = log r := by
  have hc' : ConstOk c := by cases c <;> exact hc
  have g := fine_kept K (fine_constant K c hc') hs h1 h2 hP
  refine ⟨g, ?_⟩
  have := (C95_reads A i).2.2.2.2.2.2.2.2.2.2.1 r hr
  rw [constant_of g, clearFlags_norm] at this
  exact this

/-- C95. Member references. -/
theorem C95_member (K : KeepsEntries W ok holds) (A : Answers R okR P log) {m : MemberRef} {s s1 s2 : σ}
    {i : UInt16} (hm : Printable m.descriptor) (hs : ok s) (h1 : W.member m s = .ok (i, s1))
    (h2 : Inserts W s1 s2) (hP : Serves P (holds s2)) {r : τ} (hr : okR r) :
    IsMember P i m ∧ ∃ r', R.member i r = .ok (some (clearFlag m), r') ∧ okR r' ∧ log r' = log r := by
  have g := fine_kept K (fine_member K m hm) hs h1 h2 hP
  refine ⟨g, ?_⟩
  have := (C95_reads A i).2.2.2.2.2.2.2.2.1 r hr
  rw [member_of g, clearFlag_norm] at this
  exact this

/-- C95. Names with types. -/
theorem C95_nameAndType (K : KeepsEntries W ok holds) (A : Answers R okR P log) {n : Bytes} {t : JType}
    {s s1 s2 : σ} {i : UInt16} (ht : Printable t) (hs : ok s)
    (h1 : W.nameAndType n (JType.display t) s = .ok (i, s1))
    (h2 : Inserts W s1 s2) (hP : Serves P (holds s2)) {r : τ} (hr : okR r) :
    IsNat P i n t ∧ ∃ r', R.nameAndType i r = .ok (some (n, t), r') ∧ okR r' ∧ log r' = log r := by
  have g := fine_kept K (fine_nat K n ht) hs h1 h2 hP
  refine ⟨g, ?_⟩
  have := (C95_reads A i).2.2.2.2.2.2.2.1 r hr
  rw [nat_of g] at this
  exact this

/-- C95. Method handles. -/
theorem C95_methodHandle (K : KeepsEntries W ok holds) (A : Answers R okR P log) {x : MethodHandle}
    {s s1 s2 : σ} {i : UInt16} (hx : Printable x.member.descriptor) (hs : ok s)
    (h1 : W.methodHandle x s = .ok (i, s1)) (h2 : Inserts W s1 s2) (hP : Serves P (holds s2)) {r : τ}
    (hr : okR r) :
    IsHandle P i x ∧ ∃ r', R.methodHandle i r = .ok (some { x with member := clearFlag x.member }, r') ∧
      okR r' ∧ log r' = log r := by
  have g := fine_kept K (fine_handle K x hx) hs h1 h2 hP
  refine ⟨g, ?_⟩
  have := (C95_reads A i).2.2.2.2.2.2.2.2.2.1 r hr
  rw [handle_of g, clearFlag_norm] at this
  exact this

/-- C95. Classes, strings, modules and packages. -/
theorem C95_names (K : KeepsEntries W ok holds) (A : Answers R okR P log) {n : Bytes} {tag : UInt8}
    {s s1 s2 : σ} {i : UInt16} (hs : ok s) (h1 : W.indirect tag n s = .ok (i, s1)) (h2 : Inserts W s1 s2)
    (hP : Serves P (holds s2)) (tag' : UInt8) {r : τ} (hr : okR r) :
    ∃ r', R.indirect tag' i r = .ok (if tag' = tag then some n else none, r') ∧ okR r' ∧
      log r' = log r := by
  have g := fine_kept K (fine_indirect K tag n) hs h1 h2 hP
  have := (C95_reads A i).2.2.2.2.2.2.1 tag' r hr
  have e : P.indirect tag' i = if tag' = tag then some n else none := by
    have hu : ∀ {j}, IsUtf8 P j n → Pool.wtf8 P j = some n := fun h => wtf8_of h
    rcases g with ⟨rfl, h⟩ | ⟨rfl, h⟩ | ⟨rfl, h⟩ | ⟨rfl, h⟩ <;>
    · obtain ⟨j, h1, h2⟩ := h
      simp only [Pool.indirect, h1, hu h2]
  rw [e] at this
  exact this

/-- C95. `insert_class` and `insert_package` are `insert_indirect_str` with the tags 7 and 20. -/
theorem C95_shorthands (W : CpWriter σ) (n : Bytes) :
    W.cls n = W.indirect 7 n ∧ W.package n = W.indirect 20 n := ⟨rfl, rfl⟩

/-- C95. Dynamic constants and call sites: what is read back has the name and type, and the number that
`insert_bsm` gave to the bootstrap method is registered. When the implementation keeps its bootstrap
methods, that number still designates it. -/
theorem C95_dynamic {table : σ → UInt16 → Bsm → Prop} (K : KeepsEntries W ok holds)
    (A : Answers R okR P log) {d : Dynamic} {s s1 s2 : σ} {i : UInt16} (hd : Printable d.descriptor)
    (hs : ok s) (h1 : W.dynamic d s = .ok (i, s1)) (h2 : Inserts W s1 s2) (hP : Serves P (holds s2)) {r : τ}
    (hr : okR r) :
    ∃ b k r', (if JType.isMethod d.descriptor then R.invokeDynamic i r else R.dynamic i r) =
        .ok (some ⟨.pending k, d.name, d.descriptor⟩, r') ∧ okR r' ∧ log r' = log r ++ [k] ∧
      Holds d.bsm b ∧ (∃ s0, W.bsm b s = .ok (k, s0)) ∧ (KeepsTable W ok table → table s2 k b) := by
  obtain ⟨b, k, s0, hb, hk, hi, hp⟩ := fine_dynamic K hd hs h1
  have k0 := K.bsm hs hk
  have k1 := K.inserts hi k0.1
  have hdy := hp P (hP.mono (K.inserts h2 k1.1).2)
  have e := dynamic_of hdy (log r)
  have c := C95_reads A i
  have fin : ∃ r', (if JType.isMethod d.descriptor then R.invokeDynamic i r else R.dynamic i r) =
      .ok (some ⟨.pending k, d.name, d.descriptor⟩, r') ∧ okR r' ∧ log r' = log r ++ [k] := by
    by_cases hm : JType.isMethod d.descriptor = true
    · rw [if_pos hm] at e
      have := c.2.2.2.2.2.2.2.2.2.2.2.1 r hr
      rw [e] at this
      rw [if_pos hm]
      exact this
    · rw [if_neg hm] at e
      have := c.2.2.2.2.2.2.2.2.2.2.2.2 r hr
      rw [e] at this
      rw [if_neg hm]
      exact this
  obtain ⟨r', f1, f2, f3⟩ := fin
  refine ⟨b, k, r', f1, f2, f3, getBsm_holds hb, ⟨s0, hk⟩, fun T => ?_⟩
  have t0 := T.bsm hs hk
  have t1 := T.inserts hi t0.1
  exact (T.inserts h2 t1.1).2 k b (t1.2 k b t0.2.1)

/-- C95. When `insert_raw` and `insert_bsm` never panic, the provided methods panic only for a tag that
`insert_indirect_str` does not know, and for a dynamic whose bootstrap method is not set. -/
theorem C95_total (hr : ∀ e s, ∃ i s', W.raw e s = .ok (i, s')) (hb : ∀ b s, ∃ i s', W.bsm b s = .ok (i, s'))
    (s : σ) :
    (∀ c, ∃ i s', W.constant c s = .ok (i, s')) ∧ (∀ m, ∃ i s', W.member m s = .ok (i, s')) ∧
    (∀ x, ∃ i s', W.methodHandle x s = .ok (i, s')) ∧
    (∀ n d, ∃ i s', W.nameAndType n d s = .ok (i, s')) ∧
    (∀ tag n, W.indirect tag n s = .error .panic ↔ tag ≠ 7 ∧ tag ≠ 8 ∧ tag ≠ 19 ∧ tag ≠ 20) ∧
    (∀ d, W.dynamic d s = .error .panic ↔ ∃ k, d.bsm = .pending k) := by
  have bind : ∀ {α β : Type} {x : Act σ α} {f : α → Act σ β}, (∀ s, ∃ i s', x s = .ok (i, s')) →
      (∀ a s, ∃ i s', f a s = .ok (i, s')) → ∀ s, ∃ i s', (x >>= f) s = .ok (i, s') := by
    intro α β x f h1 h2 s
    obtain ⟨a, s1, e⟩ := h1 s
    obtain ⟨b, s2, e'⟩ := h2 a s1
    refine ⟨b, s2, ?_⟩
    change Act.bind x f s = _
    unfold Act.bind
    simp only [e, e']
  have hn : ∀ n d s, ∃ i s', W.nameAndType n d s = .ok (i, s') := fun n d =>
    bind (hr _) fun _ => bind (hr _) fun _ => hr _
  have hm : ∀ m s, ∃ i s', W.member m s = .ok (i, s') := fun m =>
    bind (bind (hr _) fun _ => hr _) fun _ => bind (hn _ _) fun _ => hr _
  have hh : ∀ m s, ∃ i s', W.methodHandle m s = .ok (i, s') := fun m => bind (hm _) fun _ => hr _
  have hx : ∀ tag n, tag = 7 ∨ tag = 8 ∨ tag = 19 ∨ tag = 20 → ∃ i s', W.indirect tag n s = .ok (i, s') := by
    intro tag n h
    rcases h with rfl | rfl | rfl | rfl <;> exact bind (hr _) (fun _ => hr _) s
  refine ⟨?_, fun m => hm m s, fun x => hh x s, fun n d => hn n d s, fun tag n => ?_, fun d => ?_⟩
  · intro c
    cases c with
    | string n => exact hx 8 n (by simp)
    | cls n => exact hx 7 n (by simp)
    | member m => exact hm m s
    | methodType t => exact bind (hr _) (fun _ => hr _) s
    | methodHandle x => exact hh x s
    | _ => exact hr _ s
  · constructor
    · intro h
      have no : ∀ {t}, tag = t → (t = 7 ∨ t = 8 ∨ t = 19 ∨ t = 20) → False := by
        intro t h1 h2
        obtain ⟨i, s', e⟩ := hx tag n (h1 ▸ h2)
        rw [h] at e
        cases e
      exact ⟨fun e => no e (by simp), fun e => no e (by simp), fun e => no e (by simp),
        fun e => no e (by simp)⟩
    · rintro ⟨h1, h2, h3, h4⟩
      obtain ⟨i, s1, e⟩ := hr (.utf8 n) s
      rw [indirect_bad W h1 h2 h3 h4]
      change Act.bind (W.raw (.utf8 n)) _ s = _
      unfold Act.bind
      simp only [e]
      rfl
  · constructor
    · intro h
      cases hd : d.bsm with
      | pending k => exact ⟨k, rfl⟩
      | filled x as =>
        exfalso
        have hl : ∀ s : σ, ∃ i s', (Act.lift d.getBsm : Act σ Bsm) s = .ok (i, s') := by
          intro s
          refine ⟨⟨x, as⟩, s, ?_⟩
          unfold Dynamic.getBsm
          rw [hd]
          rfl
        obtain ⟨i, s', e⟩ : ∃ i s', W.dynamic d s = .ok (i, s') :=
          bind hl (fun _ => bind (hb _) fun _ => bind (hn _ _) fun _ => hr _) s
        rw [h] at e
        cases e
    · rintro ⟨k, hk⟩
      change Act.bind (Act.lift d.getBsm) _ s = _
      unfold Act.bind Dynamic.getBsm
      rw [hk]
      rfl

end

/-! ## Implementations -/

/-- C95. `VecCp` keeps its entries. -/
theorem C95_vec_keeps : KeepsEntries VecCp.writer VecCp.Inv (fun cp i e => At cp.entries i.toNat e) where
  raw hi h := by
    have := insertRaw_ok hi h
    exact ⟨this.1, this.2.2.1, fun _ _ => this.2.1.at_⟩
  bsm hi h := by
    have := insertBsm_ok hi h
    exact ⟨this.1, fun _ _ => this.2.1.at_⟩

/-- C95. The provided methods over `VecCp` are the functions that the model of classes uses. -/
theorem C95_vec : VecCp.writer.constant = insertConstant ∧ VecCp.writer.member = insertMember ∧
    VecCp.writer.methodHandle = insertMethodHandle ∧ VecCp.writer.nameAndType = insertNameAndType ∧
    VecCp.writer.indirect = insertIndirect ∧ VecCp.writer.cls = insertClass ∧
    VecCp.writer.dynamic = insertDynamic ∧ VecCp.writer.wtf8 = insertWtf8 ∧
    ∀ (α : Type) (f : α → Ins UInt16), VecCp.writer.orDynamic f = insertOrDynamic f := by
  have hb : ∀ {α β : Type} (x : Act VecCp α) (f : α → Act VecCp β) (x' : Ins α) (f' : α → Ins β),
      x = x' → (∀ a, f a = f' a) → Act.bind x f = Ins.bind x' f' := by
    intro α β x f x' f' h1 h2
    subst h1
    obtain rfl : f = f' := funext h2
    funext cp
    unfold Act.bind Ins.bind
    cases x cp <;> rfl
  have hl : ∀ {α : Type} (r : Res α), (Act.lift r : Act VecCp α) = Ins.lift r := by
    intro α r
    funext cp
    cases r <;> rfl
  have hn : VecCp.writer.nameAndType = insertNameAndType := by
    funext n d
    exact hb _ _ _ _ rfl fun _ => hb _ _ _ _ rfl fun _ => rfl
  have hc : VecCp.writer.cls = insertClass := by
    funext n
    exact hb _ _ _ _ rfl fun _ => rfl
  have hm : VecCp.writer.member = insertMember := by
    funext m
    exact hb _ _ _ _ (congrFun hc _) fun _ => hb _ _ _ _ (congrFun (congrFun hn _) _) fun _ => rfl
  have hh : VecCp.writer.methodHandle = insertMethodHandle := by
    funext m
    exact hb _ _ _ _ (congrFun hm _) fun _ => rfl
  have hi : VecCp.writer.indirect = insertIndirect := by
    funext tag n
    refine hb _ _ _ _ rfl fun i => ?_
    split
    · rfl
    · rfl
    · rfl
    · rfl
    · split <;> first | contradiction | rfl
  have hd : VecCp.writer.dynamic = insertDynamic := by
    funext d
    exact hb _ _ _ _ (hl _) fun _ => hb _ _ _ _ rfl fun _ =>
      hb _ _ _ _ (congrFun (congrFun hn _) _) fun _ => rfl
  refine ⟨?_, hm, hh, hn, hi, hc, hd, rfl, ?_⟩
  · funext c
    cases c with
    | string n => exact congrFun (congrFun hi 8) n
    | cls n => exact congrFun (congrFun hi 7) n
    | member m => exact congrFun hm m
    | methodType t => exact hb _ _ _ _ rfl fun _ => rfl
    | methodHandle h => exact congrFun hh h
    | _ => rfl
  · intro α f
    funext x
    cases x with
    | dynamic d => exact congrFun hd d
    | static a => rfl

/-- C95. `VecCp` does not keep its bootstrap methods, whatever invariant the empty pool has: after 65536
of them the numbers start again (C49). -/
theorem C95_vec_table (ok : VecCp → Prop) (h0 : ok VecCp.new) :
    ¬ KeepsTable VecCp.writer ok (fun cp k b => cp.bsm[k.toNat]? = some b) := by
  intro T
  let a : Bsm := ⟨sampleHandle, []⟩
  let b : Bsm := ⟨sampleHandle, [.static (.i32 1)]⟩
  have key : ∀ n, UInt16.ofNat n = 0 → 0 < n → False := by
    intro n hn hpos
    have hs : ∀ n, Inserts VecCp.writer VecCp.new { VecCp.new with bsm := List.replicate n a } := by
      intro n
      induction n with
      | zero => exact .refl _
      | succ n ih =>
        refine .bsm (b := a) (i := UInt16.ofNat (List.replicate n a).length) ih ?_
        change insertBsm a _ = _
        unfold insertBsm
        rw [List.replicate_succ']
    have := (T.inserts (hs n) h0).1
    have g := (T.bsm (b := b) (k := UInt16.ofNat (List.replicate n a).length) this rfl).2.1
    rw [List.length_replicate, hn] at g
    obtain ⟨m, rfl⟩ : ∃ m, n = m + 1 := ⟨n - 1, by omega⟩
    simp [List.replicate_succ, a, b] at g
  exact key 65536 (by decide) (by omega)

/-- C95. A wrapper that hands the required methods to an inner writer (as the one in src/code.rs does)
gives the same indices, makes the same insertions, and leaves its own part alone. -/
theorem C95_wrap {σ κ : Type} (W : CpWriter σ) (k : κ) (s : σ) :
    (∀ c, (W.wrap κ).constant c (k, s) = (W.constant c s).map fun p => (p.1, k, p.2)) ∧
    (∀ m, (W.wrap κ).member m (k, s) = (W.member m s).map fun p => (p.1, k, p.2)) ∧
    (∀ x, (W.wrap κ).methodHandle x (k, s) = (W.methodHandle x s).map fun p => (p.1, k, p.2)) ∧
    (∀ n d, (W.wrap κ).nameAndType n d (k, s) = (W.nameAndType n d s).map fun p => (p.1, k, p.2)) ∧
    (∀ tag n, (W.wrap κ).indirect tag n (k, s) = (W.indirect tag n s).map fun p => (p.1, k, p.2)) ∧
    (∀ d, (W.wrap κ).dynamic d (k, s) = (W.dynamic d s).map fun p => (p.1, k, p.2)) := by
  have M : MirrorsW (fun (t : κ × σ) s => t = (k, s)) (W.wrap κ) W := by
    constructor
    · rintro e t s rfl
      cases hw : W.raw e s with
      | ok p => exact ⟨(k, p.2), by simp only [CpWriter.wrap, hw], rfl⟩
      | error e => simp only [CpWriter.wrap, hw]
    · rintro e t s rfl
      cases hw : W.bsm e s with
      | ok p => exact ⟨(k, p.2), by simp only [CpWriter.wrap, hw], rfl⟩
      | error e => simp only [CpWriter.wrap, hw]
  have fin : ∀ {α : Type} {x : Act (κ × σ) α} {y : Act σ α},
      Mirrors (fun (t : κ × σ) s => t = (k, s)) x y → x (k, s) = (y s).map fun p => (p.1, k, p.2) := by
    intro α x y h
    have := h (k, s) s rfl
    revert this
    cases y s with
    | ok p =>
      rintro ⟨t', h1, rfl⟩
      rw [h1]
      rfl
    | error e =>
      intro h1
      change x (k, s) = .error e at h1
      rw [h1]
      rfl
  exact ⟨fun c => fin (M.constant c), fun c => fin (M.member c), fun c => fin (M.methodHandle c),
    fun n d => fin (M.nameAndType n d), fun t n => fin (M.indirect t n), fun d => fin (M.dynamic d)⟩

/-- C95. A wrapped reader answers as the inner one. -/
theorem C95_wrap_reads {σ κ : Type} {R : CpReader σ} {ok : σ → Prop} {P : Pool} {log : σ → List UInt16}
    (A : Answers R ok P log) : Answers (R.wrap κ) (fun t => ok t.2) P (fun t => log t.2) where
  raw := by
    rintro ⟨k, s⟩ i h
    obtain ⟨s', h1, h2, h3⟩ := A.raw i h
    refine ⟨(k, s'), ?_, h2, h3⟩
    simp only [CpReader.wrap, h1]
  later := by
    rintro ⟨k, s⟩ i h
    obtain ⟨s', h1, h2, h3⟩ := A.later i h
    refine ⟨(k, s'), ?_, h2, h3⟩
    simp only [CpReader.wrap, h1]

/-- The pool of a read class answers. -/
theorem pool_answers (P : Pool) : Answers P.reader (fun _ => True) P id where
  raw i _ := ⟨_, rfl, trivial, rfl⟩
  later b _ := ⟨_, rfl, trivial, rfl⟩

/-- An implementation that looks an index up in `P` when it is first asked for, and remembers the
answer. -/
def lazyReader (P : Pool) : CpReader (List (UInt16 × Option Entry) × List UInt16) where
  raw i s := match s.1.lookup i with
    | some x => .ok (x, s)
    | none => .ok (P i, (i, P i) :: s.1, s.2)
  later b s := .ok ((), s.1, s.2 ++ [b])

/-- It meets the conditions of the theorems above. -/
theorem lazy_answers (P : Pool) :
    Answers (lazyReader P) (fun s => ∀ i x, s.1.lookup i = some x → x = P i) P (·.2) where
  raw := by
    intro s i h
    simp only [lazyReader]
    cases hl : s.1.lookup i with
    | some x =>
      have := h i x hl
      subst this
      exact ⟨s, rfl, h, rfl⟩
    | none =>
      refine ⟨_, rfl, ?_, rfl⟩
      intro j x hj
      simp only [List.lookup_cons] at hj
      split at hj
      · rename_i he
        have := eq_of_beq he
        subst this
        cases hj
        rfl
      · exact h j x hj
  later b h := ⟨_, rfl, h, rfl⟩

/-- An implementation without a cache, that panics when there is no room: it inserts every entry anew,
and keeps its table of bootstrap methods below 65536. -/
def listWriter : CpWriter (List Entry × List Bsm) where
  raw e s := if 1 + slotsAll s.1 < 65536 then .ok (UInt16.ofNat (1 + slotsAll s.1), s.1 ++ [e], s.2)
    else .error .panic
  bsm b s := if s.2.length < 65536 then .ok (UInt16.ofNat s.2.length, s.1, s.2 ++ [b]) else .error .panic

/-- It meets both conditions. -/
theorem list_keeps : KeepsEntries listWriter (fun _ => True) (fun s i e => At s.1 i.toNat e) ∧
    KeepsTable listWriter (fun _ => True) (fun s k b => s.2[k.toNat]? = some b) := by
  have r : ∀ {e s i s'}, listWriter.raw e s = .ok (i, s') →
      1 + slotsAll s.1 < 65536 ∧ i = UInt16.ofNat (1 + slotsAll s.1) ∧ s' = (s.1 ++ [e], s.2) := by
    intro e s i s' h
    simp only [listWriter] at h
    split at h
    · cases h; exact ⟨by assumption, rfl, rfl⟩
    · cases h
  have b : ∀ {e s i s'}, listWriter.bsm e s = .ok (i, s') →
      s.2.length < 65536 ∧ i = UInt16.ofNat s.2.length ∧ s' = (s.1, s.2 ++ [e]) := by
    intro e s i s' h
    simp only [listWriter] at h
    split at h
    · cases h; exact ⟨by assumption, rfl, rfl⟩
    · cases h
  refine ⟨⟨?_, ?_⟩, ⟨?_, ?_⟩⟩
  · intro e s i s' _ h
    obtain ⟨hl, rfl, rfl⟩ := r h
    refine ⟨trivial, ?_, fun _ _ h => h.append _⟩
    rw [UInt16.toNat_ofNat', Nat.mod_eq_of_lt (by omega)]
    exact At.last _ _
  · intro e s i s' _ h
    obtain ⟨hl, rfl, rfl⟩ := b h
    exact ⟨trivial, fun _ _ h => h⟩
  · intro e s i s' _ h
    obtain ⟨hl, rfl, rfl⟩ := r h
    exact ⟨trivial, fun _ _ h => h⟩
  · intro e s i s' _ h
    obtain ⟨hl, rfl, rfl⟩ := b h
    refine ⟨trivial, ?_, ?_⟩
    · rw [UInt16.toNat_ofNat', Nat.mod_eq_of_lt (by omega)]
      simp
    · intro k b h
      have : k.toNat < s.2.length := by
        obtain ⟨h, _⟩ := List.getElem?_eq_some_iff.mp h
        exact h
      rw [List.getElem?_append_left this]
      exact h

/-- The bootstrap handle of the samples put into a pool without cache, and read with the lazy reader:
the name of the owner and that of the method are there twice. -/
example : ∃ s, listWriter.constant (.methodHandle sampleHandle) ([.utf8 [0x41]], []) = .ok (8, s) ∧
    s.1 = [.utf8 [0x41], .utf8 [0x41], .cls 2, .utf8 [0x61], .utf8 [0x28, 0x5B, 0x49, 0x29, 0x56], .nat 4 5,
      .imethod 3 6, .handle 6 7] ∧
    ∀ P, Serves P (fun i e => At s.1 i.toNat e) →
      ∃ r', (lazyReader P).constant 8 ([], []) = .ok (some (.methodHandle sampleHandle), r') := by
  refine ⟨_, rfl, rfl, fun P hP => ?_⟩
  obtain ⟨_, r', h, _⟩ := C95_constant list_keeps.1 (lazy_answers P)
    (c := .methodHandle sampleHandle) sampleHandle_ok (s := ([.utf8 [0x41]], [])) trivial rfl (.refl _) hP
    (r := ([], [])) (fun i x h => by cases h)
  exact ⟨r', h⟩

/-- C95. It is not enough that an index points to the inserted entry when it is returned: an
implementation that puts new entries in front of the others does that, and a class inserted in it is not
read back. -/
theorem C95_moving : ∃ (W : CpWriter (List Entry)) (holds : List Entry → Pool),
    (∀ e s i s', W.raw e s = .ok (i, s') → holds s' i = some e) ∧
    ∃ i s', W.cls [0x41] [] = .ok (i, s') ∧ (holds s').cls i = none := by
  refine ⟨⟨fun e s => .ok (1, e :: s), fun _ s => .ok (0, s)⟩, fun s i => s[i.toNat - 1]?, ?_, 1, _, rfl, rfl⟩
  intro e s i s' h
  cases h
  rfl

end Verif.Props
