import Verif.Lemmas.WrAttr
import Verif.Lemmas.WrCode

/-! # Success of writing: bodies and methods -/

namespace Verif
open Spec Sig

section
open Wr
variable {p : Prop}

/-! ## Instructions -/

theorem wr_ldc {c : OrDynamic Constant} (h : p → ∀ d ∈ orDynamics c, Filled d) :
    Wr p (writeLdc c) (constsOr (fun k => (constSym k).all) c) ((orDynamics c).flatMap ownBsm) := by
  refine bindN (orDynamic const h) fun i => ?_
  have h1 : Wr p (wSeq [op opc.LDC2_W, wNum u16 i]) [] [] := skip num (skip num nil)
  have h2 : Wr p (wSeq [op opc.LDC, wNum u8 i.toUInt8]) [] [] := skip num (skip num nil)
  have h3 : Wr p (wSeq [op opc.LDC_W, wNum u16 i]) [] [] := skip num (skip num nil)
  split
  all_goals
    simp only
    split
    · exact h1
    · split
      · exact h2
      · exact h3

theorem inline_int (i : Int32) : Inline (.i32 i) ↔ -32768 ≤ i ∧ i ≤ 32767 := by
  show -32768 ≤ i.toInt ∧ i.toInt ≤ 32767 ↔ _
  rw [Int32.le_iff_toInt_le, Int32.le_iff_toInt_le]
  exact Iff.rfl

theorem inline_small {i : Int32} (h : -128 ≤ i ∧ i ≤ 127) : Inline (.i32 i) := by
  rw [Int32.le_iff_toInt_le, Int32.le_iff_toInt_le] at h
  have h1 : (-128 : Int) ≤ i.toInt := h.1
  have h2 : i.toInt ≤ (127 : Int) := h.2
  exact ⟨by omega, by omega⟩

theorem wr_push {c : OrDynamic Constant} (h : p → ∀ d ∈ orDynamics c, Filled d) :
    Wr p (writePush c) (constsOr (fun k => if Inline k then [] else (constSym k).all) c)
      ((orDynamics c).flatMap ownBsm) := by
  have o : ∀ b, Wr p (op b) [] [] := fun b => num
  have o8 : ∀ b x, Wr p (wSeq [op b, wNum i8 x]) [] [] := fun b x => skip num (skip num nil)
  have o16 : ∀ b x, Wr p (wSeq [op b, wNum i16 x]) [] [] := fun b x => skip num (skip num nil)
  have hl := wr_ldc h
  cases c with
  | dynamic d => exact hl
  | static k =>
    show Wr p _ (if Inline k then [] else (constSym k).all) []
    replace hl : Wr p (writeLdc (.static k)) (constSym k).all [] := hl
    have hni : ¬ Inline k → Wr p (writeLdc (.static k)) (if Inline k then [] else (constSym k).all) [] :=
      fun hn => by rw [if_neg hn]; exact hl
    have hi : ∀ {w : Ins Bytes}, Inline k → Wr p w [] [] → Wr p w (if Inline k then [] else (constSym k).all) [] :=
      fun hn hw => by rw [if_pos hn]; exact hw
    cases k with
    | i32 i =>
      simp only [writePush]
      split
      · subst i; exact hi (by decide) (o _)
      split
      · subst i; exact hi (by decide) (o _)
      split
      · subst i; exact hi (by decide) (o _)
      split
      · subst i; exact hi (by decide) (o _)
      split
      · subst i; exact hi (by decide) (o _)
      split
      · subst i; exact hi (by decide) (o _)
      split
      · subst i; exact hi (by decide) (o _)
      split
      · rename_i hs
        exact hi (inline_small hs) (o8 _ _)
      split
      · rename_i hs
        exact hi ((inline_int i).mpr hs) (o16 _ _)
      · rename_i hs
        exact hni fun hI => hs ((inline_int i).mp hI)
    | i64 l =>
      simp only [writePush]
      split
      · rename_i hs; exact hi (.inl hs) (o _)
      split
      · rename_i hs; exact hi (.inr hs) (o _)
      · rename_i h1 h2; exact hni fun hI => hI.elim h1 h2
    | f32 f =>
      simp only [writePush]
      split
      · rename_i hs; exact hi (.inl ((F32.eq_iff _ _).mp hs)) (o _)
      split
      · rename_i hs; exact hi (.inr (.inl ((F32.eq_iff _ _).mp hs))) (o _)
      split
      · rename_i hs; exact hi (.inr (.inr ((F32.eq_iff _ _).mp hs))) (o _)
      · rename_i h1 h2 h3
        refine hni fun hI => ?_
        rcases hI with hI | hI | hI
        · exact h1 ((F32.eq_iff _ _).mpr hI)
        · exact h2 ((F32.eq_iff _ _).mpr hI)
        · exact h3 ((F32.eq_iff _ _).mpr hI)
    | f64 f =>
      simp only [writePush]
      split
      · rename_i hs; exact hi (.inl ((F64.eq_iff _ _).mp hs)) (o _)
      split
      · rename_i hs; exact hi (.inr ((F64.eq_iff _ _).mp hs)) (o _)
      · rename_i h1 h2
        refine hni fun hI => ?_
        rcases hI with hI | hI
        · exact h1 ((F64.eq_iff _ _).mpr hI)
        · exact h2 ((F64.eq_iff _ _).mpr hI)
    | string s => exact hni fun h => h
    | cls s => exact hni fun h => h
    | member s => exact hni fun h => h
    | methodType s => exact hni fun h => h
    | methodHandle s => exact hni fun h => h

theorem wr_orDyn {α : Type} {f : α → Ins UInt16} {g : α → List Sym} (hf : ∀ a, Wr p (f a) (g a) []) {x : OrDynamic α}
    (h : p → ∀ d ∈ orDynamics x, Filled d) {o : Ins Bytes} (ho : Wr p o [] []) {l : List (Ins Bytes)}
    (hl : Wr p (wSeq l) [] []) :
    Wr p (wSeq (o :: wOrDyn f x :: l)) (constsOr g x) ((orDynamics x).flatMap ownBsm) :=
  skip ho (cons1 (idx (orDynamic hf h)) hl)

theorem wr_insn {i : Insn} (h : p → ∀ d ∈ insnDynamics i, Filled d) :
    Wr p i.encode (constsInsn i) ((insnDynamics i).flatMap ownBsm) := by
  cases i with
  | push c => exact wr_push h
  | checkCast t => exact wr_orDyn (fun a => cls _) h num nil
  | instanceOf t => exact wr_orDyn (fun a => cls _) h num nil
  | new t => exact wr_orDyn (fun a => cls _) h num nil
  | field a b m => exact wr_orDyn (fun a => member _) h num nil
  | invokeExact a m => cases a <;> exact wr_orDyn (fun a => member _) h num nil
  | invokeSpecial m => exact wr_orDyn (fun a => member _) h num nil
  | invokeInterface m n => exact wr_orDyn (fun a => member _) h num (skip num (skip (pure _) nil))
  | invokeDynamic d =>
    have : Wr p (Insn.encode (.invokeDynamic d)) (constsDyn d) (ownBsm d) :=
      skip num (cons1 (idx (dynamic fun hp => h hp d (by simp [insnDynamics]))) (skip (pure _) nil))
    simpa [insnDynamics, constsInsn] using this
  | localVariable m t l =>
    show Wr p (wideOrNormal _ _) _ _
    unfold wideOrNormal
    split
    · exact skip num (skip num nil)
    · exact skip num (skip num (skip num nil))
  | ret l =>
    show Wr p (wideOrNormal _ _) _ _
    unfold wideOrNormal
    split
    · exact skip num (skip num nil)
    · exact skip num (skip num (skip num nil))
  | intIncrement l n =>
    show Wr p (if _ then _ else _) _ _
    split
    · exact skip num (skip num (skip num nil))
    · exact skip num (skip num (skip num (skip num nil)))
  | monitor m => cases m <;> exact num
  | conversion a b =>
    show Wr p (match conversionOp a b with | some o => op o | none => Pure.pure []) [] []
    split
    · exact num
    · exact pure _
  | convertInt a =>
    show Wr p (match convertIntOp a with | some o => op o | none => Pure.pure []) [] []
    split
    · exact num
    · exact pure _
  | _ => first | exact num | exact pure _

theorem wr_writeInsn {i : Insn} (h : p → ∀ d ∈ insnDynamics i, Filled d) (b : CodeBuf) :
    Wr p (writeInsn b i) (constsInsn i) ((insnDynamics i).flatMap ownBsm) := by
  cases i with
  | lookupSwitch _ _ => exact pure _
  | tableSwitch _ _ _ => exact pure _
  | jump _ _ => exact pure _
  | jsr _ => exact pure _
  | label _ => exact pure _
  | lineNumber _ => exact pure _
  | _ => exact bindN (wr_insn h) fun _ => pure _

theorem wr_writeInsns {is : List Insn} (h : p → ∀ i ∈ is, ∀ d ∈ insnDynamics i, Filled d) (b : CodeBuf) :
    Wr p (writeInsns b is) (is.flatMap constsInsn) ((is.flatMap insnDynamics).flatMap ownBsm) := by
  induction is generalizing b with
  | nil => exact pure _
  | cons i is ih =>
    have := bind (wr_writeInsn (fun hp => h hp i (by simp)) b)
      (fun b' => ih (fun hp j hj => h hp j (by simp [hj])) b')
    rw [List.flatMap_cons, List.flatMap_cons, List.flatMap_append]
    exact this

/-- What is known about the labels of code that has been written. -/
def EnvOk (env : WEnv) (is : List Insn) : Prop :=
  (∀ l, .label l ∈ is → ∃ o, env.label l = .ok o) ∧ (∀ k, ∃ o, env.catch_ k = .ok o) ∧
    ∀ s t, Precedes is s t → ∃ o o', env.label s = .ok o ∧ env.label t = .ok o' ∧ o.toNat ≤ o'.toNat

theorem wr_writeCode {x : Code} (h : p → FitsCode x) :
    Wr p (writeCode x.code) (x.code.flatMap constsInsn) ((x.code.flatMap insnDynamics).flatMap ownBsm) := fun cp =>
  WrAt.bindN (wr_writeInsns (fun hp => (h hp).dynamics) _ cp) fun b cp' _ e => WrAt.lift fun hp => by
    obtain ⟨a, ha, -⟩ := assemble_total e (h hp).labels (h hp).targets (h hp).size (h hp).tables
    exact ⟨a, ha⟩

theorem envOk_code {x : Code} (h : FitsCode x) {cp cp' : VecCp} {a : Assembled}
    (e : writeCode x.code cp = .ok (a, cp')) : EnvOk (Code.env a x.catches) x.code := by
  obtain ⟨b, cp1, e1, e2⟩ := Ins.bind_ok e
  obtain ⟨e3, rfl⟩ := Ins.lift_ok e2
  obtain ⟨a', ha, h1, h2⟩ := assemble_total e1 h.labels h.targets h.size h.tables
  rw [ha] at e3
  cases e3
  exact ⟨h1, fun _ => ⟨_, rfl⟩, h2⟩

/-! ## Attributes of a body -/

variable {env : WEnv} {is : List Insn}

theorem wr_range {t : LocalVarTarget} (he : p → EnvOk env is) (h : p → Precedes is t.start t.stop) :
    Wr p (LocalVarTarget.write env t) [] [] := fun cp => by
  have hr : p → ∃ o o', env.label t.start = .ok o ∧ env.label t.stop = .ok o' ∧ o.toNat ≤ o'.toNat :=
    fun hp => (he hp).2.2 _ _ (h hp)
  refine WrAt.bind0 (c := []) (c' := []) (WrAt.lift fun hp => ?_) fun s cp1 _ e1 =>
    WrAt.bind0 (c := []) (c' := []) (WrAt.lift fun hp => ?_) fun e cp2 _ e2 => ?_
  · obtain ⟨o, _, h1, _⟩ := hr hp
    exact ⟨o, h1⟩
  · obtain ⟨_, o, _, h1, _⟩ := hr hp
    exact ⟨o, h1⟩
  · have e1 := (Ins.lift_ok e1).1
    have e2 := (Ins.lift_ok e2).1
    split
    · rename_i hlt
      refine WrAt.fail fun hp => ?_
      obtain ⟨o, o', h1, h2, h3⟩ := hr hp
      rw [h1] at e1
      rw [h2] at e2
      cases e1
      cases e2
      have := UInt16.lt_iff_toNat_lt.mp hlt
      omega
    · exact WrAt.pure _

theorem wr_codeTarget {t : CodeTarget} (he : p → EnvOk env is) (h : p → FitsTarget is t) :
    Wr p (CodeTarget.write env t) [] [] := by
  have lb : ∀ l, (p → .label l ∈ is) → Wr p (wLabel env l) [] [] := fun l hl =>
    label fun hp => (he hp).1 l (hl hp)
  cases t with
  | localVar ts => exact skip num (last (plain (fun hp => (h hp).1) fun t ht => wr_range he fun hp => (h hp).2 t ht))
  | resourceVar ts => exact skip num (last (plain (fun hp => (h hp).1) fun t ht => wr_range he fun hp => (h hp).2 t ht))
  | catchParam c => exact skip num (last (catch_ fun hp => (he hp).2.1 c))
  | instanceOf l => exact skip num (last (lb _ fun hp => h hp l (by simp [targetLabels])))
  | new l => exact skip num (last (lb _ fun hp => h hp l (by simp [targetLabels])))
  | newRef l => exact skip num (last (lb _ fun hp => h hp l (by simp [targetLabels])))
  | methodRef l => exact skip num (last (lb _ fun hp => h hp l (by simp [targetLabels])))
  | cast l i => exact skip num (skip (lb _ fun hp => h hp l (by simp [targetLabels])) (last num))
  | newArg l i => exact skip num (skip (lb _ fun hp => h hp l (by simp [targetLabels])) (last num))
  | methodArg l i => exact skip num (skip (lb _ fun hp => h hp l (by simp [targetLabels])) (last num))
  | newRefArg l i => exact skip num (skip (lb _ fun hp => h hp l (by simp [targetLabels])) (last num))
  | methodRefArg l i => exact skip num (skip (lb _ fun hp => h hp l (by simp [targetLabels])) (last num))

/-- The tables hold the variables with a descriptor, with a signature. -/
theorem splitVars_eq {vs : List LocalVariable} {ts : List VarTypeEntry} {es : List VarEntry}
    (e : splitVars env vs = .ok (ts, es)) :
    ts.map (fun t => (t.name, t.signature)) = vs.filterMap (fun v => v.signature.map fun g => (v.name, g)) ∧
      es.map (fun t => (t.name, t.descriptor)) = vs.filterMap (fun v => v.descriptor.map fun g => (v.name, g)) := by
  induction vs generalizing ts es with
  | nil =>
    cases e
    exact ⟨rfl, rfl⟩
  | cons v vs ih =>
    obtain ⟨var, e1, e⟩ := Res.bind_ok e
    obtain ⟨ty, e2, e⟩ := Res.bind_ok e
    obtain ⟨r, e3, e⟩ := Res.bind_ok e
    cases e
    obtain ⟨i1, i2⟩ := ih (ts := r.1) (es := r.2) e3
    constructor
    · rw [List.map_append, i1]
      unfold LocalVariable.varTypeEntries at e2
      split at e2
      · rename_i hv
        cases e2
        simp [hv]
      · rename_i g hv
        split at e2
        · cases e2
        · cases e2
          simp [hv]
    · rw [List.map_append, i2]
      unfold LocalVariable.varEntries at e1
      split at e1
      · rename_i hv
        cases e1
        simp [hv]
      · rename_i g hv
        split at e1
        · cases e1
        · cases e1
          simp [hv]

theorem splitVars_total {vs : List LocalVariable} (he : EnvOk env is) (h : ∀ v ∈ vs, Precedes is v.start v.stop) :
    ∃ r, splitVars env vs = .ok r := by
  induction vs with
  | nil => exact ⟨_, rfl⟩
  | cons v vs ih =>
    obtain ⟨r, hr⟩ := ih fun w hw => h w (by simp [hw])
    have hrange : ∃ q, rangeOf env v.start v.stop = .ok q := by
      obtain ⟨o, o', h1, h2, h3⟩ := he.2.2 _ _ (h v (by simp))
      refine ⟨(o, o' - o), ?_⟩
      simp only [rangeOf, h1, h2]
      rw [if_neg]
      intro hlt
      have := UInt16.lt_iff_toNat_lt.mp hlt
      omega
    obtain ⟨⟨a, b⟩, hq⟩ := hrange
    have h1 : ∃ x, v.varEntries env = .ok x := by
      unfold LocalVariable.varEntries
      split
      · exact ⟨_, rfl⟩
      · rw [hq]
        exact ⟨_, rfl⟩
    have h2 : ∃ x, v.varTypeEntries env = .ok x := by
      unfold LocalVariable.varTypeEntries
      split
      · exact ⟨_, rfl⟩
      · rw [hq]
        exact ⟨_, rfl⟩
    obtain ⟨x, h1⟩ := h1
    obtain ⟨y, h2⟩ := h2
    exact ⟨_, by rw [splitVars, h1, h2, hr]; rfl⟩

theorem wr_vars {es : List VarEntry} (h : p → Table es) : Wr p (CodeAttr.write env (.vars es))
    (.utf8 N.localVariableTable :: es.flatMap fun x => [.utf8 x.name, .utf8 x.descriptor.toWtf8]) [] :=
  attr (tab h fun _ _ => skip num (skip num (cons (c := [_]) wutf8 (cons1 wtype (last num)))))

theorem wr_varTypes {es : List VarTypeEntry} (h : p → Table es) : Wr p (CodeAttr.write env (.varTypes es))
    (.utf8 N.localVariableTypeTable :: es.flatMap fun x => [.utf8 x.name, .utf8 (sigString (showR x.signature))]) [] :=
  attr (tab h fun _ _ => skip num (skip num (cons (c := [_]) wutf8 (cons1 wsig (last num)))))

theorem mem_constsVars {vs : List LocalVariable} {ts : List VarTypeEntry} {es : List VarEntry}
    (e : splitVars env vs = .ok (ts, es)) (s : Sym) : s ∈ vs.flatMap constsVar ↔
      (es ≠ [] ∧ s ∈ Sym.utf8 N.localVariableTable :: es.flatMap fun x => [.utf8 x.name, .utf8 x.descriptor.toWtf8]) ∨
      (ts ≠ [] ∧ s ∈ Sym.utf8 N.localVariableTypeTable ::
        ts.flatMap fun x => [.utf8 x.name, .utf8 (sigString (showR x.signature))]) := by
  obtain ⟨h1, h2⟩ := splitVars_eq e
  have m1 : ∀ n d, (n, d) ∈ es.map (fun t => (t.name, t.descriptor)) ↔ ∃ v ∈ vs, v.name = n ∧ v.descriptor = some d := by
    intro n d
    rw [h2, List.mem_filterMap]
    constructor
    · rintro ⟨v, hv, h⟩
      rw [Option.map_eq_some_iff] at h
      obtain ⟨g, h, h'⟩ := h
      cases h'
      exact ⟨v, hv, rfl, h⟩
    · rintro ⟨v, hv, rfl, h⟩
      exact ⟨v, hv, by rw [h]; rfl⟩
  have m2 : ∀ n d, (n, d) ∈ ts.map (fun t => (t.name, t.signature)) ↔ ∃ v ∈ vs, v.name = n ∧ v.signature = some d := by
    intro n d
    rw [h1, List.mem_filterMap]
    constructor
    · rintro ⟨v, hv, h⟩
      rw [Option.map_eq_some_iff] at h
      obtain ⟨g, h, h'⟩ := h
      cases h'
      exact ⟨v, hv, rfl, h⟩
    · rintro ⟨v, hv, rfl, h⟩
      exact ⟨v, hv, by rw [h]; rfl⟩
  constructor
  · intro hs
    obtain ⟨v, hv, hs⟩ := List.mem_flatMap.mp hs
    rcases List.mem_append.mp hs with hs | hs
    · rcases hd : v.descriptor with _ | d
      · rw [hd] at hs
        cases hs
      · rw [hd] at hs
        obtain ⟨x, hx, he⟩ := List.mem_map.mp ((m1 v.name d).mpr ⟨v, hv, rfl, hd⟩)
        obtain ⟨he1, he2⟩ := Prod.mk.inj he
        refine .inl ⟨List.ne_nil_of_mem hx, ?_⟩
        rcases List.mem_cons.mp hs with rfl | hs
        · exact List.mem_cons_self
        · exact List.mem_cons_of_mem _ (List.mem_flatMap.mpr ⟨x, hx, by rw [he1, he2]; exact hs⟩)
    · rcases hd : v.signature with _ | d
      · rw [hd] at hs
        cases hs
      · rw [hd] at hs
        obtain ⟨x, hx, he⟩ := List.mem_map.mp ((m2 v.name d).mpr ⟨v, hv, rfl, hd⟩)
        obtain ⟨he1, he2⟩ := Prod.mk.inj he
        refine .inr ⟨List.ne_nil_of_mem hx, ?_⟩
        rcases List.mem_cons.mp hs with rfl | hs
        · exact List.mem_cons_self
        · exact List.mem_cons_of_mem _ (List.mem_flatMap.mpr ⟨x, hx, by rw [he1, he2]; exact hs⟩)
  · have f1 : ∀ x ∈ es, ∀ s, s ∈ [Sym.utf8 N.localVariableTable, .utf8 x.name, .utf8 x.descriptor.toWtf8] →
        s ∈ vs.flatMap constsVar := by
      intro x hx s hs
      obtain ⟨v, hv, hn, hd⟩ := (m1 x.name x.descriptor).mp (List.mem_map.mpr ⟨x, hx, rfl⟩)
      refine List.mem_flatMap.mpr ⟨v, hv, List.mem_append_left _ ?_⟩
      rw [hd, hn]
      exact hs
    have f2 : ∀ x ∈ ts, ∀ s, s ∈ [Sym.utf8 N.localVariableTypeTable, .utf8 x.name, .utf8 (sigString (showR x.signature))] →
        s ∈ vs.flatMap constsVar := by
      intro x hx s hs
      obtain ⟨v, hv, hn, hd⟩ := (m2 x.name x.signature).mp (List.mem_map.mpr ⟨x, hx, rfl⟩)
      refine List.mem_flatMap.mpr ⟨v, hv, List.mem_append_right _ ?_⟩
      rw [hd, hn]
      exact hs
    rintro (⟨hne, hs⟩ | ⟨hne, hs⟩)
    · rcases List.mem_cons.mp hs with rfl | hs
      · obtain ⟨x, hx⟩ := List.exists_mem_of_ne_nil _ hne
        exact f1 x hx _ (by simp)
      · obtain ⟨x, hx, hs⟩ := List.mem_flatMap.mp hs
        exact f1 x hx _ (List.mem_cons_of_mem _ hs)
    · rcases List.mem_cons.mp hs with rfl | hs
      · obtain ⟨x, hx⟩ := List.exists_mem_of_ne_nil _ hne
        exact f2 x hx _ (by simp)
      · obtain ⟨x, hx, hs⟩ := List.mem_flatMap.mp hs
        exact f2 x hx _ (List.mem_cons_of_mem _ hs)

theorem splitVars_any {vs : List LocalVariable} {ts : List VarTypeEntry} {es : List VarEntry}
    (e : splitVars env vs = .ok (ts, es)) : (es = [] ↔ vs.any (fun v => v.descriptor.isSome) = false) ∧
      (ts = [] ↔ vs.any (fun v => v.signature.isSome) = false) := by
  obtain ⟨h1, h2⟩ := splitVars_eq e
  constructor
  · rw [← List.map_eq_nil_iff (f := fun t : VarEntry => (t.name, t.descriptor)), h2, List.filterMap_eq_nil_iff,
      List.any_eq_false]
    refine forall_congr' fun v => forall_congr' fun _ => ?_
    cases v.descriptor <;> simp
  · rw [← List.map_eq_nil_iff (f := fun t : VarTypeEntry => (t.name, t.signature)), h1, List.filterMap_eq_nil_iff,
      List.any_eq_false]
    refine forall_congr' fun v => forall_congr' fun _ => ?_
    cases v.signature <;> simp

theorem wr_lower {a : CodeAttribute} (he : p → EnvOk env is) (h : p → FitsCodeAttr is a) {ls : List CodeAttr}
    (e : a.lower env = .ok ls) : Wr p (wAll (CodeAttr.write env) ls) (constsCodeAttr a) [] ∧ ls.length = attrCount a := by
  cases a with
  | visibleType as =>
    cases e
    exact ⟨last (attr (wr_tanns (fun a ha => wr_codeTarget he fun hp => (h hp).2 a ha) fun hp => (h hp).1)), rfl⟩
  | invisibleType as =>
    cases e
    exact ⟨last (attr (wr_tanns (fun a ha => wr_codeTarget he fun hp => (h hp).2 a ha) fun hp => (h hp).1)), rfl⟩
  | raw a =>
    cases e
    exact ⟨last rawAttr, rfl⟩
  | locals vs =>
    obtain ⟨⟨ts, es⟩, e1, e⟩ := Res.bind_ok e
    obtain ⟨h1, h2⟩ := splitVars_eq e1
    obtain ⟨a1, a2⟩ := splitVars_any e1
    have hm := mem_constsVars e1
    have l1 : p → Table ts := fun hp => by
      have := (h hp).1
      unfold Table at this ⊢
      have h3 := congrArg List.length h1
      have := List.length_filterMap_le (fun v : LocalVariable => v.signature.map fun g => (v.name, g)) vs
      rw [List.length_map] at h3
      omega
    have l2 : p → Table es := fun hp => by
      have := (h hp).1
      unfold Table at this ⊢
      have h3 := congrArg List.length h2
      have := List.length_filterMap_le (fun v : LocalVariable => v.descriptor.map fun g => (v.name, g)) vs
      rw [List.length_map] at h3
      omega
    simp only at e
    split at e
    · cases e
    · rename_i hne
      cases e
      have ht : ts ≠ [] := fun h => hne h
      refine ⟨(last (wr_varTypes l1)).conv fun s => ?_, ?_⟩
      · show _ ↔ s ∈ vs.flatMap constsVar
        rw [hm s]
        simp [ht]
      · have b1 := a1.mp rfl
        have b2 : vs.any (fun v => v.signature.isSome) = true := by
          rw [← Bool.not_eq_false]
          exact fun h => ht (a2.mpr h)
        simp [attrCount, b1, b2]
    · rename_i hne
      cases e
      have ht : es ≠ [] := fun h => hne h
      refine ⟨(last (wr_vars l2)).conv fun s => ?_, ?_⟩
      · show _ ↔ s ∈ vs.flatMap constsVar
        rw [hm s]
        simp [ht]
      · have b1 := a2.mp rfl
        have b2 : vs.any (fun v => v.descriptor.isSome) = true := by
          rw [← Bool.not_eq_false]
          exact fun h => ht (a1.mpr h)
        simp [attrCount, b1, b2]
    · rename_i hn1 hn2 hn3
      cases e
      have ht : ts ≠ [] := fun h => hn1 h
      have hes : es ≠ [] := fun h => hn2 h
      refine ⟨(cons (wr_vars l2) (last (wr_varTypes l1))).conv fun s => ?_, ?_⟩
      · show _ ↔ s ∈ vs.flatMap constsVar
        rw [hm s, List.mem_append]
        simp [ht, hes]
      · have b1 : vs.any (fun v => v.signature.isSome) = true := by
          rw [← Bool.not_eq_false]
          exact fun h => ht (a2.mpr h)
        have b2 : vs.any (fun v => v.descriptor.isSome) = true := by
          rw [← Bool.not_eq_false]
          exact fun h => hes (a1.mpr h)
        simp [attrCount, b1, b2]

theorem lower_total {a : CodeAttribute} (he : EnvOk env is) (h : FitsCodeAttr is a) : ∃ ls, a.lower env = .ok ls := by
  cases a with
  | visibleType as => exact ⟨_, rfl⟩
  | invisibleType as => exact ⟨_, rfl⟩
  | raw as => exact ⟨_, rfl⟩
  | locals vs =>
    obtain ⟨h1, h2, v, hv, hx⟩ := h
    obtain ⟨⟨ts, es⟩, hr⟩ := splitVars_total he h2
    obtain ⟨a1, a2⟩ := splitVars_any hr
    rw [CodeAttribute.lower, hr]
    show ∃ ls, (match ts, es with
      | [], [] => Except.error Err.invalid
      | ty, [] => Pure.pure [CodeAttr.varTypes ty]
      | [], var => Pure.pure [CodeAttr.vars var]
      | ty, var => Pure.pure [CodeAttr.vars var, CodeAttr.varTypes ty]) = _
    split
    · exfalso
      rcases hx with hx | hx
      · have := List.any_eq_false.mp (a1.mp rfl) v hv
        exact this hx
      · have := List.any_eq_false.mp (a2.mp rfl) v hv
        exact this hx
    · exact ⟨_, rfl⟩
    · exact ⟨_, rfl⟩
    · exact ⟨_, rfl⟩

theorem attrCount_pos {a : CodeAttribute} (h : FitsCodeAttr is a) : 1 ≤ attrCount a := by
  cases a with
  | visibleType as => exact Nat.le_refl _
  | invisibleType as => exact Nat.le_refl _
  | raw as => exact Nat.le_refl _
  | locals vs =>
    obtain ⟨_, _, v, hv, hx⟩ := h
    show 1 ≤ (if vs.any (fun v => v.descriptor.isSome) then 1 else 0) +
      if vs.any (fun v => v.signature.isSome) then 1 else 0
    rcases hx with hx | hx
    · have : vs.any (fun v => v.descriptor.isSome) = true := List.any_eq_true.mpr ⟨v, hv, hx⟩
      rw [if_pos this]
      omega
    · have : vs.any (fun v => v.signature.isSome) = true := List.any_eq_true.mpr ⟨v, hv, hx⟩
      rw [if_pos this]
      omega

theorem wr_codeAttrs {as : List CodeAttribute} (he : p → EnvOk env is) (h : p → ∀ a ∈ as, FitsCodeAttr is a) (n : Nat)
    (hn : p → n + (as.map fun a => attrCount a - 1).sum < 65536) :
    Wr p (writeCodeAttrs env n as) (as.flatMap constsCodeAttr) [] := by
  induction as generalizing n with
  | nil => exact pure _
  | cons a as ih =>
    intro cp
    refine WrAt.bind0 (c := []) (WrAt.lift fun hp => lower_total (he hp) (h hp a (by simp))) fun ls cp' _ e => ?_
    obtain ⟨e1, -⟩ := Ins.lift_ok e
    obtain ⟨hl, hc⟩ := wr_lower he (fun hp => h hp a (by simp)) e1
    simp only
    simp only [List.map_cons, List.sum_cons] at hn
    split
    · exact bind0 hl (fun b => bindN (ih (fun hp x hx => h hp x (by simp [hx])) _ fun hp => by
        have := hn hp; omega) fun r => pure _) cp'
    · refine WrAt.fail fun hp => ?_
      have := hn hp
      omega

theorem codeAttrs_extra {as : List CodeAttribute} {n m : Nat} {bs : Bytes} {cp cp' : VecCp}
    (e : writeCodeAttrs env n as cp = .ok ((m, bs), cp')) : m = n + (as.map fun a => attrCount a - 1).sum := by
  induction as generalizing n m bs cp with
  | nil =>
    cases e
    rfl
  | cons a as ih =>
    obtain ⟨ls, cp1, e0, e2⟩ := Ins.bind_ok e
    obtain ⟨e1, rfl⟩ := Ins.lift_ok e0
    obtain ⟨-, hc⟩ := wr_lower (p := False) (is := []) (nomatch ·) (nomatch ·) e1
    simp only at e2
    split at e2
    · obtain ⟨b, cp2, _, e3⟩ := Ins.bind_ok e2
      obtain ⟨⟨m', bs'⟩, cp3, e4, e5⟩ := Ins.bind_ok e3
      cases e5
      rw [ih e4, List.map_cons, List.sum_cons, hc]
      omega
    · cases e2

theorem sum_pred {as : List CodeAttribute} (h : ∀ a ∈ as, 1 ≤ attrCount a) :
    as.length + (as.map fun a => attrCount a - 1).sum = (as.map attrCount).sum := by
  induction as with
  | nil => rfl
  | cons a as ih =>
    have := ih fun b hb => h b (by simp [hb])
    have := h a (by simp)
    simp only [List.map_cons, List.sum_cons, List.length_cons]
    omega

theorem wr_code {x : Code} (h : p → FitsCode x) :
    Wr p x.write (constsCode x) ((x.code.flatMap insnDynamics).flatMap ownBsm) := fun cp => by
  have := WrAt.bind (β := Bytes) (c' := x.catches.flatMap (fun k => constsOpt (fun s => (Sym.cls s).all) k.ty) ++
    x.attrs.flatMap constsCodeAttr) (l' := []) (wr_writeCode h cp) (f := fun a => do
      let env := Code.env a x.catches
      let hs ← wAll (Catch.write env) x.catches
      let (extra, as) ← writeCodeAttrs env 0 x.attrs
      if (UInt16.ofNat x.attrs.length).toNat + extra < 65536 then
        Pure.pure (u16.write x.maxStack ++ u16.write x.maxLocals ++ u32.write a.len ++ a.code ++
          u16.write (UInt16.ofNat x.catches.length) ++ hs ++
          u16.write (UInt16.ofNat x.attrs.length + UInt16.ofNat extra) ++ as)
      else Ins.fail .panic) fun a cp1 _ e => ?_
  · rw [List.append_nil] at this
    exact this
  · have he : p → EnvOk (Code.env a x.catches) x.code := fun hp => envOk_code (h hp) e
    have hsum : p → x.attrs.length + (x.attrs.map fun a => attrCount a - 1).sum < 65536 := fun hp => by
      rw [sum_pred fun a ha => attrCount_pos ((h hp).attrs a ha)]
      exact (h hp).count
    simp only
    refine WrAt.bind0 (all (fun k hk => ?_) cp1) fun hs cp2 _ _ => ?_
    · have hl : ∀ l ∈ catchLabels k, Wr p (wLabel (Code.env a x.catches) l) [] [] := fun l hl =>
        label fun hp => (he hp).1 l ((h hp).catches k hk l hl)
      exact skip (hl _ (by simp [catchLabels])) (skip (hl _ (by simp [catchLabels])) (skip (hl _ (by simp [catchLabels]))
        (last (opt fun s => cls s))))
    · refine WrAt.bindN (wr_codeAttrs he (fun hp => (h hp).attrs) 0 (fun hp => ?_) cp2) fun r cp3 _ e3 => ?_
      · have := hsum hp
        omega
      · obtain ⟨extra, as⟩ := r
        have hx := codeAttrs_extra e3
        simp only
        split
        · exact WrAt.pure _
        · rename_i hn
          refine WrAt.fail fun hp => hn ?_
          have := hsum hp
          rw [UInt16.toNat_ofNat']
          omega

/-! ## Methods -/

theorem wr_methodAttr {a : MethodAttr} (h : p → FitsMethodAttr a) :
    Wr p a.write (constsMethodAttr a) ((attrDynamics a).flatMap ownBsm) := by
  cases a with
  | code x => exact attr (wr_code h)
  | deprecated => exact attr nil
  | synthetic => exact attr nil
  | signature s => exact attr wsig
  | visible as => exact attr (wr_anns h)
  | invisible as => exact attr (wr_anns h)
  | visibleType as => exact attr (wr_tanns (fun _ _ => wr_methodTarget _) h)
  | invisibleType as => exact attr (wr_tanns (fun _ _ => wr_methodTarget _) h)
  | visibleParams ps => exact attr (vec (fun hp => (h hp).1) fun as ha => wr_anns fun hp => (h hp).2 as ha)
  | invisibleParams ps => exact attr (vec (fun hp => (h hp).1) fun as ha => wr_anns fun hp => (h hp).2 as ha)
  | exceptions ss => exact attr (tab h fun s hs => wstr7)
  | annotationDefault v => exact attr (wr_value v)
  | methodParameters ps => exact attr (vec h fun p hp => cons1 utf8Opt (skip flags nil))
  | raw a => exact rawAttr

theorem wr_method {m : Method} (h : p → FitsMethod m) :
    Wr p m.write (constsMethod m) ((m.attrs.flatMap attrDynamics).flatMap ownBsm) := by
  have := vecB (p := p) (c := u16) (g := constsMethodAttr) (f := fun a => (attrDynamics a).flatMap ownBsm)
    (fun hp => (h hp).1) (fun a ha => wr_methodAttr fun hp => (h hp).2 a ha)
  rw [List.flatMap_assoc]
  exact skip flags (cons (c := [_]) wutf8 (cons (c := [_]) wtype (last this)))

end
end Verif
