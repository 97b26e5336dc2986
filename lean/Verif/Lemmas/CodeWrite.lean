import Verif.Lemmas.Code
import Verif.Lemmas.Asm
import Verif.Props.Signature

/-! # Writing method bodies -/

namespace Verif
open Spec Sig

/-! ## Labels -/

theorem writeInsns_labels {is : List Insn} {b b' : CodeBuf} {cp cp' : VecCp}
    (h : writeInsns b is cp = .ok (b', cp')) :
    b'.labels.map Prod.fst = (marks is).reverse ++ b.labels.map Prod.fst := by
  induction is generalizing b cp with
  | nil => cases h; rfl
  | cons i is ih =>
    rw [writeInsns] at h
    obtain ⟨b1, cp1, h1, h2⟩ := Ins.bind_ok h
    rw [ih h2]
    have : b1.labels.map Prod.fst = (marks [i]).reverse ++ b.labels.map Prod.fst := by
      cases i <;> first
        | (cases h1; rfl)
        | (obtain ⟨bs, cp2, _, h4⟩ := Ins.bind_ok h1
           cases h4
           rfl)
    rw [this, ← List.append_assoc, ← List.reverse_append]
    congr 2
    cases i <;> rfl

theorem mem_marks {l : Label} {is : List Insn} : l ∈ marks is ↔ .label l ∈ is := by
  induction is with
  | nil => simp [marks]
  | cons i is ih => cases i <;> simp [marks, ih]

theorem writeCode_label {is : List Insn} {cp cp' : VecCp} {a : Assembled}
    (h : writeCode is cp = .ok (a, cp')) {l : Label} {o : UInt16} (hl : a.label l = .ok o) : .label l ∈ is := by
  obtain ⟨b, cp1, h1, h2⟩ := Ins.bind_ok h
  obtain ⟨h2, _⟩ := Ins.lift_ok h2
  have hm := writeInsns_labels h1
  have hlab : ∃ I, a.label = labelPos b.labels I := by
    unfold assemble at h2
    simp only at h2
    split at h2
    · cases h2
    split at h2
    · cases h2
    split at h2
    · cases h2
    split at h2
    · cases h2
    split at h2
    · cases h2
    · cases h2
      exact ⟨_, rfl⟩
  obtain ⟨I, e⟩ := hlab
  rw [e] at hl
  unfold labelPos at hl
  split at hl
  · cases hl
  · rename_i hk
    have := List.mem_map_of_mem (f := Prod.fst) (mem_of_lookup hk)
    rw [hm] at this
    rw [← mem_marks]
    simpa [CodeBuf.empty] using this

/-! ## Tables -/

theorem writes_lineEntry (env : WEnv) (x : LineEntry) : Writes env x.write lineEntry x :=
  Writes.cons (Writes.on (writes_u2 env _)) (Writes.cons (Writes.on (writes_u2 env _)) (Writes.nil _ _))

theorem writes_varEntry (env : WEnv) {x : VarEntry} (h : IsDescriptor x.descriptor) :
    Writes env x.write varEntry x :=
  Writes.cons (Writes.on (writes_u2 env _)) (Writes.cons (Writes.on (writes_u2 env _))
    (Writes.cons (Writes.on (writes_utf8 env _)) (Writes.cons (Writes.on (writes_type env h))
    (Writes.cons (Writes.on (writes_u2 env _)) (Writes.nil _ _)))))

theorem writes_varTypeEntry (env : WEnv) {x : VarTypeEntry} (h : SigText RText x.signature) :
    Writes env x.write varTypeEntry x :=
  Writes.cons (Writes.on (writes_u2 env _)) (Writes.cons (Writes.on (writes_u2 env _))
    (Writes.cons (Writes.on (writes_utf8 env _))
    (Writes.cons (Writes.on (writes_sig env (fun _ h => Props.C18_print h) h))
    (Writes.cons (Writes.on (writes_u2 env _)) (Writes.nil _ _)))))

theorem writes_handler (env : WEnv) (k : Catch) : Writes env (k.write env) handlerEntry k :=
  Writes.cons (Writes.on (writes_label env _)) (Writes.cons (Writes.on (writes_label env _))
    (Writes.cons (Writes.on (writes_label env _)) (Writes.cons
      (Writes.on (writes_opt (fun a _ => good_class0 a))) (Writes.nil _ _))))

/-! ## Attributes -/

theorem catch_index {a : Assembled} {catches : List Catch} {k : Catch} (h : k ∈ catches)
    (hl : catches.length < 65536) : ∃ n : Nat, catches[n]? = some k ∧
      (Code.env a catches).catch_ k = .ok (some (UInt16.ofNat n)) ∧ n < 65536 := by
  have : (catches.findIdx? fun c => c == k).isSome := by
    rw [List.findIdx?_isSome]
    exact List.any_eq_true.mpr ⟨k, h, by simp⟩
  obtain ⟨n, hn⟩ := Option.isSome_iff_exists.mp this
  obtain ⟨h1, h2, _⟩ := List.findIdx?_eq_some_iff_getElem.mp hn
  refine ⟨n, ?_, ?_, by omega⟩
  · rw [List.getElem?_eq_getElem h1]
    simpa using h2
  · simp [Code.env, hn]

theorem writes_codeAnns {a : Assembled} {catches : List Catch} (hl : catches.length < 65536)
    {as : List (TypeAnnotation CodeTarget)} (h : ∀ a ∈ as, AnnWritable catches a) :
    Writes (Code.env a catches) (wVec u16 (TypeAnnotation.write (CodeTarget.write (Code.env a catches))) as)
      (Fmt.table2 (typeAnnotation codeTarget)) as := by
  refine Writes.vec2 fun x hx => writes_typeAnnotation (writes_codeTarget _ _ ?_) (h x hx).1
  have := (h x hx).2
  generalize x.target = t at this ⊢
  cases t with
  | catchParam k =>
    obtain ⟨n, _, h2, _⟩ := catch_index (a := a) (this k (by simp [targetCatches])) hl
    exact ⟨_, h2⟩
  | _ => trivial

theorem rangeOf_ok {env : WEnv} {W : World} {s t : Label} {p n : UInt16} (h : rangeOf env s t = .ok (p, n)) :
    (env.ctx W).pos s = some p.toNat ∧ (env.ctx W).pos t = some (p.toNat + n.toNat) := by
  unfold rangeOf at h
  split at h
  · cases h
  rename_i s' h1
  split at h
  · cases h
  rename_i e h2
  split at h
  · cases h
  · rename_i hlt
    cases h
    simp only [WEnv.ctx, h1, h2, true_and]
    have : p.toNat ≤ e.toNat := by
      rw [UInt16.lt_iff_toNat_lt] at hlt
      omega
    have := UInt16.toNat_sub_of_le e p (UInt16.le_iff_toNat_le.mpr this)
    rw [this]
    congr 1
    omega

theorem splitVars_ok {env : WEnv} {vs : List LocalVariable} {ts : List VarTypeEntry} {es : List VarEntry}
    (h : splitVars env vs = .ok (ts, es)) (W : World) :
    Matched (varEntryOf (env.ctx W)) (vs.filter fun v => v.descriptor.isSome) es ∧
    Matched (varTypeEntryOf (env.ctx W)) (vs.filter fun v => v.signature.isSome) ts := by
  induction vs generalizing ts es with
  | nil => cases h; exact ⟨.nil, .nil⟩
  | cons v vs ih =>
    rw [splitVars] at h
    obtain ⟨var, h1, h⟩ := Res.bind_ok h
    obtain ⟨ty, h2, h⟩ := Res.bind_ok h
    obtain ⟨⟨tys, vars⟩, h3, h⟩ := Res.bind_ok h
    cases h
    obtain ⟨i1, i2⟩ := ih h3
    refine ⟨?_, ?_⟩
    · unfold LocalVariable.varEntries at h1
      split at h1
      · rename_i hd
        cases h1
        rw [List.filter_cons_of_neg (by simp [hd])]
        exact i1
      · rename_i d hd
        split at h1
        · cases h1
        rename_i p n h4
        cases h1
        rw [List.filter_cons_of_pos (by simp [hd])]
        obtain ⟨r1, r2⟩ := rangeOf_ok (W := W) h4
        exact .cons ⟨r1, r2, rfl, rfl, hd⟩ i1
    · unfold LocalVariable.varTypeEntries at h2
      split at h2
      · rename_i hd
        cases h2
        rw [List.filter_cons_of_neg (by simp [hd])]
        exact i2
      · rename_i d hd
        split at h2
        · cases h2
        rename_i p n h4
        cases h2
        rw [List.filter_cons_of_pos (by simp [hd])]
        obtain ⟨r1, r2⟩ := rangeOf_ok (W := W) h4
        exact .cons ⟨r1, r2, rfl, rfl, hd⟩ i2

theorem lower_ok {env : WEnv} {a : CodeAttribute} {ls : List CodeAttr} (h : a.lower env = .ok ls) (W : World) :
    Lowers (env.ctx W) a ls := by
  cases a with
  | visibleType as => cases h; exact .visible
  | invisibleType as => cases h; exact .invisible
  | raw a => cases h; exact .raw
  | locals vs =>
    rw [CodeAttribute.lower] at h
    obtain ⟨⟨ts, es⟩, h1, h⟩ := Res.bind_ok h
    obtain ⟨m1, m2⟩ := splitVars_ok h1 W
    have := fun hne => Lowers.locals m1 m2 hne
    cases ts <;> cases es <;> cases h <;> simpa using this

theorem Spec.Matched.right {α β : Type} {R : α → β → Prop} {xs : List α} {ys : List β} (h : Matched R xs ys) :
    ∀ y ∈ ys, ∃ x ∈ xs, R x y := by
  induction h with
  | nil => simp
  | cons h _ ih =>
    intro y hy
    rcases List.mem_cons.mp hy with rfl | hy
    · exact ⟨_, by simp, h⟩
    · obtain ⟨x, hx, hr⟩ := ih y hy
      exact ⟨x, by simp [hx], hr⟩

theorem Spec.Matched.left {α β : Type} {R : α → β → Prop} {xs : List α} {ys : List β} (h : Matched R xs ys) :
    ∀ x ∈ xs, ∃ y ∈ ys, R x y := by
  induction h with
  | nil => simp
  | cons h _ ih =>
    intro y hy
    rcases List.mem_cons.mp hy with rfl | hy
    · exact ⟨_, by simp, h⟩
    · obtain ⟨x, hx, hr⟩ := ih y hy
      exact ⟨x, by simp [hx], hr⟩

theorem writes_lowered {a : Assembled} {catches : List Catch} (hl : catches.length < 65536)
    {x : CodeAttribute} (hx : AttrWritable catches x) {c : Ctx} {ls : List CodeAttr} (h : Lowers c x ls) :
    ∀ y ∈ ls, Writes (Code.env a catches) (y.write (Code.env a catches)) (Fmt.small codeAttr) y := by
  intro y hy
  cases h with
  | visible =>
    cases List.mem_singleton.mp hy
    exact Writes.sattr (writes_codeAnns hl hx).toSmall
  | invisible =>
    cases List.mem_singleton.mp hy
    exact Writes.sattr (writes_codeAnns hl hx).toSmall
  | raw =>
    cases List.mem_singleton.mp hy
    exact (writes_raw _ _).weaken fun _ _ h => h
  | @locals vs es ts m1 m2 _ =>
    rcases List.mem_append.mp hy with h | h
    · split at h
      · cases h
      cases List.mem_singleton.mp h
      refine Writes.sattr (Writes.vec2 fun e he => writes_varEntry _ ?_).toSmall
      obtain ⟨v, hv, hr⟩ := m1.right e he
      exact (hx v (List.mem_filter.mp hv).1).1 _ hr.2.2.2.2
    · split at h
      · cases h
      cases List.mem_singleton.mp h
      refine Writes.sattr (Writes.vec2 fun e he => writes_varTypeEntry _ ?_).toSmall
      obtain ⟨v, hv, hr⟩ := m2.right e he
      exact (hx v (List.mem_filter.mp hv).1).2 _ hr.2.2.2.2

theorem Spec.Lowers.pos {c : Ctx} {x : CodeAttribute} {ls : List CodeAttr} (h : Lowers c x ls) :
    0 < ls.length := by
  cases h with
  | @locals vs es ts _ _ hne =>
    cases es <;> cases ts <;> simp at hne ⊢
  | _ => simp

theorem Fmt.all_append {α : Type} {f : Fmt α} {c : Ctx} {xs ys : List α} {b b' : Bytes} (h : Fmt.all f c xs b)
    (h' : Fmt.all f c ys b') : Fmt.all f c (xs ++ ys) (b ++ b') := by
  induction xs generalizing b with
  | nil => cases h; exact h'
  | cons x xs ih =>
    obtain ⟨b1, b2, rfl, h1, h2⟩ := h
    exact ⟨b1, b2 ++ b', by simp, h1, ih h2⟩

theorem writeCodeAttrs_ok {a : Assembled} {catches : List Catch} (hl : catches.length < 65536) :
    ∀ {as : List CodeAttribute} {extra : Nat}, (∀ a ∈ as, AttrWritable catches a) →
    GoodW (writeCodeAttrs (Code.env a catches) extra as) (fun W r =>
      ∃ lss, Matched (Lowers ((Code.env a catches).ctx W)) as lss ∧ as.length + r.1 = extra + lss.flatten.length ∧
        Fmt.small (Fmt.all codeAttr) ((Code.env a catches).ctx W) lss.flatten r.2) := by
  intro as
  induction as with
  | nil =>
    intro extra _
    exact GoodW.pure _ fun W => ⟨[], .nil, by simp, fun _ => rfl⟩
  | cons x as ih =>
    intro extra h
    rw [writeCodeAttrs]
    intro cp r cp3 hi he
    obtain ⟨ls, cp1, e0, he'⟩ := Ins.bind_ok he
    obtain ⟨e1, rfl⟩ := Ins.lift_ok e0
    simp only at he'
    clear he
    split at he'
    · obtain ⟨b, cp2, e2, he'⟩ := Ins.bind_ok he'
      obtain ⟨⟨n, bs⟩, cp4, e3, he'⟩ := Ins.bind_ok he'
      cases he'
      have g1 := (Writes.all (env := Code.env a catches) (writes_lowered (a := a) hl (h x (by simp))
        (lower_ok e1 ⟨fun _ => none, []⟩))) _ _ _ hi e2
      have i1 := steps_ok g1.1 hi
      have g2 := ih (fun a ha => h a (by simp [ha])) _ _ _ i1.1 e3
      have i2 := steps_ok g2.1 i1.1
      refine ⟨g1.1.trans g2.1, fun W hW => ?_⟩
      have q1 := g1.2 W (hW.mono i2.2)
      obtain ⟨lss, m1, m2, m3⟩ := g2.2 W hW
      simp only at m2 m3
      have hp := (lower_ok e1 W).pos
      refine ⟨ls :: lss, .cons (lower_ok e1 W) m1, ?_, ?_⟩
      · simp only [List.length_cons, List.flatten_cons, List.length_append] at m2 ⊢
        omega
      · intro hb
        simp only [List.length_append] at hb
        exact Fmt.all_append (Fmt.all_small q1 (by omega)) (m3 (by omega))
    · cases he'

/-! ## Bodies -/

theorem write_body {x : Code} (hx : CodeWritable x) {cp cp' : VecCp} {bs : Bytes} (hc : cp.Inv)
    (h : x.write cp = .ok (bs, cp'))
    (hs : ∀ a cp1, writeCode x.code cp = .ok (a, cp1) → Sized x.code a) :
    Steps cp cp' ∧ ∃ a, (∃ cp1, writeCode x.code cp = .ok (a, cp1)) ∧ (∀ l o, a.label l = .ok o → .label l ∈ x.code) ∧
      ∀ W : World, W.Fits cp' →
        Fmt.small (codeBody a.code) ((Code.env a x.catches).ctx W) x bs := by
  unfold Code.write at h
  obtain ⟨a, cp1, e1, h⟩ := Ins.bind_ok h
  obtain ⟨hb, cp2, e2, h⟩ := Ins.bind_ok h
  obtain ⟨⟨extra, as⟩, cp3, e3, h⟩ := Ins.bind_ok h
  simp only at h
  split at h
  case isFalse => cases h
  rename_i hcnt
  cases h
  have hsz := hs a cp1 e1
  obtain ⟨s1, l1, l2⟩ := writeCode_ok hx.insns hx.labels hc e1
  have hsz1 : a.code.length + 5 * branches x.code ≤ 65535 := by
    rcases hsz with h | ⟨h, _⟩ <;> omega
  obtain ⟨_, l3, l4⟩ := l2 hsz1
  have l3 : a.len.toNat = a.code.length := by
    rcases hsz with h | ⟨_, h | h⟩
    · exact l3 (by omega)
    · exact l3 h
    · exact h
  have l4 := l4 l3
  have i1 := steps_ok s1 hc
  have g2 := Writes.all (env := Code.env a x.catches) (fun k _ => writes_handler (Code.env a x.catches) k)
    _ _ _ i1.1 e2
  have i2 := steps_ok g2.1 i1.1
  have g3 := writeCodeAttrs_ok hx.catches hx.attr _ _ _ i2.1 e3
  have i3 := steps_ok g3.1 i2.1
  refine ⟨(s1.trans g2.1).trans g3.1, a, ⟨cp1, e1⟩, fun l o => writeCode_label e1, fun W hW hlen => ?_⟩
  obtain ⟨lss, m1, m2, m3⟩ := g3.2 W hW
  simp only at m2 m3
  have q2 := g2.2 W (hW.mono i3.2)
  have ha : (UInt16.ofNat x.attrs.length).toNat = x.attrs.length := by
    have := hx.attrs
    simp
    omega
  rw [ha] at hcnt
  simp only [List.length_append] at hlen
  have m3 := m3 (by omega)
  have hn : lss.flatten.length = x.attrs.length + extra := by omega
  refine ⟨lss, m1, U2 x.catches.length ++ hb, U2 lss.flatten.length ++ as, l4 W _ (hW.mono (i2.2.trans i3.2)) rfl,
    by omega, ⟨hx.catches, hb, rfl, q2⟩, ⟨by show lss.flatten.length < 65536; omega, as, rfl, m3⟩, ?_⟩
  have hw1 : u32.write a.len = U4 a.code.length := by rw [u32_write, l3]
  have hw2 : u16.write (UInt16.ofNat x.catches.length) = U2 x.catches.length := by
    rw [u16_write]
    congr 1
    have := hx.catches
    simp
    omega
  have hw3 : u16.write (UInt16.ofNat x.attrs.length + UInt16.ofNat extra) = U2 lss.flatten.length := by
    rw [u16_write, hn]
    congr 1
    simp
    omega
  rw [u16_write, u16_write, hw1, hw2, hw3]
  simp only [List.append_assoc]

/-! ## Places -/

theorem Spec.Positioned.zero {c : Ctx} {p : Nat} {is : List Insn} {bs : Bytes} {pis : List (Nat × Insn)}
    (h : Positioned c p is bs pis) : (pis.map Prod.fst ++ [p + bs.length])[0]? = some p := by
  induction h with
  | nil => simp
  | skip _ _ _ ih => exact ih
  | keep => simp

theorem Spec.Positioned.place {c : Ctx} {p : Nat} {is : List Insn} {bs : Bytes} {pis : List (Nat × Insn)}
    (h : Positioned c p is bs pis) {l : Label} (hl : .label l ∈ is) :
    ∃ k q, place l is = some k ∧ c.pos l = some q ∧ (pis.map Prod.fst ++ [p + bs.length])[k]? = some q := by
  induction h with
  | nil => cases hl
  | @skip p i is bs pis h1 h2 h3 ih =>
    cases i with
    | label l' =>
      rw [Spec.place]
      by_cases he : l' = l
      · subst he
        rw [if_pos rfl]
        cases h1 with
        | label hp => exact ⟨0, p, rfl, hp, h3.zero⟩
      · rw [if_neg he]
        exact ih (by simpa [Ne.symm he] using hl)
    | _ =>
      obtain ⟨k, q, e1, e2, e3⟩ := ih (by simpa using hl)
      exact ⟨k, q, by simp [Spec.place, e1, h2], e2, e3⟩
  | @keep p i j is b bs pis h1 h2 h3 ih =>
    cases i with
    | label l' => cases h2
    | _ =>
      obtain ⟨k, q, e1, e2, e3⟩ := ih (by simpa using hl)
      refine ⟨k + 1, q, by simp [Spec.place, e1, h2], e2, ?_⟩
      rw [List.length_append, ← Nat.add_assoc]
      simpa using e3

theorem normal_solid {i j : Insn} (h : normal i = some j) (f : Label → Label) :
    (normal (renI f j)).isSome ∧ (∀ l, renI f j ≠ .label l) ∧ ∀ n, renI f j ≠ .lineNumber n := by
  cases i
  case conversion a b =>
    cases a <;> cases b <;> first
      | (cases h; done)
      | (cases h; exact ⟨rfl, fun _ h => Insn.noConfusion h, fun _ h => Insn.noConfusion h⟩)
  case convertInt a =>
    cases a <;> first
      | (cases h; done)
      | (cases h; exact ⟨rfl, fun _ h => Insn.noConfusion h, fun _ h => Insn.noConfusion h⟩)
  case push c =>
    cases c <;> cases h <;> exact ⟨rfl, fun _ h => Insn.noConfusion h, fun _ h => Insn.noConfusion h⟩
  case field o t c =>
    cases c <;> cases h <;> exact ⟨rfl, fun _ h => Insn.noConfusion h, fun _ h => Insn.noConfusion h⟩
  case invokeExact t c =>
    cases c <;> cases h <;> exact ⟨rfl, fun _ h => Insn.noConfusion h, fun _ h => Insn.noConfusion h⟩
  case invokeSpecial c =>
    cases c <;> cases h <;> exact ⟨rfl, fun _ h => Insn.noConfusion h, fun _ h => Insn.noConfusion h⟩
  case invokeInterface c n =>
    cases c <;> cases h <;> exact ⟨rfl, fun _ h => Insn.noConfusion h, fun _ h => Insn.noConfusion h⟩
  all_goals first
    | (cases h; done)
    | (cases h; exact ⟨rfl, fun _ h => Insn.noConfusion h, fun _ h => Insn.noConfusion h⟩)

theorem rebuild_solid {ν : Nat → Option Label} {line : Nat → Option UInt16} {len : Nat}
    {pis : List (Nat × Insn)} (h : ∀ e ∈ pis, (∀ l, e.2 ≠ .label l) ∧ ∀ n, e.2 ≠ .lineNumber n) :
    solid (rebuild ν line pis len) = pis.map Prod.snd ∧
    placed (rebuild ν line pis len) = (pis.map Prod.fst ++ [len]).filterMap ν := by
  have hm : ∀ p, solid (markers ν line p) = [] ∧ placed (markers ν line p) = (ν p).toList := by
    intro p
    unfold markers
    cases ν p <;> cases line p <;> exact ⟨rfl, rfl⟩
  induction pis with
  | nil =>
    refine ⟨(hm len).1, ?_⟩
    rw [rebuild, (hm len).2]
    simp [List.filterMap_cons]
    cases ν len <;> rfl
  | cons e r ih =>
    obtain ⟨p, i⟩ := e
    obtain ⟨i1, i2⟩ := ih fun e he => h e (by simp [he])
    obtain ⟨h1, h2⟩ := h (p, i) (by simp)
    simp only [rebuild, List.map_cons, List.cons_append]
    have e1 : solid (i :: rebuild ν line r len) = i :: solid (rebuild ν line r len) := by
      unfold solid
      rw [List.filter_cons_of_pos]
      cases i <;> first | rfl | exact absurd rfl (h1 _) | exact absurd rfl (h2 _)
    have e2 : placed (i :: rebuild ν line r len) = placed (rebuild ν line r len) := by
      unfold placed
      rw [List.filterMap_cons_none]
      cases i <;> first | rfl | exact absurd rfl (h1 _)
    have a1 : ∀ a b, solid (a ++ b) = solid a ++ solid b := fun a b => List.filter_append ..
    have a2 : ∀ a b, placed (a ++ b) = placed a ++ placed b := fun a b => List.filterMap_append ..
    rw [a1, a2, (hm p).1, (hm p).2, e1, e2, i1, i2]
    refine ⟨rfl, ?_⟩
    cases hp : ν p <;> simp [hp]

theorem place_append {l : Label} {a b : List Insn} (h : ∀ i ∈ a, normal i = none ∧ i ≠ .label l) :
    place l (a ++ b) = place l b := by
  induction a with
  | nil => rfl
  | cons i a ih =>
    have := h i (by simp)
    have ih := ih fun i hi => h i (by simp [hi])
    cases i with
    | label l' =>
      rw [List.cons_append, place, if_neg (fun e => this.2 (by rw [e])), ih]
    | _ => simp [place, ih, this.1]

theorem rebuild_place {ν : Nat → Option Label} (hν : ∀ p q l, ν p = some l → ν q = some l → p = q)
    {line : Nat → Option UInt16} {len : Nat} {pis : List (Nat × Insn)}
    (h : ∀ e ∈ pis, (normal e.2).isSome ∧ ∀ l, e.2 ≠ .label l) (hn : (pis.map Prod.fst ++ [len]).Nodup)
    {k q : Nat} {l : Label} (hk : (pis.map Prod.fst ++ [len])[k]? = some q) (hl : ν q = some l) :
    place l (rebuild ν line pis len) = some k := by
  have here : ∀ p b, ν p = some l → place l (markers ν line p ++ b) = some 0 := by
    intro p b hp
    simp [markers, hp, place]
  have there : ∀ p b, p ≠ q → place l (markers ν line p ++ b) = place l b := by
    intro p b hp
    refine place_append fun i hi => ?_
    unfold markers at hi
    rcases List.mem_append.mp hi with hi | hi
    · obtain ⟨l', h1, rfl⟩ := List.mem_map.mp hi
      refine ⟨rfl, fun e => hp ?_⟩
      cases e
      exact hν p q l (by simpa using h1) hl
    · obtain ⟨n, _, rfl⟩ := List.mem_map.mp hi
      exact ⟨rfl, fun e => Insn.noConfusion e⟩
  induction pis generalizing k with
  | nil =>
    obtain ⟨rfl, rfl⟩ : k = 0 ∧ len = q := by
      cases k with
      | zero => exact ⟨rfl, by simpa using hk⟩
      | succ k => simp at hk
    rw [rebuild, ← List.append_nil (markers ν line len)]
    exact here _ _ hl
  | cons e r ih =>
    obtain ⟨p, i⟩ := e
    rw [rebuild]
    simp only [List.map_cons, List.cons_append, List.nodup_cons] at hn hk
    cases k with
    | zero =>
      obtain rfl : p = q := by simpa using hk
      exact here _ _ hl
    | succ k =>
      have hq : q ∈ r.map Prod.fst ++ [len] := List.mem_of_getElem? (by simpa using hk)
      rw [there p _ (fun e => hn.1 (by rw [e]; exact hq))]
      have := ih (fun e he => h e (by simp [he])) hn.2 (by simpa using hk)
      obtain ⟨h1, h2⟩ := h (p, i) (by simp)
      cases i with
      | label l' => exact absurd rfl (h2 _)
      | _ => simp [place, this, h1]

/-! ## Written bodies can be read -/

theorem Fmt.all_mem {α : Type} {f : Fmt α} {c : Ctx} {xs : List α} {bs : Bytes} (h : Fmt.all f c xs bs) :
    ∀ x ∈ xs, ∃ b, f c x b := by
  induction xs generalizing bs with
  | nil => simp
  | cons x xs ih =>
    obtain ⟨b, b', rfl, h1, h2⟩ := h
    intro y hy
    rcases List.mem_cons.mp hy with rfl | hy
    · exact ⟨b, h1⟩
    · exact ih h2 y hy

theorem Fmt.table2_mem {α : Type} {f : Fmt α} {c : Ctx} {xs : List α} {bs : Bytes} (h : Fmt.table2 f c xs bs) :
    ∀ x ∈ xs, ∃ b, f c x b := by
  obtain ⟨_, b, _, h⟩ := h
  exact Fmt.all_mem h

theorem codeTarget_labels {c : Ctx} {t : CodeTarget} {bs : Bytes} (h : codeTarget c t bs) :
    ∀ l ∈ targetLabels t, ∃ q, c.pos l = some q := by
  have one : ∀ {x : Label} {n : Nat} {bs : Bytes}, Fmt.tagged n Fmt.label c x bs →
      ∀ l ∈ [x], ∃ q, c.pos l = some q := by
    rintro x n bs ⟨b, rfl, p, h1, _⟩ l hl
    cases List.mem_singleton.mp hl
    exact ⟨p, h1⟩
  have two : ∀ {x : Label} {i : UInt8} {n : Nat} {bs : Bytes},
      Fmt.tagged n (Fmt.pair Fmt.label Fmt.byte) c (x, i) bs → ∀ l ∈ [x], ∃ q, c.pos l = some q := by
    rintro x i n bs ⟨b, rfl, b1, b2, rfl, ⟨p, h1, _⟩, _⟩ l hl
    cases List.mem_singleton.mp hl
    exact ⟨p, h1⟩
  have many : ∀ {ts : List LocalVarTarget} {n : Nat} {bs : Bytes},
      Fmt.tagged n (Fmt.table2 localTarget) c ts bs →
      ∀ l ∈ ts.flatMap (fun t => [t.start, t.stop]), ∃ q, c.pos l = some q := by
    rintro ts n bs ⟨b, rfl, h⟩ l hl
    obtain ⟨t, ht, hl⟩ := List.mem_flatMap.mp hl
    obtain ⟨b, s, e, h1, h2, _⟩ := Fmt.table2_mem h t ht
    simp only [List.mem_cons, List.not_mem_nil, or_false] at hl
    rcases hl with rfl | rfl
    · exact ⟨s, h1⟩
    · exact ⟨e, h2⟩
  cases t <;> first | exact one h | exact two h | exact many h | (intro l hl; cases hl)

theorem annotation_labels {c : Ctx} {a : TypeAnnotation CodeTarget} {bs : Bytes}
    (h : typeAnnotation codeTarget c a bs) : ∀ l ∈ targetLabels a.target, ∃ q, c.pos l = some q := by
  obtain ⟨b, b', rfl, h, _⟩ := h
  exact codeTarget_labels h

theorem handler_labels {c : Ctx} {k : Catch} {bs : Bytes} (h : handlerEntry c k bs) :
    ∀ l ∈ catchLabels k, ∃ q, c.pos l = some q := by
  obtain ⟨b1, b1', rfl, ⟨p1, h1, _⟩, b2, b2', rfl, ⟨p2, h2, _⟩, b3, b3', rfl, ⟨p3, h3, _⟩, _⟩ := h
  intro l hl
  simp only [catchLabels, List.mem_cons, List.not_mem_nil, or_false] at hl
  rcases hl with rfl | rfl | rfl
  · exact ⟨p1, h1⟩
  · exact ⟨p2, h2⟩
  · exact ⟨p3, h3⟩

theorem Spec.Positioned.targets {c : Ctx} {p : Nat} {is : List Insn} {bs : Bytes} {pis : List (Nat × Insn)}
    (h : Positioned c p is bs pis) : ∀ e ∈ pis, (∃ i, normal i = some e.2) ∧
      ∀ l ∈ targets e.2, ∃ q, c.pos l = some q := by
  induction h with
  | nil => simp
  | skip _ _ _ ih => exact ih
  | keep h1 h2 _ ih =>
    intro e he
    rcases List.mem_cons.mp he with rfl | he
    · exact ⟨⟨_, h2⟩, enc_targets h1 h2⟩
    · exact ih e he

/-- The entry is one of those written for the variable. -/
def InfoOf (c : Ctx) (v : LocalVariable) (e : VarInfo) : Prop :=
  c.pos v.start = some e.start ∧ c.pos v.stop = some e.stop ∧ e.name = v.name ∧ e.index = v.index ∧
    (e.descriptor.isSome ∧ e.descriptor = v.descriptor ∧ e.signature = none ∨
      e.signature.isSome ∧ e.signature = v.signature ∧ e.descriptor = none)

theorem lowers_facts {c : Ctx} {x : CodeAttribute} {ls : List CodeAttr} (h : Lowers c x ls)
    (hr : AttrReadable x) (f : Label → Label) :
    (∀ a ∈ ls, lineEntries a = []) ∧ (∀ a ∈ ls, a.Readable) ∧ ls.flatMap (keptAttr f) = renCodeAttr f x ∧
    (∀ e ∈ ls.flatMap varInfos, ∃ v ∈ attrVars x, InfoOf c v e) ∧
    (∀ v ∈ attrVars x, ∀ d, v.descriptor = some d → ∃ e ∈ ls.flatMap varInfos, InfoOf c v e ∧ e.descriptor = some d) ∧
    (∀ v ∈ attrVars x, ∀ g, v.signature = some g → ∃ e ∈ ls.flatMap varInfos, InfoOf c v e ∧ e.signature = some g) ∧
    (∀ l ∈ ls.flatMap attrLabels, l ∈ codeAttrLabels x) := by
  cases h with
  | visible => simpa [AttrReadable, lineEntries, CodeAttr.Readable, keptAttr, renCodeAttr, attrVars, varInfos, attrLabels,
      codeAttrLabels] using hr
  | invisible => simpa [AttrReadable, lineEntries, CodeAttr.Readable, keptAttr, renCodeAttr, attrVars, varInfos, attrLabels,
      codeAttrLabels] using hr
  | raw => simpa [AttrReadable, lineEntries, CodeAttr.Readable, keptAttr, renCodeAttr, attrVars, varInfos, attrLabels,
      codeAttrLabels] using hr
  | @locals vs es ts m1 m2 hne =>
    have key : ((if es.isEmpty then [] else [.vars es]) ++ if ts.isEmpty then [] else [.varTypes ts] :
        List CodeAttr).flatMap varInfos = varInfos (.vars es) ++ varInfos (.varTypes ts) := by
      cases es <;> cases ts <;> simp [varInfos]
    have mem : ∀ a ∈ ((if es.isEmpty then [] else [.vars es]) ++ if ts.isEmpty then [] else [.varTypes ts] :
        List CodeAttr), a = .vars es ∨ a = .varTypes ts := by
      intro a ha
      rcases List.mem_append.mp ha with h | h <;> split at h
      · cases h
      · exact .inl (List.mem_singleton.mp h)
      · cases h
      · exact .inr (List.mem_singleton.mp h)
    rw [key]
    refine ⟨?_, ?_, ?_, ?_, ?_, ?_, ?_⟩
    · intro a ha
      rcases mem a ha with rfl | rfl <;> rfl
    · intro a ha
      rcases mem a ha with rfl | rfl <;> trivial
    · refine List.flatMap_eq_nil_iff.mpr fun a ha => ?_
      rcases mem a ha with rfl | rfl <;> rfl
    · intro e he
      rcases List.mem_append.mp he with h | h
      · obtain ⟨t, ht, rfl⟩ := List.mem_map.mp h
        obtain ⟨v, hv, r1, r2, r3, r4, r5⟩ := m1.right t ht
        exact ⟨v, (List.mem_filter.mp hv).1, r1, r2, r3, r4, .inl ⟨rfl, r5.symm, rfl⟩⟩
      · obtain ⟨t, ht, rfl⟩ := List.mem_map.mp h
        obtain ⟨v, hv, r1, r2, r3, r4, r5⟩ := m2.right t ht
        exact ⟨v, (List.mem_filter.mp hv).1, r1, r2, r3, r4, .inr ⟨rfl, r5.symm, rfl⟩⟩
    · intro v hv d hd
      obtain ⟨t, ht, r1, r2, r3, r4, r5⟩ := m1.left v (List.mem_filter.mpr ⟨hv, by simp [hd]⟩)
      refine ⟨_, List.mem_append.mpr (.inl (List.mem_map.mpr ⟨t, ht, rfl⟩)), ⟨r1, r2, r3, r4, .inl ⟨rfl, r5.symm, rfl⟩⟩, ?_⟩
      rw [← hd, r5]
    · intro v hv d hd
      obtain ⟨t, ht, r1, r2, r3, r4, r5⟩ := m2.left v (List.mem_filter.mpr ⟨hv, by simp [hd]⟩)
      refine ⟨_, List.mem_append.mpr (.inr (List.mem_map.mpr ⟨t, ht, rfl⟩)), ⟨r1, r2, r3, r4, .inr ⟨rfl, r5.symm, rfl⟩⟩, ?_⟩
      rw [← hd, r5]
    · intro l hl
      obtain ⟨a, ha, hl⟩ := List.mem_flatMap.mp hl
      rcases mem a ha with rfl | rfl <;> cases hl

end Verif
