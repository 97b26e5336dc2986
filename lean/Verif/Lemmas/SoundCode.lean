import Verif.Lemmas.Sound

/-! # What holds of every body that is read -/

namespace Verif
open Spec Sig

/-! ## Lookup tables -/

theorem insert_lookup (m : List (Int32 × Label)) (k : Int32) (v : Label) (j : Int32) :
    (indexInsert m k v).lookup j = if j = k then some v else m.lookup j := by
  unfold indexInsert
  split
  · rename_i h
    have hl : ∀ m : List (Int32 × Label), (m.map fun e => if e.1 = k then (k, v) else e).lookup j =
        if j = k then (m.find? fun e => e.1 = k).map fun _ => v else m.lookup j := by
      intro m
      induction m with
      | nil => split <;> rfl
      | cons e m ih =>
        obtain ⟨a, b⟩ := e
        rw [List.map_cons, List.lookup_cons, List.lookup_cons, List.find?_cons, ih]
        by_cases h1 : a = k
        · subst h1
          by_cases h2 : j = a
          · simp [h2]
          · have : (j == a) = false := by simp [h2]
            simp [h2, this]
        · by_cases h2 : j = k
          · subst h2
            have : (j == a) = false := by rw [beq_eq_false_iff_ne]; exact fun e => h1 e.symm
            simp [h1, this]
          · simp [h1, h2]
    rw [hl]
    split
    · obtain ⟨x, hx, hk⟩ := List.any_eq_true.mp h
      cases hf : m.find? fun e => decide (e.1 = k) with
      | some y => rfl
      | none => exact absurd hk (by simpa using List.find?_eq_none.mp hf x hx)
    · rfl
  · rename_i h
    rw [List.lookup_append]
    split
    · rename_i e
      subst e
      have : m.lookup j = none := by
        rcases hl : m.lookup j with _ | x
        · rfl
        · have hm : (j, x) ∈ m := by
            clear h
            induction m with
            | nil => cases hl
            | cons e m ih =>
              obtain ⟨a, b⟩ := e
              rw [List.lookup_cons] at hl
              split at hl
              · rename_i ha
                cases hl
                rw [beq_iff_eq] at ha
                simp [ha]
              · exact List.mem_cons_of_mem _ (ih hl)
          exact absurd (List.any_eq_true.mpr ⟨(j, x), hm, by simp⟩) h
      rw [this]
      simp
    · rename_i hj
      have : (j == k) = false := by simp [hj]
      cases m.lookup j <;> simp [List.lookup_cons, this]

theorem insert_keys {m : List (Int32 × Label)} (h : (m.map Prod.fst).Nodup) (k : Int32) (v : Label) :
    ((indexInsert m k v).map Prod.fst).Nodup := by
  unfold indexInsert
  split
  · have e : (m.map fun e => if e.1 = k then (k, v) else e).map Prod.fst = m.map Prod.fst := by
      rw [List.map_map]
      refine List.map_congr_left fun e _ => ?_
      show (if e.1 = k then (k, v) else e).1 = e.1
      split
      · rename_i h
        exact h.symm
      · rfl
    rw [e]
    exact h
  · rename_i hn
    rw [List.map_append, List.map_cons, List.map_nil, List.nodup_append]
    refine ⟨h, by simp, ?_⟩
    intro a ha b hb e
    rw [List.mem_singleton] at hb
    obtain ⟨x, hx, rfl⟩ := List.mem_map.mp ha
    exact hn (List.any_eq_true.mpr ⟨x, hx, by simp [e, hb]⟩)

theorem collect_keys (es : List (Int32 × Label)) : ((indexCollect es).map Prod.fst).Nodup := by
  unfold indexCollect
  suffices h : ∀ m : List (Int32 × Label), (m.map Prod.fst).Nodup →
      ((es.foldl (fun m e => indexInsert m e.1 e.2) m).map Prod.fst).Nodup from h [] (by simp)
  induction es with
  | nil => exact fun m h => h
  | cons e es ih => exact fun m h => ih _ (insert_keys h _ _)

theorem collect_lookup (es : List (Int32 × Label)) (k : Int32) :
    (indexCollect es).lookup k = (es.reverse.find? fun e => e.1 = k).map Prod.snd := by
  unfold indexCollect
  suffices h : ∀ m : List (Int32 × Label), (es.foldl (fun m e => indexInsert m e.1 e.2) m).lookup k =
      ((es.reverse.find? fun e => e.1 = k).map Prod.snd).or (m.lookup k) by
    rw [h []]
    cases (es.reverse.find? fun e => decide (e.1 = k)) <;> rfl
  induction es with
  | nil => exact fun m => rfl
  | cons e es ih =>
    intro m
    rw [List.foldl_cons, ih, insert_lookup, List.reverse_cons, List.find?_append]
    cases (es.reverse.find? fun e => decide (e.1 = k)) with
    | some x => simp
    | none =>
      by_cases h : e.1 = k
      · simp [h]
      · have h' : k ≠ e.1 := fun e => h e.symm
        simp [h, h']

/-! ## Instructions -/

section
variable {env : REnv}

/-- The labels for distances from `p`. -/
abbrev lookAt (m : LabelMap) (p : Nat) : Int → Option Label := fun o => m.lookup (UInt32.ofInt (p + o))

theorem Snd.lbl (p : Nat) (o : Int) : Snd env (lbl p o) fun m b l => b = [] ∧ lookAt m p o = some l := Snd.getLabel _

theorem Snd.lbls (p : Nat) : ∀ os, Snd env (lbls p os) fun m b ls =>
    b = [] ∧ ls.map some = os.map fun o => lookAt m p o.toInt
  | [] => (Snd.pure []).mono (by rintro m b x ⟨rfl, rfl⟩; exact ⟨rfl, rfl⟩)
  | o :: os => by
    refine ((Snd.lbl p o.toInt).bind fun l => (Snd.lbls p os).map).mono ?_
    rintro m b x ⟨l, b1, b2, rfl, ⟨rfl, h1⟩, ls, ⟨rfl, h2⟩, rfl⟩
    exact ⟨rfl, by rw [List.map_cons, List.map_cons, h1, h2]⟩

theorem Snd.lblEntries (p : Nat) : ∀ es, Snd env (lblEntries p es) fun m b ls =>
    b = [] ∧ Matched (fun e l => l.1 = e.key ∧ lookAt m p e.off.toInt = some l.2) es ls
  | [] => (Snd.pure []).mono (by rintro m b x ⟨rfl, rfl⟩; exact ⟨rfl, .nil⟩)
  | e :: es => by
    refine ((Snd.lbl p e.off.toInt).bind fun l => (Snd.lblEntries p es).map).mono ?_
    rintro m b x ⟨l, b1, b2, rfl, ⟨rfl, h1⟩, ls, ⟨rfl, h2⟩, rfl⟩
    exact ⟨rfl, .cons ⟨rfl, h1⟩ h2⟩

theorem matched_append {α β : Type} {R : α → β → Prop} {xs xs' : List α} {ys ys' : List β} (h : Matched R xs ys)
    (h' : Matched R xs' ys') : Matched R (xs ++ xs') (ys ++ ys') := by
  induction h with
  | nil => exact h'
  | cons h1 _ ih => exact .cons h1 ih

theorem matched_reverse {α β : Type} {R : α → β → Prop} {xs : List α} {ys : List β} (h : Matched R xs ys) :
    Matched R xs.reverse ys.reverse := by
  induction h with
  | nil => exact .nil
  | cons h1 _ ih =>
    rw [List.reverse_cons, List.reverse_cons]
    exact matched_append ih (.cons h1 .nil)

theorem entries_find {look : Int → Option Label} {es : List SwitchEntry} {ls : List (Int32 × Label)}
    (h : Matched (fun e l => l.1 = e.key ∧ look e.off.toInt = some l.2) es ls) (k : Int32) :
    (ls.find? fun l => l.1 = k).map Prod.snd = (es.find? fun e => e.key = k).bind fun e => look e.off.toInt := by
  induction h with
  | nil => rfl
  | @cons e l es ls h1 _ ih =>
    rw [List.find?_cons, List.find?_cons, h1.1]
    by_cases hk : e.key = k
    · simp only [hk, decide_true]
      exact h1.2.symm
    · simp only [hk, decide_false]
      exact ih

theorem Snd.member (i : UInt16) : Snd env (rMember i) fun _ b _ => b = [] :=
  Snd.lookupD (f := fun P i p => Pool.orDynamic P (Pool.member P) i p)

theorem Snd.classOr (i : UInt16) : Snd env (rClassOr i) fun _ b _ => b = [] :=
  Snd.lookupD (f := fun P i p => Pool.orDynamic P (fun i => .ok (Pool.cls P i)) i p)

theorem Snd.convert (p : Nat) (r : RInsn) :
    Snd env (convert p r) fun m b i => b = [] ∧ Refers (lookAt m p) r i := by
  have pu : ∀ {r : RInsn} {i : Insn}, (∀ look, Refers look r i) →
      Snd env (Rd.pure i) fun m b i => b = [] ∧ Refers (lookAt m p) r i := by
    intro r i h
    refine (Snd.pure i).mono ?_
    rintro m b x ⟨rfl, rfl⟩
    exact ⟨rfl, h _⟩
  have quiet : ∀ {α : Type} {x : Rd α} {r : RInsn} {f : α → Insn}, Snd env x (fun _ b _ => b = []) →
      (∀ look a, Refers look r (f a)) → Snd env (Rd.map f x) fun m b i => b = [] ∧ Refers (lookAt m p) r i := by
    intro α x r f h h'
    refine (Snd.map h).mono ?_
    rintro m b y ⟨a, rfl, rfl⟩
    exact ⟨rfl, h' _ _⟩
  have br : ∀ {r : RInsn} {f : Label → Insn} {o : Int},
      (∀ (look : Int → Option Label) l, look o = some l → Refers look r (f l)) →
      Snd env (Rd.map f (Verif.lbl p o)) fun m b i => b = [] ∧ Refers (lookAt m p) r i := by
    intro r f o h
    refine (Snd.map (Snd.lbl p o)).mono ?_
    rintro m b y ⟨a, ⟨rfl, h1⟩, rfl⟩
    exact ⟨rfl, h _ _ h1⟩
  have na : ∀ {i : UInt16} {d : UInt8} {r : RInsn}, (∀ look t, Refers look r (.newArray t d)) →
      Snd env (rNewArray i d) fun m b i => b = [] ∧ Refers (lookAt m p) r i := by
    intro i d r h
    refine Snd.mono (Snd.bind (x := rClassOr i) (Q := fun _ m b i => b = [] ∧ Refers (lookAt m p) r i)
      (Snd.classOr i) fun c => ?_) ?_
    · split
      · exact pu fun look => h look _
      · exact quiet Snd.ofRes fun look t => h look _
    · rintro m b x ⟨a, b1, b2, rfl, rfl, rfl, h⟩
      exact ⟨rfl, h⟩
  have ct : ∀ i, Snd env (rClassType i) fun _ b _ => b = [] := by
    intro i
    refine Snd.mono (Snd.bind (x := rClassOr i) (Q := fun _ _ b _ => b = []) (Snd.classOr i) fun c => ?_) ?_
    · split
      · exact (Snd.pure _).mono fun _ _ _ h => h.1
      · exact (Snd.map Snd.ofRes).mono fun _ _ _ ⟨_, h, _⟩ => h
    · rintro m b x ⟨a, b1, b2, rfl, rfl, rfl⟩
      rfl
  cases r with
  | TableSwitch d t =>
    refine ((Snd.lbl p d.toInt).bind fun dl => (Snd.lbls p t.offsets).map).mono ?_
    rintro m b x ⟨l, b1, b2, rfl, ⟨rfl, h1⟩, ls, ⟨rfl, h2⟩, rfl⟩
    exact ⟨rfl, l, ls, rfl, h1, h2⟩
  | LookupSwitch d es =>
    refine ((Snd.lbl p d.toInt).bind fun dl => (Snd.lblEntries p es).map).mono ?_
    rintro m b x ⟨l, b1, b2, rfl, ⟨rfl, h1⟩, ls, ⟨rfl, h2⟩, rfl⟩
    refine ⟨rfl, l, _, rfl, h1, fun e he => ?_, collect_keys ls, fun k => ?_⟩
    · obtain ⟨l', _, _, h3⟩ := h2.left e he
      rw [h3]
      rfl
    · rw [collect_lookup]
      exact entries_find (matched_reverse h2) k
  | Wide w => cases w <;> exact pu fun _ => ⟨rfl, rfl⟩
  | NewArray n =>
    show Snd env (match newArrayType n with
      | some t => Rd.pure (Insn.newArray (.static t) 1)
      | none => Rd.fail .invalid) _
    split
    · exact pu fun _ => ⟨rfl, rfl⟩
    · exact Snd.fail
  | ANewArray i => exact na fun _ _ => ⟨rfl, rfl⟩
  | MultiANewArray i d => exact na fun _ _ => ⟨rfl, rfl⟩
  | CheckCast i => exact quiet (ct i) fun _ _ => ⟨rfl, rfl⟩
  | InstanceOf i => exact quiet (ct i) fun _ _ => ⟨rfl, rfl⟩
  | Goto o => exact br fun _ l h => ⟨l, h, .inl ⟨_, rfl, .inl rfl⟩⟩
  | GotoW o => exact br fun _ l h => ⟨l, h, .inl ⟨_, rfl, .inr ⟨rfl, rfl⟩⟩⟩
  | Jsr o => exact br fun _ l h => ⟨l, h, .inr ⟨rfl, .inl rfl⟩⟩
  | JsrW o => exact br fun _ l h => ⟨l, h, .inr ⟨rfl, .inr rfl⟩⟩
  | _ =>
    first
    | exact pu fun _ => ⟨rfl, rfl⟩
    | exact quiet Snd.lookupR fun _ _ => ⟨rfl, rfl⟩
    | exact quiet Snd.lookupD fun _ _ => ⟨rfl, rfl⟩
    | exact quiet (Snd.member _) fun _ _ => ⟨rfl, rfl⟩
    | exact quiet (Snd.classOr _) fun _ _ => ⟨rfl, rfl⟩
    | (refine br ?_; exact fun _ l h => ⟨l, h, .inl ⟨_, rfl, .inl rfl⟩⟩)

theorem switch_op {o : Op} (h : UInt8.ofNat o.code = opc.TABLESWITCH ∨ UInt8.ofNat o.code = opc.LOOKUPSWITCH) :
    o = .tableswitch ∨ o = .lookupswitch := by
  revert h
  cases o <;> decide

theorem switch_args {r : RInsn} (h : rawOp r = .tableswitch ∨ rawOp r = .lookupswitch) : rawArgs r ≠ [] := by
  cases r with
  | TableSwitch d t => simp [rawArgs, U4, U2, U1, S4]
  | LookupSwitch d es => simp [rawArgs, U4, U2, U1, S4]
  | Wide w => cases w <;> simp [rawOp] at h
  | _ => simp [rawOp] at h

theorem rInsn_sound {p : Nat} {st st' : RSt} {bs rest : Bytes} {i : Insn} (h : rInsn p env st bs = .ok (i, st', rest))
    {ls : LabelMap} (hl : st.labels = some ls) :
    ∃ r b offs, bs = b ++ rest ∧ RawAt p r b ∧ st'.labels = some (ls.addAll offs) ∧
      ∀ m, ls.addAll offs <+: m → Refers (lookAt m p) r i := by
  have key : ∀ {bs}, Rd.bind (Rd.lift RInsn.read) (Verif.convert p) env st bs = .ok (i, st', rest) →
      ∃ r offs, RawOk r ∧ bs = U1 (rawOp r).code ++ rawArgs r ++ rest ∧ st'.labels = some (ls.addAll offs) ∧
        ∀ m, ls.addAll offs <+: m → Refers (lookAt m p) r i := by
    intro bs h
    obtain ⟨r, st1, bs1, h1, h2⟩ := Rd.bind_ok h
    unfold Rd.lift at h1
    split at h1
    · rename_i r' bs' hr
      cases h1
      obtain ⟨b, rfl, hok, rfl⟩ := takes_raw _ _ _ hr
      obtain ⟨b2, offs, rfl, h3, h4⟩ := Snd.convert p r _ _ _ _ _ h2 ls hl
      obtain ⟨rfl, _⟩ := h4 _ (List.prefix_refl _)
      exact ⟨r, offs, hok, rfl, h3, fun m hm => (h4 m hm).2⟩
    · cases h1
  unfold rInsn at h
  split at h
  · cases h
  rename_i o tl
  split at h
  · rename_i ho
    obtain ⟨r, offs, h1, h2, h3, h4⟩ := key h
    rw [show U1 (rawOp r).code = [UInt8.ofNat (rawOp r).code] from rfl, List.append_assoc, List.singleton_append,
      List.cons.injEq] at h2
    obtain ⟨rfl, h2⟩ := h2
    have hs := switch_op ho
    have hne := switch_args hs
    have hd : 4 - p % 4 = 3 - p % 4 + 1 := by omega
    rw [hd, List.drop_succ_cons] at h2
    have hlen : 3 - p % 4 < tl.length := by
      refine Classical.byContradiction fun hc => ?_
      rw [List.drop_eq_nil_of_le (by omega)] at h2
      exact hne (List.append_eq_nil_iff.mp h2.symm).1
    refine ⟨r, U1 (rawOp r).code ++ tl.take (3 - p % 4) ++ rawArgs r, offs, ?_, ⟨h1, tl.take (3 - p % 4), rfl, ?_⟩, h3, h4⟩
    · rw [List.append_assoc, List.append_assoc, ← h2, List.take_append_drop]
      rfl
    · rw [if_pos hs, List.length_take]
      omega
  · rename_i ho
    obtain ⟨r, offs, h1, h2, h3, h4⟩ := key h
    refine ⟨r, U1 (rawOp r).code ++ [] ++ rawArgs r, offs, ?_, ⟨h1, [], rfl, ?_⟩, h3, h4⟩
    · rw [h2, List.append_nil]
    · rw [if_neg]
      intro hs
      have : o = UInt8.ofNat (rawOp r).code := (List.cons.inj h2).1
      refine ho ?_
      rw [this]
      rcases hs with hs | hs <;> rw [hs]
      · exact .inl (by decide)
      · exact .inr (by decide)

theorem rawAt_pos {p : Nat} {r : RInsn} {b : Bytes} (h : RawAt p r b) : 0 < b.length := by
  obtain ⟨_, pad, rfl, _⟩ := h
  simp [U1]

theorem readLoop_sound {len : Nat} : ∀ (n : Nat) {bs : Bytes} {st st' : RSt} {is : List (Nat × Insn)} {ls : LabelMap},
    bs.length = n → n ≤ len → readLoop len env st bs = .ok (is, st') → st.labels = some ls →
    ∃ rs offs, Decodes (len - n) bs rs ∧ st'.labels = some (ls.addAll offs) ∧ ∀ m, ls.addAll offs <+: m →
      Matched (fun e e' => e'.1 = e.1 ∧ Refers (lookAt m e.1) e.2 e'.2) rs is := by
  intro n
  induction n using Nat.strongRecOn with
  | _ n ih =>
    intro bs st st' is ls hn hle h hl
    rw [readLoop] at h
    split at h
    · rename_i h0
      cases h
      obtain rfl := List.eq_nil_of_length_eq_zero h0
      exact ⟨[], [], .nil, hl, fun _ _ => .nil⟩
    split at h
    · cases h
    rename_i i st1 rest hi
    split at h
    · rename_i hlt
      split at h
      · cases h
      rename_i is' st2 hr
      cases h
      obtain ⟨r, b, o1, rfl, h1, h2, h3⟩ := rInsn_sound hi hl
      obtain ⟨rs, o2, h4, h5, h6⟩ := ih rest.length (by omega) rfl (by omega) hr h2
      rw [List.length_append] at hn
      have hpos : len - rest.length = len - n + b.length := by omega
      refine ⟨(len - n, r) :: rs, o1 ++ o2, ?_, by rw [h5, LabelMap.addAll_append], fun m hm => ?_⟩
      · rw [List.length_append, hn] at h1
        rw [hpos] at h4
        exact .cons h1 h4
      · rw [LabelMap.addAll_append] at hm
        refine .cons ⟨by rw [List.length_append, hn], ?_⟩ (h6 m hm)
        have := h3 m ((LabelMap.prefix_addAll _ _).trans hm)
        rw [List.length_append, hn] at this
        exact this
    · cases h

theorem decodes_pos {p : Nat} {bs : Bytes} {rs : List (Nat × RInsn)} (h : Decodes p bs rs) :
    (∀ e ∈ rs, p ≤ e.1 ∧ e.1 < p + bs.length) ∧ (rs.map Prod.fst ++ [p + bs.length]).Nodup := by
  induction h with
  | nil => simp
  | @cons p r b bs rs h1 _ ih =>
    have hp := rawAt_pos h1
    have e : p + b.length + bs.length = p + (b ++ bs).length := by rw [List.length_append]; omega
    rw [e] at ih
    refine ⟨?_, ?_⟩
    · intro x hx
      rcases List.mem_cons.mp hx with rfl | hx'
      · exact ⟨Nat.le_refl _, by rw [List.length_append]; show p < _; omega⟩
      · have := ih.1 x hx'
        omega
    · rw [List.map_cons, List.cons_append, List.nodup_cons]
      refine ⟨?_, ih.2⟩
      intro hm
      rcases List.mem_append.mp hm with hm | hm
      · obtain ⟨x, hx, e⟩ := List.mem_map.mp hm
        have := (ih.1 x hx).1
        simp only at e
        omega
      · rw [List.mem_singleton, List.length_append] at hm
        simp only at hm
        omega

/-- The label of a position. -/
def nameOf (m : LabelMap) (p : Nat) : Option Label := if p < 4294967296 then m.lookup (UInt32.ofNat p) else none

theorem nameOf_toNat (m : LabelMap) (o : UInt32) : nameOf m o.toNat = m.lookup o := by
  unfold nameOf
  rw [if_pos (UInt32.toNat_lt o), UInt32.ofNat_toNat]

theorem nameOf_first {m : LabelMap} (h : m.Ok) : ∃ n : Nat, ∀ l, (∃ p, nameOf m p = some l) ↔ l.toNat < n := by
  refine ⟨m.length, fun l => ⟨fun ⟨p, hp⟩ => ?_, fun hl => ?_⟩⟩
  · unfold nameOf at hp
    split at hp
    · obtain ⟨i, hi, e⟩ := List.getElem_of_mem (LabelMap.lookup_mem hp)
      have h1 := h.vals i _ (List.getElem?_eq_some_iff.mpr ⟨hi, e⟩)
      have h2 := h.length
      rw [show l = UInt32.ofNat i from h1, UInt32.toNat_ofNat', Nat.mod_eq_of_lt (by omega)]
      exact hi
    · cases hp
  · obtain ⟨o, l', e⟩ : ∃ o l', m[l.toNat] = (o, l') := ⟨_, _, rfl⟩
    have h1 := h.vals l.toNat (o, l') (List.getElem?_eq_some_iff.mpr ⟨hl, e⟩)
    have h2 : l' = l := by
      rw [show l' = UInt32.ofNat l.toNat from h1, UInt32.ofNat_toNat]
    refine ⟨o.toNat, ?_⟩
    rw [nameOf_toNat]
    exact h.lookup (h2 ▸ e ▸ List.getElem_mem hl)

theorem nameOf_some {m : LabelMap} {p : Nat} {l : Label} (h : nameOf m p = some l) :
    ∃ o : UInt32, o.toNat = p ∧ m.lookup o = some l := by
  unfold nameOf at h
  split at h
  · rename_i hp
    exact ⟨UInt32.ofNat p, by rw [UInt32.toNat_ofNat', Nat.mod_eq_of_lt hp], h⟩
  · cases h

theorem reach_of {m : LabelMap} {n p : Nat} (hn : n < 2147483648) (hp : p < n) (hm : ∀ e ∈ m, e.1.toNat ≤ n)
    {o : Int} (h1 : -2147483648 ≤ o) (h2 : o < 2147483648) {l : Label} (h : lookAt m p o = some l) :
    reach (nameOf m) p o = some l := by
  have hk := hm _ (LabelMap.lookup_mem h)
  have e : (UInt32.ofInt (p + o)).toNat = ((p + o) % 4294967296).toNat := by
    have h : (UInt32.ofInt (p + o)) = UInt32.ofNat ((p + o) % 4294967296).toNat := rfl
    rw [h, UInt32.toNat_ofNat', Nat.mod_eq_of_lt (by omega)]
  simp only [e] at hk
  have h0 : 0 ≤ (p : Int) + o := by omega
  unfold reach
  rw [if_pos h0, ← h]
  have e2 : ((p : Int) + o).toNat = (UInt32.ofInt (p + o)).toNat := by rw [e]; omega
  rw [e2, nameOf_toNat]

theorem refers_mono {look look' : Int → Option Label} (h : ∀ o, -2147483648 ≤ o → o < 2147483648 →
    ∀ l, look o = some l → look' o = some l) {r : RInsn} {i : Insn} (hr : Refers look r i) : Refers look' r i := by
  have h32 : ∀ (o : Int32) l, look o.toInt = some l → look' o.toInt = some l := fun o l =>
    h _ (by have := Int32.le_toInt o; omega) (by have := Int32.toInt_lt o; omega) l
  have h16 : ∀ (o : Int16) l, look o.toInt = some l → look' o.toInt = some l := fun o l =>
    h _ (by have := Int16.le_toInt o; omega) (by have := Int16.toInt_lt o; omega) l
  cases r with
  | TableSwitch d t =>
    obtain ⟨dl, ls, rfl, h1, h2⟩ := hr
    refine ⟨dl, ls, rfl, h32 _ _ h1, ?_⟩
    generalize t.offsets = os at h2
    induction ls generalizing os with
    | nil =>
      cases os with
      | nil => rfl
      | cons => cases h2
    | cons l ls ih =>
      cases os with
      | nil => cases h2
      | cons o os =>
        rw [List.map_cons, List.map_cons, List.cons.injEq] at h2
        rw [List.map_cons, List.map_cons, ih os h2.2, h32 _ _ h2.1.symm]
  | LookupSwitch d es =>
    obtain ⟨dl, t, rfl, h1, h2, h3, h4⟩ := hr
    have he : ∀ e ∈ es, look' e.off.toInt = look e.off.toInt := by
      intro e he
      obtain ⟨l, hl⟩ := Option.isSome_iff_exists.mp (h2 e he)
      rw [hl, h32 _ _ hl]
    refine ⟨dl, t, rfl, h32 _ _ h1, fun e he' => by rw [he e he']; exact h2 e he', h3, fun k => ?_⟩
    rw [h4 k]
    cases hf : es.reverse.find? fun e => decide (e.key = k) with
    | none => rfl
    | some e => exact (he e (List.mem_reverse.mp (List.mem_of_find?_eq_some hf))).symm
  | Wide w => exact hr
  | GotoW o | JsrW o =>
    obtain ⟨l, h1, h2⟩ := hr
    exact ⟨l, h32 _ _ h1, h2⟩
  | _ =>
    first
    | exact hr
    | (obtain ⟨l, h1, h2⟩ := hr
       exact ⟨l, h16 _ _ h1, h2⟩)

theorem matched_fst {R : RInsn → Insn → Nat → Prop} {rs : List (Nat × RInsn)} {is : List (Nat × Insn)}
    (h : Matched (fun e e' => e'.1 = e.1 ∧ R e.2 e'.2 e.1) rs is) : is.map Prod.fst = rs.map Prod.fst := by
  induction h with
  | nil => rfl
  | cons h _ ih => rw [List.map_cons, List.map_cons, h.1, ih]

theorem matched_impl {α β : Type} {R S : α → β → Prop} {xs : List α} {ys : List β} (h : Matched R xs ys)
    (hi : ∀ x ∈ xs, ∀ y, R x y → S x y) : Matched S xs ys := by
  induction h with
  | nil => exact .nil
  | cons h _ ih => exact .cons (hi _ (by simp) _ h) (ih fun x hx => hi x (by simp [hx]))

/-- The labels in an instruction come from `look`. -/
theorem refers_targets {look : Int → Option Label} {r : RInsn} {i : Insn} (h : Refers look r i) :
    ∀ l ∈ targets i, ∃ o, look o = some l := by
  have none_ : targets i = [] → ∀ l ∈ targets i, ∃ o, look o = some l := by
    intro e l hl
    rw [e] at hl
    cases hl
  have some_ : ∀ {o : Int} {P : Prop} {q : Cond → Prop}, (∃ l, look o = some l ∧ ((∃ k, i = .jump k l ∧ q k) ∨ i = .jsr l ∧ P)) →
      ∀ l ∈ targets i, ∃ o, look o = some l := by
    rintro o P q ⟨l, h1, ⟨k, rfl, _⟩ | ⟨rfl, _⟩⟩ l' hl <;>
    · rw [show l' = l from List.mem_singleton.mp hl]
      exact ⟨o, h1⟩
  cases r with
  | TableSwitch d t =>
    obtain ⟨dl, ls, rfl, h1, h2⟩ := h
    intro l hl
    rcases List.mem_cons.mp hl with rfl | hl'
    · exact ⟨_, h1⟩
    · have : some l ∈ ls.map some := List.mem_map.mpr ⟨l, hl', rfl⟩
      rw [h2] at this
      obtain ⟨o, _, ho⟩ := List.mem_map.mp this
      exact ⟨_, ho⟩
  | LookupSwitch d es =>
    obtain ⟨dl, t, rfl, h1, h2, h3, h4⟩ := h
    intro l hl
    rcases List.mem_cons.mp hl with rfl | hl'
    · exact ⟨_, h1⟩
    · obtain ⟨⟨k, l'⟩, hm, rfl⟩ := List.mem_map.mp hl'
      have hk : t.lookup k = some l' := by
        clear hl hl' h4 none_ some_
        induction t with
        | nil => cases hm
        | cons e t ih =>
          obtain ⟨a, b⟩ := e
          rw [List.map_cons, List.nodup_cons] at h3
          rw [List.lookup_cons]
          rcases List.mem_cons.mp hm with e | hm'
          · cases e
            simp
          · have : (k == a) = false := by
              rw [beq_eq_false_iff_ne]
              rintro rfl
              exact h3.1 (List.mem_map.mpr ⟨_, hm', rfl⟩)
            simp only [this]
            exact ih h3.2 hm'
      rw [h4 k] at hk
      obtain ⟨e, _, he⟩ := Option.bind_eq_some_iff.mp hk
      exact ⟨_, he⟩
  | Wide w => exact none_ h.1
  | _ =>
    first
    | exact none_ h.1
    | exact some_ h

theorem rebuild_targets {ν : Nat → Option Label} {line : Nat → Option UInt16} {pis : List (Nat × Insn)} {len : Nat} :
    (rebuild ν line pis len).flatMap targets = pis.flatMap fun e => targets e.2 := by
  have hm : ∀ p, (markers ν line p).flatMap targets = [] := by
    intro p
    unfold markers
    cases ν p <;> cases line p <;> rfl
  induction pis with
  | nil => exact hm len
  | cons e r ih =>
    obtain ⟨p, i⟩ := e
    rw [rebuild, List.flatMap_append, hm, List.flatMap_cons, ih]
    rfl

theorem read_sound {ord : Nat → List LocalVariable → List LocalVariable} (hord : ∀ n l, (ord n l).Perm l)
    {st st' : RSt} {bs rest : Bytes} {y : Code} (h : Code.read ord env st bs = .ok (y, st', rest))
    (hlen : bs.length < 2147483648) :
    st'.labels = st.labels ∧ ∃ body code prs ν, bs = body ++ rest ∧ Recovers env.pool body y code prs ν := by
  unfold Code.read at h
  split at h
  · cases h
  rename_i y' st2 rest' hin
  cases h
  refine ⟨rfl, ?_⟩
  have h := hin
  clear hin
  unfold Code.readIn at h
  obtain ⟨ms, s1, bs1, h1, h⟩ := Rd.bind_ok h
  obtain ⟨ml, s2, bs2, h2, h⟩ := Rd.bind_ok h
  obtain ⟨len, s3, bs3, h3, h⟩ := Rd.bind_ok h
  obtain ⟨code, s4, bs4, h4, h⟩ := Rd.bind_ok h
  obtain ⟨pis, s5, bs5, h5, h⟩ := Rd.bind_ok h
  obtain ⟨catches, s6, bs6, h6, h⟩ := Rd.bind_ok h
  obtain ⟨n, s7, bs7, h7, h⟩ := Rd.bind_ok h
  obtain ⟨acc, s8, bs8, h8, h⟩ := Rd.bind_ok h
  obtain ⟨is, s9, bs9, h9, h⟩ := Rd.bind_ok h
  cases h
  obtain ⟨rfl, g1⟩ := rNum_ok h1
  obtain ⟨b1, rfl, rfl⟩ := takes_num u16_lawful _ _ _ g1
  obtain ⟨rfl, g2⟩ := rNum_ok h2
  obtain ⟨b2, rfl, rfl⟩ := takes_num u16_lawful _ _ _ g2
  obtain ⟨rfl, g3⟩ := rNum_ok h3
  obtain ⟨b3, rfl, rfl⟩ := takes_num u32_lawful _ _ _ g3
  unfold rBytes Rd.lift at h4
  split at h4
  case h_2 => cases h4
  rename_i c r hc
  cases h4
  obtain ⟨rfl, hcl'⟩ := readExact_parts hc
  unfold readInsns at h5
  split at h5
  · cases h5
  rename_i is' st5 hloop
  cases h5
  obtain ⟨rs, o1, hdec, hl5, hm5⟩ := readLoop_sound code.length rfl (Nat.le_refl _) hloop rfl
  rw [Nat.sub_self] at hdec
  obtain ⟨b6, o2, rfl, hl6, hm6⟩ := Snd.handlers _ _ _ _ _ h6 _ hl5
  obtain ⟨rfl, g7⟩ := rNum_ok h7
  obtain ⟨b7, rfl, rfl⟩ := takes_num u16_lawful _ _ _ g7
  generalize hps : pis.map Prod.fst ++ [code.length] = ps at h8 h9
  have hfst : pis.map Prod.fst = rs.map Prod.fst :=
    matched_fst (R := fun r i p => Refers (lookAt _ p) r i) (hm5 _ (List.prefix_refl _))
  have hnd := (decodes_pos hdec).2
  rw [Nat.zero_add, ← hfst, hps] at hnd
  have hacc := SndL.attrs (env := ⟨env.pool, some catches⟩) (cs := catches) rfl hnd n.toNat ⟨[], fun _ => [], []⟩
  obtain ⟨b8, o3, rfl, hl8, hm8⟩ := hacc _ _ _ _ _ h8 _ hl6
  unfold placeMarkers at h9
  rw [hl8] at h9
  simp only at h9
  split at h9
  · cases h9
  rename_i ins' hlab
  cases h9
  generalize hm : LabelMap.addAll (LabelMap.addAll (LabelMap.addAll [] o1) o2) o3 = m at *
  have p1 : LabelMap.addAll [] o1 <+: m :=
    hm ▸ (LabelMap.prefix_addAll _ _).trans (LabelMap.prefix_addAll _ _)
  have p2 : LabelMap.addAll (LabelMap.addAll [] o1) o2 <+: m := hm ▸ LabelMap.prefix_addAll _ _
  have hmok : m.Ok := hm ▸ ((LabelMap.Ok.nil.addAll o1).addAll o2).addAll o3
  have hins := hm5 m p1
  obtain ⟨hknow, hhand⟩ := hm6 m p2
  have hok : AccOk catches ps m acc := hm8 m (List.prefix_refl _)
    ⟨by simp, by simp, by simp, by simp [VarsOk], fun _ => none, fun _ _ _ => rfl⟩
  have hkeys := addLabels_mem hlab
  have hcl : code.length < 2147483648 := by
    simp only [List.length_append] at hlen
    omega
  have hps' : ∀ p ∈ ps, p ≤ code.length := by
    intro p hp
    rw [← hps, hfst] at hp
    rcases List.mem_append.mp hp with hp | hp
    · obtain ⟨e, he, rfl⟩ := List.mem_map.mp hp
      have := (decodes_pos hdec).1 e he
      omega
    · rw [List.mem_singleton] at hp
      omega
  obtain ⟨ins'', hl1, hl2⟩ := addLabels_ok hnd hkeys (fun p hp => by have := hps' p hp; omega) hmok.keys acc.ins
  rw [hlab] at hl1
  cases hl1
  obtain ⟨line, hline⟩ := hok.lines
  have hkn : ∀ l, Knows m l → ∃ p, nameOf m p = some l := fun l ⟨o, ho⟩ => ⟨o.toNat, by rw [nameOf_toNat]; exact ho⟩
  have hcode : insertDown ins' (pis.map Prod.snd) (pis.map Prod.snd).length = rebuild (nameOf m) line pis code.length := by
    rw [insertDown_all]
    refine weave_rebuild fun i p hp => ?_
    rw [hps] at hp
    have hp' : p < 4294967296 := by have := hps' p (List.mem_of_getElem? hp); omega
    rw [Nat.zero_add, hl2 i p hp, hline i p hp, List.reverse_append]
    unfold markers nameOf
    rw [if_pos hp']
    cases m.lookup (UInt32.ofNat p) <;> cases line p <;> rfl
  refine ⟨u16.write ms ++ (u16.write ml ++ (u32.write len ++ (code ++ (b6 ++ (u16.write n ++ b8))))), code, rs, nameOf m,
    by simp, ⟨⟨b6, u16.write n ++ b8, ?_, fun c hc hp => ?_⟩, hdec, ?_, nameOf_first hmok, ?_, ⟨line, pis, ?_, hcode⟩, ?_, ?_, ?_⟩⟩
  · rw [u16_write, u16_write, u32_write, ← hcl']
    simp
  · refine hhand c hc fun l o ho => hp l o.toNat (by rw [nameOf_toNat]; exact ho)
  · intro p q l hp hq
    obtain ⟨o, rfl, ho⟩ := nameOf_some hp
    obtain ⟨o', rfl, ho'⟩ := nameOf_some hq
    rw [hmok.inj ho ho']
  · intro p l hp
    obtain ⟨o, rfl, ho⟩ := nameOf_some hp
    rw [← hfst, hps]
    exact hkeys _ (LabelMap.lookup_mem ho)
  · refine matched_impl hins fun e he e' ⟨h1, h2⟩ => ⟨h1, refers_mono (fun o ho1 ho2 l hl => ?_) h2⟩
    have := (decodes_pos hdec).1 e he
    exact reach_of hcl (by omega) (fun e he => hps' _ (hkeys e he)) ho1 ho2 hl
  · intro l hl
    unfold usedLabels at hl
    simp only [List.mem_append] at hl
    rcases hl with (hl | hl) | hl
    · rw [hcode, rebuild_targets] at hl
      obtain ⟨e', he', hl⟩ := List.mem_flatMap.mp hl
      obtain ⟨e, _, _, h2⟩ := hins.right e' he'
      obtain ⟨o, ho⟩ := refers_targets h2 l hl
      exact hkn l ⟨_, ho⟩
    · exact hkn l (hknow l hl)
    · obtain ⟨a, ha, hl⟩ := List.mem_flatMap.mp hl
      split at ha
      · exact hkn l (hok.labels l (List.mem_flatMap.mpr ⟨a, ha, hl⟩))
      · rcases List.mem_append.mp ha with ha | ha
        · exact hkn l (hok.labels l (List.mem_flatMap.mpr ⟨a, ha, hl⟩))
        · rw [List.mem_singleton] at ha
          subst ha
          obtain ⟨v, hv, hl⟩ := List.mem_flatMap.mp hl
          have := hok.vars v ((hord _ _).mem_iff.mp hv)
          rcases List.mem_cons.mp hl with rfl | hl
          · exact hkn _ this.start
          · rw [List.mem_singleton] at hl
            exact hl ▸ hkn _ this.stop
  · intro k hk
    obtain ⟨a, ha, hk⟩ := List.mem_flatMap.mp hk
    split at ha
    · exact hok.catches k (List.mem_flatMap.mpr ⟨a, ha, hk⟩)
    · rcases List.mem_append.mp ha with ha | ha
      · exact hok.catches k (List.mem_flatMap.mpr ⟨a, ha, hk⟩)
      · rw [List.mem_singleton] at ha
        subst ha
        cases hk
  · have sp : ∀ s t, Spans m s t → ∃ p q, nameOf m p = some s ∧ nameOf m q = some t ∧ p ≤ q := by
      rintro s t ⟨o, o', h1, h2, h3⟩
      exact ⟨o.toNat, o'.toNat, by rw [nameOf_toNat]; exact h1, by rw [nameOf_toNat]; exact h2, h3⟩
    intro r hr
    obtain ⟨a, ha, hr⟩ := List.mem_flatMap.mp hr
    split at ha
    · exact sp _ _ (hok.ranges r (List.mem_flatMap.mpr ⟨a, ha, hr⟩))
    · rcases List.mem_append.mp ha with ha | ha
      · exact sp _ _ (hok.ranges r (List.mem_flatMap.mpr ⟨a, ha, hr⟩))
      · rw [List.mem_singleton] at ha
        subst ha
        obtain ⟨v, hv, rfl⟩ := List.mem_map.mp hr
        exact sp _ _ (hok.vars v ((hord _ _).mem_iff.mp hv))

end

/-! ## Code is decoded in one way -/

theorem rawAt_unique {p : Nat} {r r' : RInsn} {b b' t t' : Bytes} (h : RawAt p r b) (h' : RawAt p r' b')
    (e : b ++ t = b' ++ t') : r = r' ∧ b = b' ∧ t = t' := by
  obtain ⟨h1, pad, rfl, h2⟩ := h
  obtain ⟨h1', pad', rfl, h2'⟩ := h'
  have e1 : UInt8.ofNat (rawOp r).code = UInt8.ofNat (rawOp r').code := by
    simp only [U1, List.append_assoc, List.singleton_append, List.cons_append, List.cons.injEq] at e
    exact e.1
  have hop : U1 (rawOp r).code = U1 (rawOp r').code := by rw [U1, e1]; rfl
  have hsw : ∀ {o o' : Op}, UInt8.ofNat o.code = UInt8.ofNat o'.code → (o = .tableswitch ∨ o = .lookupswitch) →
      (o' = .tableswitch ∨ o' = .lookupswitch) := by
    intro o o' e h
    refine switch_op ?_
    rw [← e]
    rcases h with rfl | rfl
    · exact .inl (by decide)
    · exact .inr (by decide)
  have hpad : pad.length = pad'.length := by
    split at h2
    · rename_i hs
      rw [if_pos (hsw e1 hs)] at h2'
      omega
    · rename_i hs
      rw [if_neg fun h => hs (hsw e1.symm h)] at h2'
      rw [h2, h2']
  rw [hop] at e
  simp only [List.append_assoc] at e
  have e1 := List.append_cancel_left e
  obtain ⟨e2, e3⟩ := List.append_inj e1 hpad
  have q1 := Props.C35_roundtrip r h1 t
  have q2 := Props.C35_roundtrip r' h1' t'
  rw [List.append_assoc, hop, e3, ← List.append_assoc, q2] at q1
  injection q1 with q1
  injection q1 with q1 q3
  subst q1 q3
  exact ⟨rfl, by rw [e2], rfl⟩

theorem decodes_unique {p : Nat} {bs : Bytes} {rs rs' : List (Nat × RInsn)} (h : Decodes p bs rs)
    (h' : Decodes p bs rs') : rs = rs' := by
  induction h generalizing rs' with
  | nil =>
    generalize hb : ([] : Bytes) = bs at h'
    cases h' with
    | nil => rfl
    | cons h1 _ =>
      have := rawAt_pos h1
      have := congrArg List.length hb
      simp only [List.length_nil, List.length_append] at this
      omega
  | @cons p r b bs rs h1 h2 ih =>
    generalize hb : b ++ bs = bs' at h'
    cases h' with
    | nil =>
      have := rawAt_pos h1
      have := congrArg List.length hb
      simp only [List.length_nil, List.length_append] at this
      omega
    | cons h1' h2' =>
      obtain ⟨rfl, rfl, rfl⟩ := rawAt_unique h1 h1' hb
      rw [ih h2']

theorem refers_all {look : Int → Option Label} {r : RInsn} {i : Insn} (h : Refers look r i) :
    ∀ o ∈ rawTargets r, (look o).isSome := by
  have none_ : rawTargets r = [] → ∀ o ∈ rawTargets r, (look o).isSome := by
    intro e l hl
    rw [e] at hl
    cases hl
  have some_ : ∀ {o : Int} {P : Label → Prop}, rawTargets r = [o] → (∃ l, look o = some l ∧ P l) →
      ∀ o ∈ rawTargets r, (look o).isSome := by
    rintro o P e ⟨l, h1, _⟩ o' ho
    rw [e, List.mem_singleton] at ho
    rw [ho, h1]
    rfl
  cases r with
  | TableSwitch d t =>
    obtain ⟨dl, ls, rfl, h1, h2⟩ := h
    intro o ho
    rcases List.mem_cons.mp ho with rfl | ho'
    · rw [h1]
      rfl
    · obtain ⟨o', hm, rfl⟩ := List.mem_map.mp ho'
      have : look o'.toInt ∈ t.offsets.map fun o => look o.toInt := List.mem_map.mpr ⟨o', hm, rfl⟩
      rw [← h2] at this
      obtain ⟨l, _, hl⟩ := List.mem_map.mp this
      rw [← hl]
      rfl
  | LookupSwitch d es =>
    obtain ⟨dl, t, rfl, h1, h2, _⟩ := h
    intro o ho
    rcases List.mem_cons.mp ho with rfl | ho'
    · rw [h1]
      rfl
    · obtain ⟨e, hm, rfl⟩ := List.mem_map.mp ho'
      exact h2 e hm
  | Wide w => exact none_ rfl
  | _ =>
    first
    | exact none_ rfl
    | exact some_ rfl h

theorem placed_rebuild {ν : Nat → Option Label} {line : Nat → Option UInt16} {pis : List (Nat × Insn)} {len : Nat}
    (hp : ∀ e ∈ pis, ∀ l, e.2 ≠ .label l) :
    placed (rebuild ν line pis len) = (pis.map Prod.fst ++ [len]).filterMap ν := by
  have hm : ∀ p, placed (markers ν line p) = (ν p).toList := by
    intro p
    unfold markers placed
    cases ν p <;> cases line p <;> rfl
  have happ : ∀ a b, placed (a ++ b) = placed a ++ placed b := fun a b => List.filterMap_append
  induction pis with
  | nil =>
    rw [rebuild, hm]
    cases h : ν len <;> simp [h]
  | cons e r ih =>
    obtain ⟨p, i⟩ := e
    rw [rebuild, happ, hm, show ∀ l, placed (i :: l) = placed [i] ++ placed l from fun l => happ [i] l,
      ih fun e he => hp e (by simp [he])]
    have : placed [i] = [] := by
      have := hp (p, i) (by simp)
      cases i <;> first | rfl | exact absurd rfl (this _)
    rw [this]
    cases h : ν p <;> simp [h]

theorem refers_solid {look : Int → Option Label} {r : RInsn} {i : Insn} (h : Refers look r i) : solid [i] = [i] := by
  have some_ : ∀ {o : Int} {P : Prop} {q : Cond → Prop}, (∃ l, look o = some l ∧ ((∃ k, i = .jump k l ∧ q k) ∨ i = .jsr l ∧ P)) →
      solid [i] = [i] := by
    rintro o P q ⟨l, h1, ⟨k, rfl, _⟩ | ⟨rfl, _⟩⟩ <;> rfl
  cases r with
  | TableSwitch d t =>
    obtain ⟨dl, ls, rfl, _⟩ := h
    rfl
  | LookupSwitch d es =>
    obtain ⟨dl, t, rfl, _⟩ := h
    rfl
  | Wide w => exact h.2
  | _ =>
    first
    | exact h.2
    | exact some_ h

end Verif
