import Verif.Model.Decls
import Verif.Lemmas.Derive

/-! # Lemmas for the declarations of the crate (C65) -/

namespace Verif.Derive

/-! ## Readers up to the order of binds -/

theorem rbind_assoc {α β γ : Type} (x : Rd α) (f : α → Rd β) (g : β → Rd γ) :
    Rd.bind (Rd.bind x f) g = Rd.bind x fun a => Rd.bind (f a) g := by
  funext env st bs
  simp only [Rd.bind]
  cases x env st bs with
  | error e => rfl
  | ok y => rfl

theorem rpure_bind {α β : Type} (a : α) (f : α → Rd β) : Rd.bind (Rd.pure a) f = f a := rfl

theorem rmap_id {α : Type} (x : Rd α) : Rd.map (fun a => a) x = x := by
  funext env st bs
  simp only [Rd.map, Rd.bind, Rd.pure]
  cases x env st bs with
  | error e => rfl
  | ok y => rfl

theorem rmap_map {α β γ : Type} (f : β → γ) (g : α → β) (x : Rd α) :
    Rd.map f (Rd.map g x) = Rd.map (fun a => f (g a)) x := by
  unfold Rd.map
  rw [rbind_assoc]
  rfl

theorem rmap_bind {α β γ : Type} (f : β → γ) (x : Rd α) (g : α → Rd β) :
    Rd.map f (Rd.bind x g) = Rd.bind x fun a => Rd.map f (g a) := by
  unfold Rd.map
  rw [rbind_assoc]

theorem rmap_fail {α β : Type} (f : α → β) (e : Err) : Rd.map f (Rd.fail e) = Rd.fail e := rfl

theorem rlift_bind {α β : Type} (r : Reader α) (f : α → Reader β) :
    Rd.lift (Reader.bind r f) = Rd.bind (Rd.lift r) fun a => Rd.lift (f a) := by
  funext env st bs
  simp only [Rd.lift, Rd.bind, Reader.bind]
  cases r bs with
  | error e => rfl
  | ok y => rfl

theorem rlift_map {α β : Type} (f : α → β) (r : Reader α) :
    Rd.lift (Reader.map f r) = Rd.map f (Rd.lift r) := by
  funext env st bs
  simp only [Rd.lift, Rd.map, Rd.bind, Rd.pure, Reader.map, Reader.bind, Reader.pure]
  cases r bs with
  | error e => rfl
  | ok y => rfl

theorem rframed_map {α β : Type} (f : α → β) (nm : Bytes) (r : Rd α) :
    Rd.map f (rFramed nm r) = rFramed nm (Rd.map f r) := by
  funext env st bs
  simp only [Rd.map, Rd.bind, Rd.pure, rFramed]
  cases u32.read bs with
  | error e => rfl
  | ok y =>
    obtain ⟨len, bs⟩ := y
    simp only
    cases readExact len.toNat bs with
    | error e => rfl
    | ok z =>
      obtain ⟨body, rest⟩ := z
      simp only
      cases r env st body with
      | error e => rfl
      | ok u =>
        obtain ⟨a, st, l⟩ := u
        cases l <;> rfl

theorem rattr_map {α β : Type} (f : α → β) (table : Bytes → Option (Rd α)) (raw : RawAttribute → α) :
    Rd.map f (rAttr table raw) = rAttr (fun n => (table n).map (Rd.map f)) (fun a => f (raw a)) := by
  unfold rAttr
  rw [rmap_bind]
  refine congrArg _ (funext fun n => ?_)
  show _ = (match (table n).map (Rd.map f) with | some r => _ | none => _)
  cases table n with
  | none => exact rmap_map f (fun b => raw ⟨n, b⟩) rRawBody
  | some r => exact rframed_map f n r

/-! ## Writers -/

theorem ins_bind_eq {α β : Type} (x : Ins α) (f : α → Ins β) (cp : VecCp) :
    (x >>= f) cp = match x cp with
      | .ok (a, cp1) => f a cp1
      | .error e => .error e := rfl

theorem wSeq_nil : wSeq [] = pure [] := rfl

theorem wSeq_one (w : Ins Bytes) : wSeq [w] = w := by
  funext cp
  simp only [wSeq, ins_bind_eq]
  cases w cp with
  | error e => rfl
  | ok y =>
    show Except.ok (y.1 ++ [], y.2) = _
    rw [List.append_nil]

theorem wSeq_end (w : Ins Bytes) : wSeq [w, pure []] = wSeq [w] := rfl

theorem wSeq_two (a b : Bytes) : wSeq [pure a, pure b] = pure (a ++ b) := by
  show (pure (a ++ (b ++ [])) : Ins Bytes) = _
  rw [List.append_nil]

theorem entry_one (a b : Bytes) : wSeq [pure a, pure b] = Ins.lift (.ok (a ++ b)) := wSeq_two a b

theorem entry_two (a b c : Bytes) : wSeq [pure a, pure b, pure c] = Ins.lift (.ok (a ++ (b ++ c))) := by
  show (pure (a ++ (b ++ (c ++ []))) : Ins Bytes) = _
  rw [List.append_nil]
  rfl

theorem entry_utf8 (s : Bytes) :
    wSeq [pure (u8.write 1), Ins.lift (writeString s)] = Ins.lift (Entry.utf8 s).write := by
  funext cp
  simp only [Entry.write, wSeq, ins_bind_eq, Ins.lift]
  cases writeString s with
  | error e => rfl
  | ok y =>
    show Except.ok (_ ++ (y ++ []), cp) = _
    rw [List.append_nil]

/-- The tags of the model are those of the macro. -/
theorem wNum_tag8 (n : Nat) (t : UInt8) (h : n = t.toNat) : wNum IntTy.u8.codec n = wNum u8 t := by
  subst h
  rfl

theorem wNum_tag16 (n : Nat) (t : UInt16) (h : n = t.toNat) : wNum IntTy.u16.codec n = wNum u16 t := by
  subst h
  rfl

theorem rNum_tag8 : rNum IntTy.u8.codec = Rd.map UInt8.toNat (rNum u8) := by
  funext env st bs
  simp only [rNum, Rd.map, Rd.bind, Rd.pure, Rd.lift, NumCodec.read,
    show IntTy.u8.codec.size = 1 from rfl, show u8.size = 1 from rfl]
  cases h : readExact 1 bs with
  | error e => rfl
  | ok y =>
    obtain ⟨x, rest⟩ := y
    have h2 := fromBe_lt x
    rw [(readExact_ok h).2] at h2
    show Except.ok (fromBe x, st, rest) = Except.ok ((UInt8.ofNat (fromBe x)).toNat, st, rest)
    rw [UInt8.toNat_ofNat', Nat.mod_eq_of_lt (by omega)]

theorem rNum_tag16 : rNum IntTy.u16.codec = Rd.map UInt16.toNat (rNum u16) := by
  funext env st bs
  simp only [rNum, Rd.map, Rd.bind, Rd.pure, Rd.lift, NumCodec.read,
    show IntTy.u16.codec.size = 2 from rfl, show u16.size = 2 from rfl]
  cases h : readExact 2 bs with
  | error e => rfl
  | ok y =>
    obtain ⟨x, rest⟩ := y
    have h2 := fromBe_lt x
    rw [(readExact_ok h).2] at h2
    show Except.ok (fromBe x, st, rest) = Except.ok ((UInt16.ofNat (fromBe x)).toNat, st, rest)
    rw [UInt16.toNat_ofNat', Nat.mod_eq_of_lt (by omega)]

/-! ## Fields -/

theorem rd_step {α β γ : Type} {f : α × β → γ} {r : Rd α} {k : Rd β} {e : α → Rd γ}
    (h : ∀ a, Rd.map (fun x => f (a, x)) k = e a) :
    Rd.map f (Rd.bind r fun a => Rd.map (Prod.mk a) k) = Rd.bind r e := by
  rw [rmap_bind]
  exact congrArg _ (funext fun a => (rmap_map _ _ _).trans (h a))

theorem enum8 {α β : Type} {f : α → β} {k : Nat → Rd α} {e : UInt8 → Rd β}
    (h : ∀ n : UInt8, Rd.map f (k n.toNat) = e n) :
    Rd.map f (Rd.bind (rNum IntTy.u8.codec) k) = Rd.bind (rNum u8) e := by
  rw [rNum_tag8, rmap_bind]
  unfold Rd.map
  rw [rbind_assoc]
  exact congrArg _ (funext fun n => h n)

theorem enum16 {α β : Type} {f : α → β} {k : Nat → Rd α} {e : UInt16 → Rd β}
    (h : ∀ n : UInt16, Rd.map f (k n.toNat) = e n) :
    Rd.map f (Rd.bind (rNum IntTy.u16.codec) k) = Rd.bind (rNum u16) e := by
  rw [rNum_tag16, rmap_bind]
  unfold Rd.map
  rw [rbind_assoc]
  exact congrArg _ (funext fun n => h n)

theorem attr_table {α β : Type} {f : α → β} {table : Bytes → Option (Rd α)} {raw : RawAttribute → α}
    {table' : Bytes → Option (Rd β)} {raw' : RawAttribute → β}
    (h : ∀ n, (table n).map (Rd.map f) = table' n) (h' : ∀ a, f (raw a) = raw' a) :
    Rd.map f (rAttr table raw) = rAttr table' raw' := by
  rw [rattr_map, funext h, funext h']

/-! ## Arms -/

variable {K : Crate}

theorem arm8 {vs : List (VariantDecl K)} {v : VariantDecl K} {β : Type} {n : UInt8} {a : Nat} {a' : UInt8}
    {r : Rd (Tuple K v.fields)} {k : Rd (Sum K vs)} {f : Sum K (v :: vs) → β} {t e : Rd β}
    (h : a = a'.toNat) (h1 : Rd.map (fun x => f (.inl x)) r = t)
    (h2 : Rd.map (fun y => f (.inr y)) k = e) :
    Rd.map f (if n.toNat = a then Rd.map Sum.inl r else Rd.map Sum.inr k) =
      if n = a' then t else e := by
  subst h h1 h2
  by_cases hn : n = a'
  · subst hn
    rw [if_pos rfl, if_pos rfl]
    exact rmap_map _ _ _
  · rw [if_neg hn, if_neg (fun e => hn (UInt8.toNat_inj.mp e))]
    exact rmap_map _ _ _

theorem arm16 {vs : List (VariantDecl K)} {v : VariantDecl K} {β : Type} {n : UInt16} {a : Nat} {a' : UInt16}
    {r : Rd (Tuple K v.fields)} {k : Rd (Sum K vs)} {f : Sum K (v :: vs) → β} {t e : Rd β}
    (h : a = a'.toNat) (h1 : Rd.map (fun x => f (.inl x)) r = t)
    (h2 : Rd.map (fun y => f (.inr y)) k = e) :
    Rd.map f (if n.toNat = a then Rd.map Sum.inl r else Rd.map Sum.inr k) =
      if n = a' then t else e := by
  subst h h1 h2
  by_cases hn : n = a'
  · subst hn
    rw [if_pos rfl, if_pos rfl]
    exact rmap_map _ _ _
  · rw [if_neg hn, if_neg (fun e => hn (UInt16.toNat_inj.mp e))]
    exact rmap_map _ _ _

theorem arm_name {vs : List (AttrDecl K)} {name : Bytes} {fs : List (FieldDecl K)} {β : Type} {n : Bytes}
    {a' : Bytes} {r : Rd (Tuple K fs)} {k : Option (Rd (AttrSum K vs))}
    {f : AttrSum K (⟨name, some fs⟩ :: vs) → β} {t : Rd β} {e : Option (Rd β)}
    (h : name = a') (h1 : Rd.map (fun x => f (.inl x)) r = t)
    (h2 : k.map (Rd.map fun y => f (.inr y)) = e) :
    ((if n = name then some (Rd.map Sum.inl r) else k.map (Rd.map Sum.inr) :
      Option (Rd (AttrSum K (⟨name, some fs⟩ :: vs))))).map (Rd.map f) = if n = a' then some t else e := by
  subst h h1 h2
  by_cases hn : n = name
  · rw [if_pos hn, if_pos hn]
    exact congrArg some (rmap_map _ _ _)
  · rw [if_neg hn, if_neg hn, Option.map_map]
    cases k with
    | none => rfl
    | some k => exact congrArg some (rmap_map _ _ _)

/-! ## Matches on tags as chains of tests -/

theorem readTag_chain (n : UInt8) : VType.readTag n =
    if n = 0 then Rd.pure .top else if n = 1 then Rd.pure .int else if n = 2 then Rd.pure .float
    else if n = 3 then Rd.pure .long else if n = 4 then Rd.pure .double else if n = 5 then Rd.pure .null
    else if n = 6 then Rd.pure .uninitThis else if n = 7 then Rd.map .object (rStr 7)
    else if n = 8 then Rd.map .uninit rLabel else Rd.fail .invalid := by
  unfold VType.readTag
  split
  all_goals first | rfl | skip
  rename_i h0 h1 h2 h3 h4 h5 h6 h7 h8
  rw [if_neg h0, if_neg h1, if_neg h2, if_neg h3, if_neg h4, if_neg h5, if_neg h6, if_neg h7, if_neg h8]

theorem readMajor_chain : Rd.lift Major.read = Rd.bind (rNum u16) fun n =>
    if n = 45 then Rd.pure .j1 else if n = 46 then Rd.pure .j1_2 else if n = 47 then Rd.pure .j1_3
    else if n = 48 then Rd.pure .j1_4 else if n = 49 then Rd.pure .j5 else if n = 50 then Rd.pure .j6
    else if n = 51 then Rd.pure .j7 else if n = 52 then Rd.pure .j8 else if n = 53 then Rd.pure .j9
    else if n = 54 then Rd.pure .j10 else if n = 55 then Rd.pure .j11 else if n = 56 then Rd.pure .j12
    else if n = 57 then Rd.pure .j13 else if n = 58 then Rd.pure .j14 else if n = 59 then Rd.pure .j15
    else Rd.fail .invalid := by
  unfold Major.read
  rw [rlift_bind]
  refine congrArg _ (funext fun n => ?_)
  unfold Major.ofTag
  split
  · rename_i m h
    split at h
    all_goals first | (cases h; rfl) | (cases h; done)
  · rename_i h
    split at h
    all_goals first | (cases h; done) | skip
    rename_i h0 h1 h2 h3 h4 h5 h6 h7 h8 h9 h10 h11 h12 h13 h14
    rw [if_neg h0, if_neg h1, if_neg h2, if_neg h3, if_neg h4, if_neg h5, if_neg h6, if_neg h7, if_neg h8,
      if_neg h9, if_neg h10, if_neg h11, if_neg h12, if_neg h13, if_neg h14]
    rfl

theorem rlift_map2 {α β γ : Type} (f : α → β → γ) (x : Reader α) (y : Reader β) :
    Rd.lift (Reader.map2 f x y) = Rd.bind (Rd.lift x) fun a => Rd.bind (Rd.lift y) fun b => Rd.pure (f a b) := by
  unfold Reader.map2
  rw [rlift_bind]
  refine congrArg _ (funext fun a => ?_)
  rw [rlift_bind]
  rfl

theorem readEntry_chain : Rd.lift Entry.read = Rd.bind (rNum u8) fun n =>
    if n = 1 then Rd.map .utf8 (Rd.lift readString) else if n = 3 then Rd.map .int (rNum i32)
    else if n = 4 then Rd.map .float (rNum f32) else if n = 5 then Rd.map .long (rNum i64)
    else if n = 6 then Rd.map .double (rNum f64) else if n = 7 then Rd.map .cls (rNum u16)
    else if n = 8 then Rd.map .str (rNum u16)
    else if n = 9 then Rd.ap (Rd.map .field (rNum u16)) (rNum u16)
    else if n = 10 then Rd.ap (Rd.map .method (rNum u16)) (rNum u16)
    else if n = 11 then Rd.ap (Rd.map .imethod (rNum u16)) (rNum u16)
    else if n = 12 then Rd.ap (Rd.map .nat (rNum u16)) (rNum u16)
    else if n = 15 then Rd.ap (Rd.map .handle (rNum u8)) (rNum u16)
    else if n = 16 then Rd.map .mtype (rNum u16)
    else if n = 17 then Rd.ap (Rd.map .dyn (rNum u16)) (rNum u16)
    else if n = 18 then Rd.ap (Rd.map .indy (rNum u16)) (rNum u16)
    else if n = 19 then Rd.map .module (rNum u16)
    else if n = 20 then Rd.map .package (rNum u16) else Rd.fail .invalid := by
  unfold Entry.read
  rw [rlift_bind]
  refine congrArg _ (funext fun n => ?_)
  unfold Entry.readPayload
  split
  all_goals first | (rw [rlift_map]; rfl) | skip
  all_goals first | (rw [rlift_map2]; simp only [Rd.ap, Rd.map, rbind_assoc, rpure_bind]; rfl) | skip
  rename_i h0 h1 h2 h3 h4 h5 h6 h7 h8 h9 h10 h11 h12 h13 h14 h15 h16
  rw [if_neg h0, if_neg h1, if_neg h2, if_neg h3, if_neg h4, if_neg h5, if_neg h6, if_neg h7, if_neg h8,
    if_neg h9, if_neg h10, if_neg h11, if_neg h12, if_neg h13, if_neg h14, if_neg h15, if_neg h16]
  rfl

theorem readRef_chain : Rd.lift Entry.readRef = Rd.bind (rNum u8) fun n =>
    if n = 0 then Rd.map .utf8 (Rd.lift readStrRef) else if n = 3 then Rd.map .int (rNum i32)
    else if n = 4 then Rd.map .float (rNum f32) else if n = 5 then Rd.map .long (rNum i64)
    else if n = 6 then Rd.map .double (rNum f64) else if n = 7 then Rd.map .cls (rNum u16)
    else if n = 8 then Rd.map .str (rNum u16)
    else if n = 9 then Rd.ap (Rd.map .field (rNum u16)) (rNum u16)
    else if n = 10 then Rd.ap (Rd.map .method (rNum u16)) (rNum u16)
    else if n = 11 then Rd.ap (Rd.map .imethod (rNum u16)) (rNum u16)
    else if n = 12 then Rd.ap (Rd.map .nat (rNum u16)) (rNum u16)
    else if n = 15 then Rd.ap (Rd.map .handle (rNum u8)) (rNum u16)
    else if n = 16 then Rd.map .mtype (rNum u16)
    else if n = 17 then Rd.ap (Rd.map .dyn (rNum u16)) (rNum u16)
    else if n = 18 then Rd.ap (Rd.map .indy (rNum u16)) (rNum u16)
    else if n = 19 then Rd.map .module (rNum u16)
    else if n = 20 then Rd.map .package (rNum u16) else Rd.fail .invalid := by
  unfold Entry.readRef
  rw [rlift_bind]
  refine congrArg _ (funext fun n => ?_)
  unfold Entry.readRefPayload Entry.readPayload
  split
  · rw [rlift_map]; rfl
  · rfl
  rename_i h0 h1
  rw [if_neg h0]
  split
  · exact absurd rfl h1
  all_goals first | (rw [rlift_map]; rfl) | skip
  all_goals first | (rw [rlift_map2]; simp only [Rd.ap, Rd.map, rbind_assoc, rpure_bind]; rfl) | skip
  rename_i g0 g1 g2 g3 g4 g5 g6 g7 g8 g9 g10 g11 g12 g13 g14 g15 g16
  rw [if_neg g1, if_neg g2, if_neg g3, if_neg g4, if_neg g5, if_neg g6, if_neg g7, if_neg g8,
    if_neg g9, if_neg g10, if_neg g11, if_neg g12, if_neg g13, if_neg g14, if_neg g15, if_neg g16]
  rfl

theorem entry_ref (s : Bytes) :
    wSeq [pure (u8.write 0), Ins.lift (writeStrRef s)] = Ins.lift (Entry.utf8 s).writeRef := by
  funext cp
  simp only [Entry.writeRef, wSeq, ins_bind_eq, Ins.lift]
  cases writeStrRef s with
  | error e => rfl
  | ok y =>
    show Except.ok (_ ++ (y ++ []), cp) = _
    rw [List.append_nil]

theorem readKind_chain : Rd.lift HandleKind.read = Rd.bind (rNum u8) fun n =>
    if n = 1 then Rd.pure .getField else if n = 2 then Rd.pure .getStatic
    else if n = 3 then Rd.pure .putField else if n = 4 then Rd.pure .putStatic
    else if n = 5 then Rd.pure .invokeVirtual else if n = 6 then Rd.pure .invokeStatic
    else if n = 7 then Rd.pure .invokeSpecial else if n = 8 then Rd.pure .newInvokeSpecial
    else if n = 9 then Rd.pure .invokeInterface else Rd.fail .invalid := by
  unfold HandleKind.read
  rw [rlift_bind]
  refine congrArg _ (funext fun n => ?_)
  unfold HandleKind.ofU8
  split
  · rename_i m h
    split at h
    all_goals first | (cases h; rfl) | (cases h; done)
  · rename_i h
    split at h
    all_goals first | (cases h; done) | skip
    rename_i h0 h1 h2 h3 h4 h5 h6 h7 h8
    rw [if_neg h0, if_neg h1, if_neg h2, if_neg h3, if_neg h4, if_neg h5, if_neg h6, if_neg h7, if_neg h8]
    rfl

/-! ## Tactics -/

/-- The fields of a structure or a variant. -/
macro "read_fields" : tactic => `(tactic| ((repeat refine rd_step fun _ => ?_); rfl))

/-- One arm of the match on a tag. -/
macro "read_arm8" : tactic => `(tactic| (refine arm8 ?_ ?_ ?_; (· rfl); (· read_fields)))
macro "read_arm16" : tactic => `(tactic| (refine arm16 ?_ ?_ ?_; (· rfl); (· read_fields)))

/-- One arm of the match on a name. -/
macro "read_arm" : tactic => `(tactic| (refine arm_name ?_ ?_ ?_; (· rfl); (· read_fields)))

end Verif.Derive
