import Verif.Spec.Source

/-! # Reading from sources -/

namespace Verif

/-- A reader run with bytes that are all there. -/
def Pull.on {α : Type} : Pull α → Reader α
  | .done a => fun bs => .ok (a, bs)
  | .fail e => fun _ => .error e
  | .need n k => Reader.bind (readExact n) fun b => (k b).on

/-! ## With all bytes there, it is the reader of the other models -/

namespace Pull

theorem on_bind {α β : Type} (f : α → Pull β) : ∀ p : Pull α, (p.bind f).on = Reader.bind p.on fun a => (f a).on
  | .done a => rfl
  | .fail e => rfl
  | .need n k => by
    have h : (fun b => ((k b).bind f).on) = fun b => Reader.bind (k b).on fun a => (f a).on := funext fun b => on_bind f (k b)
    show Reader.bind (readExact n) (fun b => ((k b).bind f).on) =
      Reader.bind (Reader.bind (readExact n) fun b => (k b).on) fun a => (f a).on
    rw [h]
    funext bs
    unfold Reader.bind
    rcases readExact n bs with e | ⟨b, rest⟩ <;> rfl

theorem on_map {α β : Type} (f : α → β) (p : Pull α) : (p.map f).on = p.on.map f := on_bind _ p

theorem on_num {α : Type} (c : NumCodec α) : (num c).on = c.read := by
  funext bs
  unfold num on Reader.bind NumCodec.read
  rcases readExact c.size bs with e | ⟨b, rest⟩ <;> rfl

theorem on_ofRes {α : Type} (r : Res α) (bs : Bytes) : (ofRes r).on bs = match r with
    | .ok a => .ok (a, bs)
    | .error e => .error e := by
  cases r <;> rfl

theorem on_string : string.on = readString := by
  unfold string
  rw [on_bind, on_num]
  funext bs
  unfold Reader.bind readString
  rcases u16.read bs with e | ⟨len, rest⟩
  · rfl
  · simp only
    unfold on Reader.bind
    rcases readExact len.toNat rest with e | ⟨buf, rest⟩
    · rfl
    · simp only [on_ofRes]
      cases Mutf8.decode buf <;> rfl

theorem on_two {α β γ : Type} (f : α → β → γ) (a : Pull α) (b : Pull β) : (two f a b).on = Reader.map2 f a.on b.on := by
  unfold two
  rw [on_bind]
  unfold Reader.map2
  congr 1
  funext x
  rw [on_bind]
  rfl

theorem on_payload (tag : UInt8) : (payload tag).on = Entry.readPayload tag := by
  unfold payload Entry.readPayload
  split <;> simp only [on_map, on_two, on_num, on_string] <;> rfl

theorem on_entry : entry.on = Entry.read := by
  unfold entry
  rw [on_bind]
  unfold Entry.read
  rw [on_num]
  congr 1
  funext t
  exact on_payload t

theorem on_poolLoop (count : UInt16) : ∀ (fuel : Nat) (i : UInt16) (acc : List (UInt16 × Entry)), 65536 ≤ i.toNat + fuel →
    (poolLoop count fuel i acc).on = MapCp.readLoop count i acc
  | fuel, i, acc, hf => by
    have hi := i.toNat_lt
    funext bs
    rw [MapCp.readLoop.eq_def]
    match fuel with
    | 0 => omega
    | fuel + 1 =>
      rw [poolLoop]
      by_cases hc : i < count
      · rw [if_pos hc, if_pos hc]
        simp only [on_bind, on_entry, Reader.bind]
        rcases Entry.read bs with e | ⟨e, rest⟩
        · rfl
        · simp only
          by_cases hs : i.toNat + e.size.toNat < 65536
          · rw [if_pos hs, if_pos hs, on_poolLoop count fuel]
            rw [UInt16.toNat_add, Nat.mod_eq_of_lt hs]
            have : 1 ≤ e.size.toNat := by cases e <;> simp [Entry.size]
            omega
          · rw [if_neg hs, if_neg hs]
            rfl
      · rw [if_neg hc, if_neg hc]
        rfl

theorem on_pool : pool.on = MapCp.read := by
  unfold pool
  rw [on_bind, on_num]
  unfold MapCp.read
  congr 1
  funext count
  exact on_poolLoop count _ _ _ (by decide)

theorem on_version : version.on = Version.read := by
  unfold version
  rw [on_two, on_num, on_bind, on_num]
  unfold Version.read Major.read
  congr 2
  funext t
  rcases Major.ofTag t with _ | m <;> rfl

end Pull

def PullRd.on {α : Type} (x : PullRd α) : Rd α := fun env st bs =>
  match (x env st).on bs with
  | .ok (p, rest) => .ok (p.1, p.2, rest)
  | .error e => .error e

namespace PullRd

theorem on_pure {α : Type} (a : α) : (pure a).on = Rd.pure a := rfl

theorem on_bind {α β : Type} (x : PullRd α) (f : α → PullRd β) : (bind x f).on = Rd.bind x.on fun a => (f a).on := by
  funext env st bs
  unfold on bind Rd.bind
  rw [Pull.on_bind]
  unfold Reader.bind
  rcases h : (x env st).on bs with e | ⟨⟨a, st'⟩, rest⟩ <;> simp only [h]

theorem on_map {α β : Type} (f : α → β) (x : PullRd α) : (map f x).on = Rd.map f x.on := on_bind _ _

theorem on_ap {α β : Type} (f : PullRd (α → β)) (x : PullRd α) : (ap f x).on = Rd.ap f.on x.on := by
  unfold ap Rd.ap
  rw [on_bind]
  congr 1
  funext f
  exact on_bind _ _

theorem on_lift {α : Type} (p : Pull α) : (lift p).on = Rd.lift p.on := by
  funext env st bs
  unfold on lift Rd.lift
  rw [Pull.on_map]
  unfold Reader.map Reader.bind
  rcases p.on bs with e | ⟨a, rest⟩ <;> rfl

theorem on_num {α : Type} (c : NumCodec α) : (num c).on = rNum c :=
  (on_lift _).trans (by rw [Pull.on_num]; rfl)

theorem on_flags (t : FlagType) : (flags t).on = rFlags t := by
  unfold flags rFlags Flags.read
  rw [on_lift, Pull.on_map, Pull.on_num]

theorem on_replicate {α : Type} (r : PullRd α) : ∀ n, (replicate n r).on = Rd.replicate n r.on
  | 0 => rfl
  | n + 1 => by
    show (bind r fun a => bind (replicate n r) fun as => pure (a :: as)).on =
      Rd.bind r.on fun a => Rd.bind (Rd.replicate n r.on) fun as => Rd.pure (a :: as)
    rw [on_bind]
    congr 1
    funext a
    rw [on_bind, on_replicate r n]
    rfl

theorem on_vec {α : Type} (r : PullRd α) : (vec r).on = rVec u16 r.on := by
  unfold vec rVec
  rw [on_bind, on_num]
  congr 1
  funext len
  exact on_replicate r _

theorem on_lookup {α : Type} (f : Pool → UInt16 → Option α) (i : UInt16) : (lookup f i).on = rLookup f i := by
  funext env st bs
  unfold on lookup rLookup
  rcases f env.pool i with _ | a <;> rfl

theorem on_idx {α : Type} (f : Pool → UInt16 → Option α) : (idx f).on = rIdx f := by
  unfold idx rIdx
  rw [on_bind, on_num]
  congr 1
  funext i
  exact on_lookup f i

theorem on_utf8 : utf8.on = rUtf8 := on_idx _
theorem on_cls : cls.on = rStr 7 := on_idx _

theorem on_clsOpt : clsOpt.on = rClsOpt := by
  unfold clsOpt rClsOpt rOpt
  rw [on_bind, on_num]
  congr 1
  funext i
  by_cases h : i = 0
  · rw [if_pos h, if_pos h]
    rfl
  · rw [if_neg h, if_neg h, on_map, on_lookup]

theorem on_type : type.on = rType := by
  unfold type rType
  rw [on_bind, on_utf8]
  congr 1
  funext s
  rw [on_lift]
  funext env st bs
  unfold Rd.lift Rd.ofRes
  rw [Pull.on_ofRes]
  cases JType.parseType s <;> rfl

theorem on_attr {α : Type} (table : Bytes → Option (Rd α)) (raw : RawAttribute → α) : (attr table raw).on = rAttr table raw := by
  unfold attr rAttr
  refine (on_bind _ _).trans ?_
  rw [on_utf8]
  congr 1
  funext name env st bs
  unfold on
  rw [Pull.on_bind, Pull.on_num]
  unfold Reader.bind
  rcases ht : table name with _ | r
  · simp only
    unfold Rd.map Rd.bind rRawBody
    rcases u32.read bs with e | ⟨len, bs1⟩
    · rfl
    · simp only
      unfold Pull.on Reader.bind
      rcases readExact len.toNat bs1 with e | ⟨b, bs2⟩ <;> rfl
  · simp only
    unfold rFramed
    rcases u32.read bs with e | ⟨len, bs1⟩
    · rfl
    · simp only
      unfold Pull.on Reader.bind
      rcases readExact len.toNat bs1 with e | ⟨b, bs2⟩
      · rfl
      · simp only
        rcases r env st b with e | ⟨a, st', _ | ⟨x, left⟩⟩ <;> rfl

theorem on_field : field.on = Field.read := by
  unfold field Field.read FieldAttr.read
  simp only [on_ap, on_map, on_flags, on_utf8, on_type, on_vec, on_attr]

theorem on_method (f : List LocalVariable → List LocalVariable) : (method f).on = Method.read fun _ _ => f := by
  unfold method Method.read
  simp only [on_ap, on_map, on_flags, on_utf8, on_type, on_vec, on_attr]
  rfl

theorem on_body (f : List LocalVariable → List LocalVariable) (v : Version) : (body f v).on = Class.readBody (fun _ _ => f) v := by
  unfold body Class.readBody ClassAttr.read
  simp only [on_ap, on_map, on_flags, on_cls, on_clsOpt, on_vec, on_field, on_method, on_attr]

end PullRd

theorem Class.on_pull (f : List LocalVariable → List LocalVariable) : (Class.pull f).on = Class.read fun _ _ => f := by
  funext bs
  unfold Class.pull Class.read
  rw [Pull.on_bind, Pull.on_num]
  unfold Reader.bind
  rcases u32.read bs with e | ⟨magic, bs⟩
  · rfl
  simp only
  by_cases hm : magic = jvmMagic
  rotate_left
  · rw [if_neg hm, if_neg hm]
    rfl
  rw [if_pos hm, if_pos hm, Pull.on_bind, Pull.on_version]
  unfold Reader.bind
  rcases Version.read bs with e | ⟨v, bs⟩
  · rfl
  simp only
  rw [Pull.on_bind, Pull.on_pool]
  unfold Reader.bind
  rcases MapCp.read bs with e | ⟨cp, bs⟩
  · rfl
  simp only
  rw [Pull.on_bind, ← PullRd.on_body]
  unfold Reader.bind PullRd.on
  rcases (PullRd.body f v ⟨cp.get, none⟩ ⟨[], none⟩).on bs with e | ⟨⟨c, st⟩, bs⟩
  · rfl
  simp only
  rcases resolveCells st.pending c.attrs with e | ⟨⟩ <;> rfl

/-! ## Runs -/

namespace Source
variable {σ ε α : Type} {src : Source σ ε}

theorem exact_ok {s s' : σ} {n : Nat} {d : Bytes} {r : Except (Option ε) Unit} (h : src.Exact s n d r s') :
    (r = .ok () → d.length = n) ∧ ((∀ u, r ≠ .ok u) → d.length < n) := by
  induction h with
  | full s => exact ⟨fun _ => rfl, fun h => absurd rfl (h ())⟩
  | ended h => exact ⟨fun h => (nomatch h), fun _ => Nat.succ_pos _⟩
  | failed h => exact ⟨fun h => (nomatch h), fun _ => Nat.succ_pos _⟩
  | again h h' ih => exact ih
  | some h hb h' ih =>
    have := src.bounded _ _ _ _ h
    constructor
    · intro hr
      rw [List.length_append, ih.1 hr]
      omega
    · intro hr
      have := ih.2 hr
      rw [List.length_append]
      omega

/-- What a run means: the bytes delivered are what the reader takes, refuses, or finds too short. -/
theorem run_on {p : Pull α} {s s' : σ} {d : Bytes} {r : Except (Halt ε) α} (h : src.Run p s d r s') :
    (∀ a, r = .ok a → ∀ t, p.on (d ++ t) = .ok (a, t)) ∧
    (∀ e, r = .error (.refused e) → ∀ t, p.on (d ++ t) = .error e) ∧
    ((r = .error .ended ∨ ∃ e, r = .error (.failed e)) → p.on d = .error .io) := by
  induction h with
  | done a s => exact ⟨fun _ h _ => by cases h; rfl, fun _ h => (nomatch h), fun h => by rcases h with h | ⟨_, h⟩ <;> cases h⟩
  | fail e s =>
    exact ⟨fun _ h => (nomatch h), fun _ h _ => by cases h; rfl, fun h => by rcases h with h | ⟨_, h⟩ <;> cases h⟩
  | next h h' ih =>
    rename_i n k _ _ _ d d' _
    have key (t : Bytes) : (Pull.need n k).on ((d ++ d') ++ t) = (k d).on (d' ++ t) := by
      show Reader.bind (readExact n) (fun b => (k b).on) _ = _
      unfold Reader.bind
      rw [List.append_assoc, readExact, if_pos (by rw [← (exact_ok h).1 rfl, List.length_append]; omega)]
      rw [← (exact_ok h).1 rfl, List.take_left, List.drop_left]
    refine ⟨fun a hr t => ?_, fun e hr t => ?_, fun hr => ?_⟩
    · rw [key]; exact ih.1 a hr t
    · rw [key]; exact ih.2.1 e hr t
    · have := key []
      rw [List.append_nil, List.append_nil] at this
      rw [this]
      exact ih.2.2 hr
  | ended h =>
    refine ⟨fun _ h => (nomatch h), fun _ h => (nomatch h), fun _ => ?_⟩
    have := (exact_ok h).2 (fun _ h => nomatch h)
    unfold Pull.on Reader.bind readExact
    rw [if_neg (by omega)]
  | failed h =>
    refine ⟨fun _ h => (nomatch h), fun _ h => (nomatch h), fun _ => ?_⟩
    have := (exact_ok h).2 (fun _ h => nomatch h)
    unfold Pull.on Reader.bind readExact
    rw [if_neg (by omega)]

theorem exact_det {s s1 s2 : σ} {n : Nat} {d1 d2 : Bytes} {r1 r2 : Except (Option ε) Unit} (h1 : src.Exact s n d1 r1 s1)
    (h2 : src.Exact s n d2 r2 s2) : d1 = d2 ∧ r1 = r2 ∧ s1 = s2 := by
  induction h1 generalizing d2 with
  | full s => cases h2; exact ⟨rfl, rfl, rfl⟩
  | ended h =>
    cases h2 with
    | ended h' => rw [h] at h'; cases h'; exact ⟨rfl, rfl, rfl⟩
    | failed h' => rw [h] at h'; cases h'
    | again h' _ => rw [h] at h'; cases h'
    | some h' hb _ => rw [h] at h'; cases h'; exact absurd rfl hb
  | failed h =>
    cases h2 with
    | ended h' => rw [h] at h'; cases h'
    | failed h' => rw [h] at h'; cases h'; exact ⟨rfl, rfl, rfl⟩
    | again h' _ => rw [h] at h'; cases h'
    | some h' hb _ => rw [h] at h'; cases h'
  | again h _ ih =>
    cases h2 with
    | ended h' => rw [h] at h'; cases h'
    | failed h' => rw [h] at h'; cases h'
    | again h' h3 => rw [h] at h'; cases h'; exact ih h3
    | some h' hb _ => rw [h] at h'; cases h'
  | some h hb _ ih =>
    cases h2 with
    | ended h' => rw [h] at h'; cases h'; exact absurd rfl hb
    | failed h' => rw [h] at h'; cases h'
    | again h' _ => rw [h] at h'; cases h'
    | some h' _ h3 =>
      rw [h] at h'
      cases h'
      obtain ⟨rfl, rfl, rfl⟩ := ih h3
      exact ⟨rfl, rfl, rfl⟩

theorem run_det {p : Pull α} {s s1 s2 : σ} {d1 d2 : Bytes} {r1 r2 : Except (Halt ε) α} (h1 : src.Run p s d1 r1 s1)
    (h2 : src.Run p s d2 r2 s2) : d1 = d2 ∧ r1 = r2 ∧ s1 = s2 := by
  induction h1 generalizing d2 with
  | done a s => cases h2; exact ⟨rfl, rfl, rfl⟩
  | fail e s => cases h2; exact ⟨rfl, rfl, rfl⟩
  | next h _ ih =>
    cases h2 with
    | next h' h3 =>
      obtain ⟨rfl, _, rfl⟩ := exact_det h h'
      obtain ⟨rfl, rfl, rfl⟩ := ih h3
      exact ⟨rfl, rfl, rfl⟩
    | ended h' => cases (exact_det h h').2.1
    | failed h' => cases (exact_det h h').2.1
  | ended h =>
    cases h2 with
    | next h' h3 => cases (exact_det h h').2.1
    | ended h' => obtain ⟨rfl, _, rfl⟩ := exact_det h h'; exact ⟨rfl, rfl, rfl⟩
    | failed h' => cases (exact_det h h').2.1
  | failed h =>
    cases h2 with
    | next h' h3 => cases (exact_det h h').2.1
    | ended h' => cases (exact_det h h').2.1
    | failed h' =>
      obtain ⟨rfl, e, rfl⟩ := exact_det h h'
      cases e
      exact ⟨rfl, rfl, rfl⟩

theorem exact_ends (hp : src.Patient) : ∀ (n : Nat) (s : σ), ∃ d r s', src.Exact s n d r s' := by
  intro n
  induction n using Nat.strongRecOn with
  | _ n ihn =>
    intro s
    induction s using hp.induction with
    | _ s ihs =>
      match n with
      | 0 => exact ⟨_, _, _, .full s⟩
      | n + 1 =>
        match h : src.read s (n + 1) with
        | (.bytes [], s') => exact ⟨_, _, _, .ended h⟩
        | (.bytes (b :: bs), s') =>
          obtain ⟨d, r, s'', h'⟩ := ihn (n + 1 - (b :: bs).length) (by rw [List.length_cons]; omega) s'
          exact ⟨_, _, _, .some h (List.cons_ne_nil _ _) h'⟩
        | (.interrupted, s') =>
          obtain ⟨d, r, s'', h'⟩ := ihs s' ⟨_, h⟩
          exact ⟨_, _, _, .again h h'⟩
        | (.error e, s') => exact ⟨_, _, _, .failed h⟩

theorem run_ends (hp : src.Patient) : ∀ (p : Pull α) (s : σ), ∃ d r s', src.Run p s d r s'
  | .done a, s => ⟨_, _, _, .done a s⟩
  | .fail e, s => ⟨_, _, _, .fail e s⟩
  | .need n k, s => by
    obtain ⟨d, r, s', h⟩ := exact_ends hp n s
    match r, h with
    | .ok (), h =>
      obtain ⟨d', r', s'', h'⟩ := run_ends hp (k d) s'
      exact ⟨_, _, _, .next h h'⟩
    | .error none, h => exact ⟨_, _, _, .ended h⟩
    | .error (some e), h => exact ⟨_, _, _, .failed h⟩

variable {content : σ → Bytes}

theorem exact_delivered (hd : src.Delivers content) {s s' : σ} {n : Nat} {d : Bytes} {r : Except (Option ε) Unit}
    (h : src.Exact s n d r s') : n ≤ (content s).length → r = .ok () ∧ content s = d ++ content s' := by
  induction h with
  | full s => exact fun _ => ⟨rfl, rfl⟩
  | ended h =>
    intro hn
    rename_i s _ n
    rcases hd s (n + 1) (Nat.succ_pos _) (fun e => by rw [e] at hn; cases hn) with ⟨s1, h1, _⟩ | ⟨b, s1, h1, h2, _⟩
    · rw [h] at h1; cases h1
    · rw [h] at h1; cases h1; exact absurd rfl h2
  | failed h =>
    intro hn
    rename_i s _ n _
    rcases hd s (n + 1) (Nat.succ_pos _) (fun e => by rw [e] at hn; cases hn) with ⟨s1, h1, _⟩ | ⟨b, s1, h1, h2, _⟩
    · rw [h] at h1; cases h1
    · rw [h] at h1; cases h1
  | again h h' ih =>
    intro hn
    rename_i s _ _ n _ _
    rcases hd s (n + 1) (Nat.succ_pos _) (fun e => by rw [e] at hn; cases hn) with ⟨s1, h1, e⟩ | ⟨b, s1, h1, h2, _⟩
    · rw [h] at h1
      cases h1
      rw [← e]
      exact ih (by rw [e]; exact hn)
    · rw [h] at h1; cases h1
  | some h hb h' ih =>
    intro hn
    rename_i s _ _ n _ _ _
    rcases hd s (n + 1) (Nat.succ_pos _) (fun e => by rw [e] at hn; cases hn) with ⟨s1, h1, e⟩ | ⟨b, s1, h1, h2, e⟩
    · rw [h] at h1; cases h1
    · rw [h] at h1
      cases h1
      rw [e, List.length_append] at hn
      obtain ⟨h3, h4⟩ := ih (by omega)
      exact ⟨h3, by rw [e, h4, List.append_assoc]⟩

theorem run_delivered (hd : src.Delivers content) {p : Pull α} {s s' : σ} {d : Bytes} {r : Except (Halt ε) α}
    (h : src.Run p s d r s') : (∀ a rest, p.on (content s) = .ok (a, rest) →
      r = .ok a ∧ content s = d ++ rest ∧ content s' = rest) ∧
    ∀ e, e ≠ .io → p.on (content s) = .error e → r = .error (.refused e) := by
  induction h with
  | done a s => exact ⟨fun _ _ h => by cases h; exact ⟨rfl, rfl, rfl⟩, fun _ _ h => (nomatch h)⟩
  | fail e s => exact ⟨fun _ _ h => (nomatch h), fun _ _ h => by cases h; rfl⟩
  | next h h' ih =>
    rename_i n k s s1 s2 d d' r
    by_cases hn : n ≤ (content s).length
    · obtain ⟨_, e⟩ := exact_delivered hd h hn
      have hon : (Pull.need n k).on (content s) = (k d).on (content s1) := by
        show Reader.bind (readExact n) (fun b => (k b).on) _ = _
        unfold Reader.bind readExact
        rw [if_pos hn, e, ← (exact_ok h).1 rfl, List.take_left, List.drop_left]
      rw [hon]
      refine ⟨fun a rest ha => ?_, ih.2⟩
      obtain ⟨h1, h2, h3⟩ := ih.1 a rest ha
      exact ⟨h1, by rw [e, h2, List.append_assoc], h3⟩
    · have hon : (Pull.need n k).on (content s) = .error .io := by
        show Reader.bind (readExact n) (fun b => (k b).on) _ = _
        unfold Reader.bind readExact
        rw [if_neg hn]
      rw [hon]
      exact ⟨fun _ _ h => (nomatch h), fun e he h => by cases h; exact absurd rfl he⟩
  | ended h =>
    rename_i n k s s1 d
    by_cases hn : n ≤ (content s).length
    · cases (exact_delivered hd h hn).1
    · have hon : (Pull.need n k).on (content s) = .error .io := by
        show Reader.bind (readExact n) (fun b => (k b).on) _ = _
        unfold Reader.bind readExact
        rw [if_neg hn]
      rw [hon]
      exact ⟨fun _ _ h => (nomatch h), fun e he h => by cases h; exact absurd rfl he⟩
  | failed h =>
    rename_i n k s s1 d _
    by_cases hn : n ≤ (content s).length
    · cases (exact_delivered hd h hn).1
    · have hon : (Pull.need n k).on (content s) = .error .io := by
        show Reader.bind (readExact n) (fun b => (k b).on) _ = _
        unfold Reader.bind readExact
        rw [if_neg hn]
      rw [hon]
      exact ⟨fun _ _ h => (nomatch h), fun e he h => by cases h; exact absurd rfl he⟩

theorem exact_served (hd : src.Delivers content) (he : src.EndsWith content) {s s' : σ} {n : Nat} {d : Bytes}
    {r : Except (Option ε) Unit} (h : src.Exact s n d r s') :
    content s = d ++ content s' ∧ (∀ e, r ≠ .error (some e)) ∧ (r = .error none → content s' = []) := by
  have key (s : σ) (n : Nat) : (∃ s', src.read s (n + 1) = (.interrupted, s') ∧ content s' = content s) ∨
      ∃ b s', src.read s (n + 1) = (.bytes b, s') ∧ content s = b ++ content s' ∧ (b = [] → content s' = []) := by
    by_cases hc : content s = []
    · rcases he s (n + 1) (Nat.succ_pos _) hc with ⟨s', h1, h2⟩ | ⟨s', h1, h2⟩
      · exact .inl ⟨s', h1, by rw [h2, hc]⟩
      · exact .inr ⟨[], s', h1, by rw [hc, h2]; rfl, fun _ => h2⟩
    · rcases hd s (n + 1) (Nat.succ_pos _) hc with h1 | ⟨b, s', h1, h2, h3⟩
      · exact .inl h1
      · exact .inr ⟨b, s', h1, h3, fun h => absurd h h2⟩
  induction h with
  | full s => exact ⟨rfl, fun _ h => (nomatch h), fun h => (nomatch h)⟩
  | ended h =>
    rename_i s _ n
    rcases key s n with ⟨s1, h1, _⟩ | ⟨b, s1, h1, h2, h3⟩
    · rw [h] at h1; cases h1
    · rw [h] at h1; cases h1; exact ⟨h2, fun _ h => (nomatch h), fun _ => h3 rfl⟩
  | failed h =>
    rename_i s _ n _
    rcases key s n with ⟨s1, h1, _⟩ | ⟨b, s1, h1, h2, _⟩
    · rw [h] at h1; cases h1
    · rw [h] at h1; cases h1
  | again h h' ih =>
    rename_i s _ _ n _ _
    rcases key s n with ⟨s1, h1, e⟩ | ⟨b, s1, h1, h2, _⟩
    · rw [h] at h1
      cases h1
      rw [← e]
      exact ih
    · rw [h] at h1; cases h1
  | some h hb h' ih =>
    rename_i s _ _ n _ _ _
    rcases key s n with ⟨s1, h1, e⟩ | ⟨b, s1, h1, e, _⟩
    · rw [h] at h1; cases h1
    · rw [h] at h1
      cases h1
      exact ⟨by rw [e, ih.1, List.append_assoc], ih.2⟩

theorem run_served (hd : src.Delivers content) (he : src.EndsWith content) {p : Pull α} {s s' : σ} {d : Bytes}
    {r : Except (Halt ε) α} (h : src.Run p s d r s') :
    content s = d ++ content s' ∧ (∀ e, r ≠ .error (.failed e)) ∧ (r = .error .ended → content s' = []) := by
  induction h with
  | done a s => exact ⟨rfl, fun _ h => (nomatch h), fun h => (nomatch h)⟩
  | fail e s => exact ⟨rfl, fun _ h => (nomatch h), fun h => (nomatch h)⟩
  | next h h' ih => exact ⟨by rw [(exact_served hd he h).1, ih.1, List.append_assoc], ih.2⟩
  | ended h =>
    have := exact_served hd he h
    exact ⟨this.1, fun _ h => (nomatch h), fun _ => this.2.2 rfl⟩
  | failed h => exact absurd rfl ((exact_served hd he h).2.1 _)

end Source

end Verif
