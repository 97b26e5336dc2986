import Verif.Spec.Calls
import Verif.Lemmas.Source

/-! How often a reader asks its source. -/

namespace Verif

variable {σ ε α β γ : Type} {src : Source σ ε}

namespace Source

theorem exactIn_iff {s s' : σ} {n : Nat} {d : Bytes} {r : Except (Option ε) Unit} :
    src.Exact s n d r s' ↔ ∃ c i, src.ExactIn s n d r s' c i := by
  constructor
  · intro h
    induction h with
    | full s => exact ⟨_, _, .full s⟩
    | ended h => exact ⟨_, _, .ended h⟩
    | failed h => exact ⟨_, _, .failed h⟩
    | again h _ ih => obtain ⟨c, i, ih⟩ := ih; exact ⟨_, _, .again h ih⟩
    | some h hb _ ih => obtain ⟨c, i, ih⟩ := ih; exact ⟨_, _, .some h hb ih⟩
  · rintro ⟨c, i, h⟩
    induction h with
    | full s => exact .full s
    | ended h => exact .ended h
    | failed h => exact .failed h
    | again h _ ih => exact .again h ih
    | some h hb _ ih => exact .some h hb ih

theorem runIn_iff {p : Pull α} {s s' : σ} {d : Bytes} {r : Except (Halt ε) α} :
    src.Run p s d r s' ↔ ∃ q c i, src.RunIn p s d r s' q c i := by
  constructor
  · intro h
    induction h with
    | done a s => exact ⟨_, _, _, .done a s⟩
    | fail e s => exact ⟨_, _, _, .fail e s⟩
    | next h _ ih =>
      obtain ⟨c, i, h⟩ := exactIn_iff.mp h
      obtain ⟨q, c', i', ih⟩ := ih
      exact ⟨_, _, _, .next h ih⟩
    | ended h => obtain ⟨c, i, h⟩ := exactIn_iff.mp h; exact ⟨_, _, _, .ended h⟩
    | failed h => obtain ⟨c, i, h⟩ := exactIn_iff.mp h; exact ⟨_, _, _, .failed h⟩
  · rintro ⟨q, c, i, h⟩
    induction h with
    | done a s => exact .done a s
    | fail e s => exact .fail e s
    | next h _ ih => exact .next (exactIn_iff.mpr ⟨_, _, h⟩) ih
    | ended h => exact .ended (exactIn_iff.mpr ⟨_, _, h⟩)
    | failed h => exact .failed (exactIn_iff.mpr ⟨_, _, h⟩)

theorem exactIn_calls {s s' : σ} {n c i : Nat} {d : Bytes} {r : Except (Option ε) Unit} (h : src.ExactIn s n d r s' c i) :
    (r = .ok () → c ≤ d.length + i) ∧ c ≤ d.length + i + 1 := by
  induction h with
  | full s => exact ⟨fun _ => Nat.le_refl _, Nat.zero_le _⟩
  | ended h => exact ⟨fun h => Except.noConfusion rfl rfl (heq_of_eq h), Nat.le_refl _⟩
  | failed h => exact ⟨fun h => Except.noConfusion rfl rfl (heq_of_eq h), Nat.le_refl _⟩
  | again h _ ih => exact ⟨fun hr => by have := ih.1 hr; omega, by have := ih.2; omega⟩
  | some h hb _ ih =>
    have := List.length_pos_iff.mpr hb
    rw [List.length_append]
    exact ⟨fun hr => by have := ih.1 hr; omega, by have := ih.2; omega⟩

theorem runIn_calls {p : Pull α} {s s' : σ} {q c i : Nat} {d : Bytes} {r : Except (Halt ε) α}
    (h : src.RunIn p s d r s' q c i) : c ≤ d.length + i + Halt.cut r := by
  induction h with
  | done a s => exact Nat.zero_le _
  | fail e s => exact Nat.zero_le _
  | next h _ ih =>
    have := (exactIn_calls h).1 rfl
    rw [List.length_append]
    omega
  | ended h => exact (exactIn_calls h).2
  | failed h => exact (exactIn_calls h).2

end Source

/-- With `a` requests to spare, the reader makes at most as many as it gets bytes, and at least `lo` are left over. -/
def ThriftyFrom (lo : Nat) : Nat → Pull α → Prop
  | a, .done _ => lo ≤ a
  | _, .fail _ => True
  | a, .need n k => 1 ≤ a + n ∧ ∀ b, b.length = n → ThriftyFrom lo (a + n - 1) (k b)

/-- The reader makes at most as many requests as it gets bytes. -/
def Thrifty (p : Pull α) : Prop := ∀ a, ThriftyFrom a a p

theorem ThriftyFrom.mono {lo : Nat} : ∀ {p : Pull α} {a a' : Nat}, ThriftyFrom lo a p → a ≤ a' → ThriftyFrom lo a' p
  | .done _, _, _, h, ha => Nat.le_trans h ha
  | .fail _, _, _, _, _ => True.intro
  | .need n k, a, a', h, ha => ⟨by have := h.1; omega, fun b hb => (h.2 b hb).mono (by omega)⟩

theorem ThriftyFrom.bind {lo m : Nat} {f : α → Pull β} : ∀ {p : Pull α} {a : Nat}, ThriftyFrom m a p →
    (∀ x, ThriftyFrom lo m (f x)) → ThriftyFrom lo a (p.bind f)
  | .done x, _, h, hf => (hf x).mono h
  | .fail _, _, _, _ => True.intro
  | .need _ _, _, h, hf => ⟨h.1, fun b hb => (h.2 b hb).bind hf⟩

theorem Thrifty.bind {p : Pull α} {f : α → Pull β} (h : Thrifty p) (hf : ∀ x, Thrifty (f x)) : Thrifty (p.bind f) :=
  fun a => (h a).bind fun x => hf x a

theorem thrifty_done (x : α) : Thrifty (.done x) := fun _ => Nat.le_refl _
theorem thrifty_fail (e : Err) : Thrifty (.fail e : Pull α) := fun _ => True.intro

theorem Thrifty.map {p : Pull α} (h : Thrifty p) (f : α → β) : Thrifty (p.map f) := h.bind fun _ => thrifty_done _

theorem thrifty_ofRes (r : Res α) : Thrifty (.ofRes r) := by
  cases r
  · exact thrifty_fail _
  · exact thrifty_done _

theorem thrifty_num {c : NumCodec α} (hc : 0 < c.size := by decide) : Thrifty (.num c) :=
  fun a => ⟨by omega, fun _ _ => (by omega : a ≤ a + c.size - 1)⟩

theorem thrifty_two {f : α → β → γ} {p : Pull α} {q : Pull β} (hp : Thrifty p) (hq : Thrifty q) : Thrifty (.two f p q) :=
  hp.bind fun _ => hq.bind fun _ => thrifty_done _

/-- A buffer after the number that says how long it is: the number has more than one byte. -/
theorem thrifty_sized {c : NumCodec α} (hc : 2 ≤ c.size) {n : α → Nat} {k : α → Bytes → Pull β} (hk : ∀ x b, Thrifty (k x b)) :
    Thrifty ((Pull.num c).bind fun x => .need (n x) (k x)) := fun a =>
  ThriftyFrom.bind (m := a + 1) ⟨by omega, fun _ _ => (by omega : a + 1 ≤ a + c.size - 1)⟩ fun x =>
    ⟨by omega, fun b _ => (hk x b a).mono (by omega)⟩

theorem thrifty_string : Thrifty Pull.string := thrifty_sized (by decide) fun _ _ => thrifty_ofRes _

theorem thrifty_payload (tag : UInt8) : Thrifty (Pull.payload tag) := by
  unfold Pull.payload
  split
  all_goals first
    | exact thrifty_string.map _
    | exact Thrifty.map thrifty_num _
    | exact thrifty_two thrifty_num thrifty_num
    | exact thrifty_fail _

theorem thrifty_entry : Thrifty Pull.entry := Thrifty.bind thrifty_num thrifty_payload

theorem thrifty_poolLoop (count : UInt16) : ∀ (fuel : Nat) (i : UInt16) (acc : List (UInt16 × Entry)),
    Thrifty (Pull.poolLoop count fuel i acc)
  | 0, i, acc => by
    unfold Pull.poolLoop
    split
    · exact thrifty_fail _
    · exact thrifty_done _
  | fuel + 1, i, acc => by
    unfold Pull.poolLoop
    split
    · refine thrifty_entry.bind fun e => ?_
      split
      · exact thrifty_poolLoop count fuel _ _
      · exact thrifty_fail _
    · exact thrifty_done _

theorem thrifty_pool : Thrifty Pull.pool := Thrifty.bind thrifty_num fun _ => thrifty_poolLoop _ _ _ _

theorem thrifty_version : Thrifty Pull.version := thrifty_two thrifty_num (Thrifty.bind thrifty_num fun t => by
  split
  · exact thrifty_done _
  · exact thrifty_fail _)

/-- The same for readers with a constant pool. -/
def ThriftyRd (r : PullRd α) : Prop := ∀ env st, Thrifty (r env st)

namespace ThriftyRd

theorem pure (x : α) : ThriftyRd (.pure x) := fun _ _ => thrifty_done _
theorem bind {r : PullRd α} {f : α → PullRd β} (h : ThriftyRd r) (hf : ∀ x, ThriftyRd (f x)) : ThriftyRd (.bind r f) :=
  fun env st => (h env st).bind fun p => hf p.1 env p.2
theorem map {r : PullRd α} {f : α → β} (h : ThriftyRd r) : ThriftyRd (.map f r) := bind h fun _ => pure _
theorem ap {f : PullRd (α → β)} {r : PullRd α} (hf : ThriftyRd f) (h : ThriftyRd r) : ThriftyRd (.ap f r) :=
  bind hf fun _ => bind h fun _ => pure _
theorem lift {p : Pull α} (h : Thrifty p) : ThriftyRd (.lift p) := fun _ _ => h.map _
theorem num {c : NumCodec α} (hc : 0 < c.size := by decide) : ThriftyRd (.num c) := lift (thrifty_num hc)
theorem flags (t : FlagType) : ThriftyRd (.flags t) := lift (Thrifty.map thrifty_num _)

theorem replicate {r : PullRd α} (h : ThriftyRd r) : ∀ n, ThriftyRd (.replicate n r)
  | 0 => pure _
  | n + 1 => bind h fun _ => bind (replicate h n) fun _ => pure _

theorem vec {r : PullRd α} (h : ThriftyRd r) : ThriftyRd (.vec r) := bind num fun _ => replicate h _

theorem lookup {f : Pool → UInt16 → Option α} (i : UInt16) : ThriftyRd (.lookup f i) := fun env st => by
  unfold PullRd.lookup
  split
  · exact thrifty_done _
  · exact thrifty_fail _

theorem idx {f : Pool → UInt16 → Option α} : ThriftyRd (.idx f) := bind num lookup

theorem clsOpt : ThriftyRd .clsOpt := bind num fun i => by
  split
  · exact pure _
  · exact map (lookup i)

theorem type : ThriftyRd .type := bind idx fun _ => lift (thrifty_ofRes _)

theorem attr {table : Bytes → Option (Rd α)} {raw : RawAttribute → α} : ThriftyRd (.attr table raw) :=
  bind idx fun name env st => thrifty_sized (by decide) fun len body => by
    split
    · exact thrifty_done _
    · split
      · exact thrifty_fail _
      · exact thrifty_done _
      · exact thrifty_fail _

theorem field : ThriftyRd .field := ap (ap (ap (map (flags _)) idx) type) (vec attr)

theorem method (f : List LocalVariable → List LocalVariable) : ThriftyRd (.method f) :=
  ap (ap (ap (map (flags _)) idx) type) (vec attr)

theorem body (f : List LocalVariable → List LocalVariable) (v : Version) : ThriftyRd (.body f v) :=
  ap (ap (ap (ap (ap (ap (map (flags _)) idx) clsOpt) (vec idx)) (vec field)) (vec (method f))) (vec attr)

end ThriftyRd

theorem thrifty_class (f : List LocalVariable → List LocalVariable) : Thrifty (Class.pull f) := by
  refine Thrifty.bind thrifty_num fun magic => ?_
  split
  · refine thrifty_version.bind fun v => thrifty_pool.bind fun cp => (ThriftyRd.body f v _ _).bind fun p => ?_
    split
    · exact thrifty_fail _
    · exact thrifty_done _
  · exact thrifty_fail _

theorem exactIn_length {s s' : σ} {n c i : Nat} {d : Bytes} (h : src.ExactIn s n d (.ok ()) s' c i) : d.length = n :=
  (Source.exact_ok (Source.exactIn_iff.mpr ⟨_, _, h⟩)).1 rfl

theorem runIn_requests {lo : Nat} {p : Pull α} {s s' : σ} {q c i : Nat} {d : Bytes} {r : Except (Halt ε) α}
    (h : src.RunIn p s d r s' q c i) : ∀ a, ThriftyFrom lo a p → q ≤ d.length + a + Halt.cut r := by
  induction h with
  | done x s => intro a _; exact Nat.zero_le _
  | fail e s => intro a _; exact Nat.zero_le _
  | next h _ ih =>
    intro a ha
    have hl := exactIn_length h
    have := ih _ (ha.2 _ hl)
    have := ha.1
    rw [List.length_append]
    omega
  | ended h => intro a _; exact Nat.le_add_left _ _
  | failed h => intro a _; exact Nat.le_add_left _ _

end Verif
