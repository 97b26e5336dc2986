import Verif.Model.Push
import Verif.Lemmas.Sink

/-! # Writing to a sink piece by piece -/

namespace Verif
open Spec

/-! ## What a writer hands over -/

namespace Push

/-- The writer with a sink of `Model/Sink`. -/
def send (s : Sink) : Push → Send
  | .done => fun got => (got, .ok ())
  | .fail e => Send.fail e
  | .put r k => (s.put r).next (k.send s)

theorem next_assoc (a b c : Send) : (a.next b).next c = a.next (b.next c) := by
  funext got
  simp only [Send.next]
  rcases a got with ⟨g, e | u⟩ <;> rfl

theorem send_next (s : Sink) (b : Push) : ∀ a : Push, (a.next b).send s = (a.send s).next (b.send s)
  | .done => rfl
  | .fail _ => rfl
  | .put r k => by
    rw [next, send, send_next s b k, send, next_assoc]

theorem send_puts (s : Sink) : ∀ rs, (puts rs).send s = s.puts rs
  | [] => rfl
  | r :: rs => by rw [puts, send, send_puts s rs, Sink.puts]

theorem send_entry (s : Sink) (e : Entry) : (entry e).send s = e.send s := by
  cases e with
  | utf8 b =>
    rw [entry, send, Entry.send]
    cases Mutf8.encode b with
    | error e => rfl
    | ok t =>
      dsimp only
      rw [send_puts]
  | _ => exact send_puts s _

theorem send_entries (s : Sink) : ∀ es, (entries es).send s = Entry.sendAll s es
  | [] => rfl
  | e :: es => by rw [entries, send_next, send_entry, send_entries s es, Entry.sendAll]

theorem send_file (s : Sink) (v : Version) (body : Res (Bytes × VecCp)) : (file v body).send s = v.send s body := by
  unfold file Version.send
  rw [send_next, send_puts]
  cases body with
  | error e => rfl
  | ok p =>
    dsimp only
    rw [send_next, pool, send, send_entries, VecCp.send]
    congr 2
    funext got
    simp only [send, Send.next]
    rcases s.put p.1 got with ⟨g, e | u⟩ <;> rfl

/-- What is handed over if everything is taken, and the result. -/
def total : Push → Bytes × Res Unit
  | .done => ([], .ok ())
  | .fail e => ([], .error e)
  | .put r k => (r ++ k.total.1, k.total.2)

theorem total_send : ∀ (p : Push) (got : Bytes), p.send (fun _ _ => none) got = (got ++ p.total.1, p.total.2)
  | .done, got => by rw [total, send, List.append_nil]
  | .fail _, got => by rw [total, send, Send.fail, List.append_nil]
  | .put r k, got => by
    rw [total, send, Send.next]
    simp only [Sink.put]
    rw [total_send k, List.append_assoc]

end Push

/-! ## Runs -/

namespace Outlet
variable {σ ε : Type} {o : Outlet σ ε}

theorem all_taken {s s' : σ} {req d : Bytes} {r : Except (Option ε) Unit} {c i : Nat} (h : o.All s req d r s' c i) :
    (r = .ok () → d = req) ∧ d <+: req ∧ (r = .ok () → c ≤ d.length + i) ∧ c ≤ d.length + i + 1 := by
  induction h with
  | full s => exact ⟨fun _ => rfl, List.nil_prefix, fun _ => Nat.le_refl _, Nat.zero_le _⟩
  | zero _ h => exact ⟨fun h => (nomatch h), List.nil_prefix, fun h => (nomatch h), Nat.le_refl _⟩
  | failed _ h => exact ⟨fun h => (nomatch h), List.nil_prefix, fun h => (nomatch h), Nat.le_refl _⟩
  | again _ h _ ih =>
    exact ⟨ih.1, ih.2.1, fun hr => by have := ih.2.2.1 hr; omega, by have := ih.2.2.2; omega⟩
  | @some s s' s'' req d n r c i hr h _ ih =>
    have hb := o.bounded _ _ _ _ h
    have hl : (req.take (n + 1)).length = n + 1 := by rw [List.length_take]; omega
    refine ⟨fun h => by rw [ih.1 h, List.take_append_drop], ?_, fun h => ?_, ?_⟩
    · obtain ⟨t, ht⟩ := ih.2.1
      exact ⟨t, by rw [List.append_assoc, ht, List.take_append_drop]⟩
    · have := ih.2.2.1 h
      rw [List.length_append, hl]
      omega
    · have := ih.2.2.2
      rw [List.length_append, hl]
      omega

/-- What a run means. -/
theorem run_total {p : Push} {s s' : σ} {d : Bytes} {r : Except (Stop ε) Unit} {q c i : Nat} (h : o.Run p s d r s' q c i) :
    d <+: p.total.1 ∧ (r = .ok () → p.total = (d, .ok ())) ∧
    (∀ e, r = .error (.refused e) → p.total = (d, .error e)) := by
  induction h with
  | done s => exact ⟨List.nil_prefix, fun _ => rfl, fun e h => (nomatch h)⟩
  | fail e s => exact ⟨List.nil_prefix, fun h => (nomatch h), fun e h => by cases h; rfl⟩
  | next h _ ih =>
    obtain rfl := (all_taken h).1 rfl
    rw [Push.total]
    refine ⟨(List.prefix_append_right_inj _).mpr ih.1, fun h => ?_, fun e h => ?_⟩
    · rw [ih.2.1 h]
    · rw [ih.2.2 e h]
  | zero h =>
    refine ⟨?_, fun h => (nomatch h), fun e h => (nomatch h)⟩
    exact List.IsPrefix.trans (all_taken h).2.1 (List.prefix_append _ _)
  | failed h =>
    refine ⟨?_, fun h => (nomatch h), fun e h => (nomatch h)⟩
    exact List.IsPrefix.trans (all_taken h).2.1 (List.prefix_append _ _)

/-- Whether writing has stopped because of the sink. -/
def cut : Except (Stop ε) Unit → Nat
  | .error .zero => 1
  | .error (.failed _) => 1
  | _ => 0

theorem run_calls {p : Push} {s s' : σ} {d : Bytes} {r : Except (Stop ε) Unit} {q c i : Nat} (h : o.Run p s d r s' q c i) :
    c ≤ d.length + i + cut r := by
  induction h with
  | done s => exact Nat.zero_le _
  | fail e s => exact Nat.zero_le _
  | next h _ ih =>
    have := (all_taken h).2.2.1 rfl
    rw [List.length_append]
    omega
  | zero h => exact (all_taken h).2.2.2
  | failed h => exact (all_taken h).2.2.2

/-! ### Each run is the only one -/

theorem all_det {s s1 s2 : σ} {req d1 d2 : Bytes} {r1 r2 : Except (Option ε) Unit} {c1 c2 i1 i2 : Nat}
    (h1 : o.All s req d1 r1 s1 c1 i1) (h2 : o.All s req d2 r2 s2 c2 i2) :
    d2 = d1 ∧ r2 = r1 ∧ s2 = s1 ∧ c2 = c1 ∧ i2 = i1 := by
  induction h1 generalizing d2 r2 s2 c2 i2 with
  | full s =>
    cases h2 with
    | full => exact ⟨rfl, rfl, rfl, rfl, rfl⟩
    | zero hr => exact absurd rfl hr
    | failed hr => exact absurd rfl hr
    | again hr => exact absurd rfl hr
    | some hr => exact absurd rfl hr
  | zero hr h =>
    cases h2 with
    | full => exact absurd rfl hr
    | zero _ h' => rw [h] at h'; cases h'; exact ⟨rfl, rfl, rfl, rfl, rfl⟩
    | failed _ h' => rw [h] at h'; cases h'
    | again _ h' => rw [h] at h'; cases h'
    | some _ h' => rw [h] at h'; cases h'
  | failed hr h =>
    cases h2 with
    | full => exact absurd rfl hr
    | zero _ h' => rw [h] at h'; cases h'
    | failed _ h' => rw [h] at h'; cases h'; exact ⟨rfl, rfl, rfl, rfl, rfl⟩
    | again _ h' => rw [h] at h'; cases h'
    | some _ h' => rw [h] at h'; cases h'
  | again hr h _ ih =>
    cases h2 with
    | full => exact absurd rfl hr
    | zero _ h' => rw [h] at h'; cases h'
    | failed _ h' => rw [h] at h'; cases h'
    | again _ h' k =>
      rw [h] at h'; cases h'
      obtain ⟨rfl, rfl, rfl, rfl, rfl⟩ := ih k
      exact ⟨rfl, rfl, rfl, rfl, rfl⟩
    | some _ h' => rw [h] at h'; cases h'
  | some hr h _ ih =>
    cases h2 with
    | full => exact absurd rfl hr
    | zero _ h' => rw [h] at h'; cases h'
    | failed _ h' => rw [h] at h'; cases h'
    | again _ h' => rw [h] at h'; cases h'
    | some _ h' k =>
      rw [h] at h'; cases h'
      obtain ⟨rfl, rfl, rfl, rfl, rfl⟩ := ih k
      exact ⟨rfl, rfl, rfl, rfl, rfl⟩

theorem run_det {p : Push} {s s1 s2 : σ} {d1 d2 : Bytes} {r1 r2 : Except (Stop ε) Unit} {q1 q2 c1 c2 i1 i2 : Nat}
    (h1 : o.Run p s d1 r1 s1 q1 c1 i1) (h2 : o.Run p s d2 r2 s2 q2 c2 i2) :
    d2 = d1 ∧ r2 = r1 ∧ s2 = s1 ∧ q2 = q1 ∧ c2 = c1 ∧ i2 = i1 := by
  induction h1 generalizing d2 r2 s2 q2 c2 i2 with
  | done s => cases h2; exact ⟨rfl, rfl, rfl, rfl, rfl, rfl⟩
  | fail e s => cases h2; exact ⟨rfl, rfl, rfl, rfl, rfl, rfl⟩
  | next h _ ih =>
    cases h2 with
    | next h' k =>
      obtain ⟨rfl, _, rfl, rfl, rfl⟩ := all_det h h'
      obtain ⟨rfl, rfl, rfl, rfl, rfl, rfl⟩ := ih k
      exact ⟨rfl, rfl, rfl, rfl, rfl, rfl⟩
    | zero h' => cases (all_det h h').2.1
    | failed h' => cases (all_det h h').2.1
  | zero h =>
    cases h2 with
    | next h' k => cases (all_det h h').2.1
    | zero h' =>
      obtain ⟨rfl, _, rfl, rfl, rfl⟩ := all_det h h'
      exact ⟨rfl, rfl, rfl, rfl, rfl, rfl⟩
    | failed h' => cases (all_det h h').2.1
  | failed h =>
    cases h2 with
    | next h' k => cases (all_det h h').2.1
    | zero h' => cases (all_det h h').2.1
    | failed h' =>
      obtain ⟨rfl, hr, rfl, rfl, rfl⟩ := all_det h h'
      cases hr
      exact ⟨rfl, rfl, rfl, rfl, rfl, rfl⟩

/-! ### There is one -/

/-- A sink that is not interrupted for ever. -/
def Patient (o : Outlet σ ε) : Prop := WellFounded fun s' s => ∃ req, o.write s req = (.interrupted, s')

theorem all_ends (hp : o.Patient) : ∀ (n : Nat) (req : Bytes) (s : σ), req.length = n →
    ∃ d r s' c i, o.All s req d r s' c i := by
  intro n
  induction n using Nat.strongRecOn with
  | _ n ih =>
    intro req s hn
    induction s using hp.induction with
    | _ s ihs =>
      rcases List.eq_nil_or_concat req with h0 | ⟨_, _, h0⟩
      · subst h0
        exact ⟨_, _, _, _, _, .full s⟩
      · have hr : req ≠ [] := by rw [h0]; simp
        rcases hw : o.write s req with ⟨k | _ | e, s'⟩
        · cases k with
          | zero => exact ⟨_, _, _, _, _, .zero hr hw⟩
          | succ k =>
            have hl := List.length_pos_iff.mpr hr
            obtain ⟨d, r, s'', c, i, h⟩ := ih (req.drop (k + 1)).length (by rw [List.length_drop]; omega) _ s' rfl
            exact ⟨_, _, _, _, _, .some hr hw h⟩
        · obtain ⟨d, r, s'', c, i, h⟩ := ihs s' ⟨req, hw⟩
          exact ⟨_, _, _, _, _, .again hr hw h⟩
        · exact ⟨_, _, _, _, _, .failed hr hw⟩

theorem run_ends (hp : o.Patient) : ∀ (p : Push) (s : σ), ∃ d r s' q c i, o.Run p s d r s' q c i
  | .done, s => ⟨_, _, _, _, _, _, .done s⟩
  | .fail e, s => ⟨_, _, _, _, _, _, .fail e s⟩
  | .put req k, s => by
    obtain ⟨d, r, s', c, i, h⟩ := all_ends hp _ req s rfl
    rcases r with (_ | e) | u
    · exact ⟨_, _, _, _, _, _, .zero h⟩
    · exact ⟨_, _, _, _, _, _, .failed h⟩
    · obtain ⟨d', r', s'', q, c', i', h'⟩ := run_ends hp k s'
      exact ⟨_, _, _, _, _, _, .next h h'⟩

/-! ### A sink that takes what it is offered -/

/-- The sink does not fail, and when it takes anything, it takes some of what it is offered. -/
def Takes (o : Outlet σ ε) : Prop := ∀ s req, req ≠ [] →
  (∃ s', o.write s req = (.interrupted, s')) ∨ ∃ n s', o.write s req = (.bytes (n + 1), s')

theorem all_takes (ht : o.Takes) {s s' : σ} {req d : Bytes} {r : Except (Option ε) Unit} {c i : Nat}
    (h : o.All s req d r s' c i) : r = .ok () := by
  induction h with
  | full s => rfl
  | zero hr h =>
    rcases ht _ _ hr with ⟨_, h'⟩ | ⟨_, _, h'⟩ <;> rw [h] at h' <;> cases h'
  | failed hr h =>
    rcases ht _ _ hr with ⟨_, h'⟩ | ⟨_, _, h'⟩ <;> rw [h] at h' <;> cases h'
  | again _ _ _ ih => exact ih
  | some _ _ _ ih => exact ih

theorem run_takes (ht : o.Takes) {p : Push} {s s' : σ} {d : Bytes} {r : Except (Stop ε) Unit} {q c i : Nat}
    (h : o.Run p s d r s' q c i) : r = .ok () ∨ ∃ e, r = .error (.refused e) := by
  induction h with
  | done s => exact .inl rfl
  | fail e s => exact .inr ⟨e, rfl⟩
  | next _ _ ih => exact ih
  | zero h => cases all_takes ht h
  | failed h => cases all_takes ht h

/-! ### What the sink has got -/

/-- `content` is what the sink has taken so far. -/
def Keeps (o : Outlet σ ε) (content : σ → Bytes) : Prop := ∀ s req t s', o.write s req = (t, s') →
  match t with
  | .bytes n => content s' = content s ++ req.take n
  | _ => content s' = content s

theorem all_keeps {content : σ → Bytes} (hk : o.Keeps content) {s s' : σ} {req d : Bytes} {r : Except (Option ε) Unit}
    {c i : Nat} (h : o.All s req d r s' c i) : content s' = content s ++ d := by
  induction h with
  | full s => rw [List.append_nil]
  | zero _ h => exact hk _ _ _ _ h
  | failed _ h => rw [List.append_nil]; exact hk _ _ _ _ h
  | again _ h _ ih => rw [ih]; congr 1; exact hk _ _ _ _ h
  | some _ h _ ih =>
    rw [ih, ← List.append_assoc]
    congr 1
    exact hk _ _ _ _ h

theorem run_keeps {content : σ → Bytes} (hk : o.Keeps content) {p : Push} {s s' : σ} {d : Bytes}
    {r : Except (Stop ε) Unit} {q c i : Nat} (h : o.Run p s d r s' q c i) : content s' = content s ++ d := by
  induction h with
  | done s => rw [List.append_nil]
  | fail e s => rw [List.append_nil]
  | next h _ ih => rw [ih, all_keeps hk h, List.append_assoc]
  | zero h => exact all_keeps hk h
  | failed h => exact all_keeps hk h

end Outlet

/-! ## How many pieces -/

/-- With `a` pieces to spare, there are at most as many pieces as bytes, and at least `lo` are left over. -/
def Push.SpareFrom (lo : Nat) : Nat → Push → Prop
  | a, .done => lo ≤ a
  | _, .fail _ => True
  | a, .put r k => 1 ≤ a + r.length ∧ k.SpareFrom lo (a + r.length - 1)

namespace Push

theorem SpareFrom.mono {lo : Nat} : ∀ {p : Push} {a a' : Nat}, SpareFrom lo a p → a ≤ a' → SpareFrom lo a' p
  | .done, _, _, h, ha => Nat.le_trans h ha
  | .fail _, _, _, _, _ => True.intro
  | .put r k, a, a', h, ha => ⟨by have := h.1; omega, h.2.mono (by omega)⟩

theorem SpareFrom.next {lo m : Nat} {b : Push} (hb : SpareFrom lo m b) : ∀ {p : Push} {a : Nat}, SpareFrom m a p →
    SpareFrom lo a (p.next b)
  | .done, _, h => hb.mono h
  | .fail _, _, _ => True.intro
  | .put _ _, _, h => ⟨h.1, hb.next h.2⟩

theorem num_length {α : Type} (c : NumCodec α) (x : α) : (c.write x).length = c.size := toBe_length _ _

theorem spare_entry (e : Entry) (a : Nat) : SpareFrom a a (entry e) := by
  cases e with
  | utf8 b =>
    rw [entry]
    refine ⟨by rw [num_length]; show 1 ≤ a + 1; omega, ?_⟩
    cases Mutf8.encode b with
    | error e => exact True.intro
    | ok t =>
      simp only [puts, SpareFrom, num_length, show u8.size = 1 from rfl, show u16.size = 2 from rfl]
      omega
  | _ =>
    simp only [entry, puts, SpareFrom, num_length, show u8.size = 1 from rfl, show u16.size = 2 from rfl,
      show i32.size = 4 from rfl, show f32.size = 4 from rfl, show i64.size = 8 from rfl, show f64.size = 8 from rfl]
    omega

theorem spare_entries (a : Nat) : ∀ es, SpareFrom a a (entries es)
  | [] => Nat.le_refl _
  | e :: es => (spare_entries a es).next (spare_entry e a)

theorem spare_file (v : Version) (body : Res (Bytes × VecCp)) : SpareFrom 0 0 (file v body) := by
  refine SpareFrom.next (m := 1) ?_ ?_
  · cases body with
    | error e => exact True.intro
    | ok p =>
      refine SpareFrom.next (m := 1) (p := pool p.2) (b := .put p.1 .done) ⟨by omega, Nat.zero_le _⟩ ?_
      rw [pool]
      refine ⟨by omega, (spare_entries _ _).mono ?_⟩
      rw [num_length]
      exact (by decide : 1 ≤ 1 + 2 - 1)
  · simp only [puts, SpareFrom, num_length, show u32.size = 4 from rfl, show u16.size = 2 from rfl]
    omega

end Push

theorem Outlet.run_pieces {σ ε : Type} {o : Outlet σ ε} {lo : Nat} {p : Push} {s s' : σ} {d : Bytes}
    {r : Except (Stop ε) Unit} {q c i : Nat} (h : o.Run p s d r s' q c i) :
    ∀ a, p.SpareFrom lo a → q ≤ d.length + a + Outlet.cut r := by
  induction h with
  | done s => intro a _; exact Nat.zero_le _
  | fail e s => intro a _; exact Nat.zero_le _
  | next h _ ih =>
    intro a ha
    obtain rfl := (all_taken h).1 rfl
    have := ih _ ha.2
    have := ha.1
    rw [List.length_append]
    omega
  | zero h => intro a _; exact Nat.le_add_left _ _
  | failed h => intro a _; exact Nat.le_add_left _ _

end Verif
