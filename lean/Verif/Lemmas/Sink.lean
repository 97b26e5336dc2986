import Verif.Model.Sink
import Verif.Lemmas.Rw

/-! # Writing to a sink that may fail -/

namespace Verif
open Spec

/-! ## What a sender sends -/

/-- `a` sends `out`: the sink gets a prefix of `out`; all of it if the result is a success, and then only. The result
is a success if the sink takes everything it is asked to take. -/
structure Sends (s : Sink) (a : Send) (out : Bytes) : Prop where
  pre : ∀ got, ∃ p q, out = p ++ q ∧ (a got).1 = got ++ p
  done : ∀ got, (a got).2 = .ok () → (a got).1 = got ++ out
  fails : ∀ got e, (a got).2 = .error e → e = .io
  takes : (∀ g r, s g r = none) → ∀ got, a got = (got ++ out, .ok ())

namespace Sends
variable {s : Sink}

theorem put (r : Bytes) : Sends s (s.put r) r where
  pre got := by
    rw [Sink.put]
    split
    · exact ⟨r, [], by simp, rfl⟩
    · rename_i k _
      exact ⟨r.take k, r.drop k, (List.take_append_drop k r).symm, rfl⟩
  done got h := by
    rw [Sink.put] at h ⊢
    split at h
    · rfl
    · cases h
  fails got e h := by
    rw [Sink.put] at h
    split at h
    · cases h
    · cases h; rfl
  takes h got := by rw [Sink.put, h]

theorem nil : Sends s (fun got => (got, .ok ())) [] where
  pre got := ⟨[], [], rfl, by simp⟩
  done got _ := by simp
  fails got e h := by cases h
  takes h got := by simp

theorem next {a b : Send} {x y : Bytes} (ha : Sends s a x) (hb : Sends s b y) : Sends s (a.next b) (x ++ y) where
  pre got := by
    rw [Send.next]
    obtain ⟨p, q, hp, hg⟩ := ha.pre got
    cases hr : a got with
    | mk g r =>
      cases r with
      | error e => exact ⟨p, q ++ y, by rw [hp, List.append_assoc], by rw [hr] at hg; exact hg⟩
      | ok u =>
        have hd := ha.done got (by rw [hr])
        rw [hr] at hd
        obtain ⟨p', q', hp', hg'⟩ := hb.pre g
        exact ⟨x ++ p', q', by rw [hp', List.append_assoc], by
          show (b g).1 = _
          rw [hg', show g = got ++ x from hd, List.append_assoc]⟩
  done got h := by
    rw [Send.next] at h ⊢
    cases hr : a got with
    | mk g r =>
      cases r with
      | error e => rw [hr] at h; cases h
      | ok u =>
        rw [hr] at h
        have hd := ha.done got (by rw [hr])
        rw [hr] at hd
        show (b g).1 = _
        rw [hb.done g h, show g = got ++ x from hd, List.append_assoc]
  fails got e h := by
    rw [Send.next] at h
    cases hr : a got with
    | mk g r =>
      cases r with
      | error e' =>
        rw [hr] at h
        cases h
        exact ha.fails got _ (by rw [hr])
      | ok u =>
        rw [hr] at h
        exact hb.fails g e h
  takes h got := by
    rw [Send.next, ha.takes h got]
    show b (got ++ x) = _
    rw [hb.takes h, List.append_assoc]

theorem puts : ∀ rs : List Bytes, Sends s (s.puts rs) rs.flatten
  | [] => nil
  | r :: rs => by rw [Sink.puts, List.flatten_cons]; exact (put r).next (puts rs)

theorem entry {e : Entry} {out : Bytes} (h : e.write = .ok out) : Sends s (e.send s) out := by
  cases e with
  | utf8 b =>
    rw [Entry.write, writeString] at h
    rw [Entry.send]
    cases he : Mutf8.encode b with
    | error e => rw [he] at h; cases h
    | ok t =>
      rw [he] at h
      cases h
      have := (put (s := s) (u8.write 1)).next (puts [u16.write (UInt16.ofNat t.length), t])
      simpa using this
  | _ =>
    rw [Entry.write] at h
    cases h
    rw [Entry.send]
    first
      | simpa using puts (s := s) [_, _]
      | simpa using puts (s := s) [_, _, _]

theorem all : ∀ {es : List Entry} {out : Bytes}, writeAll Entry.write es = .ok out → Sends s (Entry.sendAll s es) out
  | [], out, h => by cases h; exact nil
  | e :: es, out, h => by
    rw [writeAll] at h
    cases h1 : e.write with
    | error e => rw [h1] at h; cases h
    | ok b =>
      rw [h1] at h
      cases h2 : writeAll Entry.write es with
      | error e => rw [h2] at h; cases h
      | ok bs =>
        rw [h2] at h
        cases h
        exact (entry h1).next (all h2)

theorem pool {cp : VecCp} {out : Bytes} (h : cp.write = .ok out) : Sends s (cp.send s) out := by
  rw [VecCp.write] at h
  split at h
  · rename_i bs hb
    cases h
    exact (put _).next (all hb)
  · cases h

end Sends

/-! ## The pool can only fail on strings that are not WTF-8 -/

theorem encode_fails {b : Bytes} {e : Err} (h : Mutf8.encode b = .error e) : e = .ub := by
  rw [Mutf8.encode] at h
  split at h
  · cases h
  · cases h; rfl

theorem entry_fails {x : Entry} {e : Err} (h : x.write = .error e) : e = .ub := by
  cases x with
  | utf8 b =>
    rw [Entry.write, writeString] at h
    cases he : Mutf8.encode b with
    | error e' => rw [he] at h; cases h; exact encode_fails he
    | ok t => rw [he] at h; cases h
  | _ => cases h

theorem all_fails : ∀ {es : List Entry} {e : Err}, writeAll Entry.write es = .error e → e = .ub
  | [], e, h => by cases h
  | x :: es, e, h => by
    rw [writeAll] at h
    cases h1 : x.write with
    | error e => rw [h1] at h; cases h; exact entry_fails h1
    | ok b =>
      rw [h1] at h
      cases h2 : writeAll Entry.write es with
      | error e => rw [h2] at h; cases h; exact all_fails h2
      | ok bs => rw [h2] at h; cases h

theorem pool_fails {cp : VecCp} {e : Err} (h : cp.write = .error e) : e = .ub := by
  rw [VecCp.write] at h
  split at h
  · cases h
  · rename_i hb; cases h; exact all_fails hb

theorem not_ok {a b : Send} {got : Bytes} (h : ((a.next b) got).2 = .ok ()) : (b (a got).1).2 = .ok () ∧ (a got).2 = .ok () := by
  rw [Send.next] at h
  cases hr : a got with
  | mk g r =>
    cases r with
    | error e => rw [hr] at h; cases h
    | ok u => rw [hr] at h; exact ⟨h, rfl⟩

theorem entry_sent {s : Sink} {x : Entry} {got : Bytes} (h : (x.send s got).2 = .ok ()) : ∃ out, x.write = .ok out := by
  cases x with
  | utf8 b =>
    rw [Entry.send] at h
    have h := (not_ok h).1
    rw [Entry.write, writeString]
    cases he : Mutf8.encode b with
    | error e => rw [he] at h; cases h
    | ok t => exact ⟨_, rfl⟩
  | _ => exact ⟨_, rfl⟩

theorem all_sent {s : Sink} : ∀ {es : List Entry} {got : Bytes}, (Entry.sendAll s es got).2 = .ok () →
    ∃ out, writeAll Entry.write es = .ok out
  | [], _, _ => ⟨[], rfl⟩
  | x :: es, got, h => by
    rw [Entry.sendAll] at h
    obtain ⟨h2, h1⟩ := not_ok h
    obtain ⟨b, hb⟩ := entry_sent h1
    obtain ⟨bs, hbs⟩ := all_sent h2
    rw [writeAll, hb, hbs]
    exact ⟨_, rfl⟩

theorem pool_sent {s : Sink} {cp : VecCp} {got : Bytes} (h : (cp.send s got).2 = .ok ()) : ∃ out, cp.write = .ok out := by
  rw [VecCp.send] at h
  obtain ⟨bs, hb⟩ := all_sent (not_ok h).1
  rw [VecCp.write, hb]
  exact ⟨_, rfl⟩

/-! ## Classes -/

/-- What `Class.write` and `ClassOf.writeIn` do with the body. -/
def finish (v : Version) (body : Res (Bytes × VecCp)) : Res Bytes :=
  match body with
  | .error e => .error e
  | .ok (buf, cp) => match cp.write with
    | .error e => .error e
    | .ok pool => .ok (u32.write jvmMagic ++ v.write ++ pool ++ buf)

theorem sends_header {s : Sink} (v : Version) :
    Sends s (s.puts [u32.write jvmMagic, u16.write v.minor, u16.write v.major.tag]) (u32.write jvmMagic ++ v.write) := by
  simpa [Version.write] using Sends.puts (s := s) [u32.write jvmMagic, u16.write v.minor, u16.write v.major.tag]

theorem sends_class {s : Sink} {v : Version} {body : Res (Bytes × VecCp)} {out : Bytes} (h : finish v body = .ok out) :
    Sends s (v.send s body) out := by
  unfold finish at h
  split at h
  · cases h
  · split at h
    · cases h
    · rename_i buf _ _ pool hp
      cases h
      have := (sends_header (s := s) v).next ((Sends.pool hp).next (Sends.put buf))
      rw [Version.send]
      simpa using this

theorem class_sent {s : Sink} {v : Version} {body : Res (Bytes × VecCp)} {got : Bytes}
    (h : (v.send s body got).2 = .ok ()) : ∃ out, finish v body = .ok out := by
  unfold Version.send at h
  have h := (not_ok h).1
  unfold finish
  cases body with
  | error e => cases h
  | ok r =>
    obtain ⟨buf, cp⟩ := r
    obtain ⟨pool, hp⟩ := pool_sent (not_ok h).2
    simp only [hp]
    exact ⟨_, rfl⟩

theorem class_failed {s : Sink} {v : Version} {body : Res (Bytes × VecCp)} {e : Err} (h : finish v body = .error e)
    (he : e ≠ .ub) (got : Bytes) :
    (∃ p q, u32.write jvmMagic ++ v.write = p ++ q ∧ (v.send s body got).1 = got ++ p) ∧
    ((v.send s body got).2 = .error .io ∨ (v.send s body got).2 = .error e) ∧
    ((∀ g r, s g r = none) → v.send s body got = (got ++ (u32.write jvmMagic ++ v.write), .error e)) := by
  unfold finish at h
  split at h
  · cases h
    have hs := sends_header (s := s) v
    rw [Version.send, Send.next]
    obtain ⟨p, q, hp, hg⟩ := hs.pre got
    have hd := hs.done got
    have hf := hs.fails got
    have ht := hs.takes
    generalize s.puts [u32.write jvmMagic, u16.write v.minor, u16.write v.major.tag] = a at hg hd hf ht
    cases hr : a got with
    | mk g r =>
      rw [hr] at hg hd hf
      cases r with
      | error e' =>
        refine ⟨⟨p, q, hp, hg⟩, .inl (by show Except.error e' = _; rw [hf e' rfl]), fun hn => ?_⟩
        have := ht hn got
        rw [hr] at this
        cases this
      | ok u =>
        refine ⟨⟨_, [], by simp, hd rfl⟩, .inr rfl, fun _ => ?_⟩
        show (g, _) = _
        rw [show g = _ from hd rfl]
  · split at h
    · rename_i hp
      cases h
      exact absurd (pool_fails hp) he
    · cases h

end Verif
