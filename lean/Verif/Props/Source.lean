import Verif.Lemmas.Source
import Verif.Props.Parts

/-! # C101: a class is read from any source, and in whatever pieces -/

namespace Verif.Props
open Verif Spec

variable {σ ε : Type} (src : Source σ ε) (f : List LocalVariable → List LocalVariable)

/-- If reading from a source succeeds, the bytes that it has delivered are a class file, whose class is the result: not
one byte more has been taken. -/
theorem C101_accepted (s s' : σ) (d : Bytes) (c : Class) (h : src.Run (Class.pull f) s d (.ok c) s') (t : Bytes) :
    Class.read (fun _ _ => f) (d ++ t) = .ok (c, t) := by
  rw [← Class.on_pull]
  exact (Source.run_on h).1 c rfl t

/-- If what the source delivers is refused, it is refused in every file that begins with it, with the same error. -/
theorem C101_refused (s s' : σ) (d : Bytes) (e : Err) (h : src.Run (Class.pull f) s d (.error (.refused e)) s') (t : Bytes) :
    Class.read (fun _ _ => f) (d ++ t) = .error e := by
  rw [← Class.on_pull]
  exact (Source.run_on h).2.1 e rfl t

/-- If reading stops because the source has ended or failed, the bytes that it has delivered are not yet a class file. So
a failure after the end of the class is never noticed. -/
theorem C101_stopped (s s' : σ) (d : Bytes) (r : Except (Halt ε) Class) (h : src.Run (Class.pull f) s d r s')
    (hr : r = .error .ended ∨ ∃ e, r = .error (.failed e)) : Class.read (fun _ _ => f) d = .error .io := by
  rw [← Class.on_pull]
  exact (Source.run_on h).2.2 hr

/-- Reading ends, with one result, unless the source is interrupted for ever. -/
theorem C101_ends (hp : src.Patient) (s : σ) : ∃ d r s', src.Run (Class.pull f) s d r s' ∧
    ∀ d2 r2 s2, src.Run (Class.pull f) s d2 r2 s2 → d2 = d ∧ r2 = r ∧ s2 = s' := by
  obtain ⟨d, r, s', h⟩ := Source.run_ends hp (Class.pull f) s
  exact ⟨d, r, s', h, fun d2 r2 s2 h2 => Source.run_det h2 h⟩

/-- A source delivers the given bytes before anything else happens, in any pieces and with any interruptions. If they
begin with a class file, its class is the result, and the source stands behind it; whatever it would do after the
bytes. If they are refused for another reason than their end, this is the result. -/
theorem C101_delivered (content : σ → Bytes) (hd : src.Delivers content) (hp : src.Patient) (s : σ) :
    (∀ c rest, Class.read (fun _ _ => f) (content s) = .ok (c, rest) →
      ∃ d s', src.Run (Class.pull f) s d (.ok c) s' ∧ content s = d ++ rest ∧ content s' = rest) ∧
    ∀ e, e ≠ .io → Class.read (fun _ _ => f) (content s) = .error e →
      ∃ d s', src.Run (Class.pull f) s d (.error (.refused e)) s' := by
  obtain ⟨d, r, s', h⟩ := Source.run_ends hp (Class.pull f) s
  obtain ⟨h1, h2⟩ := Source.run_delivered hd h
  rw [Class.on_pull] at h1 h2
  constructor
  · intro c rest hc
    obtain ⟨rfl, h3, h4⟩ := h1 c rest hc
    exact ⟨d, s', h, h3, h4⟩
  · intro e he hc
    obtain rfl := h2 e he hc
    exact ⟨d, s', h⟩

/-- If the source has these bytes and no others, the result is exactly that of reading the bytes. -/
theorem C101_served (content : σ → Bytes) (hd : src.Delivers content) (he : src.EndsWith content) (hp : src.Patient) (s : σ) :
    (∀ c rest, Class.read (fun _ _ => f) (content s) = .ok (c, rest) ↔
      ∃ d s', src.Run (Class.pull f) s d (.ok c) s' ∧ content s' = rest) ∧
    ∀ e, Class.read (fun _ _ => f) (content s) = .error e ↔
      ∃ d h s', src.Run (Class.pull f) s d (.error h) s' ∧ h.err = e := by
  have key : ∀ {d : Bytes} {h : Halt ε} {s' : σ}, src.Run (Class.pull f) s d (.error h) s' →
      Class.read (fun _ _ => f) (content s) = .error h.err := by
    intro d h s' hr
    obtain ⟨e1, e2, e3⟩ := Source.run_served hd he hr
    cases h with
    | refused e => rw [e1]; exact C101_refused src f _ _ _ _ hr _
    | ended =>
      rw [e1, e3 rfl, List.append_nil]
      exact C101_stopped src f _ _ _ _ hr (.inl rfl)
    | failed e => exact absurd rfl (e2 e)
  obtain ⟨d, r, s', h⟩ := Source.run_ends hp (Class.pull f) s
  constructor
  · intro c rest
    constructor
    · intro hc
      obtain ⟨d, s', h1, _, h2⟩ := (C101_delivered src f content hd hp s).1 c rest hc
      exact ⟨d, s', h1, h2⟩
    · rintro ⟨d, s', h1, rfl⟩
      rw [(Source.run_served hd he h1).1]
      exact C101_accepted src f _ _ _ _ h1 _
  · intro e
    constructor
    · intro hc
      cases r with
      | ok c =>
        have := C101_accepted src f _ _ _ _ h (content s')
        rw [← (Source.run_served hd he h).1, hc] at this
        cases this
      | error x =>
        have := key h
        rw [hc] at this
        cases this
        exact ⟨d, x, s', h, rfl⟩
    · rintro ⟨d, x, s', h1, rfl⟩
      exact key h1

/-! ### A source that delivers one byte at a time, is interrupted between them, and fails in the end -/

def dribble : Source (Bytes × Bool) String where
  read s n :=
    match s, n with
    | s, 0 => (.bytes [], s)
    | (b, true), _ + 1 => (.interrupted, (b, false))
    | (x :: b, false), _ + 1 => (.bytes [x], (b, true))
    | ([], false), _ + 1 => (.error "connection reset", ([], false))
  bounded := by
    intro s n b s' h
    match s, n with
    | s, 0 => cases h; exact Nat.le_refl _
    | (b, true), _ + 1 => cases h
    | (x :: b, false), n + 1 => cases h; exact Nat.succ_le_succ (Nat.zero_le n)
    | ([], false), _ + 1 => cases h

theorem dribble_patient : dribble.Patient := by
  refine Subrelation.wf (r := InvImage (· < ·) fun s : Bytes × Bool => if s.2 then 1 else 0) ?_ (InvImage.wf _ Nat.lt_wfRel.wf)
  rintro s' s ⟨n, h⟩
  match s, n with
  | s, 0 => cases h
  | (b, true), _ + 1 => cases h; exact Nat.zero_lt_one
  | (x :: b, false), _ + 1 => cases h
  | ([], false), _ + 1 => cases h

theorem dribble_delivers : dribble.Delivers Prod.fst := by
  intro s n hn hc
  match s, n with
  | (b, true), _ + 1 => exact .inl ⟨_, rfl, rfl⟩
  | (x :: b, false), _ + 1 => exact .inr ⟨_, _, rfl, List.cons_ne_nil _ _, rfl⟩
  | ([], false), _ + 1 => exact absurd rfl hc

/-- The class is read from it, and the failure is not noticed. -/
example : ∃ c d s', dribble.Run (Class.pull id) (twoMethods.bytes, true) d (.ok c) s' ∧ s'.1 = [] := by
  obtain ⟨c, h, _⟩ := twoMethods_gives
  have h1 := (C98_parts id _ [] c).mpr ⟨twoMethods, (List.append_nil _).symm, h⟩
  obtain ⟨d, s', h2, _, h3⟩ := (C101_delivered dribble id Prod.fst dribble_delivers dribble_patient (twoMethods.bytes, true)).1 c [] h1
  exact ⟨c, d, s', h2, h3⟩

/-- If it fails before the end of the class, its error is the result. -/
example : dribble.Run (Class.pull id) ([0xCA], true) [0xCA] (.error (.failed "connection reset")) ([], false) := by
  have h : dribble.Exact ([0xCA], false) (3 + 1) ([0xCA] ++ []) (.error (some "connection reset")) ([], false) :=
    .some (b := [0xCA]) rfl (List.cons_ne_nil _ _) (.again (n := 2) rfl (.failed rfl))
  exact .failed (.again rfl h)

end Verif.Props
