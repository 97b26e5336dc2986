import Verif.Lemmas.Calls
import Verif.Props.Source

/-! # C107: how often a source is asked while a class is read -/

namespace Verif.Props
open Verif Spec

variable {σ ε : Type} (src : Source σ ε) (f : List LocalVariable → List LocalVariable)

/-- C107. The counts are those of the runs of C101: every run has counts, and what has counts is a run. -/
theorem C107_counted (s s' : σ) (d : Bytes) (r : Except (Halt ε) Class) :
    src.Run (Class.pull f) s d r s' ↔ ∃ q c i, src.RunIn (Class.pull f) s d r s' q c i :=
  Source.runIn_iff

/-- C107. `read_exact` is called at most once for every byte that is delivered; once more if the source ends or fails
before the class is complete. This is so whether the class is accepted or refused. -/
theorem C107_requests (s s' : σ) (d : Bytes) (r : Except (Halt ε) Class) (q c i : Nat)
    (h : src.RunIn (Class.pull f) s d r s' q c i) : q ≤ d.length + Halt.cut r := by
  have := runIn_requests h 0 (thrifty_class f 0)
  omega

/-- C107. With the provided `read_exact`, `read` is called at most once for every byte that is delivered and for every
interruption; once more if the source ends or fails. -/
theorem C107_calls (s s' : σ) (d : Bytes) (r : Except (Halt ε) Class) (q c i : Nat)
    (h : src.RunIn (Class.pull f) s d r s' q c i) : c ≤ d.length + i + Halt.cut r :=
  Source.runIn_calls h

/-- C107. So it is for the bytes of a class file that a source has to deliver: the class is read with no more requests
than it has bytes. -/
theorem C107_class (content : σ → Bytes) (hd : src.Delivers content) (hp : src.Patient) (s : σ) (x : Class) (used rest : Bytes)
    (hs : content s = used ++ rest) (h : Class.read (fun _ _ => f) (used ++ rest) = .ok (x, rest)) :
    ∃ s' q c i, src.RunIn (Class.pull f) s used (.ok x) s' q c i ∧ q ≤ used.length ∧ c ≤ used.length + i := by
  obtain ⟨d, s', h1, h2, _⟩ := (C101_delivered src f content hd hp s).1 x rest (by rw [hs]; exact h)
  have hu : used = d := List.append_cancel_right (hs.symm.trans h2)
  subst hu
  obtain ⟨q, c, i, h3⟩ := (C107_counted src f _ _ _ _).mp h1
  exact ⟨s', q, c, i, h3, C107_requests src f _ _ _ _ _ _ _ h3, C107_calls src f _ _ _ _ _ _ _ h3⟩

/-- The source that is interrupted between any two bytes: the class of two methods is read from it. -/
example : ∃ c s' q k i, dribble.RunIn (Class.pull id) (twoMethods.bytes, true) twoMethods.bytes (.ok c) s' q k i ∧
    q ≤ twoMethods.bytes.length ∧ k ≤ twoMethods.bytes.length + i := by
  obtain ⟨c, h, _⟩ := twoMethods_gives
  have h1 := (C98_parts id _ [] c).mpr ⟨twoMethods, (List.append_nil _).symm, h⟩
  rw [← List.append_nil twoMethods.bytes] at h1
  obtain ⟨s', q, k, i, h2⟩ := C107_class dribble id Prod.fst dribble_delivers dribble_patient (twoMethods.bytes, true) c
    twoMethods.bytes [] (List.append_nil _).symm h1
  exact ⟨c, s', q, k, i, h2⟩

/-- One byte and a failure: one request, four calls of which two are interrupted, and one byte. The bounds of
`C107_requests` (two) and `C107_calls` (four) are reached by the calls. -/
example : dribble.RunIn (Class.pull id) ([0xCA], true) [0xCA] (.error (.failed "connection reset")) ([], false) 1 4 2 := by
  have h : dribble.ExactIn ([0xCA], false) (3 + 1) ([0xCA] ++ []) (.error (some "connection reset")) ([], false) 3 1 :=
    .some (b := [0xCA]) rfl (List.cons_ne_nil _ _) (.again (n := 2) rfl (.failed rfl))
  exact .failed (.again rfl h)

end Verif.Props
