import Verif.Lemmas.Sink
import Verif.Props.Write
import Verif.Props.Reread

/-! # Writing to a sink that may fail: C75 -/

namespace Verif.Props
open Spec

/-! ## C75 -/

/-- The sink takes whatever it is asked to take. -/
def Willing (s : Sink) : Prop := ∀ got req, s got req = none

/-- The first eight bytes of a class file (JVMS 4.1). -/
def header (v : Version) : Bytes := [0xCA, 0xFE, 0xBA, 0xBE] ++ u16.write v.minor ++ u16.write v.major.tag

theorem header_eq (v : Version) : u32.write jvmMagic ++ v.write = header v := by
  rw [header, Version.write, show u32.write jvmMagic = [0xCA, 0xFE, 0xBA, 0xBE] by decide, List.append_assoc]

/-- Full claim: a class that cannot be written leaves the sink as it was. -/
def C75_full : Prop := ∀ (s : Sink) (x : Class) (got : Bytes) (e : Err), Willing s → x.write = .error e →
  (x.send s got).1 = got

theorem jumpClass_fails : jumpClass.write = .error .invalid := by
  have h : (match jumpClass.write with | .error .invalid => true | _ => false) = true := by decide +kernel
  split at h
  · assumption
  · cases h

/-- Proved: a sink gets a prefix of the class file and nothing else. It gets all of it if `write_to` succeeds; and
`write_to` succeeds if the sink takes everything, otherwise it returns the error of the sink. -/
theorem C75_written (s : Sink) (x : Class) (got out : Bytes) (h : x.write = .ok out) :
    (∃ p q, out = p ++ q ∧ (x.send s got).1 = got ++ p) ∧
    ((x.send s got).2 = .ok () → (x.send s got).1 = got ++ out) ∧
    ((x.send s got).2 = .ok () ∨ (x.send s got).2 = .error .io) ∧
    (Willing s → x.send s got = (got ++ out, .ok ())) := by
  have hs : Sends s (x.send s) out := sends_class h
  refine ⟨hs.pre got, hs.done got, ?_, fun hw => hs.takes hw got⟩
  cases hr : (x.send s got).2 with
  | ok u => exact .inl rfl
  | error e => rw [hs.fails got e hr]; exact .inr rfl

/-- Proved: if `write_to` succeeds then what the sink got is the class file. -/
theorem C75_success (s : Sink) (x : Class) (got : Bytes) (h : (x.send s got).2 = .ok ()) :
    ∃ out, x.write = .ok out ∧ (x.send s got).1 = got ++ out := by
  obtain ⟨out, ho⟩ := class_sent h
  exact ⟨out, ho, (C75_written s x got out ho).2.1 h⟩

/-- Proved: from a class that cannot be written a sink gets the magic number and the version, or less if it fails
itself. (`ub` is for strings that are not WTF-8.) -/
theorem C75_failed_partial (s : Sink) (x : Class) (got : Bytes) (e : Err) (h : x.write = .error e) (he : e ≠ .ub) :
    (∃ p q, header x.version = p ++ q ∧ (x.send s got).1 = got ++ p) ∧
    ((x.send s got).2 = .error .io ∨ (x.send s got).2 = .error e) ∧
    (Willing s → x.send s got = (got ++ header x.version, .error e)) := by
  have := class_failed (s := s) (v := x.version) h he got
  rw [header_eq] at this
  exact this

/-- The same for a class that was read. -/
theorem C75_rewritten (s : Sink) (x : Class) (fuel : Nat) (got out : Bytes) (h : x.rewrite fuel = .ok out) :
    (∃ p q, out = p ++ q ∧ (x.resend s fuel got).1 = got ++ p) ∧
    ((x.resend s fuel got).2 = .ok () → (x.resend s fuel got).1 = got ++ out) ∧
    ((x.resend s fuel got).2 = .ok () ∨ (x.resend s fuel got).2 = .error .io) ∧
    (Willing s → x.resend s fuel got = (got ++ out, .ok ())) := by
  have hs : Sends s (x.resend s fuel) out := sends_class h
  refine ⟨hs.pre got, hs.done got, ?_, fun hw => hs.takes hw got⟩
  cases hr : (x.resend s fuel got).2 with
  | ok u => exact .inl rfl
  | error e => rw [hs.fails got e hr]; exact .inr rfl

theorem C75_refailed_partial (s : Sink) (x : Class) (fuel : Nat) (got : Bytes) (e : Err) (h : x.rewrite fuel = .error e)
    (he : e ≠ .ub) :
    (∃ p q, header x.version = p ++ q ∧ (x.resend s fuel got).1 = got ++ p) ∧
    ((x.resend s fuel got).2 = .error .io ∨ (x.resend s fuel got).2 = .error e) ∧
    (Willing s → x.resend s fuel got = (got ++ header x.version, .error e)) := by
  have := class_failed (s := s) (v := x.version) h he got
  rw [header_eq] at this
  exact this

/-- Violated: by a method that jumps to a label that is not there. -/
theorem C75_violated : ¬ C75_full := by
  intro h
  have h1 := h (fun _ _ => none) jumpClass [] .invalid (fun _ _ => rfl) jumpClass_fails
  rw [(C75_failed_partial _ jumpClass [] .invalid jumpClass_fails (by decide)).2.2 fun _ _ => rfl] at h1
  cases h1

/-- A sink with room for twenty bytes, of which it has used two. -/
example : (sampleClass.send (fun got req => if got.length + req.length ≤ 20 then none else some (20 - got.length)) [1, 2]) =
    ([1, 2, 0xCA, 0xFE, 0xBA, 0xBE, 0, 0, 0, 52, 0, 33, 1, 0, 1, 0x41, 7, 0, 1, 1], .error .io) := by
  have h : (match sampleClass.send (fun got req => if got.length + req.length ≤ 20 then none else some (20 - got.length)) [1, 2] with
    | (got, .error .io) => got == [1, 2, 0xCA, 0xFE, 0xBA, 0xBE, 0, 0, 0, 52, 0, 33, 1, 0, 1, 0x41, 7, 0, 1, 1]
    | _ => false) = true := by decide +kernel
  split at h
  · rename_i e; rw [e, beq_iff_eq.mp h]
  · cases h

example : ∃ out, sampleClass.write = .ok out := by
  cases h : sampleClass.write with
  | ok out => exact ⟨out, rfl⟩
  | error e =>
    have : (match sampleClass.write with | .ok _ => true | .error _ => false) = true := by decide +kernel
    rw [h] at this
    cases this

end Verif.Props
