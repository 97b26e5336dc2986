import Verif.Lemmas.Push
import Verif.Props.Sink

/-! # C108: a class is written to any sink, and in whatever pieces -/

namespace Verif.Props
open Verif Spec

variable {σ ε : Type} (o : Outlet σ ε)

theorem push_total (x : Class) (got : Bytes) : x.send (fun _ _ => none) got = (got ++ x.push.total.1, x.push.total.2) := by
  rw [← Push.total_send, Class.push, Push.send_file]
  rfl

theorem repush_total (x : Class) (fuel : Nat) (got : Bytes) :
    x.resend (fun _ _ => none) fuel got = (got ++ (x.repush fuel).total.1, (x.repush fuel).total.2) := by
  rw [← Push.total_send, Class.repush, Push.send_file]
  rfl

/-- C108. If `write_to` succeeds, the sink has taken the class file: each byte, once and in its place, whatever pieces it
takes at a time and however often it is interrupted. -/
theorem C108_written (x : Class) (s s' : σ) (d : Bytes) (q c i : Nat) (h : o.Run x.push s d (.ok ()) s' q c i) :
    x.write = .ok d := by
  have ht := (Outlet.run_total h).2.1 rfl
  have hs := push_total x []
  rw [ht] at hs
  obtain ⟨out, h1, h2⟩ := C75_success (fun _ _ => none) x [] (by rw [hs])
  rw [hs] at h2
  rw [h1, ← show d = out from h2]

/-- C108. Whatever the sink does, it takes a beginning of the class file, and the only errors are those of the sink. -/
theorem C108_prefix (x : Class) (out : Bytes) (hx : x.write = .ok out) (s s' : σ) (d : Bytes) (r : Except (Stop ε) Unit)
    (q c i : Nat) (h : o.Run x.push s d r s' q c i) :
    d <+: out ∧ (r = .ok () → d = out) ∧ ∀ e, r ≠ .error (.refused e) := by
  have hs := (C75_written (fun _ _ => none) x [] out hx).2.2.2 fun _ _ => rfl
  rw [push_total] at hs
  obtain ⟨h1, h2, h3⟩ := Outlet.run_total h
  have e1 : x.push.total.1 = out := congrArg Prod.fst hs
  have e2 : x.push.total.2 = .ok () := congrArg Prod.snd hs
  refine ⟨e1 ▸ h1, fun hr => ?_, fun e hr => ?_⟩
  · rw [← e1, h2 hr]
  · rw [h3 e hr] at e2
    cases e2

/-- C108. From a class that cannot be written the sink takes no more than the magic number and the version, and the
error is the one of the class unless the sink has failed. -/
theorem C108_refused (x : Class) (e : Err) (hx : x.write = .error e) (he : e ≠ .ub) (s s' : σ) (d : Bytes)
    (r : Except (Stop ε) Unit) (q c i : Nat) (h : o.Run x.push s d r s' q c i) :
    d <+: header x.version ∧ r ≠ .ok () ∧ ∀ e', r = .error (.refused e') → e' = e ∧ d = header x.version := by
  have hs := (C75_failed_partial (fun _ _ => none) x [] e hx he).2.2 fun _ _ => rfl
  rw [push_total] at hs
  obtain ⟨h1, h2, h3⟩ := Outlet.run_total h
  have e1 : x.push.total.1 = header x.version := congrArg Prod.fst hs
  have e2 : x.push.total.2 = .error e := congrArg Prod.snd hs
  refine ⟨e1 ▸ h1, fun hr => ?_, fun e' hr => ?_⟩
  · rw [h2 hr] at e2
    cases e2
  · rw [h3 e' hr] at e1 e2
    cases e2
    exact ⟨rfl, e1⟩

/-- C108. Writing ends, with one result, unless the sink is interrupted for ever. -/
theorem C108_ends (hp : o.Patient) (x : Class) (s : σ) : ∃ d r s' q c i, o.Run x.push s d r s' q c i ∧
    ∀ d2 r2 s2 q2 c2 i2, o.Run x.push s d2 r2 s2 q2 c2 i2 → d2 = d ∧ r2 = r ∧ s2 = s' := by
  obtain ⟨d, r, s', q, c, i, h⟩ := Outlet.run_ends hp x.push s
  refine ⟨d, r, s', q, c, i, h, fun d2 r2 s2 q2 c2 i2 h2 => ?_⟩
  have := Outlet.run_det h h2
  exact ⟨this.1, this.2.1, this.2.2.1⟩

/-- C108. A sink that does not fail, and takes at least a byte whenever it is not interrupted, gets the class file. -/
theorem C108_taken (ht : o.Takes) (hp : o.Patient) (x : Class) (out : Bytes) (hx : x.write = .ok out) (s : σ) :
    ∃ s' q c i, o.Run x.push s out (.ok ()) s' q c i := by
  obtain ⟨d, r, s', q, c, i, h⟩ := Outlet.run_ends hp x.push s
  obtain ⟨_, h2, h3⟩ := C108_prefix o x out hx _ _ _ _ _ _ _ h
  rcases Outlet.run_takes ht h with rfl | ⟨e, rfl⟩
  · obtain rfl := h2 rfl
    exact ⟨_, _, _, _, h⟩
  · exact absurd rfl (h3 e)

/-- C108. What was in the sink before is still there, followed by what was taken. -/
theorem C108_kept (content : σ → Bytes) (hk : o.Keeps content) (x : Class) (s s' : σ) (d : Bytes)
    (r : Except (Stop ε) Unit) (q c i : Nat) (h : o.Run x.push s d r s' q c i) : content s' = content s ++ d :=
  Outlet.run_keeps hk h

/-- C108. `write_all` is called at most once for every byte that is taken, and so is `write`, which is called once more
for every interruption; each once more if the sink fails or takes nothing. -/
theorem C108_calls (x : Class) (s s' : σ) (d : Bytes) (r : Except (Stop ε) Unit) (q c i : Nat)
    (h : o.Run x.push s d r s' q c i) : q ≤ d.length + Outlet.cut r ∧ c ≤ d.length + i + Outlet.cut r := by
  have := Outlet.run_pieces h 0 (Push.spare_file _ _)
  exact ⟨by omega, Outlet.run_calls h⟩

/-- C108. The same for a class that was read, whose cells share the table of bootstrap methods. -/
theorem C108_rewritten (x : Class) (fuel : Nat) (out : Bytes) (hx : x.rewrite fuel = .ok out) (s s' : σ) (d : Bytes)
    (r : Except (Stop ε) Unit) (q c i : Nat) (h : o.Run (x.repush fuel) s d r s' q c i) :
    d <+: out ∧ (r = .ok () → d = out) ∧ (∀ e, r ≠ .error (.refused e)) ∧
    q ≤ d.length + Outlet.cut r ∧ c ≤ d.length + i + Outlet.cut r := by
  have hs := (C75_rewritten (fun _ _ => none) x fuel [] out hx).2.2.2 fun _ _ => rfl
  rw [repush_total] at hs
  obtain ⟨h1, h2, h3⟩ := Outlet.run_total h
  have e1 : (x.repush fuel).total.1 = out := congrArg Prod.fst hs
  have e2 : (x.repush fuel).total.2 = .ok () := congrArg Prod.snd hs
  have := Outlet.run_pieces h 0 (Push.spare_file _ _)
  refine ⟨e1 ▸ h1, fun hr => ?_, fun e hr => ?_, by omega, Outlet.run_calls h⟩
  · rw [← e1, h2 hr]
  · rw [h3 e hr] at e2
    cases e2

/-! ### A sink that takes two bytes at a time and is interrupted between them -/

def sip : Outlet (Bytes × Bool) String where
  write s req := if s.2 then (.interrupted, (s.1, false)) else (.bytes (min 2 req.length), (s.1 ++ req.take 2, true))
  bounded := by
    intro s req n s' h
    split at h <;> cases h
    exact Nat.min_le_right _ _

theorem sip_patient : sip.Patient := by
  refine Subrelation.wf (r := InvImage (· < ·) fun s : Bytes × Bool => if s.2 then 1 else 0) ?_ (InvImage.wf _ Nat.lt_wfRel.wf)
  rintro s' s ⟨req, h⟩
  unfold sip at h
  dsimp only at h
  split at h
  · rename_i hs
    cases h
    simp only [InvImage, hs]
    exact Nat.zero_lt_one
  · cases h

theorem sip_takes : sip.Takes := by
  intro s req hr
  unfold sip
  dsimp only
  split
  · exact .inl ⟨_, rfl⟩
  · have := List.length_pos_iff.mpr hr
    exact .inr ⟨min 2 req.length - 1, _, by rw [show min 2 req.length - 1 + 1 = min 2 req.length by omega]⟩

theorem sip_keeps : sip.Keeps Prod.fst := by
  intro s req t s' h
  unfold sip at h
  dsimp only at h
  split at h <;> cases h
  · rfl
  · simp only [List.take_eq_take_iff, List.append_cancel_left_eq]
    omega

/-- A class is written to it, and is then in it behind what was there. -/
example : ∃ out s' q c i, sip.Run sampleClass.push ([7], true) out (.ok ()) s' q c i ∧ s'.1 = [7] ++ out ∧
    c ≤ out.length + i := by
  cases h : sampleClass.write with
  | ok out =>
    obtain ⟨s', q, c, i, h1⟩ := C108_taken sip sip_takes sip_patient sampleClass out h ([7], true)
    exact ⟨out, s', q, c, i, h1, C108_kept sip Prod.fst sip_keeps _ _ _ _ _ _ _ _ h1, (C108_calls sip _ _ _ _ _ _ _ _ h1).2⟩
  | error e =>
    have : (match sampleClass.write with | .ok _ => true | .error _ => false) = true := by decide +kernel
    rw [h] at this
    cases this

/-- A class that cannot be written (`C75_violated`): the sink gets the header. -/
example : ∃ s' q c i, sip.Run jumpClass.push ([], false) (header jumpClass.version) (.error (.refused .invalid)) s' q c i := by
  obtain ⟨d, r, s', q, c, i, h, _⟩ := C108_ends sip sip_patient jumpClass ([], false)
  have h1 := C108_refused sip jumpClass .invalid jumpClass_fails (by decide) _ _ _ _ _ _ _ h
  rcases Outlet.run_takes sip_takes h with rfl | ⟨e, rfl⟩
  · exact absurd rfl h1.2.1
  · obtain ⟨rfl, rfl⟩ := h1.2.2 e rfl
    exact ⟨s', q, c, i, h⟩

end Verif.Props
