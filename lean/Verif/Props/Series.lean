import Verif.Lemmas.Series
import Verif.Props.Class

/-! # C109: classes that are written to one stream are read from it, up to the first that was not written -/

namespace Verif.Props
open Verif Spec

variable {σ τ ε ε' : Type} (o : Outlet σ ε) (src : Source τ ε') (f : List LocalVariable → List LocalVariable)

/-- C109. Classes are written to an empty sink one after the other until `write_to` fails; what is then in the sink is
read one after the other until `read_from` fails. The classes that are found are those for which `write_to` has
succeeded, each as if it were in a file of its own, and the error is that the input has ended; whatever pieces the sink
takes and the source delivers, and wherever the sink has failed. -/
theorem C109_found (content : σ → Bytes) (hk : o.Keeps content) (content' : τ → Bytes) (hd : src.Delivers content')
    (he : src.EndsWith content') (hp : src.Patient) (xs ys : List Class) (s s' : σ) (r : Except (Stop ε) Unit)
    (h : o.Series xs s ys r s') (hx : ∀ x ∈ xs, ReadsBack f x) (hs : content s = []) (t : τ) (ht : content' t = content s') :
    ∃ zs, Matched (ByItself f) ys zs ∧ (∃ e t', src.Series f t zs e t') ∧
      ∀ zs' e t', src.Series f t zs' e t' → zs' = zs ∧ e.err = .io := by
  obtain ⟨L, p, h1, h2, h3, h4⟩ := series_content f hk h hx
  rw [hs, List.nil_append] at h1
  obtain ⟨h5, h6⟩ := series_read f hd he hp h2 L h3 t (ht.trans h1)
  exact ⟨_, h4, h5, h6⟩

/-- C109. The classes for which `write_to` has succeeded are the first ones, and all of them exactly if the last result
is a success. -/
theorem C109_first (xs ys : List Class) (s s' : σ) (r : Except (Stop ε) Unit) (h : o.Series xs s ys r s') :
    ys <+: xs ∧ (r = .ok () ↔ ys = xs) := by
  induction h with
  | done s => exact ⟨List.prefix_refl _, fun _ => rfl, fun _ => rfl⟩
  | next h _ ih =>
    exact ⟨(List.prefix_cons_inj _).mpr ih.1, fun hr => by rw [ih.2.mp hr], fun hr => ih.2.mpr (List.cons.inj hr).2⟩
  | stop h => exact ⟨List.nil_prefix, fun h => (nomatch h), fun h => (nomatch h)⟩

/-- C109. A sink that does not fail gets all the classes, if they can be written. -/
theorem C109_all (ht : o.Takes) (hp : o.Patient) (xs : List Class) (hx : ∀ x ∈ xs, ∃ out, x.write = .ok out) (s : σ) :
    ∃ s', o.Series xs s xs (.ok ()) s' := by
  induction xs generalizing s with
  | nil => exact ⟨s, .done s⟩
  | cons x xs ih =>
    obtain ⟨out, hw⟩ := hx x (.head _)
    obtain ⟨s', q, c, i, h⟩ := C108_taken o ht hp x out hw s
    obtain ⟨s'', h'⟩ := ih (fun y hy => hx y (.tail _ hy)) s'
    exact ⟨s'', .next h h'⟩

/-- What C47 asks of a class that is to be written and read. -/
structure Sturdy (x : Class) : Prop where
  writable : x.Writable
  fits : AllClass Fitting x
  readable : (withTable x).Readable CodeReadable
  small : ∀ out, x.write = .ok out → out.length < 2 ^ 32
  defined : x.write ≠ .error .ub

/-- C109. Each of the classes that are found is then the same as the one that was written. -/
theorem C109_same (hf : ∀ l, (f l).Perm l) (content : σ → Bytes) (hk : o.Keeps content) (content' : τ → Bytes)
    (hd : src.Delivers content') (he : src.EndsWith content') (hp : src.Patient) (xs ys : List Class) (s s' : σ)
    (r : Except (Stop ε) Unit) (h : o.Series xs s ys r s') (hx : ∀ x ∈ xs, Sturdy x) (hs : content s = [])
    (t : τ) (ht : content' t = content s') (zs : List Class) (e : Halt ε') (t' : τ) (hz : src.Series f t zs e t') :
    e.err = .io ∧ Matched (fun x z => SameClass (writtenBsms x) (fun b b' => ∃ ρ, SameBody (writtenBsms x) b b' ρ)
      (withTable x) z) ys zs := by
  have back : ∀ x ∈ xs, ∀ out, x.write = .ok out → ∃ z, Class.read (fun _ _ => f) out = .ok (z, []) ∧
      SameClass (writtenBsms x) (fun b b' => ∃ ρ, SameBody (writtenBsms x) b b' ρ) (withTable x) z := by
    intro x hm out hw
    have := C47_roundtrip_partial (fun _ _ => f) (fun _ _ => hf) x out (hx x hm).writable (hx x hm).fits hw
      ((hx x hm).small out hw) (hx x hm).readable []
    rwa [List.append_nil] at this
  obtain ⟨zs', h1, h0, h2⟩ := C109_found o src f content hk content' hd he hp xs ys s s' r h
    (fun x hm => ⟨(hx x hm).defined, fun out hw => (back x hm out hw).imp fun _ h => h.1⟩) hs t ht
  obtain ⟨rfl, h3⟩ := h2 _ _ _ hz
  refine ⟨h3, ?_⟩
  have hsub : ∀ y ∈ ys, y ∈ xs := fun y hy => (C109_first o xs ys s s' r h).1.subset hy
  clear h0 h2 hz h ht
  induction h1 with
  | nil => exact .nil
  | cons h _ ih =>
    obtain ⟨out, hw, hr⟩ := h
    obtain ⟨z, hz, hsame⟩ := back _ (hsub _ (.head _)) out hw
    rw [hr] at hz
    cases hz
    exact .cons hsame (ih fun y hy => hsub y (.tail _ hy))

/-! ### A class that is written, one that is not, and one that is not tried -/

/-- A source that delivers three bytes at a time, and ends. -/
def thirds : Source Bytes String where
  read s n := (.bytes (s.take (min n 3)), s.drop (min n 3))
  bounded := by
    intro s n b s' h
    cases h
    rw [List.length_take]
    omega

theorem thirds_delivers : thirds.Delivers id := by
  intro s n hn hs
  refine .inr ⟨_, _, rfl, ?_, (List.take_append_drop _ _).symm⟩
  intro h
  rcases List.take_eq_nil_iff.mp h with h | h
  · omega
  · exact hs h

theorem thirds_ends : thirds.EndsWith id := by
  intro s n _ hs
  obtain rfl : s = [] := hs
  exact .inr ⟨_, Prod.ext (congrArg Answer.bytes List.take_nil) rfl, List.drop_nil⟩

theorem thirds_patient : thirds.Patient := by
  refine ⟨fun s => ⟨_, ?_⟩⟩
  rintro s' ⟨n, h⟩
  cases h

theorem sample_sturdy : Sturdy sampleClass := by
  obtain ⟨bs, hw, hl⟩ := written_of (x := sampleClass) (n := 426) (by decide +kernel)
  refine ⟨sampleClass_writable, sampleClass_fits, sampleClass_readable, fun out h => ?_, fun h => ?_⟩
  · rw [hw] at h
    cases h
    omega
  · rw [hw] at h
    cases h

/-- The sink gets a class and the beginning of another one that cannot be written; the class is found. -/
example : ∃ s' z, sip.Series [sampleClass, jumpClass, sampleClass] ([], false) [sampleClass] (.error (.refused .invalid)) s' ∧
    ByItself id sampleClass z ∧ ∃ e t', thirds.Series id s'.1 [z] e t' := by
  obtain ⟨bs, hw, _⟩ := written_of (x := sampleClass) (n := 426) (by decide +kernel)
  obtain ⟨s1, q, c, i, h1⟩ := C108_taken sip sip_takes sip_patient sampleClass bs hw ([], false)
  obtain ⟨d, r, s2, q2, c2, i2, h2, _⟩ := C108_ends sip sip_patient jumpClass s1
  have h3 := C108_refused sip jumpClass .invalid jumpClass_fails (by decide) _ _ _ _ _ _ _ h2
  have back : ReadsBack id sampleClass := ⟨sample_sturdy.defined, fun out ho => by
    have := C47_roundtrip_partial (fun _ _ => id) (fun _ _ _ => .refl _) sampleClass out sampleClass_writable
      sampleClass_fits ho (sample_sturdy.small out ho) sampleClass_readable []
    rw [List.append_nil] at this
    exact this.imp fun _ h => h.1⟩
  rcases Outlet.run_takes sip_takes h2 with rfl | ⟨e, rfl⟩
  · exact absurd rfl h3.2.1
  · obtain ⟨rfl, rfl⟩ := h3.2.2 e rfl
    have hS : sip.Series [sampleClass, jumpClass, sampleClass] ([], false) [sampleClass] (.error (.refused .invalid)) s2 :=
      .next h1 (.stop h2)
    obtain ⟨zs, hz, he, _⟩ := C109_found sip thirds id Prod.fst sip_keeps id thirds_delivers thirds_ends thirds_patient _ _
      _ _ _ hS (fun x hx => by
        simp only [List.mem_cons, List.not_mem_nil, or_false] at hx
        rcases hx with rfl | rfl | rfl
        · exact back
        · exact ⟨fun h => (by rw [jumpClass_fails] at h; cases h), fun out h => (by rw [jumpClass_fails] at h; cases h)⟩
        · exact back) rfl s2.1 rfl
    cases hz with
    | cons h h' =>
      cases h'
      exact ⟨s2, _, hS, h, he⟩

/-- Two classes are found as what they were. -/
example : ∃ s', sip.Series [sampleClass, sampleClass] ([], false) [sampleClass, sampleClass] (.ok ()) s' ∧
    ∀ zs e t', thirds.Series id s'.1 zs e t' → zs.length = 2 := by
  obtain ⟨bs, hw, _⟩ := written_of (x := sampleClass) (n := 426) (by decide +kernel)
  have hx : ∀ x ∈ [sampleClass, sampleClass], x = sampleClass := fun x hx => by
    simp only [List.mem_cons, List.not_mem_nil, or_false, or_self] at hx
    exact hx
  obtain ⟨s', h⟩ := C109_all sip sip_takes sip_patient [sampleClass, sampleClass]
    (fun x hm => ⟨bs, by rw [hx x hm]; exact hw⟩) ([], false)
  refine ⟨s', h, fun zs e t' hz => ?_⟩
  have := (C109_same sip thirds id (fun _ => .refl _) Prod.fst sip_keeps id thirds_delivers thirds_ends thirds_patient _ _
    _ _ _ h (fun x hm => by rw [hx x hm]; exact sample_sturdy) rfl s'.1 rfl zs e t' hz).2
  cases this with
  | cons _ h' =>
    cases h' with
    | cons _ h'' =>
      cases h''
      rfl

end Verif.Props
