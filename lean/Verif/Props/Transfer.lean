import Verif.Spec.Transfer
import Verif.Props.Series
import Verif.Props.Storable
import Verif.Props.Repro
import Verif.Props.Nested

/-! # C110: a stream of classes is copied class by class -/

namespace Verif.Props
open Verif Spec

variable {σ τ υ ε ε' ε'' : Type} (src : Source τ ε') (f : List LocalVariable → List LocalVariable) (o : Outlet σ ε)

/-- C110. The bytes that are delivered for each class are a class file with this class; those written are the first. -/
theorem C110_read (t t' : τ) (s s' : σ) (xs ys : List (Bytes × Class)) (r : Halt ε' ⊕ Stop ε)
    (h : Transfer src f o t s xs ys r t' s') : (∀ x ∈ xs, Class.read (fun _ _ => f) x.1 = .ok (x.2, [])) ∧ ys <+: xs ∧
    (xs = ys ∨ ∃ x, xs = ys ++ [x]) := by
  have key : ∀ {t t' : τ} {b : Bytes} {x : Class}, src.Run (Class.pull f) t b (.ok x) t' →
      Class.read (fun _ _ => f) b = .ok (x, []) := fun h => by
    have := C101_accepted src f _ _ _ _ h []
    rwa [List.append_nil] at this
  induction h with
  | next h _ _ ih =>
    refine ⟨fun x hx => ?_, (List.prefix_cons_inj _).mpr ih.2.1, ih.2.2.imp (congrArg _) fun ⟨x, hx⟩ => ⟨x, congrArg _ hx⟩⟩
    rcases List.mem_cons.mp hx with rfl | hx
    · exact key h
    · exact ih.1 x hx
  | unread h => exact ⟨fun x hx => (nomatch hx), List.prefix_refl _, .inl rfl⟩
  | unwritten h _ =>
    refine ⟨fun x hx => ?_, List.nil_prefix, .inr ⟨_, rfl⟩⟩
    rw [List.mem_singleton.mp hx]
    exact key h

theorem rewritten {x : Class} {s s' : σ} {d : Bytes} {q c i : Nat} (h' : o.Run (x.repush 65538) s d (.ok ()) s' q c i) :
    x.rewrite 65538 = .ok d := by
  have ht := (Outlet.run_total h').2.1 rfl
  have hs := repush_total x 65538 []
  rw [ht] at hs
  obtain ⟨out, ho⟩ := class_sent (s := fun _ _ => none) (v := x.version) (got := [])
    (show (x.resend (fun _ _ => none) 65538 []).2 = .ok () by rw [hs])
  have ho : x.rewrite 65538 = .ok out := ho
  have h4 := (C75_rewritten (fun _ _ => none) x 65538 [] out ho).2.1 (by rw [hs])
  rw [hs] at h4
  rw [ho, ← show d = out from h4]

/-- C110. The sink has the copies of these classes one after the other, behind what it had. They are all of it if it is
the source that has come to an end, has failed or has delivered something else. -/
theorem C110_content (content : σ → Bytes) (hk : o.Keeps content) (t t' : τ) (s s' : σ) (xs ys : List (Bytes × Class))
    (r : Halt ε' ⊕ Stop ε) (h : Transfer src f o t s xs ys r t' s') :
    ∃ (outs : List Bytes) (p : Bytes), Matched (fun y out => copy (fun _ _ => f) 65538 y.1 = .ok out) ys outs ∧
      content s' = content s ++ (outs.flatten ++ p) ∧ (∀ e, r = .inl e → p = [] ∧ xs = ys) := by
  induction h with
  | @next t t' t'' s s' s'' b d x xs ys r q c i h h' _ ih =>
    obtain ⟨outs, p, h1, h2, h3⟩ := ih
    have hw := rewritten o h'
    have hr := C101_accepted src f _ _ _ _ h []
    rw [List.append_nil] at hr
    refine ⟨d :: outs, p, .cons (by unfold copy; rw [hr]; exact hw) h1, ?_, fun e he => ⟨(h3 e he).1, by rw [(h3 e he).2]⟩⟩
    rw [h2, Outlet.run_keeps hk h', List.flatten_cons, List.append_assoc, List.append_assoc]
  | unread h => exact ⟨[], [], .nil, (List.append_nil _).symm, fun _ _ => ⟨rfl, rfl⟩⟩
  | unwritten h h' => exact ⟨[], _, .nil, Outlet.run_keeps hk h', fun e he => (nomatch he)⟩

/-- If the copies are classes that are related to the originals, then so are the classes that are found in the sink. -/
theorem back_read (hf : ∀ l, (f l).Perm l) (content : σ → Bytes) (hk : o.Keeps content) (t t' : τ) (s s' : σ)
    (xs ys : List (Bytes × Class)) (r : Halt ε' ⊕ Stop ε) (h : Transfer src f o t s xs ys r t' s') (R : Class → Class → Prop)
    (key : ∀ x ∈ xs, ∀ out, x.2.rewrite 65538 = .ok out → ∃ z, Class.read (fun _ _ => f) out = .ok (z, []) ∧ R x.2 z)
    (hs : content s = []) (back : Source υ ε'') (content' : υ → Bytes)
    (hd : back.Delivers content') (he : back.EndsWith content') (hp : back.Patient) (u : υ) (hu : content' u = content s') :
    ∃ zs, Matched (fun y z => R y.2 z) ys zs ∧ (∃ e u', back.Series f u zs e u') ∧
      ∀ zs' e u', back.Series f u zs' e u' → zs' = zs ∧ e.err = .io := by
  have reads := (C110_read src f o _ _ _ _ _ _ _ h).1
  have noub : ∀ x ∈ xs, x.2.rewrite 65538 ≠ .error .ub := by
    intro x hm hw
    haveI : Usual fun e => e ≠ .ub := ⟨(fun h => nomatch h), (fun h => nomatch h)⟩
    exact ends_rewrite (U := fun e => e ≠ .ub) (fun h => nomatch h)
      (read_shared (fun k n l v hv => (hf l).mem_iff.mp hv) (reads x hm)) 65538 .ub hw rfl
  have main : ∃ (L : List (Bytes × Class)) (p : Bytes), content s' = content s ++ (L.flatMap Prod.fst ++ p) ∧
      Class.read (fun _ _ => f) p = .error .io ∧ (∀ y ∈ L, Class.read (fun _ _ => f) y.1 = .ok (y.2, [])) ∧
      Matched (fun y z => R y.2 z) ys (L.map Prod.snd) := by
    clear hs hu reads
    induction h with
    | @next t t' t'' s s' s'' b d x xs ys r q c i h h' k ih =>
      obtain ⟨L, p, h1, h2, h3, h4⟩ := ih (fun x hm => key x (.tail _ hm)) fun x hm => noub x (.tail _ hm)
      have hw := rewritten o h'
      obtain ⟨z, hz, hr⟩ := key _ (.head _) d hw
      refine ⟨(d, z) :: L, p, ?_, h2, ?_, .cons hr h4⟩
      · rw [h1, Outlet.run_keeps hk h', List.flatMap_cons, List.append_assoc, List.append_assoc]
      · intro y hy
        rcases List.mem_cons.mp hy with rfl | hy
        · exact hz
        · exact h3 y hy
    | unread h => exact ⟨[], [], (List.append_nil _).symm, rfl, (fun y hy => nomatch hy), .nil⟩
    | unwritten h h' =>
      refine ⟨[], _, Outlet.run_keeps hk h', stopped_file f (noub _ (.head _)) (fun out ho => ?_) h',
        (fun y hy => nomatch hy), .nil⟩
      exact (key _ (.head _) out ho).imp fun _ h => h.1
  obtain ⟨L, p, h1, h2, h3, h4⟩ := main
  rw [hs, List.nil_append] at h1
  obtain ⟨h5, h6⟩ := series_read f hd he hp h2 L h3 u (hu.trans h1)
  exact ⟨_, h4, h5, h6⟩

/-- What C67 asks of a class file that is to be copied. -/
structure Copyable (y : Bytes × Class) : Prop where
  regular : Regular y.2
  small : y.1.length < 2 ^ 31
  copy : ∀ out, y.2.rewrite 65538 = .ok out → out.length < 2 ^ 32

/-- C110. What is in the sink is then read, class by class: the classes that are found are those that were written, each
restored as in C67, and the error is that the input has ended; wherever the source or the sink has failed. -/
theorem C110_restored (hf : ∀ l, (f l).Perm l) (content : σ → Bytes) (hk : o.Keeps content) (t t' : τ) (s s' : σ)
    (xs ys : List (Bytes × Class)) (r : Halt ε' ⊕ Stop ε) (h : Transfer src f o t s xs ys r t' s')
    (hx : ∀ x ∈ xs, Copyable x) (hs : content s = []) (back : Source υ ε'') (content' : υ → Bytes)
    (hd : back.Delivers content') (he : back.EndsWith content') (hp : back.Patient) (u : υ) (hu : content' u = content s') :
    ∃ zs, Matched (fun y z => Restored y.2 z) ys zs ∧ (∃ e u', back.Series f u zs e u') ∧
      ∀ zs' e u', back.Series f u zs' e u' → zs' = zs ∧ e.err = .io := by
  refine back_read src f o hf content hk t t' s s' xs ys r h Restored (fun x hm out hw => ?_) hs back content' hd he hp u hu
  have := C67_roundtrip_partial (fun _ _ => f) (fun _ _ => hf) x.1 [] out x.2
    ((C110_read src f o _ _ _ _ _ _ _ h).1 x hm) (hx x hm).regular hw (hx x hm).small ((hx x hm).copy out hw) []
  rwa [List.append_nil] at this

/-- What C96 asks of a class file that is to be copied: bootstrap methods may have dynamic arguments. -/
structure NestedCopyable (y : Bytes × Class) : Prop where
  regular : RegularNested y.2
  small : y.1.length < 2 ^ 31
  copy : ∀ out, y.2.rewrite 65538 = .ok out → out.length < 2 ^ 32

/-- C110. If bootstrap methods have dynamic arguments, then the classes that were written are found as well, one for
one, with these arguments numbered as in C96; each is restored exactly if its bootstrap methods are in order. -/
theorem C110_nested (hf : ∀ l, (f l).Perm l) (content : σ → Bytes) (hk : o.Keeps content) (t t' : τ) (s s' : σ)
    (xs ys : List (Bytes × Class)) (r : Halt ε' ⊕ Stop ε) (h : Transfer src f o t s xs ys r t' s')
    (hx : ∀ x ∈ xs, NestedCopyable x) (hs : content s = []) (back : Source υ ε'') (content' : υ → Bytes)
    (hd : back.Delivers content') (he : back.EndsWith content') (hp : back.Patient) (u : υ) (hu : content' u = content s') :
    ∃ zs, Matched (fun y z => z.attrs = (withNumbers (completed y.2)).attrs ∧
        SameClass [] (fun b b' => ∃ ρ, SameBody (writtenBsms (completed y.2)) b b' ρ) (withNumbers (completed y.2)) z ∧
        (Restored y.2 z ↔ Ordered (usedBsms (completed y.2)))) ys zs ∧ (∃ e u', back.Series f u zs e u') ∧
      ∀ zs' e u', back.Series f u zs' e u' → zs' = zs ∧ e.err = .io := by
  refine back_read src f o hf content hk t t' s s' xs ys r h (fun x z => z.attrs = (withNumbers (completed x)).attrs ∧
    SameClass [] (fun b b' => ∃ ρ, SameBody (writtenBsms (completed x)) b b' ρ) (withNumbers (completed x)) z ∧
    (Restored x z ↔ Ordered (usedBsms (completed x)))) (fun x hm out hw => ?_) hs back content' hd he hp u hu
  have := C96_copy (fun _ _ => f) (fun _ _ => hf) x.1 [] out x.2
    ((C110_read src f o _ _ _ _ _ _ _ h).1 x hm) (hx x hm).regular hw (hx x hm).small ((hx x hm).copy out hw) []
  rwa [List.append_nil] at this

/-- C110. If the source delivers class files one after the other and then ends, and each of them can be written, then a
sink that does not fail gets the copies of all of them. -/
theorem C110_all (content' : τ → Bytes) (hd : src.Delivers content') (he : src.EndsWith content') (hp : src.Patient)
    (ht : o.Takes) (hq : o.Patient) (xs : List (Bytes × Class))
    (hx : ∀ x ∈ xs, Class.read (fun _ _ => f) x.1 = .ok (x.2, []) ∧ ∃ out, x.2.rewrite 65538 = .ok out)
    (t : τ) (s : σ) (hc : content' t = xs.flatMap Prod.fst) :
    ∃ e t' s', Transfer src f o t s xs xs (.inl e) t' s' ∧ e.err = .io := by
  induction xs generalizing t s with
  | nil =>
    have hr : Class.read (fun _ _ => f) (content' t) = .error .io := by rw [hc]; rfl
    obtain ⟨d, e, t', h, h1⟩ := ((C101_served src f content' hd he hp t).2 .io).mp hr
    exact ⟨e, t', s, .unread h, h1⟩
  | cons x xs ih =>
    obtain ⟨hr, out, hw⟩ := hx x (.head _)
    have hr : Class.read (fun _ _ => f) (content' t) = .ok (x.2, xs.flatMap Prod.fst) := by
      rw [hc, List.flatMap_cons]
      exact C76_more _ _ _ _ _ [] (fun _ => rfl) hr
    obtain ⟨d, t', h, h0, h1⟩ := (C101_delivered src f content' hd hp t).1 _ _ hr
    obtain rfl : x.1 = d := List.append_cancel_right ((List.flatMap_cons.symm.trans hc.symm).trans h0)
    obtain ⟨d', r, s', q, c, i, h2⟩ := Outlet.run_ends hq (x.2.repush 65538) s
    have h3 := C108_rewritten o x.2 65538 out hw _ _ _ _ _ _ _ h2
    rcases Outlet.run_takes ht h2 with rfl | ⟨e, rfl⟩
    · obtain ⟨e, t'', s'', h4, h5⟩ := ih (fun y hy => hx y (.tail _ hy)) t' s' h1
      exact ⟨e, t'', s'', .next h h2 h4, h5⟩
    · exact absurd rfl (h3.2.2.1 e)

/-! ### Two class files with a call site -/

def callFile : Bytes := tableFile [0, 2] []

/-- A source that delivers three bytes at a time, a sink that takes two. -/
example : ∃ e t' s', Transfer thirds id sip (callFile ++ callFile) ([], true) [(callFile, callSite), (callFile, callSite)]
      [(callFile, callSite), (callFile, callSite)] (.inl e) t' s' ∧ e.err = .io ∧
    ∃ y z, Restored callSite y ∧ Restored callSite z ∧ ∃ e' u', thirds.Series id s'.1 [y, z] e' u' := by
  have hn := acyclic_static (table_static (regular_static callSite_regular))
  have hr := C66_written_partial _ (fun _ _ l => List.Perm.refl l) _ _ _ callSite_read hn
  obtain ⟨out, hw, hl⟩ := written_of (x := completed callSite) (n := 138) (by decide +kernel)
  rw [hw] at hr
  have two : ∀ x ∈ [(callFile, callSite), (callFile, callSite)], x = (callFile, callSite) := fun x hx => by
    simp only [List.mem_cons, List.not_mem_nil, or_false, or_self] at hx
    exact hx
  obtain ⟨e, t', s', h, h1⟩ := C110_all thirds id sip id thirds_delivers thirds_ends thirds_patient sip_takes
    sip_patient [(callFile, callSite), (callFile, callSite)] (fun x hx => by
      rw [two x hx]
      exact ⟨callSite_read, out, hr⟩) (callFile ++ callFile) ([], true) (by
      rw [List.flatMap_cons, List.flatMap_cons, List.flatMap_nil, List.append_nil, id])
  refine ⟨e, t', s', h, h1, ?_⟩
  obtain ⟨zs, h3, h4, _⟩ := C110_restored thirds id sip (fun _ => .refl _) Prod.fst sip_keeps _ _ _ _ _ _ _ h
    (fun y hy => by
      rw [two y hy]
      refine ⟨callSite_regular, by unfold callFile; decide +kernel, fun out' ho => ?_⟩
      rw [show (callFile, callSite).2 = callSite from rfl, hr] at ho
      cases ho
      omega) rfl thirds id thirds_delivers thirds_ends thirds_patient s'.1 rfl
  cases h3 with
  | cons a h3 =>
    cases h3 with
    | cons b h3 =>
      cases h3
      exact ⟨_, _, a, b, h4⟩

/-- Two class files whose bootstrap methods have dynamic arguments. Both copies are found. -/
example : ∃ e t' s', Transfer thirds id sip (tableFile [] [0, 11] ++ tableFile [0, 12] []) ([], true)
      [(tableFile [] [0, 11], layered [] [madeWith 0]), (tableFile [0, 12] [], layered [madeWith 1] [])]
      [(tableFile [] [0, 11], layered [] [madeWith 0]), (tableFile [0, 12] [], layered [madeWith 1] [])] (.inl e) t' s' ∧
    ∃ y z, y.attrs = (withNumbers (completed (layered [] [madeWith 0]))).attrs ∧
      z.attrs = (withNumbers (completed (layered [madeWith 1] []))).attrs ∧
      ∃ e' u', thirds.Series id s'.1 [y, z] e' u' := by
  have hr := C66_written_partial _ (fun _ _ l => List.Perm.refl l) _ _ _ below_read below_regular.acyclic
  have hr' := C66_written_partial _ (fun _ _ l => List.Perm.refl l) _ _ _ above_read above_regular.acyclic
  obtain ⟨out, hw, hl⟩ := written_of (x := completed (layered [] [madeWith 0])) (n := 154) (by decide +kernel)
  obtain ⟨out', hw', hl'⟩ := written_of (x := completed (layered [madeWith 1] [])) (n := 165) (by decide +kernel)
  rw [hw] at hr
  rw [hw'] at hr'
  have two : ∀ x ∈ [(tableFile [] [0, 11], layered [] [madeWith 0]), (tableFile [0, 12] [], layered [madeWith 1] [])],
      x = (tableFile [] [0, 11], layered [] [madeWith 0]) ∨ x = (tableFile [0, 12] [], layered [madeWith 1] []) :=
    fun x hx => by
      simp only [List.mem_cons, List.not_mem_nil, or_false] at hx
      exact hx
  obtain ⟨e, t', s', h, h1⟩ := C110_all thirds id sip id thirds_delivers thirds_ends thirds_patient sip_takes
    sip_patient [(tableFile [] [0, 11], layered [] [madeWith 0]), (tableFile [0, 12] [], layered [madeWith 1] [])]
    (fun x hx => by
      rcases two x hx with rfl | rfl
      · exact ⟨below_read, out, hr⟩
      · exact ⟨above_read, out', hr'⟩) (tableFile [] [0, 11] ++ tableFile [0, 12] []) ([], true) (by
      rw [List.flatMap_cons, List.flatMap_cons, List.flatMap_nil, List.append_nil, id])
  refine ⟨e, t', s', h, ?_⟩
  obtain ⟨zs, h3, h4, _⟩ := C110_nested thirds id sip (fun _ => .refl _) Prod.fst sip_keeps _ _ _ _ _ _ _ h
    (fun y hy => by
      rcases two y hy with rfl | rfl
      · refine ⟨below_regular, by decide +kernel, fun o ho => ?_⟩
        rw [show o = out from Except.ok.inj (ho.symm.trans hr)]
        omega
      · refine ⟨above_regular, by decide +kernel, fun o ho => ?_⟩
        rw [show o = out' from Except.ok.inj (ho.symm.trans hr')]
        omega) rfl thirds id thirds_delivers thirds_ends thirds_patient s'.1 rfl
  cases h3 with
  | cons a h3 =>
    cases h3 with
    | cons b h3 =>
      cases h3
      exact ⟨_, _, a.1, b.1, h4⟩

end Verif.Props
