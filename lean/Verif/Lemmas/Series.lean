import Verif.Spec.Series
import Verif.Props.Push
import Verif.Props.Source
import Verif.Props.Stream
import Verif.Props.Misc

/-! # Several classes in one stream -/

namespace Verif
open Spec Verif.Props

/-! ## What a sink has taken when it fails -/

theorem Outlet.all_short {σ ε : Type} {o : Outlet σ ε} {s s' : σ} {req d : Bytes} {r : Except (Option ε) Unit} {c i : Nat}
    (h : o.All s req d r s' c i) : ∀ e, r = .error e → d.length < req.length := by
  induction h with
  | full s => intro e h; cases h
  | zero hr _ => intro _ _; exact List.length_pos_iff.mpr hr
  | failed hr _ => intro _ _; exact List.length_pos_iff.mpr hr
  | again _ _ _ ih => exact ih
  | @some s s' s'' req d n r c i hr h _ ih =>
    intro e he
    have := ih e he
    rw [List.length_drop] at this
    rw [List.length_append, List.length_take]
    omega

/-- A sink that fails, or takes nothing, has not got everything. -/
theorem Outlet.run_short {σ ε : Type} {o : Outlet σ ε} {p : Push} {s s' : σ} {d : Bytes} {r : Except (Stop ε) Unit}
    {q c i : Nat} (h : o.Run p s d r s' q c i) : ∀ e, r = .error e → (∀ x, e ≠ .refused x) → d.length < p.total.1.length := by
  induction h with
  | done s => intro e h; cases h
  | fail e s => intro e h hx; cases h; exact absurd rfl (hx _)
  | next h _ ih =>
    intro e he hx
    have := ih e he hx
    rw [(all_taken h).1 rfl, Push.total, List.length_append, List.length_append]
    omega
  | zero h =>
    intro _ _ _
    have := all_short h _ rfl
    rw [Push.total, List.length_append]
    omega
  | failed h =>
    intro _ _ _
    have := all_short h _ rfl
    rw [Push.total, List.length_append]
    omega

/-! ## Beginnings of class files -/

/-- If a file ends too early, so does each of its beginnings. -/
theorem read_shorter (ord ord' : Order) {p q : Bytes} (h : Class.read ord (p ++ q) = .error .io) :
    Class.read ord' p = .error .io := by
  rcases class_flows (t := q) (fun n => par_any (ord' n) (ord (n + q.length))) p with
    h1 | ⟨e, h1, h2⟩ | ⟨c1, c2, r, _, h1, _⟩
  · exact h1
  · rw [h] at h2
    cases h2
    exact h1
  · rw [h] at h1; cases h1

variable (f : List LocalVariable → List LocalVariable)

theorem read_header (v : Version) : Class.read (fun _ _ => f) (header v) = .error .io := by
  rw [← header_eq]
  unfold Class.read
  have h1 : u32.read (u32.write jvmMagic ++ v.write) = .ok (jvmMagic, v.write) := by
    rw [show u32.write jvmMagic = [0xCA, 0xFE, 0xBA, 0xBE] by decide]
    rfl
  rw [h1]
  dsimp only
  rw [if_pos rfl]
  have h2 := (C29_write v []).2
  rw [List.append_nil] at h2
  rw [h2]
  rfl

/-- What a sink has of a class when `write_to` has failed. -/
theorem stopped_file {σ ε : Type} {o : Outlet σ ε} {v : Version} {body : Res (Bytes × VecCp)}
    (hu : finish v body ≠ .error .ub)
    (hb : ∀ out, finish v body = .ok out → ∃ z, Class.read (fun _ _ => f) out = .ok (z, []))
    {s s' : σ} {d : Bytes} {e : Stop ε} {q c i : Nat} (h : o.Run (.file v body) s d (.error e) s' q c i) :
    Class.read (fun _ _ => f) d = .error .io := by
  have ht := Push.total_send (.file v body) []
  rw [Push.send_file, List.nil_append] at ht
  obtain ⟨⟨t, hd⟩, _, h3⟩ := Outlet.run_total h
  rcases hw : finish v body with e' | out
  · have h1 := (class_failed (s := fun _ _ => none) hw (fun he => hu (he ▸ hw)) []).2.2 fun _ _ => rfl
    rw [ht, header_eq] at h1
    have e1 : (Push.file v body).total.1 = header v := congrArg Prod.fst h1
    rw [e1] at hd
    exact read_shorter (fun _ _ => f) _ (q := t) (by rw [hd]; exact read_header f _)
  · obtain ⟨z, hz⟩ := hb out hw
    have h1 := (sends_class (s := fun _ _ => none) hw).takes (fun _ _ => rfl) []
    rw [ht] at h1
    have e1 : (Push.file v body).total.1 = out := congrArg Prod.fst h1
    have e2 : (Push.file v body).total.2 = .ok () := congrArg Prod.snd h1
    have hl := Outlet.run_short h e rfl fun y hy => by
      rw [h3 y (by rw [hy])] at e2
      cases e2
    rw [e1] at hd hl
    rw [← hd, List.length_append] at hl
    exact C76_truncated _ _ d t z [] (by rw [hd]; exact hz) (by simp only [List.length_nil]; omega)

theorem stopped_read {σ ε : Type} {o : Outlet σ ε} {x : Class} (hx : ReadsBack f x) {s s' : σ} {d : Bytes} {e : Stop ε}
    {q c i : Nat} (h : o.Run x.push s d (.error e) s' q c i) : Class.read (fun _ _ => f) d = .error .io :=
  stopped_file f hx.1 hx.2 h

/-- What a sink has of several classes. -/
theorem series_content {σ ε : Type} {o : Outlet σ ε} {content : σ → Bytes} (hk : o.Keeps content) {xs ys : List Class}
    {s s' : σ} {r : Except (Stop ε) Unit} (h : o.Series xs s ys r s') : (∀ x ∈ xs, ReadsBack f x) →
    ∃ (L : List (Bytes × Class)) (p : Bytes), content s' = content s ++ (L.flatMap Prod.fst ++ p) ∧
      Class.read (fun _ _ => f) p = .error .io ∧ (∀ y ∈ L, Class.read (fun _ _ => f) y.1 = .ok (y.2, [])) ∧
      Matched (ByItself f) ys (L.map Prod.snd) := by
  induction h with
  | done s => exact fun _ => ⟨[], [], (List.append_nil _).symm, rfl, (fun y hy => nomatch hy), .nil⟩
  | @next x xs ys s s' s'' d r q c i h _ ih =>
    intro hx
    obtain ⟨L, p, h1, h2, h3, h4⟩ := ih fun x hm => hx x (.tail _ hm)
    have hw := C108_written o _ _ _ _ _ _ _ h
    obtain ⟨z, hz⟩ := (hx _ (.head _)).2 _ hw
    refine ⟨(d, z) :: L, p, ?_, h2, ?_, .cons ⟨_, hw, hz⟩ h4⟩
    · rw [h1, C108_kept o content hk _ _ _ _ _ _ _ _ h, List.flatMap_cons, List.append_assoc, List.append_assoc]
    · intro y hy
      rcases List.mem_cons.mp hy with rfl | hy
      · exact hz
      · exact h3 y hy
  | stop h =>
    intro hx
    exact ⟨[], _, C108_kept o content hk _ _ _ _ _ _ _ _ h, stopped_read f (hx _ (.head _)) h, (fun y hy => nomatch hy), .nil⟩

/-! ## Reading them -/

theorem series_read {τ ε : Type} {src : Source τ ε} {content : τ → Bytes} (hd : src.Delivers content)
    (he : src.EndsWith content) (hp : src.Patient) {p : Bytes} (hr : Class.read (fun _ _ => f) p = .error .io) :
    ∀ (L : List (Bytes × Class)), (∀ y ∈ L, Class.read (fun _ _ => f) y.1 = .ok (y.2, [])) →
      ∀ t, content t = L.flatMap Prod.fst ++ p → (∃ e t', src.Series f t (L.map Prod.snd) e t') ∧
        ∀ zs e t', src.Series f t zs e t' → zs = L.map Prod.snd ∧ e.err = .io
  | [], _, t, ht => by
    have hc : Class.read (fun _ _ => f) (content t) = .error .io := by rw [ht]; exact hr
    constructor
    · obtain ⟨d, e, t', h, _⟩ := ((C101_served src f content hd he hp t).2 .io).mp hc
      exact ⟨e, t', .stop h⟩
    · intro zs e t' h
      cases h with
      | next h _ =>
        have := ((C101_served src f content hd he hp t).1 _ _).mpr ⟨_, _, h, rfl⟩
        rw [hc] at this; cases this
      | stop h =>
        have := ((C101_served src f content hd he hp t).2 _).mpr ⟨_, _, _, h, rfl⟩
        rw [hc] at this
        exact ⟨rfl, (Except.error.inj this).symm⟩
  | y :: L, hL, t, ht => by
    have hc : Class.read (fun _ _ => f) (content t) = .ok (y.2, L.flatMap Prod.fst ++ p) := by
      rw [ht, List.flatMap_cons, List.append_assoc]
      exact C76_more _ _ _ _ _ [] (fun _ => rfl) (hL y (.head _))
    have ih := series_read hd he hp hr L fun y hy => hL y (.tail _ hy)
    constructor
    · obtain ⟨d, t', h, h1⟩ := ((C101_served src f content hd he hp t).1 _ _).mp hc
      obtain ⟨e, t'', h2⟩ := (ih t' h1).1
      exact ⟨e, t'', .next h h2⟩
    · intro zs e t' h
      cases h with
      | next h h' =>
        have := ((C101_served src f content hd he hp t).1 _ _).mpr ⟨_, _, h, rfl⟩
        rw [hc] at this
        have h1 := Except.ok.inj this
        obtain ⟨h2, h3⟩ := (ih _ (Prod.mk.inj h1).2.symm).2 _ _ _ h'
        rw [h2, List.map_cons, (Prod.mk.inj h1).1]
        exact ⟨rfl, h3⟩
      | stop h =>
        have := ((C101_served src f content hd he hp t).2 _).mpr ⟨_, _, _, h, rfl⟩
        rw [hc] at this; cases this

end Verif
