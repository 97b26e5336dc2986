import Verif.Lemmas.Io
import Verif.Spec.Frame

/-! # Lemmas about stack map frames -/

namespace Verif
open Spec

/-- The label read for `l`: the number of its position. -/
def Spec.Ctx.ren (c : Ctx) (n : UInt32 → Label) (l : Label) : Label :=
  match c.pos l with
  | some p => n (UInt32.ofNat p)
  | none => l

/-- The position of a label as a list. -/
def Spec.Ctx.offs (c : Ctx) (l : Label) : List UInt32 := (c.pos l).toList.map UInt32.ofNat

theorem reads_fmt_label {c : Ctx} {l : Label} {bs : Bytes} (h : Fmt.label c l bs)
    (cs : Option (List Catch)) :
    Reads rLabel ⟨c.pool, cs⟩ bs (fun n => c.ren n l) (c.offs l) [] := by
  obtain ⟨p, h1, h2, rfl⟩ := h
  refine (reads_label ⟨c.pool, cs⟩ h2).cast rfl ?_ ?_ rfl
  · funext n; simp [Ctx.ren, h1]
  · simp [Ctx.offs, h1]

theorem swapV_swapV (v : VType) : swapV (swapV v) = v := by cases v <;> rfl

theorem swapV_inj : Function.Injective swapV := fun a b h => by
  rw [← swapV_swapV a, h, swapV_swapV]

theorem swapF_swapF (f : Frame) : swapF (swapF f) = f := by
  cases f <;> simp [swapF, swapV_swapV, Function.comp_def]

theorem writes_vtype (env : WEnv) (v : VType) : Writes env (v.write env) vtype (swapV v) := by
  unfold VType.write
  cases v with
  | object s =>
    refine Writes.weaken (x := s) (Writes.cons (writes_tag env _ _) (Writes.cons
      (writes_cls env s) (Writes.nil _ _))) ?_
    rintro P bs ⟨b, b', rfl, rfl, b1, b2, rfl, h, rfl⟩
    exact ⟨b1, by simp [swapV, vtypeTag, VType.tag], h⟩
  | uninit l =>
    refine Writes.weaken (x := l) (Writes.cons (writes_tag env _ _) (Writes.cons
      (writes_label env l) (Writes.nil _ _))) ?_
    rintro P bs ⟨b, b', rfl, rfl, b1, b2, rfl, h, rfl⟩
    exact ⟨b1, by simp [swapV, vtypeTag, VType.tag], h⟩
  | _ =>
    refine Writes.weaken (x := ()) (Writes.cons (writes_tag env _ _) (Writes.cons
      (f := fun _ _ bs => bs = []) (GoodW.pure _ (fun _ => rfl)) (Writes.nil _ _))) ?_
    rintro P bs ⟨b, b', rfl, rfl, b1, b2, rfl, rfl, rfl⟩
    exact ⟨[], rfl, rfl⟩

def offsV (c : Ctx) : VType → List UInt32
  | .uninit l => c.offs l
  | _ => []

theorem reads_vtype {c : Ctx} {v : VType} {bs : Bytes} (h : vtype c v bs) (cs : Option (List Catch)) :
    Reads VType.read ⟨c.pool, cs⟩ bs (fun n => renV (c.ren n) (swapV v)) (offsV c v) [] := by
  obtain ⟨b, rfl, hb⟩ := h
  refine PReads.bindR (reads_u1' _ (by cases v <;> simp [vtypeTag])) ?_
  cases v with
  | object s => exact (PReads.map (f := VType.object) (reads_cls hb cs)).reads
  | uninit l => exact Reads.map (f := VType.uninit) (reads_fmt_label hb cs)
  | _ => cases hb; exact (Rd.reads_pure _ _).reads

/-! ## Frames -/

/-- Frames the writer expresses faithfully. -/
def FrameOk : Frame → Prop
  | .append _ vs => vs ≠ []
  | .full _ ls ss => ls.length < 65536 ∧ ss.length < 65536
  | _ => True

theorem writes_all_vtype (env : WEnv) (vs : List VType) :
    Writes env (wAll (VType.write env) vs) (Fmt.all vtype) (vs.map swapV) := by
  refine Writes.weaken (f := Fmt.all (fun c v bs => vtype c (swapV v) bs)) (x := vs)
    (Writes.all (fun v _ => writes_vtype env v)) ?_
  intro P bs h
  induction vs generalizing bs with
  | nil => exact h
  | cons v vs ih =>
    obtain ⟨b, b', rfl, h1, h2⟩ := h
    exact ⟨b, b', rfl, h1, ih b' h2⟩

theorem toUInt8_toNat {off : UInt16} (h : off ≤ 63) : off.toUInt8.toNat = off.toNat := by
  have : off.toNat ≤ 63 := by simpa using UInt16.le_iff_toNat_le.mp h
  simp
  omega

theorem writes_frame (env : WEnv) (f : Frame) (hf : FrameOk f) :
    Writes env (f.write env) frame (swapF f) := by
  cases f with
  | same off =>
    rw [Frame.write]
    split
    · rename_i h
      refine Writes.weaken (x := ()) (writes_tag env _ _) ?_
      rintro P bs rfl
      rw [toUInt8_toNat h]
      have := frame.same (c := env.ctx P) (n := off.toNat) (by simpa using UInt16.le_iff_toNat_le.mp h)
      simpa [swapF] using this
    · refine Writes.weaken (x := off) (Writes.cons (writes_tag env _ _) (Writes.cons
        (writes_u2 env _) (Writes.nil _ _))) ?_
      rintro P bs ⟨b, b', rfl, rfl, b1, b2, rfl, rfl, rfl⟩
      exact .sameExt
  | one off v =>
    rw [Frame.write]
    split
    · rename_i h
      have h' : off.toNat ≤ 63 := by simpa using UInt16.le_iff_toNat_le.mp h
      refine Writes.weaken (x := swapV v) (Writes.cons (writes_tag env _ _) (Writes.cons
        (writes_vtype env _) (Writes.nil _ _))) ?_
      rintro P bs ⟨b, b', rfl, rfl, b1, b2, rfl, h1, rfl⟩
      have := frame.one (c := env.ctx P) (n := off.toNat) h' h1
      have e : (off.toUInt8 + 64).toNat = 64 + off.toNat := by
        rw [UInt8.toNat_add, toUInt8_toNat h]
        simp
        omega
      rw [e]
      simpa [swapF] using this
    · refine Writes.weaken (x := (off, swapV v)) (Writes.cons (writes_tag env _ _) (Writes.cons
        (Writes.on (p := Prod.fst) (writes_u2 env off))
        (Writes.cons (Writes.on (p := Prod.snd) (writes_vtype env v)) (Writes.nil _ _)))) ?_
      rintro P bs ⟨b, b', rfl, rfl, b1, b2, rfl, h1, b3, b4, rfl, h2, rfl⟩
      cases h1
      have := frame.oneExt (c := env.ctx P) (off := off) (v := swapV v) h2
      simpa [swapF] using this
  | chop off n =>
    rw [Frame.write]
    split
    · rename_i h
      have h1 : 1 ≤ n.toNat := by simpa using UInt8.le_iff_toNat_le.mp h.1
      have h2 : n.toNat ≤ 3 := by simpa using UInt8.le_iff_toNat_le.mp h.2
      refine Writes.weaken (x := off) (Writes.cons (writes_tag env _ _) (Writes.cons
        (writes_u2 env _) (Writes.nil _ _))) ?_
      rintro P bs ⟨b, b', rfl, rfl, b1, b2, rfl, rfl, rfl⟩
      have := frame.chop (c := env.ctx P) (off := off) h1 h2
      have e : (251 - n).toNat = 251 - n.toNat := by
        rw [UInt8.toNat_sub]
        simp
        omega
      rw [e]
      simpa [swapF] using this
    · exact GoodW.fail _ _
  | append off vs =>
    rw [Frame.write]
    split
    · rename_i h
      refine Writes.weaken (x := (off, vs.map swapV)) (Writes.cons (writes_tag env _ _) (Writes.cons
        (Writes.on (p := Prod.fst) (writes_u2 env off))
        (Writes.cons (Writes.on (p := Prod.snd) (writes_all_vtype env vs)) (Writes.nil _ _)))) ?_
      rintro P bs ⟨b, b', rfl, rfl, b1, b2, rfl, h1, b3, b4, rfl, h2, rfl⟩
      cases h1
      have hp : 1 ≤ vs.length := by
        have : vs ≠ [] := hf
        have := List.length_pos_iff.mpr this
        omega
      have := frame.append (c := env.ctx P) (off := off) (vs := vs.map swapV) (by simpa using hp)
        (by simpa using h) h2
      have e : (UInt8.ofNat vs.length + 251).toNat = 251 + vs.length := by
        rw [UInt8.toNat_add]
        simp
        omega
      rw [e]
      simpa [swapF] using this
    · exact GoodW.fail _ _
  | full off ls ss =>
    rw [Frame.write]
    obtain ⟨hl, hs⟩ := hf
    refine Writes.weaken (x := (off, UInt16.ofNat ls.length, ls.map swapV, UInt16.ofNat ss.length,
      ss.map swapV)) (Writes.cons (writes_tag env _ _) (Writes.cons
        (Writes.on (p := Prod.fst) (writes_u2 env off)) (Writes.cons
        (Writes.on (p := fun x => x.2.1) (writes_u2 env _)) (Writes.cons
        (Writes.on (p := fun x => x.2.2.1) (writes_all_vtype env ls)) (Writes.cons
        (Writes.on (p := fun x => x.2.2.2.1) (writes_u2 env _)) (Writes.cons
        (Writes.on (p := fun x => x.2.2.2.2) (writes_all_vtype env ss)) (Writes.nil _ _))))))) ?_
    rintro P bs ⟨b, b', rfl, rfl, b1, b2, rfl, h1, b3, b4, rfl, h3, b5, b6, rfl, h5, b7, b8, rfl, h7,
      b9, b10, rfl, h9, rfl⟩
    cases h1
    cases h3
    cases h7
    have e : ∀ n, n < 65536 → (UInt16.ofNat n).toNat = n := by intro n h; simp; omega
    have := frame.full (c := env.ctx P) (off := off) (ls := ls.map swapV) (ss := ss.map swapV)
      ⟨by simpa using hl, b5, rfl, h5⟩ ⟨by simpa using hs, b9, rfl, h9⟩
    simpa [swapF, Nat.mod_eq_of_lt hl, Nat.mod_eq_of_lt hs] using this

def offsF (c : Ctx) : Frame → List UInt32
  | .one _ v => offsV c v
  | .append _ vs => vs.flatMap (offsV c)
  | .full _ ls ss => ls.flatMap (offsV c) ++ ss.flatMap (offsV c)
  | _ => []

theorem flatMap_nil {α β : Type} (xs : List α) : xs.flatMap (fun _ => ([] : List β)) = [] := by
  induction xs <;> simp_all

theorem reads_frame {c : Ctx} {f : Frame} {bs : Bytes} (h : frame c f bs) (cs : Option (List Catch)) :
    Reads Frame.read ⟨c.pool, cs⟩ bs (fun n => renF (c.ren n) (swapF f)) (offsF c f) [] := by
  have key : ∀ (k : Nat) (b : Bytes) (v : (UInt32 → Label) → Frame) (o : List UInt32), k < 256 →
      Reads (Frame.readTag (UInt8.ofNat k)) ⟨c.pool, cs⟩ b v o [] →
      Reads Frame.read ⟨c.pool, cs⟩ (U1 k ++ b) v o [] :=
    fun k b v o hk hr => PReads.bindR (reads_u1' _ hk) hr
  have lt : ∀ k n : Nat, k < 256 → n < 256 → (UInt8.ofNat k ≤ UInt8.ofNat n ↔ k ≤ n) := by
    intro k n hk hn
    rw [UInt8.le_iff_toNat_le]
    simp
    omega
  cases h with
  | @same n hn =>
    have := key n [] (fun _ => .same (UInt16.ofNat n)) [] (by omega) (by
      unfold Frame.readTag
      rw [if_pos (show UInt8.ofNat n ≤ 63 from (lt n 63 (by omega) (by omega)).mpr hn)]
      have e : (UInt8.ofNat n).toUInt16 = UInt16.ofNat n := by
        apply UInt16.toNat_inj.mp; simp; omega
      rw [e]
      exact (Rd.reads_pure _ _).reads)
    simpa [swapF, renF, offsF] using this
  | @sameExt off =>
    refine key 251 _ _ _ (by omega) ?_
    exact (PReads.map (f := Frame.same) (reads_u2 _ off)).reads
  | @one n v b hn hv =>
    refine key (64 + n) _ _ _ (by omega) ?_
    unfold Frame.readTag
    rw [if_neg (by rw [show (63 : UInt8) = UInt8.ofNat 63 from rfl, lt _ _ (by omega) (by omega)]; omega),
      if_pos (show UInt8.ofNat (64 + n) ≤ 127 from (lt (64 + n) 127 (by omega) (by omega)).mpr (by omega))]
    have e : (UInt8.ofNat (64 + n) - 64).toUInt16 = UInt16.ofNat n := by
      apply UInt16.toNat_inj.mp
      rw [UInt8.toNat_toUInt16, UInt8.toNat_sub, UInt8.toNat_ofNat', UInt16.toNat_ofNat']
      have : (64 : UInt8).toNat = 64 := rfl
      omega
    rw [e]
    exact Reads.map (f := Frame.one (UInt16.ofNat n)) (reads_vtype hv cs)
  | @oneExt off v b hv =>
    rw [List.append_assoc]
    refine key 247 _ _ _ (by omega) ?_
    exact Reads.ap (PReads.map (f := Frame.one) (reads_u2 _ off)).reads (reads_vtype hv cs)
  | @chop off k h1 h2 =>
    refine key (251 - k) _ _ _ (by omega) ?_
    have hk : k = 1 ∨ k = 2 ∨ k = 3 := by omega
    rcases hk with h | h | h <;> subst h
    · exact (PReads.map (f := fun off => Frame.chop off 1) (reads_u2 _ off)).reads
    · exact (PReads.map (f := fun off => Frame.chop off 2) (reads_u2 _ off)).reads
    · exact (PReads.map (f := fun off => Frame.chop off 3) (reads_u2 _ off)).reads
  | @append off vs b h1 h2 ha =>
    rw [List.append_assoc]
    refine key (251 + vs.length) _ _ _ (by omega) ?_
    have hr := Reads.replicate (r := VType.read) (cs := cs) (g := fun n v => renV (c.ren n) (swapV v))
      (offs := offsV c) (pend := fun _ => []) ha (fun v _ bs hv => reads_vtype hv cs)
    have hk : vs.length = 1 ∨ vs.length = 2 ∨ vs.length = 3 := by omega
    have e : Frame.readTag (UInt8.ofNat (251 + vs.length)) =
        Rd.ap (Rd.map .append (rNum u16)) (Rd.replicate vs.length VType.read) := by
      rcases hk with h | h | h <;> rw [h] <;> rfl
    rw [e]
    have := Reads.ap (PReads.map (f := Frame.append) (reads_u2 ⟨c.pool, cs⟩ off)).reads hr
    refine this.cast rfl ?_ (by simp [offsF]) (by simp)
    funext n
    simp [swapF, renF]
  | @full off ls ss b b' hl hs =>
    rw [List.append_assoc, List.append_assoc]
    refine key 255 _ _ _ (by omega) ?_
    have h1 := Reads.vec2 (r := VType.read) (cs := cs) (g := fun n v => renV (c.ren n) (swapV v))
      (offs := offsV c) (pend := fun _ => []) hl (fun v _ bs hv => reads_vtype hv cs)
    have h2 := Reads.vec2 (r := VType.read) (cs := cs) (g := fun n v => renV (c.ren n) (swapV v))
      (offs := offsV c) (pend := fun _ => []) hs (fun v _ bs hv => reads_vtype hv cs)
    have := Reads.ap (Reads.ap (PReads.map (f := Frame.full) (reads_u2 ⟨c.pool, cs⟩ off)).reads h1) h2
    refine this.cast (by simp) ?_ (by simp [offsF]) (by simp)
    funext n
    simp [swapF, renF]

end Verif
