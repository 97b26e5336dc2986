import Verif.Lemmas.Frame

/-! # Properties C32 and C33: stack map frames and verification types -/

namespace Verif.Props
open Verif Spec

/-! ## C33 -/

/-- Full claim: a verification type is written with the tag the JVM specification gives it. -/
def C33_full : Prop := ∀ (env : WEnv) (v : VType) (cp cp' : VecCp) (bs : Bytes),
  Steps VecCp.new cp → v.write env cp = .ok (bs, cp') → ∃ b, bs = U1 (vtypeTag v) ++ b

/-- Long is written with the tag of double. -/
theorem C33_violated : ¬ C33_full := by
  intro h
  obtain ⟨b, hb⟩ := h WEnv.outside .long VecCp.new VecCp.new [3] (.refl _) rfl
  simp [U1, vtypeTag] at hb

/-- What is written for any verification type is exactly what the specification writes for the type
with long and double exchanged: in particular all other types are written correctly. -/
theorem C33_layout_partial (env : WEnv) (v : VType) (cp cp' : VecCp) (bs : Bytes) (W : World)
    (h0 : Steps VecCp.new cp) (h : v.write env cp = .ok (bs, cp')) (hW : W.Fits cp') :
    vtype (env.ctx W) (swapV v) bs :=
  ((writes_vtype env v) cp bs cp' (steps_ok h0 VecCp.inv_new).1 h).2 W hW

/-- All types other than long and double get the layout of the specification. -/
theorem C33_tags_partial (env : WEnv) (v : VType) (hv : v ≠ .long ∧ v ≠ .double) (cp cp' : VecCp)
    (bs : Bytes) (W : World) (h0 : Steps VecCp.new cp) (h : v.write env cp = .ok (bs, cp'))
    (hW : W.Fits cp') : vtype (env.ctx W) v bs := by
  have := C33_layout_partial env v cp cp' bs W h0 h hW
  rcases v with _ | _ | _ | _ | _ | _ | _ | _ | _ <;> simp_all [swapV]

/-- Reading a long of a class file produced by another tool gives a double. -/
theorem C33_violated_read (c : Ctx) (cs : Option (List Catch)) (st : RSt) (rest : Bytes) :
    vtype c .long [4] ∧ VType.read ⟨c.pool, cs⟩ st ([4] ++ rest) = .ok (.double, st, rest) := by
  refine ⟨⟨[], rfl, rfl⟩, ?_⟩
  have h := (PReads.bind (f := VType.readTag) (reads_u1 ⟨c.pool, cs⟩ 4)
    (Rd.reads_pure ⟨c.pool, cs⟩ VType.double)) st rest
  exact h

example : (VType.object [0x41]).write WEnv.outside VecCp.new =
    .ok ([7, 0, 2], ⟨[.utf8 [0x41], .cls 1], [(.cls 1, 2), (.utf8 [0x41], 1)], 3, []⟩) := rfl

/-! ## C32 -/

/-- The labels of a frame. -/
def labelsV : VType → List Label
  | .uninit l => [l]
  | _ => []

def labelsF : Frame → List Label
  | .one _ v => labelsV v
  | .append _ vs => vs.flatMap labelsV
  | .full _ ls ss => ls.flatMap labelsV ++ ss.flatMap labelsV
  | _ => []

/-- Full claim: what the writer accepts reads back as the same frame. `m` are the labels already
handed out; the labels of the frame come back as the labels of the same positions. -/
def C32_full : Prop := ∀ (env : WEnv) (f : Frame) (cp cp' : VecCp) (bs : Bytes) (P : Pool),
  Steps VecCp.new cp → f.write env cp = .ok (bs, cp') → Agrees P cp'.entries →
  ∀ (cs : Option (List Catch)) (p : List UInt16) (m : LabelMap) (rest : Bytes),
    ∃ (ρ : Label → Label) (m' : LabelMap), m <+: m' ∧
      Frame.read ⟨P, cs⟩ ⟨p, some m⟩ (bs ++ rest) = .ok (renF ρ f, ⟨p, some m'⟩, rest) ∧
      ∀ l ∈ labelsF f, ∃ o, env.label l = .ok o ∧ m'.lookup o.toUInt32 = some (ρ l)

theorem renV_swapV (ρ : Label → Label) (v : VType) : renV ρ (swapV v) = swapV (renV ρ v) := by
  cases v <;> rfl

theorem mem_addAll {m : LabelMap} {os : List UInt32} {o : UInt32} (h : o ∈ os) :
    ∃ l, (LabelMap.addAll m os).lookup o = some l := by
  induction os generalizing m with
  | nil => cases h
  | cons a os ih =>
    rcases List.mem_cons.mp h with h' | h'
    · obtain ⟨l, hl⟩ := LabelMap.lookup_add m a
      subst h'
      exact ⟨l, LabelMap.lookup_prefix (LabelMap.prefix_addAll (m.add o) os) hl⟩
    · exact ih h'

/-- The labels of verification types that are laid out have a position. -/
theorem vtype_label {c : Ctx} {v : VType} {bs : Bytes} (h : vtype c v bs) {l : Label}
    (hl : l ∈ labelsV v) : ∃ n, c.pos l = some n ∧ n < 65536 ∧ UInt32.ofNat n ∈ offsV c v := by
  cases v with
  | uninit l' =>
    obtain ⟨b, rfl, n, h1, h2, h3⟩ := h
    simp only [labelsV, List.mem_singleton] at hl
    subst hl
    exact ⟨n, h1, h2, by simp [offsV, Ctx.offs, h1]⟩
  | _ => cases hl

theorem all_label {c : Ctx} {vs : List VType} {bs : Bytes} (h : Fmt.all vtype c vs bs) {l : Label}
    (hl : l ∈ vs.flatMap labelsV) :
    ∃ n, c.pos l = some n ∧ n < 65536 ∧ UInt32.ofNat n ∈ vs.flatMap (offsV c) := by
  induction vs generalizing bs with
  | nil => cases hl
  | cons v vs ih =>
    obtain ⟨b, b', rfl, h1, h2⟩ := h
    simp only [List.flatMap_cons, List.mem_append] at hl
    rcases hl with hl | hl
    · obtain ⟨n, a1, a2, a3⟩ := vtype_label h1 hl
      exact ⟨n, a1, a2, by simp [a3]⟩
    · obtain ⟨n, a1, a2, a3⟩ := ih h2 hl
      exact ⟨n, a1, a2, by simp only [List.flatMap_cons, List.mem_append]; exact .inr a3⟩

theorem frame_label {c : Ctx} {f : Frame} {bs : Bytes} (h : frame c f bs) {l : Label}
    (hl : l ∈ labelsF f) : ∃ n, c.pos l = some n ∧ n < 65536 ∧ UInt32.ofNat n ∈ offsF c f := by
  cases h with
  | same _ => cases hl
  | sameExt => cases hl
  | one _ hv => exact vtype_label hv hl
  | oneExt hv => exact vtype_label hv hl
  | chop _ _ => cases hl
  | append _ _ ha => exact all_label ha hl
  | full h1 h2 =>
    obtain ⟨_, _, _, h1⟩ := h1
    obtain ⟨_, _, _, h2⟩ := h2
    simp only [labelsF, List.mem_append] at hl
    rcases hl with hl | hl
    · obtain ⟨n, a1, a2, a3⟩ := all_label h1 hl
      exact ⟨n, a1, a2, by simp only [offsF, List.mem_append]; exact .inl a3⟩
    · obtain ⟨n, a1, a2, a3⟩ := all_label h2 hl
      exact ⟨n, a1, a2, by simp only [offsF, List.mem_append]; exact .inr a3⟩

theorem labelsV_swap (v : VType) : labelsV (swapV v) = labelsV v := by cases v <;> rfl

theorem labelsF_swap (f : Frame) : labelsF (swapF f) = labelsF f := by
  cases f <;> simp [swapF, labelsF, labelsV_swap, List.flatMap_map]

/-- Proved: all frames except an append frame without locals, and full frames with lists too long
for their 16-bit counts. -/
theorem C32_roundtrip_partial (env : WEnv) (f : Frame) (hf : FrameOk f) (cp cp' : VecCp) (bs : Bytes)
    (P : Pool) (h0 : Steps VecCp.new cp) (h : f.write env cp = .ok (bs, cp'))
    (hP : Agrees P cp'.entries) (cs : Option (List Catch)) (p : List UInt16) (m : LabelMap)
    (rest : Bytes) :
    ∃ (ρ : Label → Label) (m' : LabelMap), m <+: m' ∧
      Frame.read ⟨P, cs⟩ ⟨p, some m⟩ (bs ++ rest) = .ok (renF ρ f, ⟨p, some m'⟩, rest) ∧
      ∀ l ∈ labelsF f, ∃ o, env.label l = .ok o ∧ m'.lookup o.toUInt32 = some (ρ l) := by
  have hw := ((writes_frame env f hf) cp bs cp' (steps_ok h0 VecCp.inv_new).1 h).2 ⟨P, cp'.bsm⟩
    ⟨hP, List.prefix_refl _⟩
  have hr := reads_frame hw cs
  rw [swapF_swapF] at hr
  let m' := LabelMap.addAll m (offsF (env.ctx ⟨P, cp'.bsm⟩) (swapF f))
  refine ⟨(env.ctx ⟨P, cp'.bsm⟩).ren m'.num, m', LabelMap.prefix_addAll _ _, ?_, ?_⟩
  · have := hr ⟨p, some m⟩ rest (by simp) m' (by
      intro ls hls
      cases hls
      exact List.prefix_refl _)
    simp only [List.append_nil] at this
    exact this
  · intro l hl
    obtain ⟨n, h1, h2, h3⟩ := frame_label hw (by rw [labelsF_swap]; exact hl)
    have h1' := h1
    simp only [WEnv.ctx] at h1
    split at h1
    · rename_i o ho
      cases h1
      refine ⟨o, ho, ?_⟩
      obtain ⟨k, hk⟩ := mem_addAll (m := m) h3
      have e : UInt32.ofNat o.toNat = o.toUInt32 := by
        apply UInt32.toNat_inj.mp; simp
      rw [e] at hk
      simp only [Ctx.ren, h1', e, LabelMap.num, m', hk, Option.getD_some]
    · cases h1

/-- An append frame without locals reads back as a same frame. -/
theorem C32_violated : ¬ C32_full := by
  intro h
  obtain ⟨ρ, m', _, h2, _⟩ := h WEnv.outside (.append 5 []) VecCp.new VecCp.new [251, 0, 5] (fun _ => none)
    (.refl _) rfl (by intro i e he; exact absurd he At.not_nil) none [] [] []
  have hr := (PReads.bind (f := Frame.readTag) (reads_u1 ⟨fun _ => none, none⟩ 251)
    (PReads.map (f := Frame.same) (reads_u2 ⟨fun _ => none, none⟩ 5))) ⟨[], some []⟩ []
  have e := h2.symm.trans hr
  simp [renF] at e

/-- A full frame with more than 65535 locals is accepted with its count cut to 16 bits; the bytes are
read as a different frame. -/
theorem C32_violated_count : ∃ (f : Frame) (bs : Bytes), f.write WEnv.outside VecCp.new = .ok (bs, VecCp.new) ∧
    ∀ P cs st, ∃ rest, Frame.read ⟨P, cs⟩ st bs = .ok (.full 0 [] [], st, rest) ∧ rest ≠ [] := by
  have hw : ∀ n, wAll (VType.write WEnv.outside) (List.replicate n VType.top) VecCp.new =
      .ok (List.replicate n 0, VecCp.new) := by
    intro n
    induction n with
    | zero => rfl
    | succ n ih => exact wSeq_cons_ok (a := [0]) rfl ih
  have hf : ∀ n, n % 65536 = 0 → (Frame.full 0 (List.replicate n VType.top) []).write WEnv.outside VecCp.new =
      .ok ([255, 0, 0, 0, 0] ++ (List.replicate n 0 ++ [0, 0]), VecCp.new) := by
    intro n hn
    have e : UInt16.ofNat (List.replicate n VType.top).length = 0 := by
      apply UInt16.toNat_inj.mp
      simp only [List.length_replicate, UInt16.toNat_ofNat']
      exact hn
    rw [Frame.write, e]
    exact wSeq_cons_ok (a := [255]) rfl (wSeq_cons_ok (a := [0, 0]) rfl (wSeq_cons_ok (a := [0, 0]) rfl
      (wSeq_cons_ok (hw n) rfl)))
  have hr : ∀ n P cs st, Frame.read ⟨P, cs⟩ st ([255, 0, 0, 0, 0] ++ (List.replicate (n + 2) 0 ++ [0, 0])) =
      .ok (.full 0 [] [], st, List.replicate n 0 ++ [0, 0]) := by
    intro n P cs st
    have h := (PReads.bind (f := Frame.readTag) (reads_u1 ⟨P, cs⟩ 255)
      (PReads.ap (PReads.ap (PReads.map (f := Frame.full) (reads_u2 ⟨P, cs⟩ 0))
        (PReads.bind (f := fun len => Rd.replicate (u16.bits len) VType.read) (reads_u2 ⟨P, cs⟩ 0)
          (Rd.reads_pure ⟨P, cs⟩ [])))
        (PReads.bind (f := fun len => Rd.replicate (u16.bits len) VType.read) (reads_u2 ⟨P, cs⟩ 0)
          (Rd.reads_pure ⟨P, cs⟩ [])))) st (List.replicate n 0 ++ [0, 0])
    exact h
  refine ⟨.full 0 (List.replicate (65534 + 2) .top) [], _, hf _ (by rfl), ?_⟩
  intro P cs st
  exact ⟨_, hr 65534 P cs st, List.append_ne_nil_of_right_ne_nil _ (by decide)⟩

/-- Frames the format has no form for are refused. -/
theorem C32_refused (env : WEnv) (off : UInt16) (cp : VecCp) :
    (∀ n : UInt8, n.toNat = 0 ∨ 3 < n.toNat → (Frame.chop off n).write env cp = .error .invalid) ∧
    (∀ vs : List VType, 3 < vs.length → (Frame.append off vs).write env cp = .error .invalid) := by
  constructor
  · intro n hn
    rw [Frame.write, if_neg]
    · rfl
    · rintro ⟨h1, h2⟩
      have h1 := UInt8.le_iff_toNat_le.mp h1
      have h2 := UInt8.le_iff_toNat_le.mp h2
      have e1 : (1 : UInt8).toNat = 1 := rfl
      have e3 : (3 : UInt8).toNat = 3 := rfl
      omega
  · intro vs hv
    rw [Frame.write, if_neg (by omega)]
    rfl

/-- The reserved tags 128 to 246 are refused. -/
theorem C32_reserved (env : REnv) (st : RSt) (t : UInt8) (rest : Bytes) (h1 : 128 ≤ t.toNat)
    (h2 : t.toNat ≤ 246) : Frame.read env st (t :: rest) = .error .invalid := by
  have hr := reads_u1 env t st rest
  have e : U1 t.toNat ++ rest = t :: rest := by simp [U1]
  rw [e] at hr
  unfold Frame.read Rd.bind
  rw [hr]
  show Frame.readTag t env st rest = _
  have le : ∀ n : UInt8, t ≤ n ↔ t.toNat ≤ n.toNat := fun n => UInt8.le_iff_toNat_le
  have e63 : (63 : UInt8).toNat = 63 := rfl
  have e127 : (127 : UInt8).toNat = 127 := rfl
  have e246 : (246 : UInt8).toNat = 246 := rfl
  unfold Frame.readTag
  rw [if_neg (by rw [le]; omega), if_neg (by rw [le]; omega), if_pos (by rw [le]; omega)]
  rfl

/-- Every frame laid out as the specification says is read, up to the exchange of long and double
(C33), consuming exactly its bytes. -/
theorem C32_read_partial (c : Ctx) (f : Frame) (bs : Bytes) (h : frame c f bs)
    (cs : Option (List Catch)) (p : List UInt16) (m : LabelMap) (rest : Bytes) :
    ∃ (ρ : Label → Label) (m' : LabelMap), m <+: m' ∧
      Frame.read ⟨c.pool, cs⟩ ⟨p, some m⟩ (bs ++ rest) = .ok (renF ρ (swapF f), ⟨p, some m'⟩, rest) := by
  let m' := LabelMap.addAll m (offsF c f)
  refine ⟨c.ren m'.num, m', LabelMap.prefix_addAll _ _, ?_⟩
  have := reads_frame h cs ⟨p, some m⟩ rest (by simp) m' (by
    intro ls hls
    cases hls
    exact List.prefix_refl _)
  simpa using this

/-- A frame with labels: the writer environment knows label 7 as position 300. -/
def sampleEnv : WEnv := ⟨fun l => if l = 7 then .ok 300 else .error .panic, fun _ => .error .panic⟩

example : FrameOk (.full 9 [.int, .uninit 7] [.uninit 7]) ∧
    (Frame.full 9 [.int, .uninit 7] [.uninit 7]).write sampleEnv VecCp.new =
      .ok ([255, 0, 9, 0, 2, 1, 8, 1, 44, 0, 1, 8, 1, 44], VecCp.new) := by
  refine ⟨⟨by decide, by decide⟩, rfl⟩

example : ∃ c f bs, frame c f bs ∧ f = .append 70 [.int, .null] :=
  ⟨⟨fun _ => none, [], fun _ => none, fun _ => none⟩, _, _,
    .append (vs := [.int, .null]) (off := 70) (by decide) (by decide)
      ⟨_, _, rfl, ⟨_, rfl, rfl⟩, _, _, rfl, ⟨_, rfl, rfl⟩, rfl⟩, rfl⟩

end Verif.Props
