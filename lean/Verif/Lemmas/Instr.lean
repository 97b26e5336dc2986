import Verif.Lemmas.Io
import Verif.Lemmas.Insn
import Verif.Lemmas.Frame
import Verif.Props.Insn
import Verif.Lemmas.Misc
import Verif.Spec.Instr

/-! # Lemmas about symbolic instructions -/

namespace Verif
open Spec

/-! ## Writing -/

theorem good_dynamic (env : WEnv) {d : Dynamic} (h : Printable d.descriptor) :
    GoodW (insertDynamic d) (fun W i => IsDyn (env.ctx W) i d) := by
  intro cp i cp' hi he
  obtain ⟨b, h1, h2, h3, h4⟩ := insertDynamic_ok h hi he
  refine ⟨h2, fun W hW => ⟨cp.bsm.length, b, h4 _ hW.agrees, ?_, ?_⟩⟩
  · obtain ⟨t, ht⟩ := h3.trans hW.bsm
    show W.bsm[_]? = _
    rw [← ht]
    simp
  · unfold Dynamic.getBsm at h1
    split at h1
    · cases h1
    · rename_i hb
      cases h1
      exact hb

theorem good_orDyn (env : WEnv) {α : Type} {f : α → Ins UInt16} {is : Pool → UInt16 → α → Prop}
    {ok : α → Prop} {x : OrDynamic α} (hf : ∀ a, ok a → Good (f a) (fun P i => is P i a))
    (h : OrDynOk ok x) : GoodW (insertOrDynamic f x) (fun W i => IsOrDyn is (env.ctx W) i x) := by
  cases x with
  | dynamic d =>
    exact (good_dynamic env h.1).weaken (fun W i hd => ⟨h.2, hd⟩)
  | static a => exact (hf a h).toW

theorem GoodW.map {α β : Type} {x : Ins α} {f : α → β} {p : World → α → Prop} {q : World → β → Prop}
    (h : GoodW x p) (hq : ∀ W a, p W a → q W (f a)) : GoodW (x >>= fun a => Pure.pure (f a)) q :=
  GoodW.bind h (q := fun a _ b => b = f a) (fun a => GoodW.pure _ (fun _ => rfl))
    (fun W a b h1 h2 => h2 ▸ hq W a h1)

/-- A sequence of writers. -/
theorem GoodW.seq {ws : List (Ins Bytes)} {w : Ins Bytes} {p q post : World → Bytes → Prop}
    (h1 : GoodW w p) (h2 : GoodW (wSeq ws) q) (h3 : ∀ W a b, p W a → q W b → post W (a ++ b)) :
    GoodW (wSeq (w :: ws)) post := by
  rw [wSeq]
  refine GoodW.bind h1 (q := fun a W b => ∃ b', b = a ++ b' ∧ q W b')
    (fun a => GoodW.map (f := fun b => a ++ b) h2 (fun W b hb => ⟨b, rfl, hb⟩)) ?_
  rintro W a b ha ⟨b', rfl, hb⟩
  exact h3 W a b' ha hb

theorem GoodW.seq0 : GoodW (wSeq []) (fun _ bs => bs = []) := GoodW.pure _ (fun _ => rfl)

theorem good_op (o : UInt8) : GoodW (op o) (fun _ bs => bs = U1 o.toNat) :=
  GoodW.pure _ (fun _ => u8_write o)

theorem good_u1 (x : UInt8) : GoodW (wNum u8 x) (fun _ bs => bs = U1 x.toNat) :=
  GoodW.pure _ (fun _ => u8_write x)
theorem good_u2 (x : UInt16) : GoodW (wNum u16 x) (fun _ bs => bs = U2 x.toNat) :=
  GoodW.pure _ (fun _ => u16_write x)
theorem good_s1 (x : Int8) : GoodW (wNum i8 x) (fun _ bs => bs = S1 x.toInt) :=
  GoodW.pure _ (fun _ => i8_write x)
theorem good_s2 (x : Int16) : GoodW (wNum i16 x) (fun _ bs => bs = S2 x.toInt) :=
  GoodW.pure _ (fun _ => i16_write x)

theorem good_wIdx {i : Ins UInt16} {q : World → UInt16 → Prop} (h : GoodW i q) :
    GoodW (wIdx i) (fun W bs => ∃ i, q W i ∧ bs = U2 i.toNat) :=
  GoodW.map h (fun _ i hi => ⟨i, hi, u16_write i⟩)

theorem good_pure (bs : Bytes) : GoodW (Pure.pure bs : Ins Bytes) (fun _ b => b = bs) :=
  GoodW.pure _ (fun _ => rfl)

/-- One opcode byte and an index. -/
theorem good_op_idx {i : Ins UInt16} {q : World → UInt16 → Prop} (o : UInt8) (h : GoodW i q) :
    GoodW (wSeq [op o, wIdx i]) (fun W bs => ∃ i, q W i ∧ bs = U1 o.toNat ++ U2 i.toNat) := by
  refine GoodW.seq (good_op o) (GoodW.seq (good_wIdx h) GoodW.seq0
    (post := fun W bs => ∃ i, q W i ∧ bs = U2 i.toNat) ?_) ?_
  · rintro W a b ⟨i, hi, rfl⟩ rfl
    exact ⟨i, hi, by simp⟩
  · rintro W a b rfl ⟨i, hi, rfl⟩
    exact ⟨i, hi, rfl⟩

theorem good_wide (o : UInt8) (l : UInt16) : GoodW (wideOrNormal o l) (fun _ bs =>
    (l.toNat < 256 ∧ bs = U1 o.toNat ++ U1 l.toNat) ∨ bs = U1 196 ++ U1 o.toNat ++ U2 l.toNat) := by
  unfold wideOrNormal
  split
  · rename_i h
    refine GoodW.seq (good_op o) (GoodW.seq (good_u1 _) GoodW.seq0
      (post := fun _ bs => bs = U1 l.toNat) ?_) ?_
    · rintro W a b rfl rfl
      simp
      rw [Nat.mod_eq_of_lt h]
    · rintro W a b rfl rfl
      exact .inl ⟨h, rfl⟩
  · refine GoodW.seq (good_op _) (GoodW.seq (good_op o) (GoodW.seq (good_u2 l) GoodW.seq0
      (post := fun _ bs => bs = U2 l.toNat) ?_) (post := fun _ bs => bs = U1 o.toNat ++ U2 l.toNat) ?_) ?_
    · rintro W a b rfl rfl; simp
    · rintro W a b rfl rfl; rfl
    · rintro W a b rfl rfl; exact .inr (by simp; rfl)

theorem good_classType (t : ClassType) (h : ClassTypeOk t) :
    Good (insertClass t.toStr) (fun P i => IsClassType P i t) := by
  cases t with
  | object s => exact (good_class s).weaken (fun P i hi => ⟨s, .object h, hi⟩)
  | array d t =>
    obtain ⟨cs, hd, he⟩ := display_printable h.2
    refine Good.weaken (good_class _) (fun P i hi => ⟨encodeCps cs, .array h.1 hd, ?_⟩)
    rw [← he]
    exact hi

theorem enc_ldc_idx (env : WEnv) (c : OrDynamic Constant) (hl : Loadable c) (i : UInt16) (w : Bool)
    (hw : w = true ↔ TwoSlots c) :
    GoodW (if w then wSeq [op opc.LDC2_W, wNum u16 i]
      else if i.toNat < 256 then wSeq [op opc.LDC, wNum u8 i.toUInt8]
      else wSeq [op opc.LDC_W, wNum u16 i])
      (fun W bs => IsOrDyn IsConstant (env.ctx W) i c → ∀ p, Enc (env.ctx W) p (.push c) bs) := by
  split
  · rename_i h1
    refine GoodW.seq (good_op _) (GoodW.seq (good_u2 i) GoodW.seq0
      (post := fun _ bs => bs = U2 i.toNat) ?_) ?_
    · rintro W a b rfl rfl; simp
    · rintro W a b rfl rfl hi p
      exact .ldc2_w hi (hw.mp h1)
  · rename_i h1
    split
    · rename_i h2
      refine GoodW.seq (good_op _) (GoodW.seq (good_u1 _) GoodW.seq0
        (post := fun _ bs => bs = U1 i.toNat) ?_) ?_
      · rintro W a b rfl rfl
        simp
        rw [Nat.mod_eq_of_lt h2]
      · rintro W a b rfl rfl hi p
        exact .ldc hi hl (fun ht => h1 (hw.mpr ht)) h2
    · refine GoodW.seq (good_op _) (GoodW.seq (good_u2 i) GoodW.seq0
        (post := fun _ bs => bs = U2 i.toNat) ?_) ?_
      · rintro W a b rfl rfl; simp
      · rintro W a b rfl rfl hi p
        exact .ldc_w hi hl (fun ht => h1 (hw.mpr ht))

theorem enc_push_ldc (env : WEnv) (c : OrDynamic Constant) (h : OrDynOk ConstOk c) (hl : Loadable c) :
    GoodW (writeLdc c) (fun W bs => ∀ p, Enc (env.ctx W) p (.push c) bs) := by
  unfold writeLdc
  refine GoodW.bind (good_orDyn env (fun a ha => good_constant a ha) h)
    (q := fun i W bs => IsOrDyn IsConstant (env.ctx W) i c → ∀ p, Enc (env.ctx W) p (.push c) bs)
    (fun i => ?_) (fun W i bs h1 h2 => h2 h1)
  refine enc_ldc_idx env c hl i _ ?_
  cases c with
  | dynamic d => cases hd : d.descriptor <;> simp [TwoSlots, hd, JType.isWide]
  | static c => cases c <;> simp [TwoSlots, Constant.isWide]

theorem enc_noArg (env : WEnv) (b : UInt8) (o : Op) {i : Insn} (ho : b.toNat = o.code)
    (h : noArg o = some i) : GoodW (op b) (fun W bs => ∀ p, Enc (env.ctx W) p i bs) :=
  (good_op b).weaken (fun W bs e p => by rw [e, ho]; exact .noArg h)

theorem f32_eq_of (f g : F32) (h : f.eq g = true) : f = g := by
  cases f; cases g
  exact congrArg _ ((F32.eq_iff _ _).mp h)

theorem f64_eq_of (f g : F64) (h : f.eq g = true) : f = g := by
  cases f; cases g
  exact congrArg _ ((F64.eq_iff _ _).mp h)

theorem bipush_val {i : Int32} (h : -128 ≤ i ∧ i ≤ 127) : Int32.ofInt i.toInt8.toInt = i := by
  rw [Int32.le_iff_toInt_le, Int32.le_iff_toInt_le] at h
  apply Int32.toInt_inj.mp
  have h1 : (-128 : Int32).toInt = -128 := rfl
  have h2 : (127 : Int32).toInt = 127 := rfl
  rw [Int32.toInt_toInt8, Int32.toInt_ofInt_of_le] <;> rw [Int.bmod_eq_of_le] <;> omega

theorem sipush_val {i : Int32} (h : -32768 ≤ i ∧ i ≤ 32767) : Int32.ofInt i.toInt16.toInt = i := by
  rw [Int32.le_iff_toInt_le, Int32.le_iff_toInt_le] at h
  apply Int32.toInt_inj.mp
  have h1 : (-32768 : Int32).toInt = -32768 := rfl
  have h2 : (32767 : Int32).toInt = 32767 := rfl
  rw [Int32.toInt_toInt16, Int32.toInt_ofInt_of_le] <;> rw [Int.bmod_eq_of_le] <;> omega

theorem iinc_val {i : Int16} (h : -128 ≤ i ∧ i ≤ 127) : Int16.ofInt i.toInt8.toInt = i := by
  rw [Int16.le_iff_toInt_le, Int16.le_iff_toInt_le] at h
  apply Int16.toInt_inj.mp
  have h1 : (-128 : Int16).toInt = -128 := rfl
  have h2 : (127 : Int16).toInt = 127 := rfl
  rw [Int16.toInt_toInt8, Int16.toInt_ofInt_of_le] <;> rw [Int.bmod_eq_of_le] <;> omega

theorem enc_push (env : WEnv) (c : OrDynamic Constant) (h : OrDynOk ConstOk c) (hl : Loadable c) :
    GoodW (writePush c) (fun W bs => ∀ p, Enc (env.ctx W) p (.push c) bs) := by
  replace hl := enc_push_ldc env c h hl
  unfold writePush
  split
  · rename_i i
    split
    · rename_i hi; subst hi; exact enc_noArg env _ .iconst_0 rfl rfl
    split
    · rename_i hi; subst hi; exact enc_noArg env _ .iconst_1 rfl rfl
    split
    · rename_i hi; subst hi; exact enc_noArg env _ .iconst_2 rfl rfl
    split
    · rename_i hi; subst hi; exact enc_noArg env _ .iconst_3 rfl rfl
    split
    · rename_i hi; subst hi; exact enc_noArg env _ .iconst_4 rfl rfl
    split
    · rename_i hi; subst hi; exact enc_noArg env _ .iconst_5 rfl rfl
    split
    · rename_i hi; subst hi; exact enc_noArg env _ .iconst_m1 rfl rfl
    split
    · rename_i hi
      refine GoodW.seq (good_op _) (GoodW.seq (good_s1 _) GoodW.seq0
        (post := fun _ bs => bs = S1 i.toInt8.toInt) ?_) ?_
      · rintro W a b rfl rfl; exact List.append_nil _
      · rintro W a b rfl rfl p
        have := Enc.bipush (c := env.ctx W) (p := p) (x := i.toInt8)
        rw [bipush_val hi] at this
        exact this
    split
    · rename_i hi
      refine GoodW.seq (good_op _) (GoodW.seq (good_s2 _) GoodW.seq0
        (post := fun _ bs => bs = S2 i.toInt16.toInt) ?_) ?_
      · rintro W a b rfl rfl; exact List.append_nil _
      · rintro W a b rfl rfl p
        have := Enc.sipush (c := env.ctx W) (p := p) (x := i.toInt16)
        rw [sipush_val hi] at this
        exact this
    exact hl
  · rename_i i
    split
    · rename_i hi; subst hi; exact enc_noArg env _ .lconst_0 rfl rfl
    split
    · rename_i hi; subst hi; exact enc_noArg env _ .lconst_1 rfl rfl
    exact hl
  · rename_i f
    split
    · rename_i hf; have := f32_eq_of _ _ hf; subst this; exact enc_noArg env _ .fconst_0 rfl rfl
    split
    · rename_i hf; have := f32_eq_of _ _ hf; subst this; exact enc_noArg env _ .fconst_1 rfl rfl
    split
    · rename_i hf; have := f32_eq_of _ _ hf; subst this; exact enc_noArg env _ .fconst_2 rfl rfl
    exact hl
  · rename_i f
    split
    · rename_i hf; have := f64_eq_of _ _ hf; subst this; exact enc_noArg env _ .dconst_0 rfl rfl
    split
    · rename_i hf; have := f64_eq_of _ _ hf; subst this; exact enc_noArg env _ .dconst_1 rfl rfl
    exact hl
  · exact hl

theorem enc_var {env : WEnv} {f : UInt16 → Insn} {o : UInt8} (l : UInt16)
    (h1 : ∀ c p (n : Nat), n < 256 → Enc c p (f (UInt16.ofNat n)) (U1 o.toNat ++ U1 n))
    (h2 : ∀ c p (n : UInt16), Enc c p (f n) (U1 Op.wide.code ++ U1 o.toNat ++ U2 n.toNat)) :
    GoodW (wideOrNormal o l) (fun W bs => ∀ p, Enc (env.ctx W) p (f l) bs) := by
  refine (good_wide o l).weaken ?_
  rintro W bs (⟨h, rfl⟩ | rfl) p
  · have := h1 (env.ctx W) p l.toNat h
    rw [UInt16.ofNat_toNat] at this
    exact this
  · exact h2 _ p l

theorem enc_idx {env : WEnv} {i : Ins UInt16} {q : World → UInt16 → Prop} {x : Insn} (o : UInt8)
    (h : GoodW i q)
    (he : ∀ W i p, q W i → Enc (env.ctx W) p x (U1 o.toNat ++ U2 i.toNat)) :
    GoodW (wSeq [op o, wIdx i]) (fun W bs => ∀ p, Enc (env.ctx W) p x bs) := by
  refine (good_op_idx o h).weaken ?_
  rintro W bs ⟨i, hi, rfl⟩ p
  exact he W i p hi

theorem encode_enc (env : WEnv) (i : Insn) (h : EncOk i) :
    GoodW i.encode (fun W bs => ∀ p, Enc (env.ctx W) p i bs) := by
  have hm : ∀ m : OrDynamic MemberRef, OrDynOk (fun m => Printable m.descriptor) m →
      GoodW (insertOrDynamic insertMember m) (fun W i => IsOrDyn IsMember (env.ctx W) i m) :=
    fun m h => good_orDyn env (fun a ha => good_member a ha) h
  have hc : ∀ m : OrDynamic ClassType, OrDynOk ClassTypeOk m →
      GoodW (insertOrDynamic (fun x => insertClass x.toStr) m)
        (fun W i => IsOrDyn IsClassType (env.ctx W) i m) :=
    fun m h => good_orDyn env (fun a ha => good_classType a ha) h
  cases i with
  | noOp => exact enc_noArg env _ .nop rfl rfl
  | pushNull => exact enc_noArg env _ .aconst_null rfl rfl
  | push c => exact enc_push env c h.1 h.2
  | dup => exact enc_noArg env _ .dup rfl rfl
  | dupX1 => exact enc_noArg env _ .dup_x1 rfl rfl
  | dupX2 => exact enc_noArg env _ .dup_x2 rfl rfl
  | dup2 => exact enc_noArg env _ .dup2 rfl rfl
  | dup2X1 => exact enc_noArg env _ .dup2_x1 rfl rfl
  | dup2X2 => exact enc_noArg env _ .dup2_x2 rfl rfl
  | pop1 => exact enc_noArg env _ .pop rfl rfl
  | pop2 => exact enc_noArg env _ .pop2 rfl rfl
  | compareLongs => exact enc_noArg env _ .lcmp rfl rfl
  | compareFloats t n =>
    exact match t, n with
    | .float, .negOne => enc_noArg env _ .fcmpl rfl rfl
    | .float, .one => enc_noArg env _ .fcmpg rfl rfl
    | .double, .negOne => enc_noArg env _ .dcmpl rfl rfl
    | .double, .one => enc_noArg env _ .dcmpg rfl rfl
  | localVariable m t l =>
    refine enc_var l (f := fun l => .localVariable m t l) (fun c p n hn => ?_) (fun c p n => ?_)
    · have := Enc.var (c := c) (p := p) (m := m) (t := t) hn
      cases m <;> cases t <;> exact this
    · have := Enc.varWide (c := c) (p := p) (m := m) (t := t) (n := n)
      cases m <;> cases t <;> exact this
  | array m t =>
    exact match m, t with
    | .load, .int => enc_noArg env _ .iaload rfl rfl
    | .load, .long => enc_noArg env _ .laload rfl rfl
    | .load, .float => enc_noArg env _ .faload rfl rfl
    | .load, .double => enc_noArg env _ .daload rfl rfl
    | .load, .ref => enc_noArg env _ .aaload rfl rfl
    | .load, .byteOrBool => enc_noArg env _ .baload rfl rfl
    | .load, .char => enc_noArg env _ .caload rfl rfl
    | .load, .short => enc_noArg env _ .saload rfl rfl
    | .store, .int => enc_noArg env _ .iastore rfl rfl
    | .store, .long => enc_noArg env _ .lastore rfl rfl
    | .store, .float => enc_noArg env _ .fastore rfl rfl
    | .store, .double => enc_noArg env _ .dastore rfl rfl
    | .store, .ref => enc_noArg env _ .aastore rfl rfl
    | .store, .byteOrBool => enc_noArg env _ .bastore rfl rfl
    | .store, .char => enc_noArg env _ .castore rfl rfl
    | .store, .short => enc_noArg env _ .sastore rfl rfl
  | arrayLength => exact enc_noArg env _ .arraylength rfl rfl
  | intOperation t o =>
    exact match t, o with
    | .int, .add => enc_noArg env _ .iadd rfl rfl
    | .long, .add => enc_noArg env _ .ladd rfl rfl
    | .int, .sub => enc_noArg env _ .isub rfl rfl
    | .long, .sub => enc_noArg env _ .lsub rfl rfl
    | .int, .mul => enc_noArg env _ .imul rfl rfl
    | .long, .mul => enc_noArg env _ .lmul rfl rfl
    | .int, .div => enc_noArg env _ .idiv rfl rfl
    | .long, .div => enc_noArg env _ .ldiv rfl rfl
    | .int, .rem => enc_noArg env _ .irem rfl rfl
    | .long, .rem => enc_noArg env _ .lrem rfl rfl
    | .int, .neg => enc_noArg env _ .ineg rfl rfl
    | .long, .neg => enc_noArg env _ .lneg rfl rfl
    | .int, .shl => enc_noArg env _ .ishl rfl rfl
    | .long, .shl => enc_noArg env _ .lshl rfl rfl
    | .int, .shr => enc_noArg env _ .ishr rfl rfl
    | .long, .shr => enc_noArg env _ .lshr rfl rfl
    | .int, .ushr => enc_noArg env _ .iushr rfl rfl
    | .long, .ushr => enc_noArg env _ .lushr rfl rfl
    | .int, .and => enc_noArg env _ .iand rfl rfl
    | .long, .and => enc_noArg env _ .land rfl rfl
    | .int, .or => enc_noArg env _ .ior rfl rfl
    | .long, .or => enc_noArg env _ .lor rfl rfl
    | .int, .xor => enc_noArg env _ .ixor rfl rfl
    | .long, .xor => enc_noArg env _ .lxor rfl rfl
  | floatOperation t o =>
    exact match t, o with
    | .float, .add => enc_noArg env _ .fadd rfl rfl
    | .double, .add => enc_noArg env _ .dadd rfl rfl
    | .float, .sub => enc_noArg env _ .fsub rfl rfl
    | .double, .sub => enc_noArg env _ .dsub rfl rfl
    | .float, .mul => enc_noArg env _ .fmul rfl rfl
    | .double, .mul => enc_noArg env _ .dmul rfl rfl
    | .float, .div => enc_noArg env _ .fdiv rfl rfl
    | .double, .div => enc_noArg env _ .ddiv rfl rfl
    | .float, .rem => enc_noArg env _ .frem rfl rfl
    | .double, .rem => enc_noArg env _ .drem rfl rfl
    | .float, .neg => enc_noArg env _ .fneg rfl rfl
    | .double, .neg => enc_noArg env _ .dneg rfl rfl
  | throw => exact enc_noArg env _ .athrow rfl rfl
  | checkCast t => exact enc_idx _ (hc t h) (fun W i p hi => .checkcast hi)
  | instanceOf t => exact enc_idx _ (hc t h) (fun W i p hi => .instanceof hi)
  | newArray t d => exact h.elim
  | monitor o =>
    exact match o with
    | .enter => enc_noArg env _ .monitorenter rfl rfl
    | .exit => enc_noArg env _ .monitorexit rfl rfl
  | new x =>
    exact enc_idx _ (good_orDyn env (fun a _ => good_class a) h) (fun W i p hi => .new hi)
  | conversion a b =>
    exact match a, b with
    | .long, .int => enc_noArg env _ .l2i rfl rfl
    | .long, .float => enc_noArg env _ .l2f rfl rfl
    | .long, .double => enc_noArg env _ .l2d rfl rfl
    | .float, .int => enc_noArg env _ .f2i rfl rfl
    | .float, .long => enc_noArg env _ .f2l rfl rfl
    | .float, .double => enc_noArg env _ .f2d rfl rfl
    | .double, .int => enc_noArg env _ .d2i rfl rfl
    | .double, .long => enc_noArg env _ .d2l rfl rfl
    | .double, .float => enc_noArg env _ .d2f rfl rfl
    | .int, .long => (good_op _).weaken (fun W bs e p => by subst e; exact .fromInt (o := .i2l) rfl)
    | .int, .float => (good_op _).weaken (fun W bs e p => by subst e; exact .fromInt (o := .i2f) rfl)
    | .int, .double => (good_op _).weaken (fun W bs e p => by subst e; exact .fromInt (o := .i2d) rfl)
    | .int, .int => (good_pure []).weaken (fun W bs e p => by subst e; exact .sameType)
    | .long, .long => (good_pure []).weaken (fun W bs e p => by subst e; exact .sameType)
    | .float, .float => (good_pure []).weaken (fun W bs e p => by subst e; exact .sameType)
    | .double, .double => (good_pure []).weaken (fun W bs e p => by subst e; exact .sameType)
  | convertInt t =>
    exact match t with
    | .long => enc_noArg env _ .i2l rfl rfl
    | .float => enc_noArg env _ .i2f rfl rfl
    | .double => enc_noArg env _ .i2d rfl rfl
    | .byte => enc_noArg env _ .i2b rfl rfl
    | .char => enc_noArg env _ .i2c rfl rfl
    | .short => enc_noArg env _ .i2s rfl rfl
    | .int => (good_pure []).weaken (fun W bs e p => by subst e; exact .sameInt)
  | «return» t =>
    exact match t with
    | some .int => enc_noArg env _ .ireturn rfl rfl
    | some .long => enc_noArg env _ .lreturn rfl rfl
    | some .float => enc_noArg env _ .freturn rfl rfl
    | some .double => enc_noArg env _ .dreturn rfl rfl
    | some .ref => enc_noArg env _ .areturn rfl rfl
    | none => enc_noArg env _ .return_ rfl rfl
  | field o t m =>
    cases o <;> cases t
    · exact enc_idx _ (hm m h) (fun W i p hi => .field (o := .get) (t := .static) hi)
    · exact enc_idx _ (hm m h) (fun W i p hi => .field (o := .get) (t := .virtual) hi)
    · exact h.elim
    · exact enc_idx _ (hm m h) (fun W i p hi => .field (o := .put) (t := .virtual) hi)
  | invokeExact t m =>
    cases t
    · exact enc_idx _ (hm m h) (fun W i p hi => .call (t := .static) hi)
    · exact enc_idx _ (hm m h) (fun W i p hi => .call (t := .virtual) hi)
  | invokeSpecial m => exact enc_idx _ (hm m h) (fun W i p hi => .special hi)
  | invokeDynamic d =>
    obtain ⟨hp, ps, r, hd⟩ := h
    refine GoodW.seq (good_op _) (GoodW.seq (good_wIdx (good_dynamic env hp))
      (GoodW.seq (good_pure [0, 0]) GoodW.seq0 (post := fun _ bs => bs = U2 0) ?_)
      (post := fun W bs => ∃ i, IsDyn (env.ctx W) i d ∧ bs = U2 i.toNat ++ U2 0) ?_) ?_
    · rintro W a b rfl rfl; rfl
    · rintro W a b ⟨i, hi, rfl⟩ rfl; exact ⟨i, hi, rfl⟩
    · rintro W a b rfl ⟨i, hi, rfl⟩ p
      rw [← List.append_assoc]
      exact .dynamic hd hi
  | invokeInterface m n =>
    refine GoodW.seq (good_op _) (GoodW.seq (good_wIdx (hm m h)) (GoodW.seq (good_u1 n)
      (GoodW.seq (good_pure [0]) GoodW.seq0 (post := fun _ bs => bs = U1 0) ?_)
      (post := fun _ bs => bs = U1 n.toNat ++ U1 0) ?_)
      (post := fun W bs => ∃ i, IsOrDyn IsMember (env.ctx W) i m ∧
        bs = U2 i.toNat ++ (U1 n.toNat ++ U1 0)) ?_) ?_
    · rintro W a b rfl rfl; rfl
    · rintro W a b rfl rfl; rfl
    · rintro W a b ⟨i, hi, rfl⟩ rfl; exact ⟨i, hi, rfl⟩
    · rintro W a b rfl ⟨i, hi, rfl⟩ p
      rw [← List.append_assoc, ← List.append_assoc]
      exact .interface hi
  | ret n =>
    exact enc_var n (f := fun l => .ret l) (fun c p n hn => .ret hn) (fun c p n => .retWide)
  | swap => exact enc_noArg env _ .swap rfl rfl
  | intIncrement l x =>
    rw [Insn.encode]
    split
    · rename_i hi
      refine GoodW.seq (good_op _) (GoodW.seq (good_u1 _) (GoodW.seq (good_s1 _) GoodW.seq0
        (post := fun _ bs => bs = S1 x.toInt8.toInt) ?_)
        (post := fun _ bs => bs = U1 l.toNat ++ S1 x.toInt8.toInt) ?_) ?_
      · rintro W a b rfl rfl; exact List.append_nil _
      · rintro W a b rfl rfl
        simp only [UInt16.toNat_toUInt8]
        rw [Nat.mod_eq_of_lt hi.1]
      · rintro W a b rfl rfl p
        have := Enc.iinc (c := env.ctx W) (p := p) (x := x.toInt8) hi.1
        rw [iinc_val hi.2, UInt16.ofNat_toNat, List.append_assoc] at this
        exact this
    · refine GoodW.seq (good_op _) (GoodW.seq (good_op _) (GoodW.seq (good_u2 _) (GoodW.seq (good_s2 _)
        GoodW.seq0 (post := fun _ bs => bs = S2 x.toInt) ?_)
        (post := fun _ bs => bs = U2 l.toNat ++ S2 x.toInt) ?_)
        (post := fun _ bs => bs = U1 Op.iinc.code ++ (U2 l.toNat ++ S2 x.toInt)) ?_) ?_
      · rintro W a b rfl rfl; exact List.append_nil _
      · rintro W a b rfl rfl; rfl
      · rintro W a b rfl rfl; rfl
      · rintro W a b rfl rfl p
        have := Enc.iincWide (c := env.ctx W) (p := p) (n := l) (x := x)
        rw [List.append_assoc, List.append_assoc] at this
        exact this
  | jump c l => exact h.elim
  | jsr l => exact h.elim
  | tableSwitch d l o => exact h.elim
  | lookupSwitch d t => exact h.elim
  | label l => exact h.elim
  | lineNumber n => exact h.elim

/-! ## Reading -/

theorem plain_raw {o : Op} {i : Insn} (h : noArg o = some i) :
    ∃ r, RawOk r ∧ rawOp r = o ∧ rawArgs r = [] ∧ (∀ p, convert p r = Rd.pure i) ∧
      normal i = some i ∧ (∀ T, resolveI T i = i) ∧ (∀ f, renI f i = i) ∧ targets i = [] := by
  cases o with
  | nop => cases h; exact ⟨.Nop, trivial, rfl, rfl, fun _ => rfl, rfl, fun _ => rfl, fun _ => rfl, rfl⟩
  | aconst_null => cases h; exact ⟨.AConstNull, trivial, rfl, rfl, fun _ => rfl, rfl, fun _ => rfl, fun _ => rfl, rfl⟩
  | iconst_m1 => cases h; exact ⟨.IConstM1, trivial, rfl, rfl, fun _ => rfl, rfl, fun _ => rfl, fun _ => rfl, rfl⟩
  | iconst_0 => cases h; exact ⟨.IConst0, trivial, rfl, rfl, fun _ => rfl, rfl, fun _ => rfl, fun _ => rfl, rfl⟩
  | iconst_1 => cases h; exact ⟨.IConst1, trivial, rfl, rfl, fun _ => rfl, rfl, fun _ => rfl, fun _ => rfl, rfl⟩
  | iconst_2 => cases h; exact ⟨.IConst2, trivial, rfl, rfl, fun _ => rfl, rfl, fun _ => rfl, fun _ => rfl, rfl⟩
  | iconst_3 => cases h; exact ⟨.IConst3, trivial, rfl, rfl, fun _ => rfl, rfl, fun _ => rfl, fun _ => rfl, rfl⟩
  | iconst_4 => cases h; exact ⟨.IConst4, trivial, rfl, rfl, fun _ => rfl, rfl, fun _ => rfl, fun _ => rfl, rfl⟩
  | iconst_5 => cases h; exact ⟨.IConst5, trivial, rfl, rfl, fun _ => rfl, rfl, fun _ => rfl, fun _ => rfl, rfl⟩
  | lconst_0 => cases h; exact ⟨.LConst0, trivial, rfl, rfl, fun _ => rfl, rfl, fun _ => rfl, fun _ => rfl, rfl⟩
  | lconst_1 => cases h; exact ⟨.LConst1, trivial, rfl, rfl, fun _ => rfl, rfl, fun _ => rfl, fun _ => rfl, rfl⟩
  | fconst_0 => cases h; exact ⟨.FConst0, trivial, rfl, rfl, fun _ => rfl, rfl, fun _ => rfl, fun _ => rfl, rfl⟩
  | fconst_1 => cases h; exact ⟨.FConst1, trivial, rfl, rfl, fun _ => rfl, rfl, fun _ => rfl, fun _ => rfl, rfl⟩
  | fconst_2 => cases h; exact ⟨.FConst2, trivial, rfl, rfl, fun _ => rfl, rfl, fun _ => rfl, fun _ => rfl, rfl⟩
  | dconst_0 => cases h; exact ⟨.DConst0, trivial, rfl, rfl, fun _ => rfl, rfl, fun _ => rfl, fun _ => rfl, rfl⟩
  | dconst_1 => cases h; exact ⟨.DConst1, trivial, rfl, rfl, fun _ => rfl, rfl, fun _ => rfl, fun _ => rfl, rfl⟩
  | iload_0 => cases h; exact ⟨.ILoad0, trivial, rfl, rfl, fun _ => rfl, rfl, fun _ => rfl, fun _ => rfl, rfl⟩
  | iload_1 => cases h; exact ⟨.ILoad1, trivial, rfl, rfl, fun _ => rfl, rfl, fun _ => rfl, fun _ => rfl, rfl⟩
  | iload_2 => cases h; exact ⟨.ILoad2, trivial, rfl, rfl, fun _ => rfl, rfl, fun _ => rfl, fun _ => rfl, rfl⟩
  | iload_3 => cases h; exact ⟨.ILoad3, trivial, rfl, rfl, fun _ => rfl, rfl, fun _ => rfl, fun _ => rfl, rfl⟩
  | lload_0 => cases h; exact ⟨.LLoad0, trivial, rfl, rfl, fun _ => rfl, rfl, fun _ => rfl, fun _ => rfl, rfl⟩
  | lload_1 => cases h; exact ⟨.LLoad1, trivial, rfl, rfl, fun _ => rfl, rfl, fun _ => rfl, fun _ => rfl, rfl⟩
  | lload_2 => cases h; exact ⟨.LLoad2, trivial, rfl, rfl, fun _ => rfl, rfl, fun _ => rfl, fun _ => rfl, rfl⟩
  | lload_3 => cases h; exact ⟨.LLoad3, trivial, rfl, rfl, fun _ => rfl, rfl, fun _ => rfl, fun _ => rfl, rfl⟩
  | fload_0 => cases h; exact ⟨.FLoad0, trivial, rfl, rfl, fun _ => rfl, rfl, fun _ => rfl, fun _ => rfl, rfl⟩
  | fload_1 => cases h; exact ⟨.FLoad1, trivial, rfl, rfl, fun _ => rfl, rfl, fun _ => rfl, fun _ => rfl, rfl⟩
  | fload_2 => cases h; exact ⟨.FLoad2, trivial, rfl, rfl, fun _ => rfl, rfl, fun _ => rfl, fun _ => rfl, rfl⟩
  | fload_3 => cases h; exact ⟨.FLoad3, trivial, rfl, rfl, fun _ => rfl, rfl, fun _ => rfl, fun _ => rfl, rfl⟩
  | dload_0 => cases h; exact ⟨.DLoad0, trivial, rfl, rfl, fun _ => rfl, rfl, fun _ => rfl, fun _ => rfl, rfl⟩
  | dload_1 => cases h; exact ⟨.DLoad1, trivial, rfl, rfl, fun _ => rfl, rfl, fun _ => rfl, fun _ => rfl, rfl⟩
  | dload_2 => cases h; exact ⟨.DLoad2, trivial, rfl, rfl, fun _ => rfl, rfl, fun _ => rfl, fun _ => rfl, rfl⟩
  | dload_3 => cases h; exact ⟨.DLoad3, trivial, rfl, rfl, fun _ => rfl, rfl, fun _ => rfl, fun _ => rfl, rfl⟩
  | aload_0 => cases h; exact ⟨.ALoad0, trivial, rfl, rfl, fun _ => rfl, rfl, fun _ => rfl, fun _ => rfl, rfl⟩
  | aload_1 => cases h; exact ⟨.ALoad1, trivial, rfl, rfl, fun _ => rfl, rfl, fun _ => rfl, fun _ => rfl, rfl⟩
  | aload_2 => cases h; exact ⟨.ALoad2, trivial, rfl, rfl, fun _ => rfl, rfl, fun _ => rfl, fun _ => rfl, rfl⟩
  | aload_3 => cases h; exact ⟨.ALoad3, trivial, rfl, rfl, fun _ => rfl, rfl, fun _ => rfl, fun _ => rfl, rfl⟩
  | istore_0 => cases h; exact ⟨.IStore0, trivial, rfl, rfl, fun _ => rfl, rfl, fun _ => rfl, fun _ => rfl, rfl⟩
  | istore_1 => cases h; exact ⟨.IStore1, trivial, rfl, rfl, fun _ => rfl, rfl, fun _ => rfl, fun _ => rfl, rfl⟩
  | istore_2 => cases h; exact ⟨.IStore2, trivial, rfl, rfl, fun _ => rfl, rfl, fun _ => rfl, fun _ => rfl, rfl⟩
  | istore_3 => cases h; exact ⟨.IStore3, trivial, rfl, rfl, fun _ => rfl, rfl, fun _ => rfl, fun _ => rfl, rfl⟩
  | lstore_0 => cases h; exact ⟨.LStore0, trivial, rfl, rfl, fun _ => rfl, rfl, fun _ => rfl, fun _ => rfl, rfl⟩
  | lstore_1 => cases h; exact ⟨.LStore1, trivial, rfl, rfl, fun _ => rfl, rfl, fun _ => rfl, fun _ => rfl, rfl⟩
  | lstore_2 => cases h; exact ⟨.LStore2, trivial, rfl, rfl, fun _ => rfl, rfl, fun _ => rfl, fun _ => rfl, rfl⟩
  | lstore_3 => cases h; exact ⟨.LStore3, trivial, rfl, rfl, fun _ => rfl, rfl, fun _ => rfl, fun _ => rfl, rfl⟩
  | fstore_0 => cases h; exact ⟨.FStore0, trivial, rfl, rfl, fun _ => rfl, rfl, fun _ => rfl, fun _ => rfl, rfl⟩
  | fstore_1 => cases h; exact ⟨.FStore1, trivial, rfl, rfl, fun _ => rfl, rfl, fun _ => rfl, fun _ => rfl, rfl⟩
  | fstore_2 => cases h; exact ⟨.FStore2, trivial, rfl, rfl, fun _ => rfl, rfl, fun _ => rfl, fun _ => rfl, rfl⟩
  | fstore_3 => cases h; exact ⟨.FStore3, trivial, rfl, rfl, fun _ => rfl, rfl, fun _ => rfl, fun _ => rfl, rfl⟩
  | dstore_0 => cases h; exact ⟨.DStore0, trivial, rfl, rfl, fun _ => rfl, rfl, fun _ => rfl, fun _ => rfl, rfl⟩
  | dstore_1 => cases h; exact ⟨.DStore1, trivial, rfl, rfl, fun _ => rfl, rfl, fun _ => rfl, fun _ => rfl, rfl⟩
  | dstore_2 => cases h; exact ⟨.DStore2, trivial, rfl, rfl, fun _ => rfl, rfl, fun _ => rfl, fun _ => rfl, rfl⟩
  | dstore_3 => cases h; exact ⟨.DStore3, trivial, rfl, rfl, fun _ => rfl, rfl, fun _ => rfl, fun _ => rfl, rfl⟩
  | astore_0 => cases h; exact ⟨.AStore0, trivial, rfl, rfl, fun _ => rfl, rfl, fun _ => rfl, fun _ => rfl, rfl⟩
  | astore_1 => cases h; exact ⟨.AStore1, trivial, rfl, rfl, fun _ => rfl, rfl, fun _ => rfl, fun _ => rfl, rfl⟩
  | astore_2 => cases h; exact ⟨.AStore2, trivial, rfl, rfl, fun _ => rfl, rfl, fun _ => rfl, fun _ => rfl, rfl⟩
  | astore_3 => cases h; exact ⟨.AStore3, trivial, rfl, rfl, fun _ => rfl, rfl, fun _ => rfl, fun _ => rfl, rfl⟩
  | iaload => cases h; exact ⟨.IALoad, trivial, rfl, rfl, fun _ => rfl, rfl, fun _ => rfl, fun _ => rfl, rfl⟩
  | laload => cases h; exact ⟨.LALoad, trivial, rfl, rfl, fun _ => rfl, rfl, fun _ => rfl, fun _ => rfl, rfl⟩
  | faload => cases h; exact ⟨.FALoad, trivial, rfl, rfl, fun _ => rfl, rfl, fun _ => rfl, fun _ => rfl, rfl⟩
  | daload => cases h; exact ⟨.DALoad, trivial, rfl, rfl, fun _ => rfl, rfl, fun _ => rfl, fun _ => rfl, rfl⟩
  | aaload => cases h; exact ⟨.AALoad, trivial, rfl, rfl, fun _ => rfl, rfl, fun _ => rfl, fun _ => rfl, rfl⟩
  | baload => cases h; exact ⟨.BALoad, trivial, rfl, rfl, fun _ => rfl, rfl, fun _ => rfl, fun _ => rfl, rfl⟩
  | caload => cases h; exact ⟨.CALoad, trivial, rfl, rfl, fun _ => rfl, rfl, fun _ => rfl, fun _ => rfl, rfl⟩
  | saload => cases h; exact ⟨.SALoad, trivial, rfl, rfl, fun _ => rfl, rfl, fun _ => rfl, fun _ => rfl, rfl⟩
  | iastore => cases h; exact ⟨.IAStore, trivial, rfl, rfl, fun _ => rfl, rfl, fun _ => rfl, fun _ => rfl, rfl⟩
  | lastore => cases h; exact ⟨.LAStore, trivial, rfl, rfl, fun _ => rfl, rfl, fun _ => rfl, fun _ => rfl, rfl⟩
  | fastore => cases h; exact ⟨.FAStore, trivial, rfl, rfl, fun _ => rfl, rfl, fun _ => rfl, fun _ => rfl, rfl⟩
  | dastore => cases h; exact ⟨.DAStore, trivial, rfl, rfl, fun _ => rfl, rfl, fun _ => rfl, fun _ => rfl, rfl⟩
  | aastore => cases h; exact ⟨.AAStore, trivial, rfl, rfl, fun _ => rfl, rfl, fun _ => rfl, fun _ => rfl, rfl⟩
  | bastore => cases h; exact ⟨.BAStore, trivial, rfl, rfl, fun _ => rfl, rfl, fun _ => rfl, fun _ => rfl, rfl⟩
  | castore => cases h; exact ⟨.CAStore, trivial, rfl, rfl, fun _ => rfl, rfl, fun _ => rfl, fun _ => rfl, rfl⟩
  | sastore => cases h; exact ⟨.SAStore, trivial, rfl, rfl, fun _ => rfl, rfl, fun _ => rfl, fun _ => rfl, rfl⟩
  | pop => cases h; exact ⟨.Pop, trivial, rfl, rfl, fun _ => rfl, rfl, fun _ => rfl, fun _ => rfl, rfl⟩
  | pop2 => cases h; exact ⟨.Pop2, trivial, rfl, rfl, fun _ => rfl, rfl, fun _ => rfl, fun _ => rfl, rfl⟩
  | dup => cases h; exact ⟨.Dup, trivial, rfl, rfl, fun _ => rfl, rfl, fun _ => rfl, fun _ => rfl, rfl⟩
  | dup_x1 => cases h; exact ⟨.Dupx1, trivial, rfl, rfl, fun _ => rfl, rfl, fun _ => rfl, fun _ => rfl, rfl⟩
  | dup_x2 => cases h; exact ⟨.Dupx2, trivial, rfl, rfl, fun _ => rfl, rfl, fun _ => rfl, fun _ => rfl, rfl⟩
  | dup2 => cases h; exact ⟨.Dup2, trivial, rfl, rfl, fun _ => rfl, rfl, fun _ => rfl, fun _ => rfl, rfl⟩
  | dup2_x1 => cases h; exact ⟨.Dup2x1, trivial, rfl, rfl, fun _ => rfl, rfl, fun _ => rfl, fun _ => rfl, rfl⟩
  | dup2_x2 => cases h; exact ⟨.Dup2x2, trivial, rfl, rfl, fun _ => rfl, rfl, fun _ => rfl, fun _ => rfl, rfl⟩
  | swap => cases h; exact ⟨.Swap, trivial, rfl, rfl, fun _ => rfl, rfl, fun _ => rfl, fun _ => rfl, rfl⟩
  | iadd => cases h; exact ⟨.IAdd, trivial, rfl, rfl, fun _ => rfl, rfl, fun _ => rfl, fun _ => rfl, rfl⟩
  | ladd => cases h; exact ⟨.LAdd, trivial, rfl, rfl, fun _ => rfl, rfl, fun _ => rfl, fun _ => rfl, rfl⟩
  | fadd => cases h; exact ⟨.FAdd, trivial, rfl, rfl, fun _ => rfl, rfl, fun _ => rfl, fun _ => rfl, rfl⟩
  | dadd => cases h; exact ⟨.DAdd, trivial, rfl, rfl, fun _ => rfl, rfl, fun _ => rfl, fun _ => rfl, rfl⟩
  | isub => cases h; exact ⟨.ISub, trivial, rfl, rfl, fun _ => rfl, rfl, fun _ => rfl, fun _ => rfl, rfl⟩
  | lsub => cases h; exact ⟨.LSub, trivial, rfl, rfl, fun _ => rfl, rfl, fun _ => rfl, fun _ => rfl, rfl⟩
  | fsub => cases h; exact ⟨.FSub, trivial, rfl, rfl, fun _ => rfl, rfl, fun _ => rfl, fun _ => rfl, rfl⟩
  | dsub => cases h; exact ⟨.DSub, trivial, rfl, rfl, fun _ => rfl, rfl, fun _ => rfl, fun _ => rfl, rfl⟩
  | imul => cases h; exact ⟨.IMul, trivial, rfl, rfl, fun _ => rfl, rfl, fun _ => rfl, fun _ => rfl, rfl⟩
  | lmul => cases h; exact ⟨.LMul, trivial, rfl, rfl, fun _ => rfl, rfl, fun _ => rfl, fun _ => rfl, rfl⟩
  | fmul => cases h; exact ⟨.FMul, trivial, rfl, rfl, fun _ => rfl, rfl, fun _ => rfl, fun _ => rfl, rfl⟩
  | dmul => cases h; exact ⟨.DMul, trivial, rfl, rfl, fun _ => rfl, rfl, fun _ => rfl, fun _ => rfl, rfl⟩
  | idiv => cases h; exact ⟨.IDiv, trivial, rfl, rfl, fun _ => rfl, rfl, fun _ => rfl, fun _ => rfl, rfl⟩
  | ldiv => cases h; exact ⟨.LDiv, trivial, rfl, rfl, fun _ => rfl, rfl, fun _ => rfl, fun _ => rfl, rfl⟩
  | fdiv => cases h; exact ⟨.FDiv, trivial, rfl, rfl, fun _ => rfl, rfl, fun _ => rfl, fun _ => rfl, rfl⟩
  | ddiv => cases h; exact ⟨.DDiv, trivial, rfl, rfl, fun _ => rfl, rfl, fun _ => rfl, fun _ => rfl, rfl⟩
  | irem => cases h; exact ⟨.IRem, trivial, rfl, rfl, fun _ => rfl, rfl, fun _ => rfl, fun _ => rfl, rfl⟩
  | lrem => cases h; exact ⟨.LRem, trivial, rfl, rfl, fun _ => rfl, rfl, fun _ => rfl, fun _ => rfl, rfl⟩
  | frem => cases h; exact ⟨.FRem, trivial, rfl, rfl, fun _ => rfl, rfl, fun _ => rfl, fun _ => rfl, rfl⟩
  | drem => cases h; exact ⟨.DRem, trivial, rfl, rfl, fun _ => rfl, rfl, fun _ => rfl, fun _ => rfl, rfl⟩
  | ineg => cases h; exact ⟨.INeg, trivial, rfl, rfl, fun _ => rfl, rfl, fun _ => rfl, fun _ => rfl, rfl⟩
  | lneg => cases h; exact ⟨.LNeg, trivial, rfl, rfl, fun _ => rfl, rfl, fun _ => rfl, fun _ => rfl, rfl⟩
  | fneg => cases h; exact ⟨.FNeg, trivial, rfl, rfl, fun _ => rfl, rfl, fun _ => rfl, fun _ => rfl, rfl⟩
  | dneg => cases h; exact ⟨.DNeg, trivial, rfl, rfl, fun _ => rfl, rfl, fun _ => rfl, fun _ => rfl, rfl⟩
  | ishl => cases h; exact ⟨.IShl, trivial, rfl, rfl, fun _ => rfl, rfl, fun _ => rfl, fun _ => rfl, rfl⟩
  | lshl => cases h; exact ⟨.LShl, trivial, rfl, rfl, fun _ => rfl, rfl, fun _ => rfl, fun _ => rfl, rfl⟩
  | ishr => cases h; exact ⟨.IShr, trivial, rfl, rfl, fun _ => rfl, rfl, fun _ => rfl, fun _ => rfl, rfl⟩
  | lshr => cases h; exact ⟨.LShr, trivial, rfl, rfl, fun _ => rfl, rfl, fun _ => rfl, fun _ => rfl, rfl⟩
  | iushr => cases h; exact ⟨.IUshr, trivial, rfl, rfl, fun _ => rfl, rfl, fun _ => rfl, fun _ => rfl, rfl⟩
  | lushr => cases h; exact ⟨.LUshr, trivial, rfl, rfl, fun _ => rfl, rfl, fun _ => rfl, fun _ => rfl, rfl⟩
  | iand => cases h; exact ⟨.IAnd, trivial, rfl, rfl, fun _ => rfl, rfl, fun _ => rfl, fun _ => rfl, rfl⟩
  | land => cases h; exact ⟨.LAnd, trivial, rfl, rfl, fun _ => rfl, rfl, fun _ => rfl, fun _ => rfl, rfl⟩
  | ior => cases h; exact ⟨.IOr, trivial, rfl, rfl, fun _ => rfl, rfl, fun _ => rfl, fun _ => rfl, rfl⟩
  | lor => cases h; exact ⟨.LOr, trivial, rfl, rfl, fun _ => rfl, rfl, fun _ => rfl, fun _ => rfl, rfl⟩
  | ixor => cases h; exact ⟨.IXor, trivial, rfl, rfl, fun _ => rfl, rfl, fun _ => rfl, fun _ => rfl, rfl⟩
  | lxor => cases h; exact ⟨.LXor, trivial, rfl, rfl, fun _ => rfl, rfl, fun _ => rfl, fun _ => rfl, rfl⟩
  | i2l => cases h; exact ⟨.I2L, trivial, rfl, rfl, fun _ => rfl, rfl, fun _ => rfl, fun _ => rfl, rfl⟩
  | i2f => cases h; exact ⟨.I2F, trivial, rfl, rfl, fun _ => rfl, rfl, fun _ => rfl, fun _ => rfl, rfl⟩
  | i2d => cases h; exact ⟨.I2D, trivial, rfl, rfl, fun _ => rfl, rfl, fun _ => rfl, fun _ => rfl, rfl⟩
  | i2b => cases h; exact ⟨.I2B, trivial, rfl, rfl, fun _ => rfl, rfl, fun _ => rfl, fun _ => rfl, rfl⟩
  | i2c => cases h; exact ⟨.I2C, trivial, rfl, rfl, fun _ => rfl, rfl, fun _ => rfl, fun _ => rfl, rfl⟩
  | i2s => cases h; exact ⟨.I2S, trivial, rfl, rfl, fun _ => rfl, rfl, fun _ => rfl, fun _ => rfl, rfl⟩
  | l2i => cases h; exact ⟨.L2I, trivial, rfl, rfl, fun _ => rfl, rfl, fun _ => rfl, fun _ => rfl, rfl⟩
  | l2f => cases h; exact ⟨.L2F, trivial, rfl, rfl, fun _ => rfl, rfl, fun _ => rfl, fun _ => rfl, rfl⟩
  | l2d => cases h; exact ⟨.L2D, trivial, rfl, rfl, fun _ => rfl, rfl, fun _ => rfl, fun _ => rfl, rfl⟩
  | f2i => cases h; exact ⟨.F2I, trivial, rfl, rfl, fun _ => rfl, rfl, fun _ => rfl, fun _ => rfl, rfl⟩
  | f2l => cases h; exact ⟨.F2L, trivial, rfl, rfl, fun _ => rfl, rfl, fun _ => rfl, fun _ => rfl, rfl⟩
  | f2d => cases h; exact ⟨.F2D, trivial, rfl, rfl, fun _ => rfl, rfl, fun _ => rfl, fun _ => rfl, rfl⟩
  | d2i => cases h; exact ⟨.D2I, trivial, rfl, rfl, fun _ => rfl, rfl, fun _ => rfl, fun _ => rfl, rfl⟩
  | d2l => cases h; exact ⟨.D2L, trivial, rfl, rfl, fun _ => rfl, rfl, fun _ => rfl, fun _ => rfl, rfl⟩
  | d2f => cases h; exact ⟨.D2F, trivial, rfl, rfl, fun _ => rfl, rfl, fun _ => rfl, fun _ => rfl, rfl⟩
  | lcmp => cases h; exact ⟨.LCmp, trivial, rfl, rfl, fun _ => rfl, rfl, fun _ => rfl, fun _ => rfl, rfl⟩
  | fcmpl => cases h; exact ⟨.FCmpL, trivial, rfl, rfl, fun _ => rfl, rfl, fun _ => rfl, fun _ => rfl, rfl⟩
  | fcmpg => cases h; exact ⟨.FCmpG, trivial, rfl, rfl, fun _ => rfl, rfl, fun _ => rfl, fun _ => rfl, rfl⟩
  | dcmpl => cases h; exact ⟨.DCmpL, trivial, rfl, rfl, fun _ => rfl, rfl, fun _ => rfl, fun _ => rfl, rfl⟩
  | dcmpg => cases h; exact ⟨.DCmpG, trivial, rfl, rfl, fun _ => rfl, rfl, fun _ => rfl, fun _ => rfl, rfl⟩
  | ireturn => cases h; exact ⟨.IReturn, trivial, rfl, rfl, fun _ => rfl, rfl, fun _ => rfl, fun _ => rfl, rfl⟩
  | lreturn => cases h; exact ⟨.LReturn, trivial, rfl, rfl, fun _ => rfl, rfl, fun _ => rfl, fun _ => rfl, rfl⟩
  | freturn => cases h; exact ⟨.FReturn, trivial, rfl, rfl, fun _ => rfl, rfl, fun _ => rfl, fun _ => rfl, rfl⟩
  | dreturn => cases h; exact ⟨.DReturn, trivial, rfl, rfl, fun _ => rfl, rfl, fun _ => rfl, fun _ => rfl, rfl⟩
  | areturn => cases h; exact ⟨.AReturn, trivial, rfl, rfl, fun _ => rfl, rfl, fun _ => rfl, fun _ => rfl, rfl⟩
  | return_ => cases h; exact ⟨.Return, trivial, rfl, rfl, fun _ => rfl, rfl, fun _ => rfl, fun _ => rfl, rfl⟩
  | arraylength => cases h; exact ⟨.ArrayLength, trivial, rfl, rfl, fun _ => rfl, rfl, fun _ => rfl, fun _ => rfl, rfl⟩
  | athrow => cases h; exact ⟨.AThrow, trivial, rfl, rfl, fun _ => rfl, rfl, fun _ => rfl, fun _ => rfl, rfl⟩
  | monitorenter => cases h; exact ⟨.MonitorEnter, trivial, rfl, rfl, fun _ => rfl, rfl, fun _ => rfl, fun _ => rfl, rfl⟩
  | monitorexit => cases h; exact ⟨.MonitorExit, trivial, rfl, rfl, fun _ => rfl, rfl, fun _ => rfl, fun _ => rfl, rfl⟩
  | _ => cases h

theorem cond_raw (k : Cond) (x : Int16) :
    ∃ r, RawOk r ∧ rawOp r = condOp k ∧ rawArgs r = S2 x.toInt ∧
      ∀ p, convert p r = Rd.map (.jump k) (lbl p x.toInt) := by
  cases k with
  | eqZ => exact ⟨.IfEq x, trivial, rfl, rfl, fun _ => rfl⟩
  | neZ => exact ⟨.IfNe x, trivial, rfl, rfl, fun _ => rfl⟩
  | ltZ => exact ⟨.IfLt x, trivial, rfl, rfl, fun _ => rfl⟩
  | geZ => exact ⟨.IfGe x, trivial, rfl, rfl, fun _ => rfl⟩
  | gtZ => exact ⟨.IfGt x, trivial, rfl, rfl, fun _ => rfl⟩
  | leZ => exact ⟨.IfLe x, trivial, rfl, rfl, fun _ => rfl⟩
  | intEq => exact ⟨.IfICmpEq x, trivial, rfl, rfl, fun _ => rfl⟩
  | intNe => exact ⟨.IfICmpNe x, trivial, rfl, rfl, fun _ => rfl⟩
  | intLt => exact ⟨.IfICmpLt x, trivial, rfl, rfl, fun _ => rfl⟩
  | intGe => exact ⟨.IfICmpGe x, trivial, rfl, rfl, fun _ => rfl⟩
  | intGt => exact ⟨.IfICmpGt x, trivial, rfl, rfl, fun _ => rfl⟩
  | intLe => exact ⟨.IfICmpLe x, trivial, rfl, rfl, fun _ => rfl⟩
  | refEq => exact ⟨.IfACmpEq x, trivial, rfl, rfl, fun _ => rfl⟩
  | refNe => exact ⟨.IfACmpNe x, trivial, rfl, rfl, fun _ => rfl⟩
  | isNull => exact ⟨.IfNull x, trivial, rfl, rfl, fun _ => rfl⟩
  | isNonNull => exact ⟨.IfNonNull x, trivial, rfl, rfl, fun _ => rfl⟩
  | always => exact ⟨.Goto x, trivial, rfl, rfl, fun _ => rfl⟩

theorem var_raw (m : LoadOrStore) (t : LocalType) (n : UInt8) :
    ∃ r, RawOk r ∧ rawOp r = varOp m t ∧ rawArgs r = U1 n.toNat ∧
      ∀ p, convert p r = Rd.pure (.localVariable m t n.toUInt16) := by
  match m, t with
  | .load, .int => exact ⟨.ILoad n, trivial, rfl, rfl, fun _ => rfl⟩
  | .load, .long => exact ⟨.LLoad n, trivial, rfl, rfl, fun _ => rfl⟩
  | .load, .float => exact ⟨.FLoad n, trivial, rfl, rfl, fun _ => rfl⟩
  | .load, .double => exact ⟨.DLoad n, trivial, rfl, rfl, fun _ => rfl⟩
  | .load, .ref => exact ⟨.ALoad n, trivial, rfl, rfl, fun _ => rfl⟩
  | .store, .int => exact ⟨.IStore n, trivial, rfl, rfl, fun _ => rfl⟩
  | .store, .long => exact ⟨.LStore n, trivial, rfl, rfl, fun _ => rfl⟩
  | .store, .float => exact ⟨.FStore n, trivial, rfl, rfl, fun _ => rfl⟩
  | .store, .double => exact ⟨.DStore n, trivial, rfl, rfl, fun _ => rfl⟩
  | .store, .ref => exact ⟨.AStore n, trivial, rfl, rfl, fun _ => rfl⟩

theorem varWide_raw (m : LoadOrStore) (t : LocalType) (n : UInt16) :
    ∃ r, RawOk r ∧ rawOp r = .wide ∧ rawArgs r = U1 (varOp m t).code ++ U2 n.toNat ∧
      ∀ p, convert p r = Rd.pure (.localVariable m t n) := by
  match m, t with
  | .load, .int => exact ⟨.Wide (.ILoad n), trivial, rfl, rfl, fun _ => rfl⟩
  | .load, .long => exact ⟨.Wide (.LLoad n), trivial, rfl, rfl, fun _ => rfl⟩
  | .load, .float => exact ⟨.Wide (.FLoad n), trivial, rfl, rfl, fun _ => rfl⟩
  | .load, .double => exact ⟨.Wide (.DLoad n), trivial, rfl, rfl, fun _ => rfl⟩
  | .load, .ref => exact ⟨.Wide (.ALoad n), trivial, rfl, rfl, fun _ => rfl⟩
  | .store, .int => exact ⟨.Wide (.IStore n), trivial, rfl, rfl, fun _ => rfl⟩
  | .store, .long => exact ⟨.Wide (.LStore n), trivial, rfl, rfl, fun _ => rfl⟩
  | .store, .float => exact ⟨.Wide (.FStore n), trivial, rfl, rfl, fun _ => rfl⟩
  | .store, .double => exact ⟨.Wide (.DStore n), trivial, rfl, rfl, fun _ => rfl⟩
  | .store, .ref => exact ⟨.Wide (.AStore n), trivial, rfl, rfl, fun _ => rfl⟩

theorem rInsn_raw {r : RInsn} (hr : RawOk r) (hs : rawOp r ≠ .tableswitch ∧ rawOp r ≠ .lookupswitch)
    {p : Nat} {env : REnv} {v : (UInt32 → Label) → Insn} {o : List UInt32} {q : List UInt16}
    (h : Reads (convert p r) env [] v o q) :
    Reads (rInsn p) env (U1 (rawOp r).code ++ rawArgs r) v o q := by
  have hd : UInt8.ofNat (rawOp r).code ≠ opc.TABLESWITCH ∧ UInt8.ofNat (rawOp r).code ≠ opc.LOOKUPSWITCH := by
    generalize rawOp r = o at hs
    revert hs
    cases o <;> decide
  have h1 : Reads (Rd.bind (Rd.lift RInsn.read) (convert p)) env (U1 (rawOp r).code ++ rawArgs r) v o q :=
    (PReads.bindR (PReads.lift (Props.C35_roundtrip r hr)) h).cast (by simp) rfl rfl rfl
  intro st rest hst m hm
  rw [← h1 st rest hst m hm]
  show rInsn p env st (UInt8.ofNat (rawOp r).code :: (rawArgs r ++ rest)) = _
  unfold rInsn
  simp only
  rw [if_neg (by simp [hd])]
  rfl

/-- What it means that `bs` at position `p` is read as the instruction `j`: with the labels renamed
and the bootstrap methods left to the table. -/
def ReadsI (c : Ctx) (cs : Option (List Catch)) (p : Nat) (bs : Bytes) (j : Insn) : Prop :=
  ∃ (v : (UInt32 → Label) → Insn) (pend : List UInt16),
    (∀ n, resolveI c.bsm (v n) = renI (c.ren n) j) ∧ (∀ k ∈ pend, k.toNat < c.bsm.length) ∧
    Reads (rInsn p) ⟨c.pool, cs⟩ bs v ((targets j).flatMap c.offs) pend

theorem ReadsI.cast {c : Ctx} {cs : Option (List Catch)} {p : Nat} {bs bs' : Bytes} {j : Insn}
    (h : ReadsI c cs p bs j) (e : bs = bs') : ReadsI c cs p bs' j := e ▸ h

theorem ReadsI.pure {c : Ctx} {cs : Option (List Catch)} {p : Nat} {j : Insn} {r : RInsn} (hr : RawOk r)
    (hs : rawOp r ≠ .tableswitch ∧ rawOp r ≠ .lookupswitch) (h : convert p r = Rd.pure j)
    (h1 : ∀ T, resolveI T j = j) (h2 : ∀ f, renI f j = j) (h3 : targets j = []) :
    ReadsI c cs p (U1 (rawOp r).code ++ rawArgs r) j := by
  refine ⟨fun _ => j, [], fun n => by rw [h1, h2], by simp, rInsn_raw hr hs ?_⟩
  rw [h, h3]
  exact (Rd.reads_pure _ _).reads

theorem lookup_dyn {P : Pool} {i b : UInt16} {n : Bytes} {t : JType} (h : IsDynamic P i b n t)
    (hm : ∀ ps r, t ≠ .method ps r) (q : List UInt16) :
    Pool.dynamic P i q = .ok (some ⟨.pending b, n, t⟩, q ++ [b]) := by
  have := dynamic_of h q
  rwa [if_neg (by rw [isMethod_iff]; rintro ⟨ps, r, e⟩; exact hm ps r e)] at this

theorem lookup_indy {P : Pool} {i b : UInt16} {n : Bytes} {t : JType} (h : IsDynamic P i b n t)
    {ps : List JType} {r : Option JType} (hm : t = .method ps r) (q : List UInt16) :
    Pool.invokeDynamic P i q = .ok (some ⟨.pending b, n, t⟩, q ++ [b]) := by
  have := dynamic_of h q
  rwa [if_pos ((isMethod_iff _).mpr ⟨ps, r, hm⟩)] at this

theorem resolve_pending {c : Ctx} (hT : c.bsm.length ≤ 65536) {k : Nat} {b : Bsm}
    (h : c.bsm[k]? = some b) {d : Dynamic} (hd : d.bsm = .filled b.handle b.arguments) :
    resolveD c.bsm ⟨.pending (UInt16.ofNat k), d.name, d.descriptor⟩ = d := by
  have hk : k < c.bsm.length := (List.getElem?_eq_some_iff.mp h).1
  have e : (UInt16.ofNat k).toNat = k := by simp; omega
  cases d
  simp only at hd
  subst hd
  simp only [resolveD, e, h]

theorem pend_lt {c : Ctx} (hT : c.bsm.length ≤ 65536) {k : Nat} {b : Bsm} (h : c.bsm[k]? = some b) :
    ∀ j ∈ [UInt16.ofNat k], j.toNat < c.bsm.length := by
  have hk : k < c.bsm.length := (List.getElem?_eq_some_iff.mp h).1
  intro j hj
  rw [List.mem_singleton.mp hj]
  simp
  omega

def OrDynamic.map {α β : Type} (g : α → β) : OrDynamic α → OrDynamic β
  | .dynamic d => .dynamic d
  | .static a => .static (g a)

theorem reads_orDyn {α β : Type} {is : Pool → UInt16 → α → Prop} {f : Pool → UInt16 → Res (Option β)}
    {g : α → β} {c : Ctx} (cs : Option (List Catch)) {i : UInt16} {x : OrDynamic α}
    (hf : ∀ a, is c.pool i a → f c.pool i = .ok (some (g a)))
    (hn : ∀ a, is c.pool i a → ∀ b nt, c.pool i ≠ some (.dyn b nt))
    (hT : c.bsm.length ≤ 65536) (h : IsOrDyn is c i x) :
    ∃ v pend, resolveO c.bsm v = x.map g ∧ (∀ k ∈ pend, k.toNat < c.bsm.length) ∧
      Reads (rOrDyn f i) ⟨c.pool, cs⟩ [] (fun _ => v) [] pend := by
  cases x with
  | static a =>
    refine ⟨.static (g a), [], rfl, by simp, ?_⟩
    intro st rest _ m _
    have hd : Pool.dynamic c.pool i st.pending = .ok (none, st.pending) := by
      unfold Pool.dynamic
      split
      · rename_i b nt e
        exact absurd e (hn a h b nt)
      · rfl
    simp only [rOrDyn, rLookupD, Pool.orDynamic, hd, hf a h, Option.map_some, List.append_nil,
      LabelMap.addAll, Option.map_id', List.nil_append]
  | dynamic d =>
    obtain ⟨hm, k, b, h1, h2, h3⟩ := h
    refine ⟨.dynamic ⟨.pending (UInt16.ofNat k), d.name, d.descriptor⟩, [UInt16.ofNat k], ?_, pend_lt hT h2, ?_⟩
    · exact congrArg OrDynamic.dynamic (resolve_pending hT h2 h3)
    · intro st rest _ m _
      simp only [rOrDyn, rLookupD, Pool.orDynamic, lookup_dyn h1 hm,
        LabelMap.addAll, Option.map_id', List.nil_append]

theorem isMember_not_dyn {P : Pool} {i : UInt16} {m : MemberRef} (h : IsMember P i m) (b nt : UInt16) :
    P i ≠ some (.dyn b nt) := by
  cases h <;> simp_all

theorem isClass_not_dyn {P : Pool} {i : UInt16} {s : Bytes} (h : IsClass P i s) (b nt : UInt16) :
    P i ≠ some (.dyn b nt) := by
  obtain ⟨j, h1, _⟩ := h
  simp [h1]

theorem reads_member {c : Ctx} (cs : Option (List Catch)) {i : UInt16} {x : OrDynamic MemberRef}
    (hT : c.bsm.length ≤ 65536) (h : IsOrDyn IsMember c i x) :
    ∃ v pend, resolveO c.bsm v = x.map MemberRef.norm ∧ (∀ k ∈ pend, k.toNat < c.bsm.length) ∧
      Reads (rMember i) ⟨c.pool, cs⟩ [] (fun _ => v) [] pend :=
  reads_orDyn cs (fun _ h => member_of h) (fun _ h => isMember_not_dyn h) hT h

theorem reads_classOr {α : Type} {is : Pool → UInt16 → α → Prop} {c : Ctx} (cs : Option (List Catch))
    {i : UInt16} {x : OrDynamic α} {name : α → Bytes → Prop}
    (his : ∀ P i a, is P i a → ∃ s, name a s ∧ IsClass P i s)
    (hT : c.bsm.length ≤ 65536) (h : IsOrDyn is c i x) :
    ∃ v pend, (match x with
      | .dynamic d => ∃ d', v = .dynamic d' ∧ resolveD c.bsm d' = d
      | .static a => ∃ s, v = .static s ∧ name a s) ∧ (∀ k ∈ pend, k.toNat < c.bsm.length) ∧
      Reads (rClassOr i) ⟨c.pool, cs⟩ [] (fun _ => v) [] pend := by
  cases x with
  | static a =>
    obtain ⟨s, h1, h2⟩ := his _ _ _ h
    obtain ⟨v, pend, e, hq, hr⟩ := reads_orDyn (is := IsClass) (g := id) (x := .static s)
      (f := fun P i => .ok (Pool.cls P i)) cs
      (fun _ h => congrArg Except.ok (class_of h)) (fun _ h => isClass_not_dyn h) hT h2
    cases v with
    | dynamic d => cases e
    | static s' =>
      cases e
      exact ⟨_, pend, ⟨s, rfl, h1⟩, hq, hr⟩
  | dynamic d =>
    obtain ⟨v, pend, e, hq, hr⟩ := reads_orDyn (is := IsClass) (g := id) (x := .dynamic d)
      (f := fun P i => .ok (Pool.cls P i)) cs
      (fun _ h => congrArg Except.ok (class_of h)) (fun _ h => isClass_not_dyn h) hT h
    cases v with
    | dynamic d' =>
      exact ⟨_, pend, ⟨d', rfl, by simpa [resolveO, OrDynamic.map] using e⟩, hq, hr⟩
    | static s' => cases e

theorem reads_lbl {c : Ctx} {env : REnv} {p : Nat} {l : Label} {n : Int} (h : Dist c p l n) :
    Reads (lbl p n) env [] (fun m => c.ren m l) (c.offs l) [] := by
  obtain ⟨t, h1, h2⟩ := h
  have e : UInt32.ofInt ((p : Int) + n) = UInt32.ofNat t := by
    rw [h2, show (p : Int) + ((t : Int) - p) = (t : Int) by omega]
    apply UInt32.toNat_inj.mp
    simp [UInt32.ofInt]
    omega
  unfold lbl
  rw [e]
  refine (reads_getLabel env _).cast rfl ?_ ?_ rfl
  · funext m; simp [Ctx.ren, h1]
  · simp [Ctx.offs, h1]

theorem int16_val {n : Int} (h1 : -2 ^ 15 ≤ n) (h2 : n < 2 ^ 15) : (Int16.ofInt n).toInt = n :=
  Int16.toInt_ofInt_of_le (by omega) (by omega)

theorem int32_val {n : Int} (h1 : -2 ^ 31 ≤ n) (h2 : n < 2 ^ 31) : (Int32.ofInt n).toInt = n :=
  Int32.toInt_ofInt_of_le (by omega) (by omega)

theorem reads_lbls {c : Ctx} (env : REnv) {p : Nat} {ls : List Label} {b : Bytes}
    (h : Fmt.all (far p) c ls b) : ∃ ns : List Int32, ns.length = ls.length ∧
      b = (ns.flatMap fun x => S4 x.toInt) ∧
      Reads (lbls p ns) env [] (fun m => ls.map (c.ren m)) (ls.flatMap c.offs) [] := by
  induction ls generalizing b with
  | nil => cases h; exact ⟨[], rfl, rfl, (Rd.reads_pure _ _).reads⟩
  | cons l ls ih =>
    obtain ⟨b1, b2, rfl, ⟨n, h1, h2, h3, rfl⟩, h4⟩ := h
    obtain ⟨ns, e1, rfl, hr⟩ := ih h4
    refine ⟨Int32.ofInt n :: ns, by simp [e1], by simp [int32_val h2 h3], ?_⟩
    rw [← int32_val h2 h3] at h1
    exact Reads.bind (f := fun l => Rd.map (fun ls => l :: ls) (lbls p ns))
      (w := fun n n' => c.ren n l :: ls.map (c.ren n')) (reads_lbl h1)
      (fun m => Reads.map (f := fun ls => c.ren m l :: ls) hr)

theorem reads_entries {c : Ctx} (env : REnv) {p : Nat} {es : List (Int32 × Label)} {b : Bytes}
    (h : Fmt.all (pair p) c es b) : ∃ ns : List SwitchEntry, ns.length = es.length ∧
      b = (ns.flatMap fun e => S4 e.key.toInt ++ S4 e.off.toInt) ∧
      Reads (lblEntries p ns) env [] (fun m => es.map fun e => (e.1, c.ren m e.2))
        (es.flatMap fun e => c.offs e.2) [] := by
  induction es generalizing b with
  | nil => cases h; exact ⟨[], rfl, rfl, (Rd.reads_pure _ _).reads⟩
  | cons e es ih =>
    obtain ⟨b1, b2, rfl, ⟨b3, rfl, n, h1, h2, h3, rfl⟩, h4⟩ := h
    obtain ⟨ns, e1, rfl, hr⟩ := ih h4
    refine ⟨⟨e.1, Int32.ofInt n⟩ :: ns, by simp [e1], by simp [int32_val h2 h3], ?_⟩
    rw [← int32_val h2 h3] at h1
    exact Reads.bind (f := fun l => Rd.map (fun ls => (e.1, l) :: ls) (lblEntries p ns))
      (w := fun n n' => (e.1, c.ren n e.2) :: es.map fun e => (e.1, c.ren n' e.2)) (reads_lbl h1)
      (fun m => Reads.map (f := fun ls => (e.1, c.ren m e.2) :: ls) hr)

theorem indexInsert_new (m : List (Int32 × Label)) (k : Int32) (v : Label)
    (h : ∀ e ∈ m, e.1 ≠ k) : indexInsert m k v = m ++ [(k, v)] := by
  unfold indexInsert
  rw [if_neg]
  simp only [List.any_eq_true, decide_eq_true_eq, not_exists, not_and]
  exact h

theorem indexCollect_aux (es m : List (Int32 × Label)) (h : (m ++ es).Pairwise fun a b => a.1 ≠ b.1) :
    es.foldl (fun m e => indexInsert m e.1 e.2) m = m ++ es := by
  induction es generalizing m with
  | nil => simp
  | cons e es ih =>
    rw [List.foldl_cons, indexInsert_new, ih, List.append_assoc]
    · rfl
    · simpa using h
    · intro a ha
      have := (List.pairwise_append.mp h).2.2 a ha e (by simp)
      exact this

theorem indexCollect_distinct (es : List (Int32 × Label)) (h : es.Pairwise fun a b => a.1 ≠ b.1) :
    indexCollect es = es := by
  unfold indexCollect
  rw [indexCollect_aux _ _ (by simpa using h)]
  rfl

theorem key_unique {es : List (Int32 × Label)} (hs : es.Pairwise fun a b => a.1.toInt < b.1.toInt) :
    ∀ a ∈ es, ∀ b ∈ es, a.1.toInt = b.1.toInt → a = b := by
  induction hs with
  | nil => simp
  | cons h _ ih =>
    intro a ha b hb e
    rcases List.mem_cons.mp ha with ha | ha <;> rcases List.mem_cons.mp hb with hb | hb
    · rw [ha, hb]
    · have := h b hb; rw [ha] at e; omega
    · have := h a ha; rw [hb] at e; omega
    · exact ih a ha b hb e

theorem sorted_unique {t es : List (Int32 × Label)} (hp : es.Perm t)
    (hs : es.Pairwise fun a b => a.1.toInt < b.1.toInt) :
    (t.mergeSort fun a b => a.1.toInt ≤ b.1.toInt) = es := by
  have h1 := List.pairwise_mergeSort (le := fun a b : Int32 × Label => decide (a.1.toInt ≤ b.1.toInt))
    (by intro a b c; simp; omega) (by intro a b; simp; omega) t
  have h2 : (t.mergeSort fun a b => a.1.toInt ≤ b.1.toInt).Perm es := (List.mergeSort_perm _ _).trans hp.symm
  refine h2.eq_of_pairwise (le := fun a b => decide (a.1.toInt ≤ b.1.toInt)) ?_ h1 ?_
  · intro a b ha hb h3 h4
    simp only [decide_eq_true_eq] at h3 h4
    have ha' := h2.subset ha
    exact key_unique hs a ha' b hb (by omega)
  · exact hs.imp (by intro a b h; simp; omega)

theorem rInsn_switch {r : RInsn} (hr : RawOk r) (hs : rawOp r = .tableswitch ∨ rawOp r = .lookupswitch)
    {p : Nat} {env : REnv} {v : (UInt32 → Label) → Insn} {o : List UInt32} {q : List UInt16}
    (h : Reads (convert p r) env [] v o q) {pad : Bytes} (h1 : pad.length ≤ 3)
    (h2 : (p + 1 + pad.length) % 4 = 0) :
    Reads (rInsn p) env (U1 (rawOp r).code ++ pad ++ rawArgs r) v o q := by
  have h3 : Reads (Rd.bind (Rd.lift RInsn.read) (convert p)) env (U1 (rawOp r).code ++ rawArgs r) v o q :=
    (PReads.bindR (PReads.lift (Props.C35_roundtrip r hr)) h).cast (by simp) rfl rfl rfl
  intro st rest hst m hm
  rw [← h3 st rest hst m hm]
  have e : 4 - p % 4 = pad.length + 1 := by omega
  have e2 : U1 (rawOp r).code = [UInt8.ofNat (rawOp r).code] := rfl
  rw [e2]
  simp only [List.cons_append, List.nil_append, List.append_assoc]
  unfold rInsn
  simp only
  rw [if_pos (by rcases hs with hs | hs <;> rw [hs] <;> decide), e, List.drop_succ_cons,
    List.drop_left]

theorem dropWhile_all {α : Type} {q : α → Bool} : ∀ {l : List α}, (∀ x ∈ l, q x = true) → l.dropWhile q = []
  | [], _ => rfl
  | x :: xs, h => by
    rw [List.dropWhile_cons_of_pos (h x (by simp))]
    exact dropWhile_all (fun y hy => h y (by simp [hy]))

theorem int8_32 (x : Int8) : x.toInt32 = Int32.ofInt x.toInt := by
  apply Int32.toInt_inj.mp
  have := x.toInt_lt; have := x.le_toInt
  rw [Int8.toInt_toInt32, Int32.toInt_ofInt_of_le] <;> omega

theorem int16_32 (x : Int16) : x.toInt32 = Int32.ofInt x.toInt := by
  apply Int32.toInt_inj.mp
  have := x.toInt_lt; have := x.le_toInt
  rw [Int16.toInt_toInt32, Int32.toInt_ofInt_of_le] <;> omega

theorem int8_16 (x : Int8) : x.toInt16 = Int16.ofInt x.toInt := by
  apply Int16.toInt_inj.mp
  have := x.toInt_lt; have := x.le_toInt
  rw [Int8.toInt_toInt16, Int16.toInt_ofInt_of_le] <;> omega

theorem arrayElem_plain {s : Bytes} (h : PlainName s) : arrayElem s = .ok (.ref s) := by
  obtain ⟨cs, hv, rfl, h1, h2⟩ := h
  have e : JType.parseType (encodeCps cs) = .error .invalid := by
    unfold JType.parseType
    rw [Wtf8.codepoints_encode cs hv.1]
    cases cs with
    | nil => rfl
    | cons x xs =>
      have h2 := h2 x rfl
      simp only [List.mem_cons, not_or, List.not_mem_nil, not_false_eq_true, and_true] at h2
      have h3 : xs.dropWhile (· ≠ 0x3B) = [] := by
        refine dropWhile_all (fun y hy => ?_)
        simp only [ne_eq, decide_not, Bool.not_eq_eq_eq_not, Bool.not_true, decide_eq_false_iff_not]
        rintro rfl
        exact h1 (by simp [hy])
      simp only [List.length_cons, show 2 * (xs.length + 1) + 2 = (2 * xs.length + 3) + 1 by omega,
        JType.getType, h2, if_false, h3]
      split
      · rename_i h4
        split at h4 <;> cases h4
      · rename_i h4
        split at h4 <;> cases h4 <;> rfl
  simp only [arrayElem, e, okOrNone]

theorem parse_array {d : UInt8} {t : JType} {cs : List Nat} (h1 : IsField (.array d t))
    (h2 : Desc (.array d t) cs) : JType.parseType (encodeCps cs) = .ok (.array d t) ∧
      (encodeCps cs).head? = some 0x5B := by
  refine ⟨parse_desc (.field h1) h2, ?_⟩
  cases h2 with
  | array h3 =>
    cases h1 with
    | array hd _ _ =>
      have : d.toNat ≠ 0 := fun e => hd (UInt8.toNat_inj.mp e)
      obtain ⟨k, hk⟩ := Nat.exists_eq_succ_of_ne_zero this
      rw [hk, List.replicate_succ]
      rfl

theorem reads_classType {c : Ctx} (cs : Option (List Catch)) {i : UInt16} {x : OrDynamic ClassType}
    (hT : c.bsm.length ≤ 65536) (h : IsOrDyn IsClassType c i x) :
    ∃ v pend, resolveO c.bsm v = x ∧ (∀ k ∈ pend, k.toNat < c.bsm.length) ∧
      Reads (rClassType i) ⟨c.pool, cs⟩ [] (fun _ => v) [] pend := by
  obtain ⟨v, pend, hv, hq, hr⟩ := reads_classOr cs (name := ClassName) (fun P i a h => h) hT h
  cases x with
  | dynamic d =>
    obtain ⟨d', rfl, e⟩ := hv
    refine ⟨.dynamic d', pend, congrArg _ e, hq, ?_⟩
    exact (Reads.bind (w := fun _ _ => .dynamic d') hr
      (fun n => (Rd.reads_pure _ _).reads)).cast rfl rfl (by simp) (by simp)
  | static a =>
    obtain ⟨s, rfl, e⟩ := hv
    refine ⟨.static a, pend, rfl, hq, ?_⟩
    have ht : toClassType s = .ok a := by
      unfold toClassType
      cases e with
      | object h' => rw [if_neg h']
      | array h1 h2 =>
        obtain ⟨h3, h4⟩ := parse_array h1 h2
        rw [if_pos h4]
        simp only [h3]
    exact (Reads.bind (w := fun _ _ => .static a) hr
      (fun n => (PReads.map (PReads.ofRes ht)).reads)).cast rfl rfl (by simp) (by simp)

theorem reads_newArray {c : Ctx} (cs : Option (List Catch)) {i : UInt16} {x : OrDynamic JType} (dim : UInt8)
    (hT : c.bsm.length ≤ 65536) (h : IsOrDyn IsElem c i x) (hx : Readable (.newArray x dim)) :
    ∃ v pend, resolveI c.bsm v = .newArray x dim ∧ (∀ k ∈ pend, k.toNat < c.bsm.length) ∧
      Reads (rNewArray i dim) ⟨c.pool, cs⟩ [] (fun _ => v) [] pend := by
  obtain ⟨v, pend, hv, hq, hr⟩ := reads_classOr cs (name := ElemName) (fun P i a h => h) hT h
  cases x with
  | dynamic d =>
    obtain ⟨d', rfl, e⟩ := hv
    refine ⟨.newArray (.dynamic d') dim, pend, ?_, hq, ?_⟩
    · rw [← e]; rfl
    · exact (Reads.bind (w := fun _ _ => .newArray (.dynamic d') dim) hr
        (fun n => (Rd.reads_pure _ _).reads)).cast rfl rfl (by simp) (by simp)
  | static a =>
    obtain ⟨s, rfl, e⟩ := hv
    refine ⟨.newArray (.static a) dim, pend, rfl, hq, ?_⟩
    have ht : arrayElem s = .ok a := by
      cases e with
      | ref h => exact arrayElem_plain hx
      | array h1 h2 =>
        obtain ⟨h3, h4⟩ := parse_array h1 h2
        simp only [arrayElem, h3, okOrNone]
    exact (Reads.bind (w := fun _ _ => .newArray (.static a) dim) hr
      (fun n => (PReads.map (f := fun t => Insn.newArray (.static t) dim) (PReads.ofRes ht)).reads)).cast
        rfl rfl (by simp) (by simp)

theorem ReadsI.raw {c : Ctx} {cs : Option (List Catch)} {p : Nat} {j : Insn} {r : RInsn} (hr : RawOk r)
    (hs : rawOp r ≠ .tableswitch ∧ rawOp r ≠ .lookupswitch)
    {v : (UInt32 → Label) → Insn} {pend : List UInt16}
    (h : Reads (convert p r) ⟨c.pool, cs⟩ [] v ((targets j).flatMap c.offs) pend)
    (h1 : ∀ n, resolveI c.bsm (v n) = renI (c.ren n) j)
    (hq : ∀ k ∈ pend, k.toNat < c.bsm.length := by first | assumption | simp) :
    ReadsI c cs p (U1 (rawOp r).code ++ rawArgs r) j := ⟨v, pend, h1, hq, rInsn_raw hr hs h⟩

theorem norm_map (f : OrDynamic MemberRef → Insn) (g : ∀ m, normal (f (.static m)) = some (f (.static m.norm)))
    (g' : ∀ d, normal (f (.dynamic d)) = some (f (.dynamic d))) (m : OrDynamic MemberRef) :
    normal (f m) = some (f (m.map MemberRef.norm)) := by
  cases m with
  | static m => exact g m
  | dynamic d => exact g' d

theorem reads_memberI {c : Ctx} (cs : Option (List Catch)) {p : Nat} {i : UInt16} {x : OrDynamic MemberRef}
    (hT : c.bsm.length ≤ 65536) (h : IsOrDyn IsMember c i x) (f : OrDynamic MemberRef → Insn) {r : RInsn}
    (hr : RawOk r) (hs : rawOp r ≠ .tableswitch ∧ rawOp r ≠ .lookupswitch)
    (hc : convert p r = Rd.map f (rMember i))
    (h1 : ∀ T v, resolveI T (f v) = f (resolveO T v)) (h2 : ∀ g v, renI g (f v) = f v)
    (h3 : ∀ v, targets (f v) = []) :
    ReadsI c cs p (U1 (rawOp r).code ++ rawArgs r) (f (x.map MemberRef.norm)) := by
  obtain ⟨v, pend, e, hq, hv⟩ := reads_member cs hT h
  refine ReadsI.raw hr hs (v := fun _ => f v) (pend := pend) ?_ (fun n => by rw [h1, e, h2])
  rw [hc, h3]
  exact Reads.map hv

theorem ofNat8_16 {n : Nat} (h : n < 256) : (UInt8.ofNat n).toUInt16 = UInt16.ofNat n := by
  apply UInt16.toNat_inj.mp
  simp
  omega

theorem ofNat8_toNat {n : Nat} (h : n < 256) : (UInt8.ofNat n).toNat = n := by
  simp
  omega

theorem lit_normal {x : OrDynamic Constant} {j : Insn} (h : normal (.push x) = some j) (hr : Readable (.push x)) :
    ∃ k, x = .static k ∧ j = .push (.static k.norm) := by
  cases x with
  | dynamic d => exact hr.elim
  | static k => cases h; exact ⟨k, rfl, rfl⟩

theorem enc_reads {c : Ctx} {p : Nat} {i j : Insn} {bs : Bytes} (h : Enc c p i bs) (hn : normal i = some j)
    (hr : Readable i) (hT : c.bsm.length ≤ 65536) (cs : Option (List Catch)) : ReadsI c cs p bs j := by
  cases h with
  | @noArg o _ ho =>
    obtain ⟨r, h1, h2, h3, h4, h5, h6, h7, h8⟩ := plain_raw ho
    rw [h5] at hn
    cases hn
    refine (ReadsI.pure h1 ?_ (h4 p) h6 h7 h8).cast (by rw [h2, h3]; simp)
    rw [h2]
    constructor <;> rintro rfl <;> cases ho
  | @fromInt o t ho =>
    cases t with
    | int => cases ho
    | long =>
      cases ho; cases hn
      exact ReadsI.pure (r := .I2L) trivial (by decide) rfl (fun _ => rfl) (fun _ => rfl) rfl
    | float =>
      cases ho; cases hn
      exact ReadsI.pure (r := .I2F) trivial (by decide) rfl (fun _ => rfl) (fun _ => rfl) rfl
    | double =>
      cases ho; cases hn
      exact ReadsI.pure (r := .I2D) trivial (by decide) rfl (fun _ => rfl) (fun _ => rfl) rfl
  | @sameType t => cases t <;> cases hn
  | sameInt => cases hn
  | @bipush x =>
    cases hn
    exact ReadsI.pure (r := .Bipush x) trivial (by simp [rawOp]) (by
      show Rd.pure _ = Rd.pure _
      rw [int8_32]; rfl) (fun _ => rfl) (fun _ => rfl) rfl
  | @sipush x =>
    cases hn
    exact ReadsI.pure (r := .Sipush x) trivial (by simp [rawOp]) (by
      show Rd.pure _ = Rd.pure _
      rw [int16_32]; rfl) (fun _ => rfl) (fun _ => rfl) rfl
  | @ldc x k h1 _ _ h2 =>
    obtain ⟨a, rfl, rfl⟩ := lit_normal hn hr
    refine (ReadsI.raw (r := .Ldc (UInt8.ofNat k.toNat)) (v := fun _ => .push (.static a.norm)) (pend := [])
      trivial (by simp [rawOp]) ?_ (fun _ => rfl)).cast (by simp only [rawArgs, ofNat8_toNat h2]; rfl)
    show Reads (rPush _) _ _ _ _ _
    rw [ofNat8_16 h2, UInt16.ofNat_toNat]
    exact (PReads.map (f := Insn.const) (PReads.lookupR (constant_of (P := c.pool) h1))).reads
  | @ldc_w x k h1 _ _ =>
    obtain ⟨a, rfl, rfl⟩ := lit_normal hn hr
    exact ReadsI.raw (r := .LdcW k) (v := fun _ => .push (.static a.norm)) (pend := [])
      trivial (by simp [rawOp])
      (PReads.map (f := Insn.const) (PReads.lookupR (constant_of (P := c.pool) h1))).reads (fun _ => rfl)
  | @ldc2_w x k h1 _ =>
    obtain ⟨a, rfl, rfl⟩ := lit_normal hn hr
    exact ReadsI.raw (r := .Ldc2W k) (v := fun _ => .push (.static a.norm)) (pend := [])
      trivial (by simp [rawOp])
      (PReads.map (f := Insn.const) (PReads.lookupR (constant_of (P := c.pool) h1))).reads (fun _ => rfl)
  | @var m t n h1 =>
    cases hn
    obtain ⟨r, g1, g2, g3, g4⟩ := var_raw m t (UInt8.ofNat n)
    rw [ofNat8_16 h1] at g4
    rw [ofNat8_toNat h1] at g3
    refine (ReadsI.pure g1 ?_ (g4 p) (fun _ => rfl) (fun _ => rfl) rfl).cast (by rw [g2, g3])
    rw [g2]
    cases m <;> cases t <;> decide
  | @varWide m t n =>
    cases hn
    obtain ⟨r, g1, g2, g3, g4⟩ := varWide_raw m t n
    refine (ReadsI.pure g1 ?_ (g4 p) (fun _ => rfl) (fun _ => rfl) rfl).cast (by
      rw [g2, g3, List.append_assoc])
    rw [g2]
    decide
  | @ret n h1 =>
    cases hn
    exact (ReadsI.pure (r := .Ret (UInt8.ofNat n)) trivial (by simp [rawOp])
      (by rw [← ofNat8_16 h1]; rfl) (fun _ => rfl) (fun _ => rfl) rfl).cast
      (by simp only [rawArgs, ofNat8_toNat h1]; rfl)
  | @retWide n =>
    cases hn
    exact ReadsI.pure (r := .Wide (.Ret n)) trivial (by simp [rawOp]) rfl (fun _ => rfl) (fun _ => rfl) rfl
  | @iinc n x h1 =>
    cases hn
    exact (ReadsI.pure (r := .IInc (UInt8.ofNat n) x) trivial (by simp [rawOp])
      (by rw [← ofNat8_16 h1, ← int8_16]; rfl) (fun _ => rfl) (fun _ => rfl) rfl).cast
      (by simp only [rawArgs, ofNat8_toNat h1, List.append_assoc]; rfl)
  | @iincWide n x =>
    cases hn
    exact (ReadsI.pure (r := .Wide (.IInc n x)) trivial (by simp [rawOp]) rfl (fun _ => rfl)
      (fun _ => rfl) rfl).cast (by simp only [rawArgs, wideArgs, wideOp, rawOp, List.append_assoc])
  | @field o t m k h1 =>
    rw [norm_map (fun m => .field o t m) (fun _ => rfl) (fun _ => rfl)] at hn
    cases hn
    match o, t with
    | .get, .static =>
      exact reads_memberI cs hT h1 (fun m => .field .get .static m) (r := .GetStatic k)
        trivial (by simp [rawOp]) rfl (fun _ _ => rfl) (fun _ _ => rfl) (fun _ => rfl)
    | .get, .virtual =>
      exact reads_memberI cs hT h1 (fun m => .field .get .virtual m) (r := .GetField k)
        trivial (by simp [rawOp]) rfl (fun _ _ => rfl) (fun _ _ => rfl) (fun _ => rfl)
    | .put, .static =>
      exact reads_memberI cs hT h1 (fun m => .field .put .static m) (r := .PutStatic k)
        trivial (by simp [rawOp]) rfl (fun _ _ => rfl) (fun _ _ => rfl) (fun _ => rfl)
    | .put, .virtual =>
      exact reads_memberI cs hT h1 (fun m => .field .put .virtual m) (r := .PutField k)
        trivial (by simp [rawOp]) rfl (fun _ _ => rfl) (fun _ _ => rfl) (fun _ => rfl)
  | @call t m k h1 =>
    rw [norm_map (fun m => .invokeExact t m) (fun _ => rfl) (fun _ => rfl)] at hn
    cases hn
    match t with
    | .static =>
      exact reads_memberI cs hT h1 (fun m => .invokeExact .static m) (r := .InvokeStatic k)
        trivial (by simp [rawOp]) rfl (fun _ _ => rfl) (fun _ _ => rfl) (fun _ => rfl)
    | .virtual =>
      exact reads_memberI cs hT h1 (fun m => .invokeExact .virtual m) (r := .InvokeVirtual k)
        trivial (by simp [rawOp]) rfl (fun _ _ => rfl) (fun _ _ => rfl) (fun _ => rfl)
  | @special m k h1 =>
    rw [norm_map (fun m => .invokeSpecial m) (fun _ => rfl) (fun _ => rfl)] at hn
    cases hn
    exact reads_memberI cs hT h1 (fun m => .invokeSpecial m) (r := .InvokeSpecial k)
        trivial (by simp [rawOp]) rfl (fun _ _ => rfl) (fun _ _ => rfl) (fun _ => rfl)
  | @interface m k n h1 =>
    rw [norm_map (fun m => .invokeInterface m n) (fun _ => rfl) (fun _ => rfl)] at hn
    cases hn
    exact (reads_memberI cs hT h1 (fun m => .invokeInterface m n) (r := .InvokeInterface k n 0)
        trivial (by simp [rawOp]) rfl (fun _ _ => rfl) (fun _ _ => rfl) (fun _ => rfl)).cast
        (by simp only [rawArgs, rawOp, List.append_assoc]; rfl)
  | @dynamic d k ps r h1 h2 =>
    cases hn
    obtain ⟨b, bm, g1, g2, g3⟩ := h2
    refine (ReadsI.raw (r := .InvokeDynamic k 0)
      (v := fun _ => .invokeDynamic ⟨.pending (UInt16.ofNat b), d.name, d.descriptor⟩)
      (pend := [UInt16.ofNat b]) trivial (by simp [rawOp]) ?_ ?_ (pend_lt hT g2)).cast
      (by simp only [rawArgs, rawOp, List.append_assoc]; rfl)
    · refine Reads.map (f := Insn.invokeDynamic) (x := rLookupD Pool.invokeDynamic k)
        (v := fun _ => ⟨.pending (UInt16.ofNat b), d.name, d.descriptor⟩) ?_
      intro st rest _ m _
      simp only [rLookupD, lookup_indy g1 h1, LabelMap.addAll, Option.map_id', List.nil_append, targets,
        List.flatMap_nil]
    · intro n
      exact congrArg Insn.invokeDynamic (resolve_pending hT g2 g3)
  | @new x k h1 =>
    cases hn
    obtain ⟨v, pend, e, hq, hv⟩ := reads_orDyn (is := IsClass) (g := id) (f := fun P i => .ok (Pool.cls P i)) cs
      (fun _ h => congrArg Except.ok (class_of h)) (fun _ h => isClass_not_dyn h) hT h1
    refine ReadsI.raw (r := .New k) (v := fun _ => .new v) (pend := pend) trivial (by simp [rawOp])
      (Reads.map (f := Insn.new) hv) (fun n => ?_)
    have : x.map id = x := by cases x <;> rfl
    rw [this] at e
    exact congrArg Insn.new e
  | @newarray t n h1 =>
    have hj : j = .newArray (.static t) 1 := by cases hn; rfl
    subst hj
    have : newArrayType (UInt8.ofNat n) = some t ∧ n < 256 := by
      cases t <;> cases h1 <;> exact ⟨rfl, by decide⟩
    refine (ReadsI.pure (r := .NewArray (UInt8.ofNat n)) trivial (by simp [rawOp]) ?_ (fun _ => rfl)
      (fun _ => rfl) rfl).cast (by simp only [rawArgs, ofNat8_toNat this.2]; rfl)
    simp only [convert, this.1]
  | @anewarray t k h1 =>
    have hj : j = .newArray t 1 := by cases hn; rfl
    subst hj
    obtain ⟨v, pend, e, hq, hv⟩ := reads_newArray cs 1 hT h1 hr
    exact ReadsI.raw (r := .ANewArray k) (v := fun _ => v) (pend := pend) trivial (by simp [rawOp]) hv
      (fun n => e)
  | @multianewarray t k n h1 =>
    have hj : j = .newArray t n := by cases hn; rfl
    subst hj
    obtain ⟨v, pend, e, hq, hv⟩ := reads_newArray cs n hT h1 hr
    exact (ReadsI.raw (c := c) (cs := cs) (p := p) (j := .newArray t n) (r := .MultiANewArray k n)
      (v := fun _ => v) (pend := pend) trivial (by simp [rawOp]) hv (fun n => e)).cast (by simp only [rawArgs, rawOp, List.append_assoc])
  | @checkcast t k h1 =>
    cases hn
    obtain ⟨v, pend, e, hq, hv⟩ := reads_classType cs hT h1
    exact ReadsI.raw (r := .CheckCast k) (v := fun _ => .checkCast v) (pend := pend) trivial
      (by simp [rawOp]) (Reads.map (f := Insn.checkCast) hv) (fun n => congrArg Insn.checkCast e)
  | @instanceof t k h1 =>
    cases hn
    obtain ⟨v, pend, e, hq, hv⟩ := reads_classType cs hT h1
    exact ReadsI.raw (r := .InstanceOf k) (v := fun _ => .instanceOf v) (pend := pend) trivial
      (by simp [rawOp]) (Reads.map (f := Insn.instanceOf) hv) (fun n => congrArg Insn.instanceOf e)
  | @jump k l b h1 =>
    cases hn
    obtain ⟨n, d1, d2, d3, rfl⟩ := h1
    obtain ⟨r, g1, g2, g3, g4⟩ := cond_raw k (Int16.ofInt n)
    rw [int16_val d2 d3] at g3 g4
    refine (ReadsI.raw (r := r) (v := fun m => .jump k (c.ren m l)) (pend := []) g1 ?_ ?_
      (fun _ => rfl)).cast (by rw [g2, g3])
    · rw [g2]; cases k <;> decide
    · rw [g4]
      exact (Reads.map (f := Insn.jump k) (reads_lbl d1)).cast rfl rfl (by simp [targets]) rfl
  | @gotoWide l b h1 =>
    cases hn
    obtain ⟨n, d1, d2, d3, rfl⟩ := h1
    refine (ReadsI.raw (r := .GotoW (Int32.ofInt n)) (v := fun m => .jump .always (c.ren m l)) (pend := [])
      trivial (by simp [rawOp]) ?_ (fun _ => rfl)).cast (by simp only [rawArgs, rawOp, int32_val d2 d3])
    rw [convert, int32_val d2 d3]
    exact (Reads.map (f := Insn.jump .always) (reads_lbl d1)).cast rfl rfl (by simp [targets]) rfl
  | @jsr l b h1 =>
    cases hn
    obtain ⟨n, d1, d2, d3, rfl⟩ := h1
    refine (ReadsI.raw (r := .Jsr (Int16.ofInt n)) (v := fun m => .jsr (c.ren m l)) (pend := [])
      trivial (by simp [rawOp]) ?_ (fun _ => rfl)).cast (by simp only [rawArgs, rawOp, int16_val d2 d3])
    rw [convert, int16_val d2 d3]
    exact (Reads.map (f := Insn.jsr) (reads_lbl d1)).cast rfl rfl (by simp [targets]) rfl
  | @jsrWide l b h1 =>
    cases hn
    obtain ⟨n, d1, d2, d3, rfl⟩ := h1
    refine (ReadsI.raw (r := .JsrW (Int32.ofInt n)) (v := fun m => .jsr (c.ren m l)) (pend := [])
      trivial (by simp [rawOp]) ?_ (fun _ => rfl)).cast (by simp only [rawArgs, rawOp, int32_val d2 d3])
    rw [convert, int32_val d2 d3]
    exact (Reads.map (f := Insn.jsr) (reads_lbl d1)).cast rfl rfl (by simp [targets]) rfl
  | @tableSwitch d low ls pad b b' p1 p2 p3 p4 p5 h1 h2 =>
    cases hn
    obtain ⟨n, d1, d2, d3, rfl⟩ := h1
    obtain ⟨ns, e1, rfl, hl⟩ := reads_lbls ⟨c.pool, cs⟩ h2
    have hlen : 0 < ls.length := List.length_pos_iff.mpr p3
    have hlow := low.le_toInt
    have hhi : (Int32.ofInt (low.toInt + ls.length - 1)).toInt = low.toInt + ls.length - 1 :=
      int32_val (by omega) (by omega)
    have hraw : RawOk (.TableSwitch (Int32.ofInt n) ⟨low, Int32.ofInt (low.toInt + ls.length - 1), ns⟩) := by
      refine ⟨?_, ?_⟩
      · rw [hhi, e1]; simp only; omega
      · simp only [e1]; exact p4
    refine ⟨fun m => .tableSwitch (c.ren m d) low (ls.map (c.ren m)), [], fun _ => rfl, by simp, ?_⟩
    refine (rInsn_switch hraw (.inl rfl) (o := c.offs d ++ ls.flatMap c.offs) ?_ p1 p2).cast ?_ rfl
      (by simp [targets]) rfl
    · rw [convert, int32_val d2 d3]
      exact Reads.bind (f := fun d => Rd.map (fun ls => Insn.tableSwitch d low ls) (lbls p ns))
        (w := fun m m' => .tableSwitch (c.ren m d) low (ls.map (c.ren m'))) (reads_lbl d1)
        (fun m => Reads.map (f := fun ls => Insn.tableSwitch (c.ren m d) low ls) hl)
    · simp only [rawArgs, rawOp, hhi, int32_val d2 d3, List.append_assoc]
  | @lookupSwitch d t es pad b b' p1 p2 p3 p4 p5 h1 h2 =>
    obtain ⟨n, d1, d2, d3, rfl⟩ := h1
    obtain ⟨ns, e1, rfl, hl⟩ := reads_entries ⟨c.pool, cs⟩ h2
    have hj : j = .lookupSwitch d es := by
      have := sorted_unique p3 p4
      simp only [normal, this, Option.some.injEq] at hn
      exact hn.symm
    subst hj
    have hraw : RawOk (.LookupSwitch (Int32.ofInt n) ns) := by
      show ns.length < 2 ^ 32
      rw [e1]; exact p5
    refine ⟨fun m => .lookupSwitch (c.ren m d) (es.map fun e => (e.1, c.ren m e.2)), [], fun _ => rfl, by simp, ?_⟩
    refine (rInsn_switch hraw (.inr rfl) (o := c.offs d ++ es.flatMap fun e => c.offs e.2) ?_ p1 p2).cast ?_
      rfl (by simp [targets, List.flatMap_map]) rfl
    · rw [convert, int32_val d2 d3]
      refine (Reads.bind
        (f := fun d => Rd.map (fun ls => Insn.lookupSwitch d (indexCollect ls)) (lblEntries p ns))
        (w := fun m m' => .lookupSwitch (c.ren m d) (indexCollect (es.map fun e => (e.1, c.ren m' e.2))))
        (reads_lbl d1)
        (fun m => Reads.map (f := fun ls => Insn.lookupSwitch (c.ren m d) (indexCollect ls)) hl)).cast rfl ?_
        rfl rfl
      funext m
      rw [indexCollect_distinct]
      rw [List.pairwise_map]
      exact p4.imp (fun h e => by simp only at e; rw [e] at h; omega)
    · simp only [rawArgs, rawOp, int32_val d2 d3, List.append_assoc, e1]
  | label _ => cases hn
  | line => cases hn

theorem all_mem {α : Type} {f : Fmt α} {c : Ctx} : ∀ {xs : List α} {bs : Bytes}, Fmt.all f c xs bs →
    ∀ x ∈ xs, ∃ b, f c x b
  | [], _, _, _, hx => by cases hx
  | x :: xs, _, h, y, hy => by
    obtain ⟨b, b', rfl, h1, h2⟩ := h
    rcases List.mem_cons.mp hy with rfl | hy
    · exact ⟨b, h1⟩
    · exact all_mem h2 y hy

/-- The targets of encoded instructions have positions. -/
theorem enc_targets {c : Ctx} {p : Nat} {i j : Insn} {bs : Bytes} (h : Enc c p i bs)
    (hn : normal i = some j) : ∀ l ∈ targets j, ∃ q, c.pos l = some q := by
  cases h with
  | noArg ho =>
    obtain ⟨r, _, _, _, _, h5, _, _, h8⟩ := plain_raw ho
    rw [h5] at hn
    cases hn
    rw [h8]
    simp
  | @fromInt o t ho =>
    cases t
    · cases ho
    all_goals (cases hn; simp [targets])
  | @sameType t => cases t <;> cases hn
  | @ldc x => cases x <;> cases hn <;> simp [targets]
  | @ldc_w x => cases x <;> cases hn <;> simp [targets]
  | @ldc2_w x => cases x <;> cases hn <;> simp [targets]
  | @field o t m => cases m <;> cases hn <;> simp [targets]
  | @call t m => cases m <;> cases hn <;> simp [targets]
  | @special m => cases m <;> cases hn <;> simp [targets]
  | @interface m => cases m <;> cases hn <;> simp [targets]
  | jump h =>
    cases hn
    obtain ⟨n, ⟨t, h1, _⟩, _⟩ := h
    intro l hl
    cases List.mem_singleton.mp hl
    exact ⟨t, h1⟩
  | gotoWide h =>
    cases hn
    obtain ⟨n, ⟨t, h1, _⟩, _⟩ := h
    intro l hl
    cases List.mem_singleton.mp hl
    exact ⟨t, h1⟩
  | jsr h =>
    cases hn
    obtain ⟨n, ⟨t, h1, _⟩, _⟩ := h
    intro l hl
    cases List.mem_singleton.mp hl
    exact ⟨t, h1⟩
  | jsrWide h =>
    cases hn
    obtain ⟨n, ⟨t, h1, _⟩, _⟩ := h
    intro l hl
    cases List.mem_singleton.mp hl
    exact ⟨t, h1⟩
  | tableSwitch _ _ _ _ _ h h' =>
    cases hn
    obtain ⟨n, ⟨t, h1, _⟩, _⟩ := h
    intro l hl
    rcases List.mem_cons.mp hl with rfl | hl
    · exact ⟨t, h1⟩
    · obtain ⟨b, n, ⟨t, h1, _⟩, _⟩ := all_mem h' l hl
      exact ⟨t, h1⟩
  | lookupSwitch _ _ p3 p4 _ h h' =>
    simp only [normal, sorted_unique p3 p4, Option.some.injEq] at hn
    subst hn
    obtain ⟨n, ⟨t, h1, _⟩, _⟩ := h
    intro l hl
    rcases List.mem_cons.mp hl with rfl | hl
    · exact ⟨t, h1⟩
    · obtain ⟨e, he, rfl⟩ := List.mem_map.mp hl
      obtain ⟨b, b', _, n, ⟨t, h1, _⟩, _⟩ := all_mem h' e he
      exact ⟨t, h1⟩
  | _ => first | (cases hn; simp [targets]; done) | (cases hn; done)

/-- Instructions without a canonical form occupy no space. -/
theorem enc_nothing {c : Ctx} {p : Nat} {i : Insn} {bs : Bytes} (h : Enc c p i bs) (hn : normal i = none) :
    bs = [] := by
  cases h with
  | noArg ho =>
    obtain ⟨r, _, _, _, _, h5, _⟩ := plain_raw ho
    rw [h5] at hn
    cases hn
  | @fromInt o t ho => cases t <;> first | (cases ho; done) | (cases hn; done)
  | @ldc x => cases x <;> cases hn
  | @ldc_w x => cases x <;> cases hn
  | @ldc2_w x => cases x <;> cases hn
  | @field o t m => cases m <;> cases hn
  | @call t m => cases m <;> cases hn
  | @special m => cases m <;> cases hn
  | @interface m => cases m <;> cases hn
  | sameType => rfl
  | sameInt => rfl
  | label _ => rfl
  | line => rfl
  | _ => cases hn

end Verif
