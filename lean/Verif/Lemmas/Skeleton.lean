import Verif.Spec.Skeleton
import Verif.Lemmas.Class

/-! # Lemmas about counts and lengths in class files -/

namespace Verif
open Spec Sig

/-! ## Walking -/

theorem walkAttrs_add (n m : Nat) (bs : Bytes) :
    walkAttrs (n + m) bs = (walkAttrs n bs).bind (walkAttrs m) := by
  fun_induction walkAttrs n bs with
  | case1 bs => simp
  | case2 n i j a b c d bs len h ih =>
    rw [Nat.succ_add, walkAttrs, if_pos h]
    exact ih
  | case3 n i j a b c d bs len h =>
    rw [Nat.succ_add, walkAttrs, if_neg h]
    rfl
  | case4 n bs h =>
    rw [Nat.succ_add, walkAttrs]
    · rfl
    · exact h

theorem walkMembers_add (n m : Nat) (bs : Bytes) :
    walkMembers (n + m) bs = (walkMembers n bs).bind (walkMembers m) := by
  induction n generalizing bs with
  | zero => simp [walkMembers]
  | succ n ih =>
    rw [Nat.add_right_comm, walkMembers, walkMembers]
    split
    · rcases walkTable walkAttrs (bs.drop 6) with _ | r
      · rfl
      · exact ih r
    · rfl

theorem walkTable_U2 (f : Nat → Bytes → Option Bytes) {n : Nat} (h : n < 65536) (bs : Bytes) :
    walkTable f (U2 n ++ bs) = f n bs := by
  show f _ bs = f n bs
  congr 1
  rw [UInt8.toNat_ofNat', UInt8.toNat_ofNat']
  omega

def Frames (n : Nat) (bs : Bytes) : Prop := ∀ rest, walkAttrs n (bs ++ rest) = some rest
def Members (n : Nat) (bs : Bytes) : Prop := ∀ rest, walkMembers n (bs ++ rest) = some rest

theorem frames_one {i body : Bytes} (hi : i.length = 2) (hl : body.length < 4294967296) :
    Frames 1 (i ++ U4 body.length ++ body) := by
  intro rest
  match i, hi with
  | [a, b], _ =>
    show (if _ then _ else _) = _
    have e : (((UInt8.ofNat (body.length / 65536 / 256)).toNat * 256 + (UInt8.ofNat (body.length / 65536)).toNat) * 256 +
      (UInt8.ofNat (body.length / 256)).toNat) * 256 + (UInt8.ofNat body.length).toNat = body.length := by
      simp only [UInt8.toNat_ofNat']
      omega
    rw [e]
    show (if body.length ≤ (body ++ rest).length then walkAttrs 0 ((body ++ rest).drop body.length) else none) = _
    rw [if_pos (by simp), List.drop_left]
    rfl

theorem Frames.zero : Frames 0 [] := fun _ => rfl

theorem Frames.append {n m : Nat} {a b : Bytes} (h1 : Frames n a) (h2 : Frames m b) : Frames (n + m) (a ++ b) := by
  intro rest
  rw [walkAttrs_add, List.append_assoc, h1]
  exact h2 rest

theorem Members.append {n m : Nat} {a b : Bytes} (h1 : Members n a) (h2 : Members m b) :
    Members (n + m) (a ++ b) := by
  intro rest
  rw [walkMembers_add, List.append_assoc, h1]
  exact h2 rest

theorem walkAttrs_nil (n : Nat) : walkAttrs n [] = some [] ↔ n = 0 := by
  cases n with
  | zero => simp [walkAttrs]
  | succ n => simp [walkAttrs]

theorem Frames.exact {n m : Nat} {bs : Bytes} (h : Frames m bs) : walkAttrs n bs = some [] ↔ n = m := by
  have h0 := h []
  rw [List.append_nil] at h0
  constructor
  · intro hn
    by_cases hle : n ≤ m
    · obtain ⟨k, rfl⟩ := Nat.exists_eq_add_of_le hle
      rw [walkAttrs_add, hn] at h0
      have := (walkAttrs_nil k).mp h0
      omega
    · obtain ⟨k, rfl⟩ := Nat.exists_eq_add_of_le (show m ≤ n by omega)
      rw [walkAttrs_add, h0] at hn
      have := (walkAttrs_nil k).mp hn
      omega
  · rintro rfl
    exact h0

/-! ## Writers -/

def Shape (w : Ins Bytes) (P : Bytes → Prop) : Prop :=
  ∀ cp bs cp', w cp = .ok (bs, cp') → bs.length < 4294967296 → P bs

theorem Shape.cons {w : Ins Bytes} {ws : List (Ins Bytes)} {P Q : Bytes → Prop} (h1 : Shape w P)
    (h2 : Shape (wSeq ws) Q) : Shape (wSeq (w :: ws)) (fun bs => ∃ b b', bs = b ++ b' ∧ P b ∧ Q b') := by
  intro cp bs cp' h hl
  obtain ⟨b, cp1, e1, h⟩ := Ins.bind_ok h
  obtain ⟨b', cp2, e2, h⟩ := Ins.bind_ok h
  cases h
  rw [List.length_append] at hl
  exact ⟨b, b', rfl, h1 _ _ _ e1 (by omega), h2 _ _ _ e2 (by omega)⟩

theorem Shape.nil : Shape (wSeq []) (fun bs => bs = []) := by
  intro cp bs cp' h _
  cases h
  rfl

theorem Shape.weaken {w : Ins Bytes} {P Q : Bytes → Prop} (h : Shape w P) (hq : ∀ bs, P bs → Q bs) : Shape w Q :=
  fun cp bs cp' e hl => hq bs (h cp bs cp' e hl)

theorem shape_idx (i : Ins UInt16) : Shape (wIdx i) (fun bs => bs.length = 2) := by
  intro cp bs cp' h _
  obtain ⟨j, cp1, _, h⟩ := Ins.bind_ok h
  cases h
  rfl

theorem shape_opt {α : Type} (f : α → Ins UInt16) (x : Option α) : Shape (wOpt f x) (fun bs => bs.length = 2) := by
  cases x with
  | none =>
    intro cp bs cp' h _
    cases h
    rfl
  | some a => exact shape_idx _

theorem shape_flags {t : FlagType} (f : Flags t) : Shape (wFlags f) (fun bs => bs.length = 2) := by
  intro cp bs cp' h _
  cases h
  rfl

theorem shape_attr (n : Bytes) (w : Ins Bytes) : Shape (wAttr n w) (Frames 1) := by
  intro cp bs cp' h hl
  obtain ⟨i, cp1, _, h⟩ := Ins.bind_ok h
  obtain ⟨body, cp2, _, h⟩ := Ins.bind_ok h
  cases h
  simp only [List.length_append] at hl
  have hb : body.length < 4294967296 := by omega
  rw [u32_write, UInt32.toNat_ofNat', Nat.mod_eq_of_lt (show body.length < 2 ^ 32 by omega)]
  exact frames_one rfl hb

theorem shape_raw (a : RawAttribute) : Shape (wRaw a) (Frames 1) := by
  rw [wRaw_eq]
  exact shape_attr _ _

theorem shape_all {α : Type} {w : α → Ins Bytes} {xs : List α} (h : ∀ x ∈ xs, Shape (w x) (Frames 1)) :
    Shape (wAll w xs) (Frames xs.length) := by
  induction xs with
  | nil => exact Shape.nil.weaken (by rintro bs rfl; exact .zero)
  | cons x xs ih =>
    have ih' : Shape (wSeq (xs.map w)) (Frames xs.length) := ih fun y hy => h y (by simp [hy])
    refine (Shape.cons (h x (by simp)) ih').weaken ?_
    rintro bs ⟨b, b', rfl, h1, h2⟩
    have := h1.append h2
    rwa [Nat.add_comm] at this

theorem shape_members {α : Type} {w : α → Ins Bytes} {xs : List α} (h : ∀ x ∈ xs, Shape (w x) (Members 1)) :
    Shape (wAll w xs) (Members xs.length) := by
  induction xs with
  | nil => exact Shape.nil.weaken (by rintro bs rfl; exact fun _ => rfl)
  | cons x xs ih =>
    have ih' : Shape (wSeq (xs.map w)) (Members xs.length) := ih fun y hy => h y (by simp [hy])
    refine (Shape.cons (h x (by simp)) ih').weaken ?_
    rintro bs ⟨b, b', rfl, h1, h2⟩
    have := h1.append h2
    rwa [Nat.add_comm] at this

theorem shape_indices {xs : List Bytes} {w : Bytes → Ins Bytes} (h : ∀ x ∈ xs, Shape (w x) (fun bs => bs.length = 2)) :
    Shape (wAll w xs) (fun bs => bs.length = 2 * xs.length) := by
  induction xs with
  | nil => exact Shape.nil.weaken (by rintro bs rfl; rfl)
  | cons x xs ih =>
    have ih' : Shape (wSeq (xs.map w)) (fun bs => bs.length = 2 * xs.length) := ih fun y hy => h y (by simp [hy])
    refine (Shape.cons (h x (by simp)) ih').weaken ?_
    rintro bs ⟨b, b', rfl, h1, h2⟩
    simp only [List.length_append, List.length_cons]
    omega

theorem shape_table {α : Type} {w : α → Ins Bytes} {xs : List α} (h : ∀ x ∈ xs, Shape (w x) (Frames 1)) :
    Shape (wVec u16 w xs) (fun bs => ∀ rest, walkTable walkAttrs (bs ++ rest) = some rest) := by
  intro cp bs cp' e hl
  unfold wVec at e
  split at e
  · rename_i hn
    obtain ⟨b, cp1, e1, e⟩ := Ins.bind_ok e
    cases e
    intro rest
    rw [List.length_append] at hl
    have hn' : xs.length < 65536 := hn
    show walkTable walkAttrs (u16.write (UInt16.ofNat xs.length) ++ b ++ rest) = _
    rw [u16_write, UInt16.toNat_ofNat', Nat.mod_eq_of_lt (by omega), List.append_assoc, walkTable_U2 _ hn']
    exact shape_all h _ _ _ e1 (by omega) rest
  · cases e

theorem shape_cut {α : Type} {w : α → Ins Bytes} {xs : List α} {P : Bytes → Prop} (h : Shape (wAll w xs) P) :
    Shape (wCut w xs) (fun bs => ∃ b, P b ∧ bs = U2 (xs.length % 65536) ++ b) := by
  have h0 : Shape (wNum u16 (UInt16.ofNat xs.length)) (fun bs => bs = U2 (xs.length % 65536)) := by
    intro cp bs cp' e _
    cases e
    show u16.write _ = _
    rw [u16_write, UInt16.toNat_ofNat']
  refine (Shape.cons h0 (Shape.cons h Shape.nil)).weaken ?_
  rintro bs ⟨b, b', rfl, rfl, b1, b2, rfl, h1, rfl⟩
  exact ⟨b1, h1, by simp⟩

theorem members_one {b1 b2 b3 b4 : Bytes} (h1 : b1.length = 2) (h2 : b2.length = 2) (h3 : b3.length = 2)
    (h4 : ∀ rest, walkTable walkAttrs (b4 ++ rest) = some rest) : Members 1 (b1 ++ (b2 ++ (b3 ++ (b4 ++ [])))) := by
  intro rest
  rw [walkMembers, if_pos (by simp; omega)]
  have : (b1 ++ (b2 ++ (b3 ++ (b4 ++ []))) ++ rest).drop 6 = b4 ++ rest := by
    have : (b1 ++ b2 ++ b3).length = 6 := by simp; omega
    rw [← this]
    have e : b1 ++ (b2 ++ (b3 ++ (b4 ++ []))) ++ rest = (b1 ++ b2 ++ b3) ++ (b4 ++ rest) := by simp
    rw [e, List.drop_left]
  rw [this, h4]
  rfl

theorem shape_fieldAttr (a : FieldAttr) : Shape a.write (Frames 1) := by
  cases a <;> first | exact shape_attr _ _ | exact shape_raw _

theorem shape_methodAttr (a : MethodAttr) : Shape a.write (Frames 1) := by
  cases a <;> first | exact shape_attr _ _ | exact shape_raw _

theorem shape_field (f : Field) : Shape f.write (Members 1) := by
  refine (Shape.cons (shape_flags _) (Shape.cons (shape_idx _) (Shape.cons (shape_idx _)
    (Shape.cons (shape_table fun a _ => shape_fieldAttr a) Shape.nil)))).weaken ?_
  rintro bs ⟨b1, _, rfl, h1, b2, _, rfl, h2, b3, _, rfl, h3, b4, _, rfl, h4, rfl⟩
  exact members_one h1 h2 h3 h4

theorem shape_method (m : Method) : Shape m.write (Members 1) := by
  refine (Shape.cons (shape_flags _) (Shape.cons (shape_idx _) (Shape.cons (shape_idx _)
    (Shape.cons (shape_table fun a _ => shape_methodAttr a) Shape.nil)))).weaken ?_
  rintro bs ⟨b1, _, rfl, h1, b2, _, rfl, h2, b3, _, rfl, h3, b4, _, rfl, h4, rfl⟩
  exact members_one h1 h2 h3 h4

theorem shape_others (as : List ClassAttr) :
    Shape (wAll ClassAttr.writeOther as) (Frames (as.filter fun a => !isBootstrap a).length) := by
  induction as with
  | nil => exact Shape.nil.weaken (by rintro bs rfl; exact .zero)
  | cons a as ih =>
    have ih' : Shape (wSeq (as.map ClassAttr.writeOther)) _ := ih
    have ha : Shape a.writeOther (Frames ([a].filter fun a => !isBootstrap a).length) := by
      clear ih ih'
      cases a with
      | bootstrapMethods ms => exact Shape.nil.weaken (by rintro bs rfl; exact .zero)
      | raw a => exact shape_raw _
      | _ => exact shape_attr _ _
    refine (Shape.cons ha ih').weaken ?_
    rintro bs ⟨b, b', rfl, h1, h2⟩
    have h := h1.append h2
    rwa [← List.length_append, ← List.filter_append] at h

theorem shape_bootstrap {cp cp' : VecCp} {bs : Bytes} (h : wBootstrap cp = .ok (bs, cp'))
    (hl : bs.length < 4294967296) : Frames (if cp.bsm.isEmpty then 0 else 1) bs := by
  unfold wBootstrap at h
  split at h
  · rename_i he
    cases h
    rw [if_pos (by simpa using he)]
    exact .zero
  · rename_i he
    rw [if_neg (by simpa using he)]
    rcases e1 : writeBatches 0 cp with e | ⟨n, b, cp1⟩
    · rw [e1] at h
      cases h
    · rw [e1] at h
      simp only at h
      rcases e2 : wUtf8 N.bootstrapMethods cp1 with e | ⟨name, cp2⟩
      · rw [e2] at h
        cases h
      · rw [e2] at h
        simp only at h
        split at h
        · cases h
          simp only [List.length_append] at hl
          have hlb : b.length + 2 < 4294967296 := by
            have : (u16.write (UInt16.ofNat n)).length = 2 := rfl
            omega
          have hn := shape_idx _ _ _ _ e2 (by omega)
          have hf := frames_one (body := u16.write (UInt16.ofNat n) ++ b) hn (by
            have : (u16.write (UInt16.ofNat n)).length = 2 := rfl
            simp only [List.length_append]; omega)
          have el : (u16.write (UInt16.ofNat n) ++ b).length = b.length + 2 := by
            have : (u16.write (UInt16.ofNat n)).length = 2 := rfl
            simp only [List.length_append]; omega
          rw [el] at hf
          rw [Nat.mod_eq_of_lt (show b.length < 4294967296 by omega), u32_write, UInt32.toNat_ofNat',
            Nat.mod_eq_of_lt (by omega)]
          rw [List.append_assoc]
          exact hf
        · cases h

/-! ## Classes -/

/-- Two ways to cut a class file give the same remainder. -/
theorem pool_unique {es es' : List Entry} {h h' p p' b b' : Bytes} (hp : PoolBytes es p) (hp' : PoolBytes es' p')
    (hh : h.length = h'.length) (e : h ++ p ++ b = h' ++ p' ++ b') : b = b' := by
  rw [List.append_assoc, List.append_assoc] at e
  have e := (List.append_inj e hh).2
  obtain ⟨m, _, h1⟩ := mapCp_read hp
  obtain ⟨m', _, h1'⟩ := mapCp_read hp'
  have h2 := h1 b
  have h2' := h1' b'
  rw [e, h2'] at h2
  injection h2 with h2
  injection h2 with _ h2
  exact h2.symm

/-- What a successful write consists of. -/
theorem write_parts {x : Class} (hs : AllClass Fitting x) {bs : Bytes} (h : x.write = .ok bs) :
    ∃ cp1 cp b1 b2 pool, x.writeBody { VecCp.new with bsm := ownBsms x.attrs } = .ok (b1, cp1) ∧
      wBootstrap cp1 = .ok (b2, cp) ∧ cp1.bsm = usedBsms x ∧ PoolBytes cp.entries pool ∧
      bs = u32.write jvmMagic ++ x.version.write ++ pool ++ (b1 ++ b2) := by
  unfold Class.write at h
  rcases e : wSeq [x.writeBody, wBootstrap] { VecCp.new with bsm := ownBsms x.attrs } with e' | ⟨buf, cp⟩
  · rw [e] at h
    cases h
  rw [e] at h
  simp only at h
  rcases ep : cp.write with e' | pool
  · rw [ep] at h
    cases h
  rw [ep] at h
  cases h
  have hc0 : VecCp.Inv { VecCp.new with bsm := ownBsms x.attrs } := ⟨VecCp.inv_new.len, VecCp.inv_new.cache⟩
  obtain ⟨b1, cp1, e1, e⟩ := Ins.bind_ok e
  obtain ⟨b2', cp2, e2, e⟩ := Ins.bind_ok e
  cases e
  obtain ⟨b2, cp2', e2, e⟩ := Ins.bind_ok e2
  cases e
  have f1 := eff_classBody names_fitting hs _ _ _ e1
  have hb1 : cp1.bsm = usedBsms x := by rw [f1.1, ownBsms_eq]; rfl
  have i1 := (f1.2.2 hc0).1
  have h2 : cp.Inv ∧ ∀ s, .utf8 s ∈ cp.entries → Fitting s := by
    have h1 : ∀ s, .utf8 s ∈ cp1.entries → Fitting s := by
      intro s hs
      rcases f1.2.1 s hs with h | h
      · cases h
      · exact h
    have e2 := e2
    unfold wBootstrap at e2
    split at e2
    · cases e2
      exact ⟨i1, h1⟩
    · rcases e3 : writeBatches 0 cp1 with e | ⟨n, b, cp3⟩
      · rw [e3] at e2
        cases e2
      · rw [e3] at e2
        simp only at e2
        have g := batches_ok e3 (by rw [hb1]; exact hs.table) i1
        rcases e4 : wUtf8 N.bootstrapMethods cp3 with e | ⟨name, cp4⟩
        · rw [e4] at e2
          cases e2
        · rw [e4] at e2
          simp only at e2
          have g' := Eff.wutf8 (names_fitting N.bootstrapMethods (by decide)) _ _ _ e4
          split at e2
          · cases e2
            refine ⟨(g'.2.2 g.1).1, fun s hs => ?_⟩
            rcases g'.2.1 s hs with h | h
            · rcases g.2.2 s h with h | h
              · exact h1 s h
              · exact h
            · exact h
          · cases e2
  have hok : ∀ e ∈ cp.entries, EntryOk e := by
    intro e he
    cases e with
    | utf8 s => exact h2.2 s he
    | _ => trivial
  obtain ⟨body, h3, h4⟩ := entries_write hok
  have hlen := h2.1.len
  refine ⟨cp1, cp, b1, b2, pool, e1, e2, hb1, ?_, by simp⟩
  unfold VecCp.write at ep
  rw [h3] at ep
  cases ep
  exact ⟨body, h4, by have := cp.len.toNat_lt; omega, by rw [u16_write, hlen]⟩

theorem delimited_iff {x : Class} (hs : AllClass Fitting x) (hi : x.interfaces.length < 65536)
    (hf : x.fields.length < 65536) (hm : x.methods.length < 65536) {bs : Bytes} (h : x.write = .ok bs)
    (hl : bs.length < 4294967296) :
    Delimited bs ↔ x.attrs.length % 65536 =
      (x.attrs.filter fun a => !isBootstrap a).length + if (usedBsms x).isEmpty then 0 else 1 := by
  obtain ⟨cp1, cp, b1, b2, pool, e1, e2, hb, hp, rfl⟩ := write_parts hs h
  simp only [List.length_append] at hl
  have h2 := shape_bootstrap e2 (by omega)
  rw [hb] at h2
  have h1 : Shape x.writeBody _ := Shape.cons (shape_flags _) (Shape.cons (shape_idx _) (Shape.cons (shape_opt _ _)
    (Shape.cons (shape_cut (shape_indices fun s _ => shape_idx _))
    (Shape.cons (shape_cut (shape_members fun f _ => shape_field f))
    (Shape.cons (shape_cut (shape_members fun m _ => shape_method m))
    (Shape.cons (shape_cut (shape_others _)) Shape.nil))))))
  obtain ⟨c1, _, rfl, g1, c2, _, rfl, g2, c3, _, rfl, g3, _, _, rfl, ⟨c4, g4, rfl⟩, _, _, rfl, ⟨c5, g5, rfl⟩,
    _, _, rfl, ⟨c6, g6, rfl⟩, _, _, rfl, ⟨c7, g7, rfl⟩, rfl⟩ := h1 _ _ _ e1 (by omega)
  have key : walkBody (c1 ++ (c2 ++ (c3 ++ (U2 (x.interfaces.length % 65536) ++ c4 ++
      (U2 (x.fields.length % 65536) ++ c5 ++ (U2 (x.methods.length % 65536) ++ c6 ++
      (U2 (x.attrs.length % 65536) ++ c7 ++ [])))))) ++ b2) = walkAttrs (x.attrs.length % 65536) (c7 ++ b2) := by
    have e : (c1 ++ (c2 ++ (c3 ++ (U2 (x.interfaces.length % 65536) ++ c4 ++
      (U2 (x.fields.length % 65536) ++ c5 ++ (U2 (x.methods.length % 65536) ++ c6 ++
      (U2 (x.attrs.length % 65536) ++ c7 ++ [])))))) ++ b2) = (c1 ++ c2 ++ c3) ++ (U2 x.interfaces.length ++ (c4 ++
      (U2 x.fields.length ++ (c5 ++ (U2 x.methods.length ++ (c6 ++
      (U2 (x.attrs.length % 65536) ++ (c7 ++ b2)))))))) := by
      rw [Nat.mod_eq_of_lt hi, Nat.mod_eq_of_lt hf, Nat.mod_eq_of_lt hm]
      simp
    have l : (c1 ++ c2 ++ c3).length = 6 := by simp only [List.length_append]; omega
    rw [e, walkBody, if_pos (by rw [List.length_append]; omega)]
    have d := List.drop_left (l₁ := c1 ++ c2 ++ c3) (l₂ := U2 x.interfaces.length ++ (c4 ++
      (U2 x.fields.length ++ (c5 ++ (U2 x.methods.length ++ (c6 ++
      (U2 (x.attrs.length % 65536) ++ (c7 ++ b2))))))))
    rw [l] at d
    rw [d, walkTable_U2 _ hi, walkIndices, if_pos (by rw [List.length_append]; omega), ← g4, List.drop_left,
      Option.bind_some, walkTable_U2 _ hf, g5, Option.bind_some, walkTable_U2 _ hm, g6, Option.bind_some,
      walkTable_U2 _ (Nat.mod_lt _ (by omega))]
  have hfr := (g7.append h2).exact (n := x.attrs.length % 65536)
  rw [← hfr, ← key]
  constructor
  · rintro ⟨es, head, pool', body, hp', hh, e, hw⟩
    have hl8 : (u32.write jvmMagic ++ x.version.write).length = 8 := rfl
    have := pool_unique hp hp' (by rw [hh, hl8]) e
    rw [this]
    exact hw
  · intro hw
    exact ⟨cp.entries, _, pool, _, hp, rfl, rfl, hw⟩

end Verif
