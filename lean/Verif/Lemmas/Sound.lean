import Verif.Lemmas.CodeWrite
import Verif.Lemmas.Takes
import Verif.Lemmas.Local

/-! # What holds of everything that is read -/

namespace Verif
open Spec Sig

/-- Whatever the reader reads: it consumes `b`, hands out labels, and `Q` holds of them, of `b` and of
the value. -/
def Snd {α : Type} (env : REnv) (r : Rd α) (Q : LabelMap → Bytes → α → Prop) : Prop :=
  ∀ st bs x st' rest, r env st bs = .ok (x, st', rest) → ∀ ls, st.labels = some ls →
    ∃ b offs, bs = b ++ rest ∧ st'.labels = some (LabelMap.addAll ls offs) ∧
      ∀ m, LabelMap.addAll ls offs <+: m → Q m b x

/-- For claims without the bytes. -/
abbrev SndL {α : Type} (env : REnv) (r : Rd α) (Q : LabelMap → α → Prop) : Prop := Snd env r fun m _ x => Q m x

section
variable {α β : Type} {env : REnv}

theorem Snd.mono {r : Rd α} {Q Q' : LabelMap → Bytes → α → Prop} (h : Snd env r Q)
    (hq : ∀ m b x, Q m b x → Q' m b x) : Snd env r Q' := by
  intro st bs x st' rest hr ls hl
  obtain ⟨b, offs, h1, h2, h3⟩ := h st bs x st' rest hr ls hl
  exact ⟨b, offs, h1, h2, fun m hm => hq _ _ _ (h3 m hm)⟩

theorem Snd.pure (a : α) : Snd env (Rd.pure a) fun _ b x => b = [] ∧ x = a := by
  intro st bs x st' rest hr ls hl
  cases hr
  exact ⟨[], [], rfl, hl, fun _ _ => ⟨rfl, rfl⟩⟩

theorem Snd.fail {e : Err} {Q : LabelMap → Bytes → α → Prop} : Snd env (Rd.fail e) Q := by
  intro st bs x st' rest hr
  cases hr

theorem Snd.bind {x : Rd α} {f : α → Rd β} {P : LabelMap → Bytes → α → Prop} {Q : α → LabelMap → Bytes → β → Prop}
    (hx : Snd env x P) (hf : ∀ a, Snd env (f a) (Q a)) :
    Snd env (Rd.bind x f) fun m b y => ∃ a b1 b2, b = b1 ++ b2 ∧ P m b1 a ∧ Q a m b2 y := by
  intro st bs y st' rest hr ls hl
  obtain ⟨a, st1, bs1, h1, h2⟩ := Rd.bind_ok hr
  obtain ⟨b1, o1, rfl, hl1, p1⟩ := hx _ _ _ _ _ h1 ls hl
  obtain ⟨b2, o2, rfl, hl2, p2⟩ := hf a _ _ _ _ _ h2 _ hl1
  refine ⟨b1 ++ b2, o1 ++ o2, by simp, by rw [hl2, LabelMap.addAll_append], fun m hm => ?_⟩
  rw [LabelMap.addAll_append] at hm
  exact ⟨a, b1, b2, rfl, p1 m ((LabelMap.prefix_addAll _ _).trans hm), p2 m hm⟩

theorem SndL.bind {x : Rd α} {f : α → Rd β} {P : LabelMap → α → Prop} {Q : LabelMap → β → Prop}
    (hx : SndL env x P) (hf : ∀ a, SndL env (f a) fun m y => P m a → Q m y) : SndL env (Rd.bind x f) Q := by
  refine (Snd.bind hx hf).mono ?_
  rintro m b y ⟨a, b1, b2, _, h1, h2⟩
  exact h2 h1

theorem SndL.pure {a : α} {Q : LabelMap → α → Prop} (h : ∀ m, Q m a) : SndL env (Rd.pure a) Q :=
  (Snd.pure a).mono (by rintro m b x ⟨_, rfl⟩; exact h m)

theorem SndL.pure' {a : α} {P : LabelMap → Prop} {Q : LabelMap → α → Prop} (h : ∀ m, P m → Q m a) :
    SndL env (Rd.pure a) fun m x => P m → Q m x :=
  (Snd.pure a).mono (by rintro m b x ⟨_, rfl⟩; exact h m)

theorem SndL.map {x : Rd α} {f : α → β} {Q : LabelMap → β → Prop} (hx : SndL env x fun m a => Q m (f a)) :
    SndL env (Rd.map f x) Q :=
  SndL.bind hx fun _ => SndL.pure' fun _ h => h

theorem SndL.ap {g : Rd (α → β)} {x : Rd α} {P : LabelMap → (α → β) → Prop} {Q : LabelMap → β → Prop}
    (hg : SndL env g P) (hx : SndL env x fun m a => ∀ f, P m f → Q m (f a)) : SndL env (Rd.ap g x) Q := by
  intro st bs y st' rest hr ls hl
  obtain ⟨f, st1, bs1, h1, h2⟩ := Rd.bind_ok hr
  obtain ⟨a, st2, bs2, h3, h4⟩ := Rd.bind_ok h2
  cases h4
  obtain ⟨b1, o1, rfl, hl1, p1⟩ := hg _ _ _ _ _ h1 ls hl
  obtain ⟨b2, o2, rfl, hl2, p2⟩ := hx _ _ _ _ _ h3 _ hl1
  refine ⟨b1 ++ b2, o1 ++ o2, by simp, by rw [hl2, LabelMap.addAll_append], fun m hm => ?_⟩
  rw [LabelMap.addAll_append] at hm
  exact p2 m hm f (p1 m ((LabelMap.prefix_addAll _ _).trans hm))

theorem SndL.weak {r : Rd α} {Q Q' : LabelMap → α → Prop} (h : SndL env r Q)
    (hq : ∀ m x, Q m x → Q' m x) : SndL env r Q' := Snd.mono h fun m _ x => hq m x

theorem Snd.map {x : Rd α} {f : α → β} {P : LabelMap → Bytes → α → Prop} (hx : Snd env x P) :
    Snd env (Rd.map f x) fun m b y => ∃ a, P m b a ∧ y = f a := by
  refine (Snd.bind hx fun a => Snd.pure (f a)).mono ?_
  rintro m b y ⟨a, b1, b2, rfl, h1, rfl, rfl⟩
  exact ⟨a, by rwa [List.append_nil], rfl⟩

theorem Snd.ap {g : Rd (α → β)} {x : Rd α} {P : LabelMap → Bytes → (α → β) → Prop} {Q : LabelMap → Bytes → α → Prop}
    (hg : Snd env g P) (hx : Snd env x Q) :
    Snd env (Rd.ap g x) fun m b y => ∃ f a b1 b2, b = b1 ++ b2 ∧ P m b1 f ∧ Q m b2 a ∧ y = f a := by
  refine (Snd.bind hg fun f => Snd.bind hx fun a => Snd.pure (f a)).mono ?_
  rintro m b y ⟨f, b1, b2, rfl, h1, a, b3, b4, rfl, h3, rfl, rfl⟩
  exact ⟨f, a, b1, b3, by rw [List.append_nil], h1, h3, rfl⟩

theorem Snd.replicate {r : Rd α} {Q : LabelMap → Bytes → α → Prop} (h : Snd env r Q) :
    ∀ n, Snd env (Rd.replicate n r) fun m b xs => xs.length = n ∧
      ∃ bss : List Bytes, b = bss.flatten ∧ Matched (fun x b => Q m b x) xs bss
  | 0 => (Snd.pure []).mono (by rintro m b x ⟨rfl, rfl⟩; exact ⟨rfl, [], rfl, .nil⟩)
  | n + 1 => by
    refine (h.bind fun a => (Snd.replicate h n).bind fun as => Snd.pure (a :: as)).mono ?_
    rintro m b x ⟨a, b1, b2, rfl, h1, as, b3, b4, rfl, ⟨h2, bss, rfl, h3⟩, rfl, rfl⟩
    exact ⟨by simp [h2], b1 :: bss, by simp, .cons h1 h3⟩

theorem SndL.replicate {r : Rd α} {Q : LabelMap → α → Prop} (h : SndL env r Q) (n : Nat) :
    SndL env (Rd.replicate n r) fun m xs => ∀ x ∈ xs, Q m x := by
  refine (Snd.replicate h n).mono ?_
  rintro m b xs ⟨hn, bss, _, h⟩ x hx
  obtain ⟨_, _, h⟩ := h.left x hx
  exact h

theorem SndL.num {c : NumCodec α} (hc : c.Lawful) {Q : LabelMap → α → Prop} (h : ∀ m x, Q m x) :
    SndL env (rNum c) Q := by
  intro st bs x st' rest hr ls hl
  obtain ⟨rfl, h1⟩ := rNum_ok hr
  obtain ⟨b, h2, _⟩ := takes_num hc _ _ _ h1
  exact ⟨b, [], h2, hl, fun m _ => h m x⟩

theorem Snd.num {c : NumCodec α} (hc : c.Lawful) : Snd env (rNum c) fun _ b x => b = c.write x := by
  intro st bs x st' rest hr ls hl
  obtain ⟨rfl, h1⟩ := rNum_ok hr
  obtain ⟨b, h2, h3⟩ := takes_num hc _ _ _ h1
  exact ⟨b, [], h2, hl, fun m _ => h3⟩

theorem SndL.vec {ℓ : Type} {l : NumCodec ℓ} (hl : l.Lawful) {r : Rd α} {Q : LabelMap → α → Prop} (h : SndL env r Q) :
    SndL env (rVec l r) fun m xs => ∀ x ∈ xs, Q m x :=
  SndL.bind (P := fun _ _ => True) (SndL.num hl fun _ _ => trivial) fun _ => (SndL.replicate h _).weak fun _ _ h _ => h

theorem SndL.lookup {f : Pool → UInt16 → Option α} {i : UInt16} : SndL env (rLookup f i) fun _ x => f env.pool i = some x := by
  intro st bs x st' rest hr ls hl
  unfold rLookup at hr
  split at hr <;> cases hr
  exact ⟨[], [], rfl, hl, fun _ _ => by assumption⟩

theorem Snd.lookup {f : Pool → UInt16 → Option α} {i : UInt16} :
    Snd env (rLookup f i) fun _ b x => b = [] ∧ f env.pool i = some x := by
  intro st bs x st' rest hr ls hl
  unfold rLookup at hr
  split at hr <;> cases hr
  exact ⟨[], [], rfl, hl, fun _ _ => ⟨rfl, by assumption⟩⟩

theorem Snd.lookupR {f : Pool → UInt16 → Res (Option α)} {i : UInt16} : Snd env (rLookupR f i) fun _ b _ => b = [] := by
  intro st bs x st' rest hr ls hl
  unfold rLookupR at hr
  split at hr <;> cases hr
  exact ⟨[], [], rfl, hl, fun _ _ => rfl⟩

theorem Snd.lookupD {f : Pool → UInt16 → List UInt16 → Res (Option α × List UInt16)} {i : UInt16} :
    Snd env (rLookupD f i) fun _ b _ => b = [] := by
  intro st bs x st' rest hr ls hl
  unfold rLookupD at hr
  split at hr <;> cases hr
  exact ⟨[], [], rfl, hl, fun _ _ => rfl⟩

theorem Snd.ofRes {r : Res α} : Snd env (Rd.ofRes r) fun _ b _ => b = [] := by
  intro st bs x st' rest hr ls hl
  unfold Rd.ofRes at hr
  split at hr <;> cases hr
  exact ⟨[], [], rfl, hl, fun _ _ => rfl⟩

theorem SndL.any {r : Rd α} {P : LabelMap → Bytes → α → Prop} (h : Snd env r P) {Q : LabelMap → α → Prop}
    (hq : ∀ m x, Q m x) : SndL env r Q := h.mono fun m _ x _ => hq m x

/-- Nothing is claimed but that the input is consumed and labels are added. -/
def SndT (env : REnv) (r : Rd α) : Prop := SndL env r fun _ _ => True

theorem SndT.bind {x : Rd α} {f : α → Rd β} (hx : SndT env x) (hf : ∀ a, SndT env (f a)) : SndT env (Rd.bind x f) :=
  SndL.bind hx fun a => (hf a).weak fun _ _ _ _ => trivial

theorem SndT.of {r : Rd α} {Q : LabelMap → Bytes → α → Prop} (h : Snd env r Q) : SndT env r := h.mono fun _ _ _ _ => trivial
theorem SndT.pure (a : α) : SndT env (Rd.pure a) := .of (Snd.pure a)
theorem SndT.fail {e : Err} : SndT env (Rd.fail e : Rd α) := Snd.fail
theorem SndT.map {x : Rd α} {f : α → β} (hx : SndT env x) : SndT env (Rd.map f x) := hx.bind fun _ => .pure _
theorem SndT.ap {g : Rd (α → β)} {x : Rd α} (hg : SndT env g) (hx : SndT env x) : SndT env (Rd.ap g x) :=
  hg.bind fun _ => hx.bind fun _ => .pure _
theorem SndT.num {c : NumCodec α} (hc : c.Lawful) : SndT env (rNum c) := .of (Snd.num hc)
theorem SndT.ite {p : Prop} [Decidable p] {r r' : Rd α} (h : SndT env r) (h' : SndT env r') :
    SndT env (if p then r else r') := by
  split
  · exact h
  · exact h'
theorem SndL.ite {p : Prop} [Decidable p] {r r' : Rd α} {Q : LabelMap → α → Prop} (h : SndL env r Q) (h' : SndL env r' Q) :
    SndL env (if p then r else r') Q := by
  split
  · exact h
  · exact h'
theorem SndT.vec {ℓ : Type} {l : NumCodec ℓ} (hl : l.Lawful) {r : Rd α} (h : SndT env r) : SndT env (rVec l r) :=
  .of (SndL.vec hl h)
theorem SndT.idx {f : Pool → UInt16 → Option α} : SndT env (rIdx f) :=
  SndT.bind (SndT.num u16_lawful) fun _ => .of Snd.lookup
theorem SndT.idxR {f : Pool → UInt16 → Res (Option α)} : SndT env (rIdxR f) :=
  SndT.bind (SndT.num u16_lawful) fun _ => .of Snd.lookupR
theorem SndT.utf8 : SndT env rUtf8 := .idx
theorem SndT.type : SndT env rType := SndT.utf8.bind fun _ => .of Snd.ofRes

theorem SndL.framed {nm : Bytes} {r : Rd α} {Q : LabelMap → α → Prop} (h : SndL env r Q) : SndL env (rFramed nm r) Q := by
  intro st bs x st' rest hr ls hl
  unfold rFramed at hr
  split at hr
  · cases hr
  rename_i len bs1 h1
  split at hr
  · cases hr
  rename_i body bs2 h2
  obtain ⟨b, rfl, _⟩ := takes_num u32_lawful _ _ _ h1
  obtain ⟨rfl, _⟩ := readExact_ok h2
  split at hr
  · cases hr
  · rename_i a st1 h3
    cases hr
    obtain ⟨_, offs, _, h5, h6⟩ := h _ _ _ _ _ h3 ls hl
    exact ⟨b ++ body, offs, by simp, h5, h6⟩
  · cases hr

theorem SndT.rawBody : SndT env rRawBody := by
  intro st bs x st' rest hr ls hl
  unfold rRawBody at hr
  split at hr
  · cases hr
  rename_i len bs1 h1
  split at hr
  · cases hr
  rename_i body bs2 h2
  obtain ⟨b, rfl, _⟩ := takes_num u32_lawful _ _ _ h1
  obtain ⟨rfl, _⟩ := readExact_ok h2
  cases hr
  exact ⟨b ++ x, [], by simp, hl, fun _ _ => trivial⟩

theorem SndL.attr {table : Bytes → Option (Rd α)} {raw : RawAttribute → α} {Q : LabelMap → α → Prop}
    (h : ∀ name r, table name = some r → SndL env r Q) (hr : ∀ m a, Q m (raw a)) : SndL env (rAttr table raw) Q := by
  refine SndL.bind (P := fun _ _ => True) SndT.utf8 fun name => ?_
  split
  · rename_i r hn
    exact ((h name r hn).framed).weak fun _ _ h _ => h
  · exact (SndL.map (Q := Q) (SndT.rawBody.weak fun m b _ => hr m ⟨name, b⟩)).weak fun _ _ h _ => h

theorem Snd.getLabel (o : UInt32) : Snd env (getLabel o) fun m b l => b = [] ∧ m.lookup o = some l := by
  intro st bs x st' rest hr ls hl
  unfold Verif.getLabel at hr
  rw [hl] at hr
  simp only at hr
  split at hr
  · rename_i l h1
    cases hr
    refine ⟨[], [], rfl, hl, fun m hm => ⟨rfl, LabelMap.lookup_prefix hm h1⟩⟩
  · rename_i h1
    cases hr
    have e : LabelMap.addAll ls [o] = ls ++ [(o, UInt32.ofNat ls.length)] := by
      simp [LabelMap.addAll, LabelMap.add, h1]
    refine ⟨[], [o], rfl, by rw [e], fun m hm => ⟨rfl, ?_⟩⟩
    rw [e] at hm
    refine LabelMap.lookup_prefix hm ?_
    rw [List.lookup_append, h1]
    simp

/-- The label stands for some position. -/
def Knows (m : LabelMap) (l : Label) : Prop := ∃ o, m.lookup o = some l

theorem SndL.getLabel (o : UInt32) : SndL env (getLabel o) Knows :=
  (Snd.getLabel o).mono fun _ _ _ h => ⟨o, h.2⟩

theorem SndL.label : SndL env rLabel Knows :=
  SndL.bind (P := fun _ _ => True) (SndT.num u16_lawful) fun _ => (SndL.getLabel _).weak fun _ _ h _ => h

end

/-! ## Readers of attributes -/

theorem class_ok {P : Pool} {i : UInt16} {s : Bytes} (h : Pool.cls P i = some s) : IsClass P i s := by
  unfold Pool.cls Pool.indirect at h
  split at h
  · exact absurd h (by simp)
  · exact absurd h (by simp)
  · exact absurd h (by simp)
  · rename_i j hj
    simp only [if_true] at h
    refine ⟨j, hj, ?_⟩
    unfold Pool.wtf8 at h
    split at h
    · rename_i hs
      cases h
      exact hs
    · cases h
  · cases h

section
variable {env : REnv}

theorem SndT.opt {α : Type} {f : UInt16 → Rd α} (h : ∀ i, SndT env (f i)) : SndT env (rOpt f) :=
  SndT.bind (.num u16_lawful) fun i => .ite (.pure _) (.map (h i))

theorem SndT.intIn (lo hi : Int) (f : Int32 → AnnValue) : SndT env (rIntIn lo hi f) :=
  SndT.bind .idx fun _ => .ite (.pure _) .fail

theorem SndT.classText : SndT env rClassText :=
  SndT.bind .utf8 fun _ => .ite (.pure _) (.map (.of Snd.ofRes))

theorem SndT.elemsWith {r : Rd AnnValue} (h : SndT env r) : SndT env (Elems.readWith r) :=
  .map (.vec u16_lawful (SndT.utf8.bind fun _ => h.map))

theorem SndT.readF : ∀ n, SndT env (AnnValue.readF n)
  | 0 => .fail
  | n + 1 => by
    have ih := SndT.readF n
    refine SndT.bind (.num u8_lawful) fun tag => ?_
    exact .ite (.intIn _ _ _) <| .ite (.intIn _ _ _) <| .ite (.map .idx) <| .ite (.map .idx) <|
      .ite (.map .idx) <| .ite (.map .idx) <| .ite (.intIn _ _ _) <| .ite (.intIn _ _ _) <| .ite (.map .utf8) <|
      .ite (.ap (.map .type) .utf8) <| .ite (.map .classText) <| .ite (.ap (.map .type) (.elemsWith ih)) <|
      .ite (.map (.vec u16_lawful ih)) .fail

theorem SndT.annValue : SndT env AnnValue.read := fun st bs x st' rest h => SndT.readF _ st bs x st' rest h

theorem SndT.elems : SndT env Elems.read := .elemsWith .annValue

theorem SndT.pathStep : SndT env PathStep.read :=
  SndT.bind (.num u8_lawful) fun _ => .ite (.map (.num u8_lawful)) <| .ite (.map (.num u8_lawful)) <|
    .ite (.map (.num u8_lawful)) <| .ite (.map (.num u8_lawful)) .fail

theorem SndT.sig {α : Type} {parse : Str → Res α} : SndT env (rSig parse) := by
  refine SndT.bind .utf8 fun s => ?_
  split
  · exact .fail
  · exact .of Snd.ofRes

theorem SndT.label : SndT env rLabel := .of SndL.label

theorem SndT.vtype : SndT env VType.read := by
  refine SndT.bind (.num u8_lawful) fun tag => ?_
  unfold VType.readTag
  split
  all_goals first
    | exact .pure _
    | exact .fail
    | exact .map .idx
    | exact .map .label

theorem SndT.frame : SndT env Frame.read := by
  refine SndT.bind (.num u8_lawful) fun tag => ?_
  exact .ite (.pure _) <| .ite (.map .vtype) <| .ite .fail <| .ite (.ap (.map (.num u16_lawful)) .vtype) <|
    .ite (.map (.num u16_lawful)) <| .ite (.map (.num u16_lawful)) <|
    .ite (.ap (.map (.num u16_lawful)) (.of (SndL.replicate SndT.vtype _))) <|
    .ap (.ap (.map (.num u16_lawful)) (.vec u16_lawful .vtype)) (.vec u16_lawful .vtype)

theorem SndT.line : SndT env LineEntry.read := .ap (.map (.num u16_lawful)) (.num u16_lawful)

theorem SndT.var : SndT env VarEntry.read :=
  .ap (.ap (.ap (.ap (.map (.num u16_lawful)) (.num u16_lawful)) .utf8) .type) (.num u16_lawful)

theorem SndT.varType : SndT env VarTypeEntry.read :=
  .ap (.ap (.ap (.ap (.map (.num u16_lawful)) (.num u16_lawful)) .utf8) .sig) (.num u16_lawful)

/-- The labels stand for some positions, the second not before the first. -/
def Spans (m : LabelMap) (s t : Label) : Prop := ∃ o o', m.lookup o = some s ∧ m.lookup o' = some t ∧ o.toNat ≤ o'.toNat

theorem Spans.start {m : LabelMap} {s t : Label} (h : Spans m s t) : Knows m s := h.imp fun _ h => h.choose_spec.1
theorem Spans.stop {m : LabelMap} {s t : Label} (h : Spans m s t) : Knows m t := h.choose_spec.imp fun _ h => h.2.1

theorem SndL.exact (o : UInt32) : SndL env (Verif.getLabel o) fun m l => m.lookup o = some l :=
  (Snd.getLabel o).mono fun _ _ _ h => h.2

/-- Labels of the target are known, handlers are in the table. -/
def TargetOk (cs : List Catch) (m : LabelMap) (t : CodeTarget) : Prop :=
  (∀ l ∈ targetLabels t, Knows m l) ∧ (∀ k, t = .catchParam k → k ∈ cs) ∧ ∀ r ∈ targetRanges t, Spans m r.1 r.2

theorem SndL.varTarget : SndL env LocalVarTarget.read fun m t => Spans m t.start t.stop := by
  refine SndL.bind (P := fun _ _ => True) (SndT.num u16_lawful) fun s => ?_
  refine SndL.bind (SndL.exact _) fun start => ?_
  refine SndL.bind (P := fun _ _ => True) (SndT.num u16_lawful) fun len => ?_
  refine SndL.bind (SndL.exact _) fun stop => ?_
  refine SndL.map (SndL.any (Snd.num u16_lawful) fun m i h2 _ h1 _ => ⟨_, _, h1, h2, ?_⟩)
  have h1 := s.toNat_lt
  have h2 := len.toNat_lt
  rw [UInt32.toNat_add, UInt16.toNat_toUInt32, UInt16.toNat_toUInt32]
  omega

theorem SndL.catch {cs : List Catch} (hc : env.catches = some cs) : SndL env rCatch fun _ k => k ∈ cs := by
  refine SndL.bind (P := fun _ _ => True) (SndT.num u16_lawful) fun i => ?_
  intro st bs x st' rest hr ls hl
  simp only [hc] at hr
  split at hr
  · rename_i c hi
    cases hr
    exact ⟨[], [], rfl, hl, fun _ _ _ => List.mem_of_getElem? hi⟩
  · cases hr

theorem SndL.target {cs : List Catch} (hc : env.catches = some cs) : SndL env CodeTarget.read (TargetOk cs) := by
  refine SndL.bind (P := fun _ _ => True) (SndT.num u8_lawful) fun tag => ?_
  refine SndL.weak (Q := TargetOk cs) ?_ fun _ _ h _ => h
  have vars : ∀ {f : List LocalVarTarget → CodeTarget}, (∀ ts, targetLabels (f ts) = ts.flatMap fun t => [t.start, t.stop]) →
      (∀ ts k, f ts ≠ .catchParam k) → (∀ ts, targetRanges (f ts) = ts.map fun t => (t.start, t.stop)) →
      SndL env (Rd.map f (rVec u16 LocalVarTarget.read)) (TargetOk cs) := by
    intro f h1 h2 h3
    refine SndL.map ((SndL.vec u16_lawful SndL.varTarget).weak fun m ts h => ⟨?_, fun k e => absurd e (h2 _ _), ?_⟩)
    · rw [h1]
      intro l hl
      obtain ⟨t, ht, hl⟩ := List.mem_flatMap.mp hl
      rcases List.mem_cons.mp hl with rfl | hl
      · exact (h t ht).start
      · rw [List.mem_singleton] at hl
        exact hl ▸ (h t ht).stop
    · rw [h3]
      intro r hr
      obtain ⟨t, ht, rfl⟩ := List.mem_map.mp hr
      exact h t ht
  have lab : ∀ {f : Label → CodeTarget}, (∀ l, targetLabels (f l) = [l]) → (∀ l k, f l ≠ .catchParam k) →
      (∀ l, targetRanges (f l) = []) → SndL env (Rd.map f rLabel) (TargetOk cs) := by
    intro f h1 h2 h3
    refine SndL.map (SndL.label.weak fun m l h => ⟨?_, fun k e => absurd e (h2 _ _), by rw [h3]; nofun⟩)
    rw [h1]
    intro l' hl
    rw [List.mem_singleton] at hl
    exact hl ▸ h
  have lab8 : ∀ {f : Label → UInt8 → CodeTarget}, (∀ l i, targetLabels (f l i) = [l]) → (∀ l i k, f l i ≠ .catchParam k) →
      (∀ l i, targetRanges (f l i) = []) → SndL env (Rd.ap (Rd.map f rLabel) (rNum u8)) (TargetOk cs) := by
    intro f h1 h2 h3
    refine SndL.ap (P := fun m g => ∃ l, g = f l ∧ Knows m l)
      (SndL.map (SndL.label.weak fun m l h => ⟨l, rfl, h⟩)) (SndL.any (Snd.num u8_lawful) ?_)
    rintro m i g ⟨l, rfl, h⟩
    refine ⟨?_, fun k e => absurd e (h2 _ _ _), by rw [h3]; nofun⟩
    rw [h1]
    intro l' hl
    rw [List.mem_singleton] at hl
    exact hl ▸ h
  refine .ite (vars (fun _ => rfl) (by simp) fun _ => rfl) <| .ite (vars (fun _ => rfl) (by simp) fun _ => rfl) <| .ite ?_ <|
    .ite (lab (fun _ => rfl) (by simp) fun _ => rfl) <| .ite (lab (fun _ => rfl) (by simp) fun _ => rfl) <|
    .ite (lab (fun _ => rfl) (by simp) fun _ => rfl) <| .ite (lab (fun _ => rfl) (by simp) fun _ => rfl) <|
    .ite (lab8 (fun _ _ => rfl) (by simp) fun _ _ => rfl) <| .ite (lab8 (fun _ _ => rfl) (by simp) fun _ _ => rfl) <|
    .ite (lab8 (fun _ _ => rfl) (by simp) fun _ _ => rfl) <| .ite (lab8 (fun _ _ => rfl) (by simp) fun _ _ => rfl) <|
    .ite (lab8 (fun _ _ => rfl) (by simp) fun _ _ => rfl) Snd.fail
  refine SndL.map ((SndL.catch hc).weak fun m k h => ⟨by simp [targetLabels], ?_, nofun⟩)
  intro k' e
  cases e
  exact h

theorem SndL.typeAnnotation {T : Type} {r : Rd T} {Q : LabelMap → T → Prop} (h : SndL env r Q) :
    SndL env (TypeAnnotation.read r) fun m a => Q m a.target := by
  refine SndL.ap (P := fun m g => ∀ v, Q m (g v).target) ?_ (SndT.elems.weak fun m v _ g hg => hg v)
  refine SndL.ap (P := fun m g => ∀ t v, Q m (g t v).target) ?_ (SndT.type.weak fun m v _ g hg => hg v)
  refine SndL.ap (P := fun m g => ∀ p t v, Q m (g p t v).target) ?_
    ((SndT.vec u8_lawful .pathStep).weak fun m v _ g hg => hg v)
  exact SndL.map (h.weak fun m a h _ _ _ => h)

def CodeAttrOk (cs : List Catch) (m : LabelMap) : CodeAttr → Prop
  | .invisibleType as | .visibleType as => ∀ a ∈ as, TargetOk cs m a.target
  | _ => True

theorem SndL.codeAttr {cs : List Catch} (hc : env.catches = some cs) : SndL env CodeAttr.read (CodeAttrOk cs) := by
  refine SndL.attr (fun name r hr => ?_) fun _ _ => trivial
  unfold CodeAttr.table at hr
  repeat' split at hr
  all_goals cases hr
  · exact SndL.map ((SndT.vec u16_lawful .line).weak fun _ _ _ => trivial)
  · exact SndL.map ((SndT.vec u16_lawful .var).weak fun _ _ _ => trivial)
  · exact SndL.map ((SndT.vec u16_lawful .varType).weak fun _ _ _ => trivial)
  · exact SndL.map (SndL.vec u16_lawful (SndL.typeAnnotation (SndL.target hc)))
  · exact SndL.map (SndL.vec u16_lawful (SndL.typeAnnotation (SndL.target hc)))
  · exact SndL.map ((SndT.vec u16_lawful .frame).weak fun _ _ _ => trivial)

/-! ## The loop over the attributes -/

def VarsOk (m : LabelMap) (vs : List LocalVariable) : Prop := ∀ v ∈ vs, Spans m v.start v.stop

theorem upsert_cases {f : LocalVariable → LocalVariable} {v x : LocalVariable} {ws : List LocalVariable}
    (h : x ∈ upsert f v ws) : x = v ∨ x ∈ ws ∨ ∃ w ∈ ws, x = f w := by
  induction ws with
  | nil => exact .inl (List.mem_singleton.mp h)
  | cons w ws ih =>
    rw [upsert] at h
    split at h
    · rcases List.mem_cons.mp h with rfl | h'
      · exact .inr (.inr ⟨w, by simp, rfl⟩)
      · exact .inr (.inl (by simp [h']))
    · rcases List.mem_cons.mp h with rfl | h'
      · exact .inr (.inl (by simp))
      · rcases ih h' with h1 | h1 | ⟨w', h1, h2⟩
        · exact .inl h1
        · exact .inr (.inl (by simp [h1]))
        · exact .inr (.inr ⟨w', by simp [h1], h2⟩)

theorem VarsOk.upsert {m : LabelMap} {f : LocalVariable → LocalVariable} {v : LocalVariable} {ws : List LocalVariable}
    (h : VarsOk m ws) (hv : Spans m v.start v.stop) (hf : ∀ w, (f w).start = w.start ∧ (f w).stop = w.stop) :
    VarsOk m (Verif.upsert f v ws) := by
  intro x hx
  rcases upsert_cases hx with rfl | hx' | ⟨w, hw, rfl⟩
  · exact hv
  · exact h x hx'
  · rw [(hf w).1, (hf w).2]
    exact h w hw

theorem SndL.range (s n : UInt16) : SndL env (rangeLabels s n) fun m r => Spans m r.1 r.2 := by
  refine SndL.bind (SndL.exact _) fun a => ?_
  split
  · rename_i hn
    refine SndL.map ((SndL.exact _).weak fun m b h h' => ⟨_, _, h', h, ?_⟩)
    rw [UInt16.toNat_toUInt32, UInt16.toNat_toUInt32, UInt16.toNat_add]
    omega
  · exact Snd.fail

theorem SndL.addVars (es : List VarEntry) : ∀ vars, SndL env (addVars vars es) fun m vs => VarsOk m vars → VarsOk m vs := by
  induction es with
  | nil => exact fun vars => SndL.pure fun m h => h
  | cons e es ih =>
    intro vars
    refine SndL.bind (SndL.range _ _) fun r => (ih _).weak fun m vs h h1 h2 => h (h2.upsert h1 fun _ => ⟨rfl, rfl⟩)

theorem SndL.addVarTypes (es : List VarTypeEntry) :
    ∀ vars, SndL env (addVarTypes vars es) fun m vs => VarsOk m vars → VarsOk m vs := by
  induction es with
  | nil => exact fun vars => SndL.pure fun m h => h
  | cons e es ih =>
    intro vars
    refine SndL.bind (SndL.range _ _) fun r => (ih _).weak fun m vs h h1 h2 => h (h2.upsert h1 fun _ => ⟨rfl, rfl⟩)

/-- At each position there is at most a line number. -/
def LinesOk (ps : List Nat) (ins : Nat → List Insn) : Prop :=
  ∃ line : Nat → Option UInt16, ∀ k p, ps[k]? = some p → ins k = (line p).toList.map .lineNumber

structure AccOk (cs : List Catch) (ps : List Nat) (m : LabelMap) (acc : AttrAcc) : Prop where
  labels : ∀ l ∈ acc.attrs.flatMap codeAttrLabels, Knows m l
  catches : ∀ k ∈ acc.attrs.flatMap annCatches, k ∈ cs
  ranges : ∀ r ∈ acc.attrs.flatMap codeAttrRanges, Spans m r.1 r.2
  vars : VarsOk m acc.vars
  lines : LinesOk ps acc.ins

theorem LinesOk.add {ps : List Nat} (hs : ps.Nodup) {ins ins' : Nat → List Insn} {ls : List LineEntry}
    (h : LinesOk ps ins) (ha : addLines (indexIn ps) ins ls = .ok ins') : LinesOk ps ins' := by
  obtain ⟨line, h⟩ := h
  obtain ⟨ins'', h1, h2⟩ := addLines_ok hs (addLines_mem ha) ins
  rw [ha] at h1
  cases h1
  refine ⟨fun p => (lineAt ls p).or (line p), fun k p hk => ?_⟩
  rw [h2 k p hk]
  cases hl : lineAt ls p with
  | none => simp [h k p hk, hl]
  | some n => simp [hl]

theorem AccOk.types {cs : List Catch} {ps : List Nat} {m : LabelMap} {acc : AttrAcc} {as : List (TypeAnnotation CodeTarget)}
    {a : CodeAttribute} (h : AccOk cs ps m acc) (ha : a = .invisibleType as ∨ a = .visibleType as)
    (hs : ∀ a ∈ as, TargetOk cs m a.target) : AccOk cs ps m { acc with attrs := acc.attrs ++ [a] } := by
  have e1 : codeAttrLabels a = as.flatMap fun a => targetLabels a.target := by rcases ha with rfl | rfl <;> rfl
  have e2 : ∀ k ∈ annCatches a, k ∈ cs := by
    intro k hk
    have hk' : k ∈ as.flatMap fun a => match a.target with
        | .catchParam k => [k]
        | _ => [] := by rcases ha with rfl | rfl <;> exact hk
    obtain ⟨x, hx, hk'⟩ := List.mem_flatMap.mp hk'
    split at hk'
    · rename_i k' e
      rw [List.mem_singleton] at hk'
      exact (hs x hx).2.1 k (by rw [hk', e])
    · cases hk'
  have e3 : codeAttrRanges a = as.flatMap fun a => targetRanges a.target := by rcases ha with rfl | rfl <;> rfl
  refine ⟨?_, ?_, ?_, h.vars, h.lines⟩
  · intro l hl
    simp only [List.flatMap_append, List.mem_append, List.flatMap_cons, List.flatMap_nil, List.append_nil] at hl
    rcases hl with hl | hl
    · exact h.labels l hl
    · rw [e1] at hl
      obtain ⟨x, hx, hl⟩ := List.mem_flatMap.mp hl
      exact (hs x hx).1 l hl
  · intro k hk
    simp only [List.flatMap_append, List.mem_append, List.flatMap_cons, List.flatMap_nil, List.append_nil] at hk
    rcases hk with hk | hk
    · exact h.catches k hk
    · exact e2 k hk
  · intro r hr
    simp only [List.flatMap_append, List.mem_append, List.flatMap_cons, List.flatMap_nil, List.append_nil] at hr
    rcases hr with hr | hr
    · exact h.ranges r hr
    · rw [e3] at hr
      obtain ⟨x, hx, hr⟩ := List.mem_flatMap.mp hr
      exact (hs x hx).2.2 r hr

theorem SndL.step {cs : List Catch} {ps : List Nat} (hs : ps.Nodup) (acc : AttrAcc) (a : CodeAttr) :
    SndL env (acc.step (indexIn ps) a) fun m acc' => CodeAttrOk cs m a → AccOk cs ps m acc → AccOk cs ps m acc' := by
  cases a with
  | lines ls =>
    refine SndL.map ?_
    intro st bs x st' rest hr lm hl
    unfold Rd.ofRes at hr
    split at hr
    · rename_i y hy
      cases hr
      exact ⟨[], [], rfl, hl, fun m _ _ h => ⟨h.labels, h.catches, h.ranges, h.vars, h.lines.add hs hy⟩⟩
    · cases hr
  | vars vs => exact SndL.map ((SndL.addVars vs _).weak fun m x h _ h' => ⟨h'.labels, h'.catches, h'.ranges, h h'.vars, h'.lines⟩)
  | varTypes vs =>
    exact SndL.map ((SndL.addVarTypes vs _).weak fun m x h _ h' => ⟨h'.labels, h'.catches, h'.ranges, h h'.vars, h'.lines⟩)
  | invisibleType as => exact SndL.pure fun m h h' => h'.types (.inl rfl) h
  | visibleType as => exact SndL.pure fun m h h' => h'.types (.inr rfl) h
  | frames fs => exact SndL.pure fun m _ h' => h'
  | raw a =>
    refine SndL.pure fun m _ h' => ⟨?_, ?_, ?_, h'.vars, h'.lines⟩
    · simpa [codeAttrLabels] using h'.labels
    · simpa [annCatches] using h'.catches
    · simpa [codeAttrRanges] using h'.ranges

theorem SndL.attrs {cs : List Catch} (hc : env.catches = some cs) {ps : List Nat} (hs : ps.Nodup) :
    ∀ n acc, SndL env (readCodeAttrs (indexIn ps) n acc) fun m acc' => AccOk cs ps m acc → AccOk cs ps m acc'
  | 0, acc => SndL.pure fun m h => h
  | n + 1, acc => by
    refine SndL.bind (SndL.codeAttr hc) fun a => ?_
    refine SndL.weak (Q := fun m acc' => CodeAttrOk cs m a → AccOk cs ps m acc → AccOk cs ps m acc') ?_ fun _ _ h => h
    refine SndL.bind (SndL.step (cs := cs) hs acc a) fun acc1 => ?_
    exact (SndL.attrs hc hs n acc1).weak fun m acc2 h1 h2 h3 h4 => h1 (h2 h3 h4)

/-! ## The exception table -/

theorem Snd.rLabel : Snd env rLabel fun m b l => ∃ o : UInt16, b = U2 o.toNat ∧ m.lookup o.toUInt32 = some l := by
  refine (Snd.bind (Snd.num u16_lawful) fun o => Snd.getLabel _).mono ?_
  rintro m b l ⟨o, b1, b2, rfl, rfl, rfl, h⟩
  exact ⟨o, by rw [List.append_nil, u16_write], h⟩

/-- The layout of what is read, given positions of labels. -/
def At (P : Pool) {α : Type} (f : Fmt α) (m : LabelMap) (b : Bytes) (x : α) : Prop :=
  ∀ c : Ctx, c.pool = P → (∀ l o, m.lookup o = some l → c.pos l = some o.toNat) → f c x b

theorem Snd.tyEntry : Snd env (rOpt fun i => rLookup Pool.cls i) fun m b x => At env.pool (Fmt.indexOpt IsClass) m b x := by
  refine (Snd.bind (Q := fun i m b x => b = [] ∧ At env.pool (Fmt.indexOpt IsClass) m (U2 i.toNat) x)
    (Snd.num u16_lawful) fun i => ?_).mono ?_
  · split
    · rename_i h
      refine (Snd.pure none).mono ?_
      rintro m b x ⟨rfl, rfl⟩
      exact ⟨rfl, fun c _ _ => by rw [h]; rfl⟩
    · rename_i h
      refine (Snd.map Snd.lookup).mono ?_
      rintro m b x ⟨a, ⟨rfl, h1⟩, rfl⟩
      exact ⟨rfl, fun c hc _ => ⟨i, h, hc ▸ class_ok h1, rfl⟩⟩
  · rintro m b x ⟨i, b1, b2, rfl, rfl, rfl, h⟩
    rw [List.append_nil, u16_write]
    exact h

theorem Snd.catchEntry : Snd env Catch.read fun m b k => (∀ l ∈ catchLabels k, Knows m l) ∧ At env.pool handlerEntry m b k := by
  refine (Snd.ap (Snd.ap (Snd.ap (Snd.map Snd.rLabel) Snd.rLabel) Snd.rLabel) Snd.tyEntry).mono ?_
  rintro m b k ⟨f, ty, _, b4, rfl, ⟨f, l3, _, b3, rfl, ⟨f, l2, _, b2, rfl, ⟨l1, ⟨o1, rfl, h1⟩, rfl⟩, ⟨o2, rfl, h2⟩, rfl⟩,
    ⟨o3, rfl, h3⟩, rfl⟩, h4, rfl⟩
  refine ⟨?_, fun c hc hp => ?_⟩
  · intro l hl
    simp only [catchLabels, List.mem_cons, List.not_mem_nil, or_false] at hl
    rcases hl with rfl | rfl | rfl
    · exact ⟨_, h1⟩
    · exact ⟨_, h2⟩
    · exact ⟨_, h3⟩
  · have lab : ∀ {o : UInt16} {l : Label}, m.lookup o.toUInt32 = some l → Fmt.label c l (U2 o.toNat) := fun h =>
      ⟨_, hp _ _ h, by simpa using UInt16.toNat_lt _, by simp⟩
    refine ⟨U2 o1.toNat, _, ?_, lab h1, U2 o2.toNat, _, rfl, lab h2, U2 o3.toNat, _, rfl, lab h3, b4, _, rfl, h4 c hc hp, rfl⟩
    simp

theorem Snd.handlers : Snd env (rVec u16 Catch.read) fun m b ks =>
    (∀ l ∈ ks.flatMap catchLabels, Knows m l) ∧ At env.pool (Fmt.table2 handlerEntry) m b ks := by
  refine (Snd.bind (Snd.num u16_lawful) fun n => Snd.replicate Snd.catchEntry _).mono ?_
  rintro m b ks ⟨n, b1, _, rfl, rfl, hn, bss, rfl, h⟩
  have hn' : ks.length = n.toNat := hn
  clear hn
  refine ⟨?_, fun c hc hp => ⟨?_, bss.flatten, ?_, ?_⟩⟩
  · intro l hl
    obtain ⟨k, hk, hl⟩ := List.mem_flatMap.mp hl
    obtain ⟨_, _, h, _⟩ := h.left k hk
    exact h l hl
  · rw [hn']
    exact UInt16.toNat_lt n
  · rw [hn', u16_write]
  · clear hn'
    induction h with
    | nil => rfl
    | cons h _ ih => exact ⟨_, _, rfl, h.2 c hc hp, ih⟩

end

end Verif
