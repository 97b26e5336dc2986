import Verif.Model.Memory
import Verif.Lemmas.LocalCode
import Verif.Lemmas.TameClass

/-! # Readers with two allocators, of which the second grants more -/

namespace Verif
open Spec

/-- The first outcome is the second, or the abort after a request that was refused: one of at most 8 GiB, and of at most
`L` bytes if the second outcome is a value. -/
def Refused {α : Type} (g : Grants) (L : Nat) (x x' : Res α) : Prop :=
  x = x' ∨ (x = .error .diverge ∧ ∃ n, g.gives n = false ∧ n ≤ 8589934588 ∧ ∀ v, x' = .ok v → n ≤ L)

theorem Refused.refl {α : Type} {g : Grants} {L : Nat} (x : Res α) : Refused g L x x := .inl rfl

theorem Refused.mono {α : Type} {g : Grants} {L L' : Nat} {x x' : Res α} (h : Refused g L x x') (hl : L ≤ L') :
    Refused g L' x x' := by
  rcases h with h | ⟨h, n, h1, h2, h3⟩
  · exact .inl h
  · exact .inr ⟨h, n, h1, h2, fun v hv => Nat.le_trans (h3 v hv) hl⟩

/-- The rest of the second computation. -/
theorem Refused.then {α β : Type} {g : Grants} {L : Nat} {x x' : Res α} {f f' : Res α → Res β}
    (h : Refused g L x x') (hd : f (.error .diverge) = .error .diverge) (he : ∀ e, ∀ v, f' (.error e) ≠ .ok v)
    (hf : Refused g L (f x') (f' x')) : Refused g L (f x) (f' x') := by
  rcases h with rfl | ⟨h, n, h1, h2, h3⟩
  · exact hf
  · refine .inr ⟨by rw [h, hd], n, h1, h2, fun v hv => ?_⟩
    rcases x' with e | a
    · exact absurd hv (he e v)
    · exact h3 a rfl

def Asks {α : Type} (g : Grants) (r r' : Rd α) : Prop := ∀ env st bs, Refused g bs.length (r env st bs) (r' env st bs)

theorem Asks.refl {α : Type} {g : Grants} (r : Rd α) : Asks g r r := fun _ _ _ => .inl rfl

theorem Asks.bind {α β : Type} {g : Grants} {x x' : Rd α} {f f' : α → Rd β} (hx : Asks g x x')
    (hs : Shrinks x') (hf : ∀ a, Asks g (f a) (f' a)) : Asks g (Rd.bind x f) (Rd.bind x' f') := by
  intro env st bs
  unfold Rd.bind
  rcases hx env st bs with h | ⟨h, n, h1, h2, h3⟩
  · rw [h]
    rcases hr : x' env st bs with e | ⟨a, st', rest⟩
    · exact .inl rfl
    · exact (hf a env st' rest).mono (hs _ _ _ _ _ _ hr)
  · refine .inr ⟨by rw [h], n, h1, h2, fun v hv => ?_⟩
    rcases hr : x' env st bs with e | a
    · rw [hr] at hv; cases hv
    · exact h3 a hr

theorem Asks.map {α β : Type} {g : Grants} {x x' : Rd α} {f : α → β} (hx : Asks g x x') (hs : Shrinks x') :
    Asks g (Rd.map f x) (Rd.map f x') := hx.bind hs (fun _ => .refl _)

theorem Asks.ap {α β : Type} {g : Grants} {p p' : Rd (α → β)} {x x' : Rd α} (hp : Asks g p p') (hps : Shrinks p')
    (hx : Asks g x x') (hs : Shrinks x') : Asks g (Rd.ap p x) (Rd.ap p' x') :=
  hp.bind hps (fun _ => hx.bind hs (fun _ => .refl _))

theorem Asks.replicate {α : Type} {g : Grants} {r r' : Rd α} (h : Asks g r r') (hs : Shrinks r') :
    ∀ n, Asks g (Rd.replicate n r) (Rd.replicate n r')
  | 0 => .refl _
  | n + 1 => h.bind hs (fun _ => (h.replicate hs n).bind (hs.replicate n) (fun _ => .refl _))

theorem Asks.vec {ℓ α : Type} {g : Grants} {l : NumCodec ℓ} {r r' : Rd α} (h : Asks g r r') (hs : Shrinks r') :
    Asks g (rVec l r) (rVec l r') := (Asks.refl _).bind (.num l) (fun _ => h.replicate hs _)

/-! ## Attributes -/

theorem Shrinks.framedM {α : Type} (g : Grants) (nm : Bytes) (r : Rd α) : Shrinks (rFramedM g nm r) := by
  intro env st bs a st' rest h
  unfold rFramedM at h
  rcases h1 : u32.read bs with e | ⟨len, bs1⟩
  · rw [h1] at h; cases h
  rw [h1] at h
  have l1 := NumCodec.read_length h1
  simp only at h
  split at h
  · rcases h2 : readExact len.toNat bs1 with e | ⟨body, bs2⟩
    · rw [h2] at h; cases h
    rw [h2] at h
    obtain ⟨l2, l3⟩ := readExact_ok h2
    simp only at h
    rcases h3 : r env st body with e | ⟨x, st1, _ | _⟩
    · rw [h3] at h; cases h
    · rw [h3] at h
      cases h
      rw [l2, List.length_append] at l1
      omega
    · rw [h3] at h; cases h
  · cases h

theorem Shrinks.rawBodyM (g : Grants) : Shrinks (rRawBodyM g) := by
  intro env st bs a st' rest h
  unfold rRawBodyM at h
  rcases h1 : u32.read bs with e | ⟨len, bs1⟩
  · rw [h1] at h; cases h
  rw [h1] at h
  have l1 := NumCodec.read_length h1
  simp only at h
  split at h
  · rcases h2 : readExact len.toNat bs1 with e | ⟨body, bs2⟩
    · rw [h2] at h; cases h
    rw [h2] at h
    obtain ⟨l2, l3⟩ := readExact_ok h2
    cases h
    rw [l2, List.length_append] at l1
    omega
  · cases h

theorem Shrinks.attrM {α : Type} (g : Grants) (table : Bytes → Option (Rd α)) (raw : RawAttribute → α) :
    Shrinks (rAttrM g table raw) := by
  refine Shrinks.utf8.bind (fun n => ?_)
  split
  · exact .framedM _ _ _
  · exact (Shrinks.rawBodyM g).map

theorem gives_mono {g g' : Grants} (hg : ∀ n, g n = true → g' n = true) {n : Nat} (h : g.gives n = true) :
    g'.gives n = true := by
  unfold Grants.gives at h ⊢
  rw [Bool.or_eq_true] at h ⊢
  exact h.imp id (hg n)

theorem Asks.framed {α : Type} {nm : Bytes} {g g' : Grants} (hg : ∀ n, g n = true → g' n = true) {r r' : Rd α}
    (h : Asks g r r') : Asks g (rFramedM g nm r) (rFramedM g' nm r') := by
  intro env st bs
  unfold rFramedM
  rcases h1 : u32.read bs with e | ⟨len, bs1⟩
  · exact .inl rfl
  have l1 := NumCodec.read_length h1
  have hlen := len.toNat_lt
  simp only
  by_cases hn : g.gives len.toNat = true
  · rw [if_pos hn, if_pos (gives_mono hg hn)]
    rcases h2 : readExact len.toNat bs1 with e | ⟨body, bs2⟩
    · exact .inl rfl
    obtain ⟨l2, l3⟩ := readExact_ok h2
    rw [l2, List.length_append] at l1
    simp only
    rcases h env st body with h | ⟨h, n, h1, h2, h3⟩
    · rw [h]; exact .inl rfl
    · refine .inr ⟨by rw [h], n, h1, h2, fun v hv => ?_⟩
      rcases hr : r' env st body with e | ⟨x, st1, l⟩
      · rw [hr] at hv; cases hv
      · have := h3 _ hr
        omega
  · rw [if_neg hn]
    by_cases hn' : g'.gives len.toNat = true
    · rw [if_pos hn']
      refine .inr ⟨rfl, len.toNat, by simpa using hn, by omega, fun v hv => ?_⟩
      rcases h2 : readExact len.toNat bs1 with e | ⟨body, bs2⟩
      · rw [h2] at hv; cases hv
      · obtain ⟨l2, l3⟩ := readExact_ok h2
        rw [l2, List.length_append] at l1
        omega
    · rw [if_neg hn']; exact .inl rfl

theorem Asks.rawBody {g g' : Grants} (hg : ∀ n, g n = true → g' n = true) : Asks g (rRawBodyM g) (rRawBodyM g') := by
  intro env st bs
  unfold rRawBodyM
  rcases h1 : u32.read bs with e | ⟨len, bs1⟩
  · exact .inl rfl
  have l1 := NumCodec.read_length h1
  have hlen := len.toNat_lt
  simp only
  by_cases hn : g.gives len.toNat = true
  · rw [if_pos hn, if_pos (gives_mono hg hn)]; exact .inl rfl
  · rw [if_neg hn]
    by_cases hn' : g'.gives len.toNat = true
    · rw [if_pos hn']
      refine .inr ⟨rfl, len.toNat, by simpa using hn, by omega, fun v hv => ?_⟩
      rcases h2 : readExact len.toNat bs1 with e | ⟨body, bs2⟩
      · rw [h2] at hv; cases hv
      · obtain ⟨l2, l3⟩ := readExact_ok h2
        rw [l2, List.length_append] at l1
        omega
    · rw [if_neg hn']; exact .inl rfl

theorem Asks.attr {α : Type} {g g' : Grants} (hg : ∀ n, g n = true → g' n = true)
    {table table' : Bytes → Option (Rd α)} {raw : RawAttribute → α}
    (h : ∀ n, (table n = none ∧ table' n = none) ∨ ∃ r r', table n = some r ∧ table' n = some r' ∧ Asks g r r') :
    Asks g (rAttrM g table raw) (rAttrM g' table' raw) := by
  refine (Asks.refl _).bind .utf8 (fun name => ?_)
  rcases h name with ⟨h1, h2⟩ | ⟨r, r', h1, h2, h3⟩
  · rw [h1, h2]
    exact (Asks.rawBody hg).map (.rawBodyM _)
  · rw [h1, h2]
    exact .framed hg h3

theorem Asks.attr' {α : Type} {g g' : Grants} (hg : ∀ n, g n = true → g' n = true)
    {table : Bytes → Option (Rd α)} {raw : RawAttribute → α} :
    Asks g (rAttrM g table raw) (rAttrM g' table raw) := by
  refine .attr hg (fun n => ?_)
  rcases h : table n with _ | r
  · exact .inl ⟨rfl, rfl⟩
  · exact .inr ⟨r, r, rfl, rfl, .refl r⟩

/-! ## Instructions -/

theorem i32s_length : ∀ (n : Nat) (bs rest : Bytes) (xs : List Int32),
    Reader.replicate n i32.read bs = .ok (xs, rest) → bs.length = 4 * n + rest.length
  | 0, bs, rest, xs, h => by
    cases h; omega
  | n + 1, bs, rest, xs, h => by
    unfold Reader.replicate Reader.bind at h
    rcases h1 : i32.read bs with e | ⟨x, bs1⟩
    · rw [h1] at h; cases h
    rw [h1] at h
    have l1 := NumCodec.read_length h1
    simp only at h
    rcases h2 : Reader.replicate n i32.read bs1 with e | ⟨ys, bs2⟩
    · rw [h2] at h; cases h
    rw [h2] at h
    have l2 := i32s_length n _ _ _ h2
    cases h
    simp only [show i32.size = 4 from rfl] at l1
    omega

theorem tbl_asks {g g' : Grants} (hg : ∀ n, g n = true → g' n = true) (bs : Bytes) :
    Refused g bs.length (TblSwitch.readM g bs) (TblSwitch.readM g' bs) := by
  unfold TblSwitch.readM Reader.bind
  rcases h1 : i32.read bs with e | ⟨low, bs1⟩
  · exact .inl rfl
  have l1 := NumCodec.read_length h1
  simp only
  rcases h2 : i32.read bs1 with e | ⟨high, bs2⟩
  · exact .inl rfl
  have l2 := NumCodec.read_length h2
  simp only
  split
  · rename_i hb
    by_cases hn : g.gives (4 * (high.toInt - low.toInt + 1).toNat) = true
    · rw [if_pos hn, if_pos (gives_mono hg hn)]; exact .inl rfl
    · rw [if_neg hn]
      by_cases hn' : g'.gives (4 * (high.toInt - low.toInt + 1).toNat) = true
      · rw [if_pos hn']
        refine .inr ⟨rfl, _, by simpa using hn, by omega, fun v hv => ?_⟩
        unfold Reader.of1 Reader.bind at hv
        rcases h3 : Reader.replicate (high.toInt - low.toInt + 1).toNat i32.read bs2 with e | ⟨xs, bs3⟩
        · rw [h3] at hv; cases hv
        · have := i32s_length _ _ _ _ h3
          omega
      · rw [if_neg hn']; exact .inl rfl
  · exact .inl rfl

theorem raw_asks {g g' : Grants} (hg : ∀ n, g n = true → g' n = true) (o : UInt8) (xs : Bytes) :
    Refused g xs.length (RInsn.readM g (o :: xs)) (RInsn.readM g' (o :: xs)) := by
  unfold RInsn.readM
  simp only
  by_cases ho : o = opc.TABLESWITCH
  · rw [if_pos ho, if_pos ho]
    unfold Reader.of2 Reader.bind
    rcases h1 : i32.read xs with e | ⟨d, xs1⟩
    · exact .inl rfl
    have l1 := NumCodec.read_length h1
    simp only
    unfold Reader.of1 Reader.bind
    rcases tbl_asks hg xs1 with h | ⟨h, n, h1, h2, h3⟩
    · rw [h]; exact .inl rfl
    · refine .inr ⟨by rw [h], n, h1, h2, fun v hv => ?_⟩
      rcases hr : TblSwitch.readM g' xs1 with e | a
      · rw [hr] at hv; cases hv
      · have := h3 _ hr
        omega
  · rw [if_neg ho, if_neg ho]; exact .inl rfl

theorem insn_asks {g g' : Grants} (hg : ∀ n, g n = true → g' n = true) (pos : Nat) :
    Asks g (rInsnM g pos) (rInsnM g' pos) := by
  have key : ∀ (env : REnv) (st : RSt) (o : UInt8) (xs : Bytes), Refused g xs.length
      (Rd.bind (Rd.lift (RInsn.readM g)) (convert pos) env st (o :: xs))
      (Rd.bind (Rd.lift (RInsn.readM g')) (convert pos) env st (o :: xs)) := by
    intro env st o xs
    unfold Rd.bind Rd.lift
    rcases raw_asks hg o xs with h | ⟨h, n, h1, h2, h3⟩
    · rw [h]; exact .inl rfl
    · refine .inr ⟨by rw [h], n, h1, h2, fun v hv => ?_⟩
      rcases hr : RInsn.readM g' (o :: xs) with e | a
      · rw [hr] at hv; cases hv
      · exact h3 _ hr
  intro env st bs
  unfold rInsnM
  rcases bs with _ | ⟨o, xs⟩
  · exact .inl rfl
  · simp only
    split
    · exact (key env st o _).mono (by simp)
    · exact (key env st o xs).mono (by simp)

theorem loop_asks {g g' : Grants} (hg : ∀ n, g n = true → g' n = true) (len : Nat) (env : REnv) :
    ∀ (k : Nat) (st : RSt) (bs : Bytes), bs.length ≤ k →
      Refused g bs.length (readLoopM g len env st bs) (readLoopM g' len env st bs) := by
  intro k
  induction k with
  | zero =>
    intro st bs hk
    unfold readLoopM
    rw [if_pos (by omega), if_pos (by omega)]
    exact .inl rfl
  | succ k ih =>
    intro st bs hk
    unfold readLoopM
    by_cases h0 : bs.length = 0
    · rw [if_pos h0, if_pos h0]; exact .inl rfl
    · rw [if_neg h0, if_neg h0]
      rcases insn_asks hg (len - bs.length) env st bs with h | ⟨h, n, h1, h2, h3⟩
      · rw [h]
        rcases hr : rInsnM g' (len - bs.length) env st bs with e | ⟨i, st1, rest⟩
        · exact .inl rfl
        · simp only
          by_cases hl : rest.length < bs.length
          · rw [if_pos hl, if_pos hl]
            rcases ih st1 rest (by omega) with h | ⟨h, n, h1, h2, h3⟩
            · rw [h]; exact .inl rfl
            · refine .inr ⟨by rw [h], n, h1, h2, fun v hv => ?_⟩
              rcases hr : readLoopM g' len env st1 rest with e | a
              · rw [hr] at hv; cases hv
              · have := h3 _ hr
                omega
          · rw [if_neg hl, if_neg hl]; exact .inl rfl
      · refine .inr ⟨by rw [h], n, h1, h2, fun v hv => ?_⟩
        rcases hr : rInsnM g' (len - bs.length) env st bs with e | a
        · rw [hr] at hv; cases hv
        · exact h3 _ hr

/-! ## Code -/

theorem Shrinks.still {α : Type} {r : Rd α} (h : ∀ env st bs a st' rest, r env st bs = .ok (a, st', rest) → rest = bs) :
    Shrinks r := fun env st bs a st' rest hr => by rw [h _ _ _ _ _ _ hr]; exact Nat.le_refl _

theorem Shrinks.getLabel (o : UInt32) : Shrinks (getLabel o) := by
  refine .still (fun env st bs a st' rest h => ?_)
  unfold Verif.getLabel at h
  split at h
  · cases h
  · split at h <;> (cases h; rfl)

theorem Shrinks.opt {α : Type} {f : UInt16 → Rd α} (h : ∀ i, Shrinks (f i)) : Shrinks (rOpt f) :=
  (Shrinks.num _).bind (fun _ => .ite (.pure _) (h _).map)

theorem Shrinks.catchRead : Shrinks Catch.read :=
  have hl : Shrinks rLabel := (Shrinks.num _).bind (fun _ => .getLabel _)
  .ap (.ap (.ap hl.map hl) hl) (.opt (fun _ => .lookup _ _))

theorem Shrinks.rangeLabels (s n : UInt16) : Shrinks (rangeLabels s n) :=
  (Shrinks.getLabel _).bind (fun _ => .ite (Shrinks.getLabel _).map (.fail _))

theorem Shrinks.addVars : ∀ (ls : List VarEntry) (vs : List LocalVariable), Shrinks (addVars vs ls)
  | [], _ => .pure _
  | _ :: ls, _ => (Shrinks.rangeLabels _ _).bind (fun _ => Shrinks.addVars ls _)

theorem Shrinks.addVarTypes : ∀ (ls : List VarTypeEntry) (vs : List LocalVariable), Shrinks (addVarTypes vs ls)
  | [], _ => .pure _
  | _ :: ls, _ => (Shrinks.rangeLabels _ _).bind (fun _ => Shrinks.addVarTypes ls _)

theorem Shrinks.step (idx : Nat → Option Nat) (acc : AttrAcc) (a : CodeAttr) : Shrinks (acc.step idx a) := by
  cases a
  case lines => exact (Shrinks.ofRes _).map
  case vars => exact (Shrinks.addVars _ _).map
  case varTypes => exact (Shrinks.addVarTypes _ _).map
  all_goals exact .pure _

theorem Shrinks.codeAttrsM (g : Grants) (idx : Nat → Option Nat) : ∀ n acc, Shrinks (readCodeAttrsM g idx n acc)
  | 0, _ => .pure _
  | n + 1, _ => (Shrinks.attrM _ _ _).bind (fun _ => (Shrinks.step _ _ _).bind (fun _ => Shrinks.codeAttrsM g idx n _))

theorem Asks.codeAttrs {g g' : Grants} (hg : ∀ n, g n = true → g' n = true) (idx : Nat → Option Nat) :
    ∀ n acc, Asks g (readCodeAttrsM g idx n acc) (readCodeAttrsM g' idx n acc)
  | 0, _ => .refl _
  | n + 1, _ => (Asks.attr' hg).bind (.attrM _ _ _) (fun _ => (Asks.refl _).bind (.step _ _ _)
    (fun _ => Asks.codeAttrs hg idx n _))

theorem Shrinks.withCatches {α : Type} {r : Rd α} (cs : List Catch) (h : Shrinks r) : Shrinks (withCatches cs r) :=
  fun _ => h _

/-- The part of a code attribute after the instructions. -/
theorem Asks.codeRest {g g' : Grants} (hg : ∀ n, g n = true → g' n = true)
    (ord : Nat → List LocalVariable → List LocalVariable) (s l : UInt16) (idx : Nat → Option Nat) (is0 : List Insn) :
    Asks g
      (Rd.bind (rVec u16 Catch.read) fun catches => Rd.bind (rNum u16) fun n =>
        Rd.bind (Verif.withCatches catches (readCodeAttrsM g idx n.toNat ⟨[], fun _ => [], []⟩)) fun acc =>
        Rd.bind (placeMarkers idx acc.ins is0) fun is => fun _ st bs =>
          .ok ((⟨s, l, is, catches,
            if acc.vars.length = 0 then acc.attrs else acc.attrs ++ [.locals (ord bs.length acc.vars)]⟩ : Code), st, bs))
      (Rd.bind (rVec u16 Catch.read) fun catches => Rd.bind (rNum u16) fun n =>
        Rd.bind (Verif.withCatches catches (readCodeAttrsM g' idx n.toNat ⟨[], fun _ => [], []⟩)) fun acc =>
        Rd.bind (placeMarkers idx acc.ins is0) fun is => fun _ st bs =>
          .ok ((⟨s, l, is, catches,
            if acc.vars.length = 0 then acc.attrs else acc.attrs ++ [.locals (ord bs.length acc.vars)]⟩ : Code), st, bs)) := by
  refine (Asks.refl _).bind (.vec .catchRead) (fun cs => (Asks.refl _).bind (.num _) (fun n => ?_))
  refine Asks.bind ?_ (.withCatches _ (.codeAttrsM _ _ _ _)) (fun acc => .refl _)
  intro env st bs
  exact Asks.codeAttrs hg idx _ _ _ st bs

/-- What the code array and its instructions ask for. -/
theorem Asks.codeIn {g g' : Grants} (hg : ∀ n, g n = true → g' n = true)
    (ord : Nat → List LocalVariable → List LocalVariable) : Asks g (Code.readInM g ord) (Code.readInM g' ord) := by
  unfold Code.readInM
  refine (Asks.refl _).bind (.num _) (fun s => (Asks.refl _).bind (.num _) (fun l =>
    (Asks.refl _).bind (.num _) (fun len => ?_)))
  intro env st bs
  unfold Rd.bind
  unfold rBytesM
  have hlen := len.toNat_lt
  by_cases hn : g.gives len.toNat = true
  · rw [if_pos hn, if_pos (gives_mono hg hn)]
    rcases hr : rBytes len.toNat env st bs with e | ⟨code, st1, rest⟩
    · exact .inl rfl
    have hlr : bs.length = code.length + rest.length := by
      unfold rBytes Rd.lift at hr
      rcases h2 : readExact len.toNat bs with e | ⟨c1, r1⟩
      · rw [h2] at hr; cases hr
      · rw [h2] at hr
        cases hr
        rw [(readExact_ok h2).1, List.length_append]
    simp only
    unfold readInsnsM
    rcases loop_asks hg code.length env _ st1 code (Nat.le_refl _) with h | ⟨h, n, h1, h2, h3⟩
    · rw [h]
      rcases hr : readLoopM g' code.length env st1 code with e | ⟨pis, st2⟩
      · exact .inl rfl
      · simp only
        exact (Asks.codeRest hg ord s l (indexIn (pis.map Prod.fst ++ [code.length])) (pis.map Prod.snd) env st2
          rest).mono (by omega)
    · refine .inr ⟨by rw [h], n, h1, h2, fun v hv => ?_⟩
      rcases hr : readLoopM g' code.length env st1 code with e | a
      · rw [hr] at hv; cases hv
      · have := h3 _ hr
        omega
  · rw [if_neg hn]
    by_cases hn' : g'.gives len.toNat = true
    · rw [if_pos hn']
      refine .inr ⟨rfl, len.toNat, by simpa using hn, by omega, fun v hv => ?_⟩
      rcases hr : rBytes len.toNat env st bs with e | ⟨code, st1, rest⟩
      · rw [hr] at hv; cases hv
      · unfold rBytes Rd.lift at hr
        rcases h2 : readExact len.toNat bs with e | ⟨c1, r1⟩
        · rw [h2] at hr; cases hr
        · have h4 := (readExact_ok h2).1
          have h5 := (readExact_ok h2).2
          have : bs.length = c1.length + r1.length := by
            conv => lhs; rw [h4]
            rw [List.length_append]
          omega
    · rw [if_neg hn']; exact .inl rfl

theorem Asks.code {g g' : Grants} (hg : ∀ n, g n = true → g' n = true)
    (ord : Nat → List LocalVariable → List LocalVariable) : Asks g (Code.readM g ord) (Code.readM g' ord) := by
  intro env st bs
  unfold Code.readM
  rcases Asks.codeIn hg ord { env with catches := some [] } ⟨st.pending, some []⟩ bs with h | ⟨h, n, h1, h2, h3⟩
  · rw [h]; exact .inl rfl
  · refine .inr ⟨by rw [h], n, h1, h2, fun v hv => ?_⟩
    rcases hr : Code.readInM g' ord { env with catches := some [] } ⟨st.pending, some []⟩ bs with e | a
    · rw [hr] at hv; cases hv
    · exact h3 _ hr

/-! ## Classes -/

theorem Shrinks.lift {α : Type} {r : Reader α} (h : ∀ bs a rest, r bs = .ok (a, rest) → rest.length ≤ bs.length) :
    Shrinks (Rd.lift r) := by
  intro env st bs a st' rest hr
  unfold Rd.lift at hr
  rcases h1 : r bs with e | ⟨x, rest1⟩
  · rw [h1] at hr; cases hr
  · rw [h1] at hr
    cases hr
    exact h _ _ _ h1

theorem Shrinks.flags (t : FlagType) : Shrinks (rFlags t) := by
  refine .lift (fun bs a rest h => ?_)
  obtain ⟨x, rest1, h1, h2⟩ := Reader.bind_ok h
  have := NumCodec.read_length h1
  cases h2
  omega

theorem Asks.methodTable {g g' : Grants} (hg : ∀ n, g n = true → g' n = true)
    (ord : Nat → List LocalVariable → List LocalVariable) (n : Bytes) :
    (MethodAttr.tableM g ord n = none ∧ MethodAttr.tableM g' ord n = none) ∨
      ∃ r r', MethodAttr.tableM g ord n = some r ∧ MethodAttr.tableM g' ord n = some r' ∧ Asks g r r' := by
  unfold MethodAttr.tableM
  by_cases h1 : n = N.code
  · rw [if_pos h1, if_pos h1]
    refine .inr ⟨_, _, rfl, rfl, ?_⟩
    intro env st bs
    unfold Rd.map Rd.bind
    rcases Asks.code hg ord env st bs with h | ⟨h, n, h1, h2, h3⟩
    · rw [h]; exact .inl rfl
    · refine .inr ⟨by rw [h], n, h1, h2, fun v hv => ?_⟩
      rcases hr : Code.readM g' ord env st bs with e | a
      · rw [hr] at hv; cases hv
      · exact h3 _ hr
  · rw [if_neg h1, if_neg h1]
    rcases MethodAttr.table ord n with _ | r
    · exact .inl ⟨rfl, rfl⟩
    · exact .inr ⟨r, r, rfl, rfl, .refl r⟩

theorem Asks.methodAttr {g g' : Grants} (hg : ∀ n, g n = true → g' n = true) (ord : Order) :
    Asks g (MethodAttr.readM g ord) (MethodAttr.readM g' ord) :=
  fun env st bs => Asks.attr hg (Asks.methodTable hg (ord bs.length)) env st bs

theorem Shrinks.methodAttrM (g : Grants) (ord : Order) : Shrinks (MethodAttr.readM g ord) :=
  fun env st bs => Shrinks.attrM g _ _ env st bs

theorem Shrinks.fieldM (g : Grants) : Shrinks (Field.readM g) :=
  .ap (.ap (.ap (Shrinks.flags _).map .utf8) .type) (.vec (.attrM _ _ _))

theorem Shrinks.methodM (g : Grants) (ord : Order) : Shrinks (Method.readM g ord) :=
  .ap (.ap (.ap (Shrinks.flags _).map .utf8) .type) (.vec (.methodAttrM _ _))

theorem Asks.field {g g' : Grants} (hg : ∀ n, g n = true → g' n = true) : Asks g (Field.readM g) (Field.readM g') :=
  Asks.ap (.refl _) (.ap (.ap (Shrinks.flags _).map .utf8) .type) (.vec (.attr' hg) (.attrM _ _ _)) (.vec (.attrM _ _ _))

theorem Asks.method {g g' : Grants} (hg : ∀ n, g n = true → g' n = true) (ord : Order) :
    Asks g (Method.readM g ord) (Method.readM g' ord) :=
  Asks.ap (.refl _) (.ap (.ap (Shrinks.flags _).map .utf8) .type) (.vec (.methodAttr hg ord) (.methodAttrM _ _))
    (.vec (.methodAttrM _ _))

theorem Asks.body {g g' : Grants} (hg : ∀ n, g n = true → g' n = true) (ord : Order) (v : Version) :
    Asks g (Class.readBodyM g ord v) (Class.readBodyM g' ord v) := by
  have s0 : Shrinks (Rd.ap (Rd.ap (Rd.ap (Rd.map (ClassOf.mk (C := Code) v) (rFlags .cls)) (rStr 7)) rClsOpt)
      (rVec u16 (rStr 7))) :=
    .ap (.ap (.ap (Shrinks.flags _).map (.idx _)) (.opt (fun _ => .lookup _ _))) (.vec (.idx _))
  have hf := Shrinks.vec (l := u16) (Shrinks.fieldM g')
  have hm := Shrinks.vec (l := u16) (Shrinks.methodM g' ord)
  exact Asks.ap (Asks.ap (Asks.ap (.refl _) s0 (.vec (.field hg) (.fieldM _)) hf) (s0.ap hf)
    (.vec (.method hg ord) (.methodM _ _)) hm) ((s0.ap hf).ap hm) (.vec (.attr' hg) (.attrM _ _ _)) (.vec (.attrM _ _ _))

theorem class_asks {g g' : Grants} (hg : ∀ n, g n = true → g' n = true) (ord : Order) (bs : Bytes) :
    Refused g bs.length (Class.readM g ord bs) (Class.readM g' ord bs) := by
  unfold Class.readM
  rcases h1 : u32.read bs with e | ⟨m, bs1⟩
  · exact .inl rfl
  have l1 := NumCodec.read_length h1
  simp only
  split
  · rcases h2 : Version.read bs1 with e | ⟨v, bs2⟩
    · exact .inl rfl
    simp only
    rcases h3 : MapCp.read bs2 with e | ⟨cp, bs3⟩
    · exact .inl rfl
    simp only
    have l2 := plain_version bs1
    rw [h2] at l2
    have l2 : bs2.length ≤ bs1.length := List.IsSuffix.length_le l2
    have l3 := read_pool (List.infix_refl bs2)
    rw [h3] at l3
    have l3 : bs3.length ≤ bs2.length := List.IsSuffix.length_le l3.1
    rcases Asks.body hg ord v ⟨cp.get, none⟩ ⟨[], none⟩ bs3 with h | ⟨h, n, h4, h5, h6⟩
    · rw [h]; exact .inl rfl
    · refine .inr ⟨by rw [h], n, h4, h5, fun x hx => ?_⟩
      rcases hr : Class.readBodyM g' ord v ⟨cp.get, none⟩ ⟨[], none⟩ bs3 with e | a
      · rw [hr] at hx; cases hx
      · have := h6 _ hr
        omega
  · exact .inl rfl

/-! ## An allocator that grants everything -/

/-- Grants every request. -/
def always : Grants := fun _ => true

theorem always_gives (n : Nat) : always.gives n = true := by simp [Grants.gives, always]

theorem framed_always {α : Type} (nm : Bytes) (r : Rd α) : rFramedM always nm r = rFramed nm r := by
  funext env st bs
  unfold rFramedM rFramed
  simp only [always_gives, if_true]
  rfl

theorem rawBody_always : rRawBodyM always = rRawBody := by
  funext env st bs
  unfold rRawBodyM rRawBody
  simp only [always_gives, if_true]
  rfl

theorem attr_always {α : Type} (table : Bytes → Option (Rd α)) (raw : RawAttribute → α) :
    rAttrM always table raw = rAttr table raw := by
  unfold rAttrM rAttr
  congr 1
  funext name
  rcases table name with _ | r
  · exact congrArg (Rd.map _) rawBody_always
  · exact framed_always name r

theorem raw_always : RInsn.readM always = RInsn.read := by
  funext bs
  unfold RInsn.readM
  rcases bs with _ | ⟨o, xs⟩
  · rfl
  · simp only
    split
    · rename_i ho
      subst ho
      have hu : u8.read (opc.TABLESWITCH :: xs) = .ok (opc.TABLESWITCH, xs) := by
        have := readsU1 opc.TABLESWITCH xs
        rwa [show U1 opc.TABLESWITCH.toNat = [opc.TABLESWITCH] by simp [U1], List.singleton_append] at this
      have ht : TblSwitch.readM always = TblSwitch.read := by
        unfold TblSwitch.readM TblSwitch.read
        simp only [always_gives, if_true]
      rw [ht]
      unfold RInsn.read Reader.tagged
      conv => rhs; unfold Reader.bind
      rw [hu]
      rfl
    · rfl

theorem insn_always (pos : Nat) : rInsnM always pos = rInsn pos := by
  unfold rInsnM rInsn
  rw [raw_always]
  rfl

theorem loop_always (len : Nat) (env : REnv) : ∀ (k : Nat) (st : RSt) (bs : Bytes), bs.length ≤ k →
    readLoopM always len env st bs = readLoop len env st bs := by
  intro k
  induction k with
  | zero =>
    intro st bs hk
    unfold readLoopM readLoop
    rw [if_pos (by omega), if_pos (by omega)]
  | succ k ih =>
    intro st bs hk
    unfold readLoopM readLoop
    rw [insn_always]
    split
    · rfl
    · rcases hr : rInsn (len - bs.length) env st bs with e | ⟨i, st1, rest⟩
      · rfl
      · simp only
        split
        · rw [ih st1 rest (by omega)]
          rfl
        · rfl

theorem codeAttrs_always (idx : Nat → Option Nat) : ∀ n acc, readCodeAttrsM always idx n acc = readCodeAttrs idx n acc
  | 0, _ => rfl
  | n + 1, acc => by
    rw [readCodeAttrsM, readCodeAttrs]
    unfold CodeAttr.readM CodeAttr.read
    rw [attr_always]
    simp only [codeAttrs_always idx n]

theorem code_always (ord : Nat → List LocalVariable → List LocalVariable) : Code.readM always ord = Code.read ord := by
  have h1 : ∀ n, rBytesM always n = rBytes n := fun n => by unfold rBytesM; rw [if_pos (always_gives n)]
  have h2 : ∀ code, readInsnsM always code = readInsns code := fun code => by
    funext env st bs
    unfold readInsnsM readInsns
    rw [loop_always _ _ _ _ _ (Nat.le_refl _)]
    rfl
  have h3 : Code.readInM always ord = Code.readIn ord := by
    unfold Code.readInM Code.readIn
    simp only [h1, h2, codeAttrs_always]
  unfold Code.readM Code.read
  rw [h3]
  rfl

theorem class_always (ord : Order) : Class.readM always ord = Class.read ord := by
  have h1 : ∀ o, MethodAttr.tableM always o = MethodAttr.table o := fun o => by
    funext n
    unfold MethodAttr.tableM
    split
    · rename_i h
      rw [code_always]
      unfold MethodAttr.table
      rw [if_pos h]
    · rfl
  have h2 : MethodAttr.readM always ord = MethodAttr.read ord := by
    funext env st bs
    unfold MethodAttr.readM MethodAttr.read
    rw [attr_always, h1]
  have h3 : ∀ v, Class.readBodyM always ord v = Class.readBody ord v := fun v => by
    unfold Class.readBodyM Class.readBody Field.readM Field.read Method.readM Method.read ClassAttr.readM ClassAttr.read
      FieldAttr.readM FieldAttr.read
    rw [attr_always, attr_always, h2]
  funext bs
  unfold Class.readM Class.read
  simp only [h3]
  rfl

end Verif
