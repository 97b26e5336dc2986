import Verif.Lemmas.SignatureChars
import Verif.Lemmas.TameClass
import Verif.Lemmas.Ends

/-! What readers return: all strings are legible and all cells are shared with the bootstrap table. -/

namespace Verif
open Spec Sig

/-! ## Types -/

namespace JType
open Wtf8

/-- Pushing code points one after the other gives a well-formed string. -/
theorem foldl_push_wf (ns : List Nat) (h : ∀ c ∈ ns, IsCodePoint c) : ∀ cs, ValidCps cs →
    ∃ es, ValidCps es ∧ ns.foldl push (encodeCps cs) = encodeCps es := by
  induction ns with
  | nil => exact fun cs hc => ⟨cs, hc, rfl⟩
  | cons n ns ih =>
    intro cs hc
    have hn := h n (by simp)
    have hv : ValidCps [n] := ⟨by simpa using hn, trivial⟩
    obtain ⟨es, he, e1, _⟩ := pushWtf8_spec cs [n] hc hv
    rw [List.foldl_cons, push_spec cs n hc hn, e1]
    exact ih (fun c hc => h c (by simp [hc])) es he

mutual
theorem getType_text : (n : Nat) → (cs : List Nat) → (t : JType) → (rest : List Nat) →
    (∀ c ∈ cs, IsCodePoint c) → getType n cs = .ok (t, rest) →
    (∃ ds, Desc t ds) ∧ ∀ c ∈ rest, IsCodePoint c
  | 0, _, _, _, _, h => by simp [getType] at h
  | n + 1, [], _, _, _, h => by simp [getType] at h
  | n + 1, c :: cs, t, rest, hv, h => by
    have hvc : ∀ c ∈ cs, IsCodePoint c := fun d hd => hv d (List.mem_cons_of_mem _ hd)
    rcases getType_cases n c cs with ⟨t0, hd0, h0⟩ | ⟨hc, h0⟩ | ⟨hc, h0⟩ | ⟨hc, h0⟩ | h0 <;> rw [h0] at h <;> clear h0
    · cases h; exact ⟨⟨_, hd0⟩, hvc⟩
    · split at h
      · cases h
      · rename_i e rest' hd
        have hs : ∀ d ∈ cs.dropWhile (· ≠ 0x3B), IsCodePoint d :=
          fun d hd => hvc d ((List.dropWhile_sublist _).mem hd)
        have ht : ∀ d ∈ cs.takeWhile (· ≠ 0x3B), IsCodePoint d :=
          fun d hd => hvc d ((List.takeWhile_sublist _).mem hd)
        obtain ⟨es, he, e1⟩ := foldl_push_wf _ ht [] ⟨nofun, trivial⟩
        have e0 : encodeCps [] = [] := rfl
        rw [e0] at e1
        rw [e1] at h
        cases h
        rw [hd] at hs
        exact ⟨⟨_, .ref he⟩, fun d hd => hs d (List.mem_cons_of_mem _ hd)⟩
    · split at h
      · split at h
        · rename_i t' rest' hg
          cases h
          have hsp := countBrackets_spec cs
          obtain ⟨⟨ds, hd⟩, hr⟩ := getType_text n _ _ _ (fun d hd => hvc d (by rw [hsp]; simp [hd])) hg
          exact ⟨⟨_, .array hd⟩, hr⟩
        · cases h
      · cases h
    · split at h
      · rename_i ts rest1 hp
        obtain ⟨⟨ds, hdl⟩, hr1⟩ := getParams_text n _ _ _ hvc hp
        split at h
        · cases h
        · have hr2 := fun d hd => hr1 d (List.mem_cons_of_mem _ hd)
          split at h
          · cases h
            exact ⟨⟨_, .void hdl⟩, hr2⟩
          · split at h
            · rename_i r rest3 hg
              cases h
              obtain ⟨⟨dr, hd⟩, hr3⟩ := getType_text n _ _ _ hr2 hg
              exact ⟨⟨_, .method hdl hd⟩, hr3⟩
            · cases h
      · cases h
    · cases h
theorem getParams_text : (n : Nat) → (cs : List Nat) → (ts : List JType) → (rest : List Nat) →
    (∀ c ∈ cs, IsCodePoint c) → getParams n cs = .ok (ts, rest) →
    (∃ ds, DescList ts ds) ∧ ∀ c ∈ rest, IsCodePoint c
  | 0, _, _, _, _, h => by simp [getParams] at h
  | n + 1, cs, ts, rest, hv, h => by
    rw [getParams] at h
    split at h
    · cases h; exact ⟨⟨_, .nil⟩, hv⟩
    · split at h
      · rename_i t rest1 hg
        obtain ⟨⟨d1, hd1⟩, hr1⟩ := getType_text n _ _ _ hv hg
        split at h
        · rename_i ts' rest2 hp
          cases h
          obtain ⟨⟨d2, hd2⟩, hr2⟩ := getParams_text n _ _ _ hr1 hp
          exact ⟨⟨_, .cons hd1 hd2⟩, hr2⟩
        · cases h
      · cases h
end

theorem parseType_text {s : Bytes} (hs : Legible s) {t : JType} (h : parseType s = .ok t) : ∃ ds, Desc t ds := by
  obtain ⟨cs, hl⟩ := hs
  unfold parseType at h
  rw [codepoints_loose hl] at h
  simp only at h
  split at h
  · rename_i t' rest hg
    cases h
    exact (getType_text _ _ _ _ (LooseEnc_isCodePoint hl) hg).1
  · cases h

theorem legible_enc {cs : List Nat} (h : ∀ c ∈ cs, IsCodePoint c) : Legible (encodeCps cs) :=
  ⟨cs, LooseEnc_of_encode cs h⟩

theorem legible_display {t : JType} {ds : List Nat} (h : Desc t ds) : Legible t.display := by
  rw [display_desc h]
  refine legible_enc fun c hc => ?_
  obtain ⟨d, hd, rfl⟩ := List.mem_map.mp hc
  exact repl_cp (Desc_isCodePoint h d hd)

theorem legible_text {t : JType} {ds : List Nat} (h : Desc t ds) : Legible t.toWtf8 := by
  have := writeType_desc h [] nofun
  have e : t.toWtf8 = encodeCps ds := this
  rw [e]
  exact legible_enc (Desc_isCodePoint h)

end JType

theorem legible_append {s t : Bytes} (h : Legible s) (h' : Legible t) : Legible (s ++ t) := by
  obtain ⟨cs, h⟩ := h
  obtain ⟨ds, h'⟩ := h'
  refine ⟨cs ++ ds, ?_⟩
  induction h with
  | nil => exact h'
  | cons hu _ ih => rw [List.append_assoc]; exact .cons hu ih

/-- Types with a text. -/
def HasText (t : JType) : Prop := Legible t.toWtf8 ∧ Legible t.display

theorem parseType_hasText {s : Bytes} (hs : Legible s) {t : JType} (h : JType.parseType s = .ok t) : HasText t := by
  obtain ⟨ds, hd⟩ := JType.parseType_text hs h
  exact ⟨JType.legible_text hd, JType.legible_display hd⟩

/-! ## Readers -/

def LegiblePool (P : Pool) : Prop := ∀ i s, P i = some (.utf8 s) → Legible s

variable {α β γ : Type}

/-- What is read from a legible pool satisfies `Q`. -/
def Gives (Q : α → Prop) (r : Rd α) : Prop := ∀ env st bs x st' rest, LegiblePool env.pool →
  r env st bs = .ok (x, st', rest) → Q x

theorem Gives.mono {Q Q' : α → Prop} {r : Rd α} (h : Gives Q r) (hq : ∀ x, Q x → Q' x) : Gives Q' r :=
  fun env st bs x st' rest hp hr => hq x (h env st bs x st' rest hp hr)

theorem gives_any (r : Rd α) : Gives (fun _ => True) r := fun _ _ _ _ _ _ _ _ => trivial

theorem gives_all {Q : α → Prop} (h : ∀ x, Q x) (r : Rd α) : Gives Q r := fun _ _ _ x _ _ _ _ => h x

theorem gives_pure {Q : α → Prop} {a : α} (h : Q a) : Gives Q (Rd.pure a) := by
  intro env st bs x st' rest _ hr
  cases hr
  exact h

theorem gives_ite {Q : α → Prop} {c : Prop} [Decidable c] {r r' : Rd α} (h : Gives Q r) (h' : Gives Q r') :
    Gives Q (if c then r else r') := by
  split
  · exact h
  · exact h'

theorem gives_fail {Q : α → Prop} {e : Err} : Gives Q (Rd.fail e) := fun _ _ _ _ _ _ _ hr => nomatch hr

theorem gives_bind {P : α → Prop} {Q : β → Prop} {r : Rd α} {f : α → Rd β} (h : Gives P r)
    (hf : ∀ a, P a → Gives Q (f a)) : Gives Q (Rd.bind r f) := by
  intro env st bs x st' rest hp hr
  obtain ⟨a, st1, bs1, h1, h2⟩ := Rd.bind_ok hr
  exact hf a (h _ _ _ _ _ _ hp h1) _ _ _ _ _ _ hp h2

theorem gives_map {Q : β → Prop} {r : Rd α} {f : α → β} (h : Gives (fun a => Q (f a)) r) : Gives Q (Rd.map f r) :=
  gives_bind h fun _ ha => gives_pure ha

theorem gives_ap {R : α → Prop} {Q : β → Prop} {f : Rd (α → β)} {r : Rd α}
    (h : Gives (fun g => ∀ a, R a → Q (g a)) f) (hr : Gives R r) : Gives Q (Rd.ap f r) :=
  gives_bind h fun _ hg => gives_bind hr fun a ha => gives_pure (hg a ha)

theorem gives_replicate {Q : α → Prop} {r : Rd α} (h : Gives Q r) : ∀ n, Gives (fun xs => ∀ x ∈ xs, Q x) (Rd.replicate n r)
  | 0 => gives_pure (by simp)
  | n + 1 => gives_bind h fun a ha => gives_bind (gives_replicate h n) fun as has => gives_pure (by
      simpa using ⟨ha, has⟩)

theorem gives_vec {ν : Type} {l : NumCodec ν} {Q : α → Prop} {r : Rd α} (h : Gives Q r) :
    Gives (fun xs => ∀ x ∈ xs, Q x) (rVec l r) :=
  gives_bind (gives_any _) fun _ _ => gives_replicate h _

theorem gives_opt {Q : α → Prop} {f : UInt16 → Rd α} (h : ∀ i, Gives Q (f i)) : Gives (AllOpt Q) (rOpt f) := by
  refine gives_bind (gives_any _) fun i _ => ?_
  by_cases hi : i = 0
  · rw [if_pos hi]; exact gives_pure nofun
  · rw [if_neg hi]
    exact gives_map ((h i).mono fun x hx y hy => by cases hy; exact hx)

theorem gives_ofRes {Q : α → Prop} {r : Res α} (h : ∀ a, r = .ok a → Q a) : Gives Q (Rd.ofRes r) := by
  intro env st bs x st' rest _ hr
  unfold Rd.ofRes at hr
  split at hr
  · cases hr; exact h _ rfl
  · cases hr

theorem gives_lookup {Q : α → Prop} {f : Pool → UInt16 → Option α} {i : UInt16}
    (h : ∀ P a, LegiblePool P → f P i = some a → Q a) : Gives Q (rLookup f i) := by
  intro env st bs x st' rest hp hr
  unfold rLookup at hr
  split at hr
  · rename_i he; cases hr; exact h _ _ hp he
  · cases hr

theorem gives_lookupR {Q : α → Prop} {f : Pool → UInt16 → Res (Option α)} {i : UInt16}
    (h : ∀ P a, LegiblePool P → f P i = .ok (some a) → Q a) : Gives Q (rLookupR f i) := by
  intro env st bs x st' rest hp hr
  unfold rLookupR at hr
  split at hr
  · rename_i he; cases hr; exact h _ _ hp he
  · cases hr
  · cases hr

theorem gives_lookupD {Q : α → Prop} {f : Pool → UInt16 → List UInt16 → Res (Option α × List UInt16)} {i : UInt16}
    (h : ∀ P a p q, LegiblePool P → f P i p = .ok (some a, q) → Q a) : Gives Q (rLookupD f i) := by
  intro env st bs x st' rest hp hr
  unfold rLookupD at hr
  split at hr
  · rename_i he; cases hr; exact h _ _ _ _ hp he
  · cases hr
  · cases hr

theorem gives_idx {Q : α → Prop} {f : Pool → UInt16 → Option α}
    (h : ∀ P i a, LegiblePool P → f P i = some a → Q a) : Gives Q (rIdx f) :=
  gives_bind (gives_any _) fun i _ => gives_lookup fun P a hp => h P i a hp

theorem gives_idxR {Q : α → Prop} {f : Pool → UInt16 → Res (Option α)}
    (h : ∀ P i a, LegiblePool P → f P i = .ok (some a) → Q a) : Gives Q (rIdxR f) :=
  gives_bind (gives_any _) fun i _ => gives_lookupR fun P a hp => h P i a hp

theorem gives_framed {Q : α → Prop} {nm : Bytes} {r : Rd α} (h : Gives Q r) : Gives Q (rFramed nm r) := by
  intro env st bs x st' rest hp hr
  unfold rFramed at hr
  split at hr
  · cases hr
  · split at hr
    · cases hr
    · split at hr
      · cases hr
      · rename_i he; cases hr; exact h _ _ _ _ _ _ hp he
      · cases hr

theorem wtf8_legible {P : Pool} (hP : LegiblePool P) {i : UInt16} {s : Bytes} (h : Pool.wtf8 P i = some s) :
    Legible s := by
  unfold Pool.wtf8 at h
  split at h
  · rename_i hs; cases h; exact hP i s hs
  · cases h

theorem indirect_legible {P : Pool} (hP : LegiblePool P) {tag : UInt8} {i : UInt16} {s : Bytes}
    (h : Pool.indirect P tag i = some s) : Legible s := by
  unfold Pool.indirect at h
  split at h
  case h_5 => cases h
  all_goals
    split at h
    · exact wtf8_legible hP h
    · cases h

theorem okOrNone_some {r : Res α} {a : α} (h : okOrNone r = .ok (some a)) : r = .ok a := by
  unfold okOrNone at h
  split at h <;> cases h
  rfl

theorem nat_legible {P : Pool} (hP : LegiblePool P) {i : UInt16} {p : Bytes × JType}
    (h : Pool.nameAndType P i = .ok (some p)) : Legible p.1 ∧ HasText p.2 := by
  unfold Pool.nameAndType at h
  split at h
  · split at h
    · rename_i n hn
      split at h
      · rename_i s hs
        split at h
        · rename_i t ht
          cases h
          exact ⟨wtf8_legible hP hn, parseType_hasText (wtf8_legible hP hs) (okOrNone_some ht)⟩
        · cases h
        · cases h
      · cases h
    · cases h
  · cases h

theorem memberParts_legible {P : Pool} (hP : LegiblePool P) {b : Bool} {o nt : UInt16} {m : MemberRef}
    (h : Pool.memberParts P b o nt = .ok (some m)) : AllMember Legible m := by
  unfold Pool.memberParts at h
  split at h
  · rename_i s hs
    split at h
    · rename_i hn
      cases h
      have := nat_legible hP hn
      exact ⟨indirect_legible hP hs, this.1, this.2.2⟩
    · cases h
    · cases h
  · cases h

theorem member_legible {P : Pool} (hP : LegiblePool P) {i : UInt16} {m : MemberRef}
    (h : Pool.member P i = .ok (some m)) : AllMember Legible m := by
  unfold Pool.member at h
  split at h
  · exact memberParts_legible hP h
  · exact memberParts_legible hP h
  · exact memberParts_legible hP h
  · cases h

theorem methodHandle_legible {P : Pool} (hP : LegiblePool P) {i : UInt16} {m : MethodHandle}
    (h : Pool.methodHandle P i = .ok (some m)) : AllMember Legible m.member := by
  unfold Pool.methodHandle at h
  split at h
  · split at h
    · rename_i hm
      split at h
      · cases h; exact member_legible hP hm
      · cases h
    · cases h
    · cases h
  · cases h

theorem constant_legible {P : Pool} (hP : LegiblePool P) {i : UInt16} {c : Constant}
    (h : Pool.constant P i = .ok (some c)) : AllConst Legible c := by
  unfold Pool.constant at h
  split at h
  · cases h; trivial
  · cases h; trivial
  · cases h; trivial
  · cases h; trivial
  · rename_i s _
    rcases hs : Pool.wtf8 P s with _ | t
    · rw [hs] at h; cases h
    · rw [hs] at h; cases h; exact wtf8_legible hP hs
  · rename_i s _
    rcases hs : Pool.wtf8 P s with _ | t
    · rw [hs] at h; cases h
    · rw [hs] at h; cases h; exact wtf8_legible hP hs
  · split at h
    · rename_i s hs
      split at h
      · rename_i t ht
        cases t with
        | none => cases h
        | some t =>
          cases h
          exact (parseType_hasText (wtf8_legible hP hs) (okOrNone_some ht)).2
      · cases h
    · cases h
  · split at h
    · rename_i hm
      split at h
      · cases h; exact member_legible hP hm
      · cases h
    · cases h
  · split at h
    · rename_i m hm
      cases m with
      | none => cases h
      | some m => cases h; exact member_legible hP hm
    · cases h

/-- A cell that is shared with the table. -/
def Shared (d : Dynamic) : Prop := ∃ k, d.bsm = .pending k

theorem parts_legible {P : Pool} (hP : LegiblePool P) {b nt : UInt16} {p q : List UInt16} {d : Dynamic}
    (h : Pool.dynamicParts P b nt p = .ok (some d, q)) : AllDyn Legible d ∧ Shared d := by
  unfold Pool.dynamicParts at h
  split at h
  · rename_i hn
    cases h
    have := nat_legible hP hn
    exact ⟨⟨this.1, this.2.2⟩, _, rfl⟩
  · cases h
  · cases h

theorem indy_legible {P : Pool} (hP : LegiblePool P) {i : UInt16} {p q : List UInt16} {d : Dynamic}
    (h : Pool.invokeDynamic P i p = .ok (some d, q)) : AllDyn Legible d ∧ Shared d := by
  unfold Pool.invokeDynamic at h
  split at h
  · exact parts_legible hP h
  · cases h

theorem dynamic_legible {P : Pool} (hP : LegiblePool P) {i : UInt16} {p q : List UInt16} {d : Dynamic}
    (h : Pool.dynamic P i p = .ok (some d, q)) : AllDyn Legible d ∧ Shared d := by
  unfold Pool.dynamic at h
  split at h
  · exact parts_legible hP h
  · cases h

/-- Dynamic constants with a shared cell, and other constants with `Q`. -/
def SharedOr (Q : α → Prop) (x : OrDynamic α) : Prop := AllOr Legible Q x ∧ ∀ d ∈ orDynamics x, Shared d

theorem orDynamic_legible {P : Pool} (hP : LegiblePool P) {Q : α → Prop} {f : UInt16 → Res (Option α)} {i : UInt16}
    {p q : List UInt16} {x : OrDynamic α} (hf : ∀ a, f i = .ok (some a) → Q a)
    (h : Pool.orDynamic P f i p = .ok (some x, q)) : SharedOr Q x := by
  cases x with
  | static a => exact ⟨hf a (orDynamic_static h), by simp [orDynamics]⟩
  | dynamic d =>
    unfold Pool.orDynamic at h
    split at h
    · rename_i hd
      cases h
      have := dynamic_legible hP hd
      exact ⟨this.1, by simpa [orDynamics] using this.2⟩
    · split at h
      · rename_i a _
        cases a <;> cases h
      · cases h
    · cases h

/-! ## Parts -/

theorem gives_utf8 : Gives Legible rUtf8 := gives_idx fun _ _ _ hp h => wtf8_legible hp h

theorem gives_str {tag : UInt8} : Gives Legible (rStr tag) := gives_idx fun _ _ _ hp h => indirect_legible hp h

theorem gives_type : Gives HasText rType :=
  gives_bind gives_utf8 fun _ hs => gives_ofRes fun _ h => parseType_hasText hs h

theorem gives_const : Gives (AllConst Legible) rConst := gives_idxR fun _ _ _ hp h => constant_legible hp h

theorem gives_utf8Opt : Gives (AllOpt Legible) rUtf8Opt :=
  gives_opt fun _ => gives_lookup fun _ _ hp h => wtf8_legible hp h

theorem gives_clsOpt : Gives (AllOpt Legible) rClsOpt :=
  gives_opt fun _ => gives_lookup fun _ _ hp h => indirect_legible hp h

theorem gives_natOpt : Gives (AllOpt fun p => Legible p.1 ∧ Legible (JType.display p.2)) rNatOpt :=
  gives_opt fun _ => gives_lookupR fun _ _ hp h => ⟨(nat_legible hp h).1, (nat_legible hp h).2.2⟩

theorem gives_attr {Q : α → Prop} {table : Bytes → Option (Rd α)} {raw : RawAttribute → α}
    (h : ∀ name r, table name = some r → Gives Q r) (hr : ∀ s b, Legible s → Q (raw ⟨s, b⟩)) :
    Gives Q (rAttr table raw) := by
  refine gives_bind gives_utf8 fun s hs => ?_
  rcases ht : table s with _ | r
  · exact gives_map (gives_all (fun b => hr s b hs) _)
  · exact gives_framed (h s r ht)

theorem legible_chars {text : Str} (h : Valid text) : Legible (sigString text) := by
  have := foldl_pushChar [] text h
  have e : sigString text = encodeCps text := this
  rw [e]
  exact JType.legible_enc h

theorem gives_sig {parse : Str → Res α} {sh : α → Str} (h : ∀ s a, parse s = .ok a → Valid s → Valid (sh a)) :
    Gives (fun a => Legible (sigString (sh a))) (rSig parse) := by
  refine gives_bind gives_utf8 fun s hs => ?_
  obtain ⟨cs, hl⟩ := hs
  rw [Wtf8.lossy_codepoints hl]
  refine gives_ofRes fun a ha => legible_chars (h _ _ ha ?_)
  intro c hc
  obtain ⟨d, hd, rfl⟩ := List.mem_map.mp hc
  exact Wtf8.repl_cp (Wtf8.LooseEnc_isCodePoint hl d hd)

theorem gives_refSig : Gives (fun s => Legible (sigString (showR s))) (rSig parseRef) :=
  gives_sig fun _ _ h hv => valid_ref h hv
theorem gives_methodSig : Gives (fun s => Legible (sigString (showMethod s))) (rSig parseMethod) :=
  gives_sig fun _ _ h hv => valid_method h hv
theorem gives_classSig : Gives (fun s => Legible (sigString (showClass s))) (rSig parseClass) :=
  gives_sig fun _ _ h hv => valid_class h hv

theorem gives_debugExt : Gives Legible rDebugExt := by
  intro env st bs x st' rest _ hr
  unfold rDebugExt at hr
  split at hr
  · rename_i h; cases hr; exact (Mutf8.decode_loose h).1
  · cases hr

/-! ## Annotations -/

theorem allElems_put {S : Bytes → Prop} {k : Bytes} {v : AnnValue} (hk : S k) (hv : AllValue S v) :
    ∀ {m : Elems}, AllElems S m → AllElems S (m.put k v)
  | [], _ => by rw [Elems.put, AllElems, AllElems]; exact ⟨hk, hv, trivial⟩
  | (k', v') :: m, h => by
    rw [AllElems] at h
    rw [Elems.put]
    split
    · rw [AllElems]; exact ⟨h.1, hv, h.2.2⟩
    · rw [AllElems]; exact ⟨h.1, h.2.1, allElems_put hk hv h.2.2⟩

theorem gives_elemsWith {r : Rd AnnValue} (h : Gives (AllValue Legible) r) :
    Gives (AllElems Legible) (Elems.readWith r) := by
  refine gives_map ((gives_vec (Q := fun p => Legible p.1 ∧ AllValue Legible p.2)
    (gives_bind gives_utf8 fun k hk => gives_map (h.mono fun v hv => ⟨hk, hv⟩))).mono fun ps hps => ?_)
  have key : ∀ (ps : List (Bytes × AnnValue)) (m : Elems), (∀ p ∈ ps, Legible p.1 ∧ AllValue Legible p.2) →
      AllElems Legible m → AllElems Legible (ps.foldl (fun (m : Elems) p => m.put p.1 p.2) m) := by
    intro ps
    induction ps with
    | nil => exact fun m _ h => h
    | cons p ps ih =>
      intro m hp hm
      exact ih _ (fun q hq => hp q (by simp [hq])) (allElems_put (hp p (by simp)).1 (hp p (by simp)).2 hm)
  exact key ps [] hps (by rw [AllElems]; trivial)

theorem allValues_iff {S : Bytes → Prop} : ∀ {vs : List AnnValue}, AllValues S vs ↔ ∀ v ∈ vs, AllValue S v
  | [] => by simp [AllValues]
  | v :: vs => by rw [AllValues, allValues_iff]; simp

theorem gives_valueF : ∀ n, Gives (AllValue Legible) (AnnValue.readF n)
  | 0 => gives_fail
  | n + 1 => by
    refine gives_bind (gives_any _) fun tag _ => ?_
    have int : ∀ {lo hi : Int} {f : Int32 → AnnValue}, (∀ x, AllValue Legible (f x)) →
        Gives (AllValue Legible) (rIntIn lo hi f) := by
      intro lo hi f hf
      refine gives_bind (gives_any _) fun x _ => ?_
      split
      · exact gives_pure (hf x)
      · exact gives_fail
    refine gives_ite ?_ ?_
    · exact int fun x => by rw [AllValue] <;> first | trivial | nofun
    refine gives_ite ?_ ?_
    · exact int fun x => by rw [AllValue] <;> first | trivial | nofun
    refine gives_ite ?_ ?_
    · exact gives_map (gives_all (fun x => by rw [AllValue] <;> first | trivial | nofun) _)
    refine gives_ite ?_ ?_
    · exact gives_map (gives_all (fun x => by rw [AllValue] <;> first | trivial | nofun) _)
    refine gives_ite ?_ ?_
    · exact gives_map (gives_all (fun x => by rw [AllValue] <;> first | trivial | nofun) _)
    refine gives_ite ?_ ?_
    · exact gives_map (gives_all (fun x => by rw [AllValue] <;> first | trivial | nofun) _)
    refine gives_ite ?_ ?_
    · exact int fun x => by rw [AllValue] <;> first | trivial | nofun
    refine gives_ite ?_ ?_
    · exact int fun x => by rw [AllValue] <;> first | trivial | nofun
    refine gives_ite ?_ ?_
    · exact gives_map (gives_utf8.mono fun s hs => by rw [AllValue]; exact hs)
    refine gives_ite ?_ ?_
    · exact gives_ap (gives_map (gives_type.mono fun t ht s hs => by rw [AllValue]; exact ⟨ht.1, hs⟩)) gives_utf8
    refine gives_ite ?_ ?_
    · refine gives_map ?_
      refine gives_bind gives_utf8 fun s hs => ?_
      split
      · rename_i he
        exact gives_pure (by rw [AllValue]; exact he ▸ hs)
      · exact gives_map (gives_ofRes fun t ht => by rw [AllValue]; exact (parseType_hasText hs ht).2)
    refine gives_ite ?_ ?_
    · exact gives_ap (gives_map (gives_type.mono fun t ht s hs => by rw [AllValue]; exact ⟨ht.1, hs⟩))
        (gives_elemsWith (gives_valueF n))
    refine gives_ite ?_ ?_
    · exact gives_map ((gives_vec (gives_valueF n)).mono fun vs hvs => by rw [AllValue]; exact allValues_iff.mpr hvs)
    · exact gives_fail

theorem gives_value : Gives (AllValue Legible) AnnValue.read :=
  fun env st bs x st' rest hp hr => gives_valueF _ env st bs x st' rest hp hr

theorem gives_elems : Gives (AllElems Legible) Elems.read := gives_elemsWith gives_value

theorem gives_annotation : Gives (AllAnn Legible) Annotation.read :=
  gives_ap (gives_map (gives_type.mono fun _ ht _ hs => ⟨ht.1, hs⟩)) gives_elems

theorem gives_annotations {ν : Type} {l : NumCodec ν} : Gives (fun as => ∀ a ∈ as, AllAnn Legible a)
    (rVec l Annotation.read) := gives_vec gives_annotation

theorem gives_typeAnn {T : Type} {r : Rd T} : Gives (AllTypeAnn Legible) (TypeAnnotation.read r) :=
  gives_ap (gives_ap (gives_ap (gives_map ((gives_any r).mono fun _ _ _ _ _ ht _ hs => ⟨ht.1, hs⟩))
    (gives_any _)) gives_type) gives_elems

theorem gives_typeAnns {T : Type} {r : Rd T} : Gives (fun as => ∀ a ∈ as, AllTypeAnn Legible a)
    (rVec u16 (TypeAnnotation.read r)) := gives_vec gives_typeAnn

/-! ## Fields and attributes of classes -/

theorem table_cons {Q : α → Prop} {c : Prop} [Decidable c] {r : Rd α} {o : Option (Rd α)} (h : Gives Q r)
    (ho : ∀ r, o = some r → Gives Q r) : ∀ r', (if c then some r else o) = some r' → Gives Q r' := by
  intro r' hr
  split at hr
  · cases hr; exact h
  · exact ho r' hr

theorem gives_fieldAttr : Gives (AllFieldAttr Legible) FieldAttr.read := by
  refine gives_attr (fun name => ?_) fun s b hs => hs
  unfold FieldAttr.table
  refine table_cons (gives_pure trivial) ?_
  refine table_cons (gives_pure trivial) ?_
  refine table_cons (gives_map gives_refSig) ?_
  refine table_cons (gives_map gives_const) ?_
  refine table_cons (gives_map gives_annotations) ?_
  refine table_cons (gives_map gives_annotations) ?_
  refine table_cons (gives_map gives_typeAnns) ?_
  refine table_cons (gives_map gives_typeAnns) ?_
  exact nofun

theorem gives_field : Gives (AllField Legible) Field.read :=
  gives_ap (gives_ap (gives_ap (gives_map ((gives_any _).mono fun _ _ _ hn _ ht _ ha => ⟨hn, ht.1, ha⟩))
    gives_utf8) gives_type) (gives_vec gives_fieldAttr)

theorem gives_require : Gives (fun r => Legible r.module_ ∧ AllOpt Legible r.version) Require.read :=
  gives_ap (gives_ap (gives_map (gives_str.mono fun _ h _ _ _ hv => ⟨h, hv⟩)) (gives_any _)) gives_utf8Opt

theorem gives_strs {tag : UInt8} : Gives (fun ss => ∀ s ∈ ss, Legible s) (rVec u16 (rStr tag)) := gives_vec gives_str

theorem gives_export : Gives (fun e => Legible e.package ∧ ∀ s ∈ e.to, Legible s) Export.read :=
  gives_ap (gives_ap (gives_map (gives_str.mono fun _ h _ _ _ hv => ⟨h, hv⟩)) (gives_any _)) gives_strs

theorem gives_provide : Gives (fun p => Legible p.cls ∧ ∀ s ∈ p.with_, Legible s) Provide.read :=
  gives_ap (gives_map (gives_str.mono fun _ h _ hv => ⟨h, hv⟩)) gives_strs

theorem gives_module : Gives (AllModule Legible) Module.read :=
  gives_ap (gives_ap (gives_ap (gives_ap (gives_ap (gives_ap (gives_ap (gives_map (gives_str.mono
    fun _ h1 _ _ _ h2 _ h3 _ h4 _ h5 _ h6 _ h7 => ⟨h1, h2, h3, h4, h5, h6, h7⟩))
    (gives_any _)) gives_utf8Opt) (gives_vec gives_require)) (gives_vec gives_export)) (gives_vec gives_export))
    gives_strs) (gives_vec gives_provide)

theorem gives_inner : Gives (fun x => Legible x.inner ∧ AllOpt Legible x.outer ∧ AllOpt Legible x.name)
    InnerClass.read :=
  gives_ap (gives_ap (gives_ap (gives_map (gives_str.mono fun _ h1 _ h2 _ h3 _ _ => ⟨h1, h2, h3⟩)) gives_clsOpt)
    gives_utf8Opt) (gives_any _)

/-- Arguments whose cells are shared. -/
def SharedArg (a : Arg) : Prop := ∀ c n t, a = .dynamic c n t → ∃ k, c = .pending k

def SharedBsm (b : Bsm) : Prop := AllBsm Legible b ∧ ∀ a ∈ b.arguments, SharedArg a

theorem gives_arg : Gives (fun a => AllArgs Legible [a] ∧ SharedArg a) rArg := by
  refine gives_bind (gives_any _) fun i _ => gives_map (gives_lookupD fun P x p q hp h => ?_)
  have := orDynamic_legible hp (fun a ha => constant_legible hp ha) h
  cases x with
  | static c => exact ⟨by rw [OrDynamic.toArg, AllArgs, AllArgs]; exact ⟨this.1, trivial⟩, nofun⟩
  | dynamic d =>
    obtain ⟨h1, h2⟩ := this
    obtain ⟨k, hk⟩ := h2 d (by simp [orDynamics])
    refine ⟨?_, fun c n t e => by cases e; exact ⟨k, hk⟩⟩
    rw [OrDynamic.toArg, AllArgs, AllArgs, hk, AllCell]
    exact ⟨⟨h1.1, h1.2, trivial⟩, trivial⟩

theorem allArgs_iff {S : Bytes → Prop} : ∀ {as : List Arg}, AllArgs S as ↔ ∀ a ∈ as, AllArgs S [a]
  | [] => by simp [AllArgs]
  | .static c :: as => by
    rw [AllArgs, allArgs_iff, List.forall_mem_cons, AllArgs, AllArgs]; simp
  | .dynamic c n t :: as => by
    rw [AllArgs, allArgs_iff, List.forall_mem_cons, AllArgs, AllArgs]; simp

theorem gives_bsm : Gives SharedBsm Bsm.read :=
  gives_ap (gives_map ((gives_idxR fun _ _ _ hp h => methodHandle_legible hp h).mono fun _ h as has =>
    ⟨⟨h, allArgs_iff.mpr fun a ha => (has a ha).1⟩, fun a ha => (has a ha).2⟩)) (gives_vec gives_arg)

/-- Attributes of classes after reading. -/
structure SharedClassAttr (a : ClassAttr) : Prop where
  all : AllClassAttr Legible a
  debug : ∀ s, a = .debugExtension s → Legible s
  table : ∀ ms, a = .bootstrapMethods ms → ∀ b ∈ ms, SharedBsm b

theorem gives_classAttr : Gives SharedClassAttr ClassAttr.read := by
  refine gives_attr (fun name => ?_) fun s b hs => ⟨hs, nofun, nofun⟩
  unfold ClassAttr.table
  refine table_cons (gives_map (gives_classSig.mono fun _ h => ⟨h, nofun, nofun⟩)) ?_
  refine table_cons (gives_pure ⟨trivial, nofun, nofun⟩) ?_
  refine table_cons (gives_pure ⟨trivial, nofun, nofun⟩) ?_
  refine table_cons (gives_map (gives_utf8.mono fun _ h => ⟨h, nofun, nofun⟩)) ?_
  refine table_cons (gives_map ((gives_vec gives_inner).mono fun _ h => ⟨h, nofun, nofun⟩)) ?_
  refine table_cons (gives_ap (gives_map (gives_str.mono fun _ h _ h' => ⟨⟨h, h'⟩, nofun, nofun⟩)) gives_natOpt) ?_
  refine table_cons (gives_map (gives_debugExt.mono fun _ h => ⟨trivial, fun _ e => by cases e; exact h, nofun⟩)) ?_
  refine table_cons (gives_map ((gives_vec gives_bsm).mono fun _ h => ⟨trivial, nofun, fun _ e => by cases e; exact h⟩)) ?_
  refine table_cons (gives_map (gives_module.mono fun _ h => ⟨h, nofun, nofun⟩)) ?_
  refine table_cons (gives_map (gives_strs.mono fun _ h => ⟨h, nofun, nofun⟩)) ?_
  refine table_cons (gives_map (gives_str.mono fun _ h => ⟨h, nofun, nofun⟩)) ?_
  refine table_cons (gives_map (gives_str.mono fun _ h => ⟨h, nofun, nofun⟩)) ?_
  refine table_cons (gives_map (gives_strs.mono fun _ h => ⟨h, nofun, nofun⟩)) ?_
  refine table_cons (gives_map (gives_annotations.mono fun _ h => ⟨h, nofun, nofun⟩)) ?_
  refine table_cons (gives_map (gives_annotations.mono fun _ h => ⟨h, nofun, nofun⟩)) ?_
  refine table_cons (gives_map (gives_typeAnns.mono fun _ h => ⟨h, nofun, nofun⟩)) ?_
  refine table_cons (gives_map (gives_typeAnns.mono fun _ h => ⟨h, nofun, nofun⟩)) ?_
  exact nofun

/-! ## Code -/

def SharedInsn (i : Insn) : Prop := AllInsn Legible i ∧ ∀ d ∈ insnDynamics i, Shared d

theorem gives_member {i : UInt16} : Gives (SharedOr (AllMember Legible)) (rMember i) :=
  gives_lookupD (f := fun P i p => Pool.orDynamic P (Pool.member P) i p) fun _ _ _ _ hp h =>
    orDynamic_legible hp (fun _ ha => member_legible hp ha) h

theorem gives_classOr {i : UInt16} : Gives (SharedOr Legible) (rClassOr i) :=
  gives_lookupD (f := fun P i p => Pool.orDynamic P (fun i => .ok (Pool.cls P i)) i p) fun _ _ _ _ hp h =>
    orDynamic_legible hp (fun _ ha => indirect_legible hp (Except.ok.inj ha)) h

theorem toClassType_legible {s : Bytes} (hs : Legible s) {t : ClassType} (h : toClassType s = .ok t) :
    Legible t.toStr := by
  unfold toClassType at h
  split at h
  · split at h
    · rename_i d t' ht
      cases h
      obtain ⟨ds, hd⟩ := JType.parseType_text hs ht
      cases hd with
      | array hd =>
        rw [ClassType.toStr]
        refine legible_append ?_ (JType.legible_display hd)
        have : List.replicate d.toNat (0x5B : UInt8) = encodeCps (List.replicate d.toNat 0x5B) := by
          induction d.toNat with
          | zero => rfl
          | succ n ih => rw [List.replicate_succ, List.replicate_succ, Wtf8.encodeCps_cons, ih]; rfl
        rw [this]
        refine JType.legible_enc fun c hc => ?_
        rw [(List.mem_replicate.mp hc).2]
        decide
    · cases h
    · cases h
  · cases h; exact hs

theorem gives_classType {i : UInt16} : Gives (SharedOr fun t => Legible t.toStr) (rClassType i) := by
  refine gives_bind gives_classOr fun c hc => ?_
  cases c with
  | dynamic d => exact gives_pure hc
  | static s => exact gives_map (gives_ofRes fun t ht => ⟨toClassType_legible hc.1 ht, by simp [orDynamics]⟩)

theorem gives_newArray {i : UInt16} {n : UInt8} : Gives SharedInsn (rNewArray i n) := by
  refine gives_bind gives_classOr fun c hc => ?_
  cases c with
  | dynamic d => exact gives_pure ⟨trivial, nofun⟩
  | static s => exact gives_map (gives_all (fun _ => ⟨trivial, nofun⟩) _)

theorem gives_push {i : UInt16} : Gives SharedInsn (rPush i) :=
  gives_map (gives_lookupR fun _ _ hp h => ⟨constant_legible hp h, nofun⟩)

theorem gives_convert (pos : Nat) (r : RInsn) : Gives SharedInsn (convert pos r) := by
  cases r with
  | TableSwitch d t => exact gives_bind (gives_any _) fun _ _ => gives_map (gives_all (fun _ => ⟨trivial, nofun⟩) _)
  | LookupSwitch d es => exact gives_bind (gives_any _) fun _ _ => gives_map (gives_all (fun _ => ⟨trivial, nofun⟩) _)
  | Wide w => cases w <;> exact gives_pure ⟨trivial, nofun⟩
  | NewArray n =>
    show Gives _ (match newArrayType n with
      | some t => Rd.pure (Insn.newArray (.static t) 1)
      | none => Rd.fail .invalid)
    split
    · exact gives_pure ⟨trivial, nofun⟩
    · exact gives_fail
  | New n => exact gives_map (gives_classOr.mono fun _ h => h)
  | InvokeDynamic d u =>
    exact gives_map (gives_lookupD fun _ x _ _ hp h => ⟨(indy_legible hp h).1, fun d hd => by
      have := (indy_legible hp h).2
      rw [insnDynamics, List.mem_singleton] at hd
      exact hd ▸ this⟩)
  | _ =>
    first
    | exact gives_pure ⟨trivial, nofun⟩
    | exact gives_map (gives_member.mono fun _ h => h)
    | exact gives_map (gives_classType.mono fun _ h => h)
    | exact gives_push
    | exact gives_newArray
    | exact gives_map (gives_all (fun _ => ⟨trivial, nofun⟩) _)

theorem gives_insn (pos : Nat) : Gives SharedInsn (rInsn pos) := by
  intro env st bs x st' rest hp hr
  have key : Gives SharedInsn (Rd.bind (Rd.lift RInsn.read) (convert pos)) :=
    gives_bind (gives_any _) fun r _ => gives_convert pos r
  unfold rInsn at hr
  split at hr
  · cases hr
  · split at hr
    · exact key _ _ _ _ _ _ hp hr
    · exact key _ _ _ _ _ _ hp hr

theorem loop_shared {len : Nat} {env : REnv} (hp : LegiblePool env.pool) : ∀ (n : Nat) {st st' : RSt} {bs : Bytes}
    {is : List (Nat × Insn)}, bs.length = n → readLoop len env st bs = .ok (is, st') → ∀ i ∈ is, SharedInsn i.2 := by
  intro n
  induction n using Nat.strongRecOn with
  | _ n ih =>
    intro st st' bs is hn h
    rw [readLoop] at h
    split at h
    · cases h; simp
    · split at h
      · cases h
      · rename_i i st1 rest hr
        split at h
        · rename_i hlt
          split at h
          · cases h
          · rename_i is' st2 hr2
            cases h
            intro j hj
            rcases List.mem_cons.mp hj with rfl | hj
            · exact gives_insn _ _ _ _ _ _ _ hp hr
            · exact ih rest.length (by omega) rfl hr2 j hj
        · cases h

theorem gives_insns (code : Bytes) : Gives (fun is => ∀ i ∈ is, SharedInsn i.2) (readInsns code) := by
  intro env st bs x st' rest hp hr
  unfold readInsns at hr
  split at hr
  · cases hr
  · rename_i h; cases hr; exact loop_shared hp _ rfl h

theorem gives_catch : Gives (fun c => AllOpt Legible c.ty) Catch.read :=
  gives_ap (gives_ap (gives_ap (gives_map ((gives_any _).mono fun _ _ _ _ _ _ _ h => h)) (gives_any _)) (gives_any _))
    (gives_opt fun _ => gives_lookup fun _ _ hp h => indirect_legible hp h)

def LegibleCodeAttr : CodeAttr → Prop
  | .vars vs => ∀ v ∈ vs, Legible v.name ∧ HasText v.descriptor
  | .varTypes vs => ∀ v ∈ vs, Legible v.name ∧ Legible (sigString (showR v.signature))
  | .invisibleType as => ∀ a ∈ as, AllTypeAnn Legible a
  | .visibleType as => ∀ a ∈ as, AllTypeAnn Legible a
  | .raw a => Legible a.name
  | _ => True

theorem gives_codeAttr : Gives LegibleCodeAttr CodeAttr.read := by
  refine gives_attr (fun name => ?_) fun s b hs => hs
  unfold CodeAttr.table
  refine table_cons (gives_map (gives_all (fun _ => trivial) _)) ?_
  refine table_cons (gives_map (gives_vec (gives_ap (gives_ap (gives_ap (gives_ap (gives_map
    ((gives_any _).mono fun _ _ _ _ _ h _ h' _ _ => ⟨h, h'⟩)) (gives_any _)) gives_utf8) gives_type) (gives_any _)))) ?_
  refine table_cons (gives_map (gives_vec (gives_ap (gives_ap (gives_ap (gives_ap (gives_map
    ((gives_any _).mono fun _ _ _ _ _ h _ h' _ _ => ⟨h, h'⟩)) (gives_any _)) gives_utf8) gives_refSig) (gives_any _)))) ?_
  refine table_cons (gives_map gives_typeAnns) ?_
  refine table_cons (gives_map gives_typeAnns) ?_
  refine table_cons (gives_map (gives_all (fun _ => trivial) _)) ?_
  exact nofun

structure SharedAcc (acc : AttrAcc) : Prop where
  attrs : ∀ a ∈ acc.attrs, AllCodeAttr Legible a
  ins : ∀ k, ∀ i ∈ acc.ins k, SharedInsn i
  vars : ∀ v ∈ acc.vars, AllVar Legible v

theorem shared_line {n : UInt16} : SharedInsn (.lineNumber n) := ⟨trivial, nofun⟩
theorem shared_label {l : Label} : SharedInsn (.label l) := ⟨trivial, nofun⟩

theorem shared_lines {idx : Nat → Option Nat} : ∀ {ls : List LineEntry} {ins ins' : Nat → List Insn},
    (∀ k, ∀ i ∈ ins k, SharedInsn i) → addLines idx ins ls = .ok ins' → ∀ k, ∀ i ∈ ins' k, SharedInsn i
  | [], _, _, h, e => by cases e; exact h
  | l :: ls, ins, ins', h, e => by
    rw [addLines] at e
    split at e
    · cases e
    · refine shared_lines (fun k i hi => ?_) e
      split at hi
      · rw [List.mem_singleton] at hi; exact hi ▸ shared_line
      · exact h k i hi

theorem upsert_all {Q : LocalVariable → Prop} {f : LocalVariable → LocalVariable} {v : LocalVariable}
    (hf : ∀ w, Q w → Q (f w)) (hv : Q v) : ∀ {ws : List LocalVariable}, (∀ w ∈ ws, Q w) → ∀ w ∈ upsert f v ws, Q w
  | [], _ => by simpa [upsert] using hv
  | w :: ws, h => by
    rw [upsert]
    split
    · exact List.forall_mem_cons.mpr ⟨hf w (h w (by simp)), fun x hx => h x (by simp [hx])⟩
    · exact List.forall_mem_cons.mpr ⟨h w (by simp), upsert_all hf hv fun x hx => h x (by simp [hx])⟩

theorem gives_addVars : ∀ (vs : List VarEntry) (ws : List LocalVariable),
    (∀ v ∈ vs, Legible v.name ∧ HasText v.descriptor) → (∀ w ∈ ws, AllVar Legible w) →
    Gives (fun ws => ∀ w ∈ ws, AllVar Legible w) (addVars ws vs)
  | [], _, _, h => gives_pure h
  | v :: vs, ws, hv, h => gives_bind (gives_any _) fun r _ => gives_addVars vs _ (fun x hx => hv x (by simp [hx]))
      (upsert_all (fun w hw => ⟨hw.1, fun t ht => by cases ht; exact (hv v (by simp)).2.1, hw.2.2⟩)
        ⟨(hv v (by simp)).1, fun t ht => by cases ht; exact (hv v (by simp)).2.1, nofun⟩ h)

theorem gives_addVarTypes : ∀ (vs : List VarTypeEntry) (ws : List LocalVariable),
    (∀ v ∈ vs, Legible v.name ∧ Legible (sigString (showR v.signature))) → (∀ w ∈ ws, AllVar Legible w) →
    Gives (fun ws => ∀ w ∈ ws, AllVar Legible w) (addVarTypes ws vs)
  | [], _, _, h => gives_pure h
  | v :: vs, ws, hv, h => gives_bind (gives_any _) fun r _ => gives_addVarTypes vs _ (fun x hx => hv x (by simp [hx]))
      (upsert_all (fun w hw => ⟨hw.1, hw.2.1, fun t ht => by cases ht; exact (hv v (by simp)).2⟩)
        ⟨(hv v (by simp)).1, nofun, fun t ht => by cases ht; exact (hv v (by simp)).2⟩ h)

theorem gives_step {idx : Nat → Option Nat} {acc : AttrAcc} (h : SharedAcc acc) {a : CodeAttr} (ha : LegibleCodeAttr a) :
    Gives SharedAcc (acc.step idx a) := by
  have add : ∀ {x : CodeAttribute}, AllCodeAttr Legible x → SharedAcc { acc with attrs := acc.attrs ++ [x] } :=
    fun hx => ⟨fun y hy => by
      rcases List.mem_append.mp hy with hy | hy
      · exact h.attrs y hy
      · rw [List.mem_singleton] at hy; exact hy ▸ hx, h.ins, h.vars⟩
  cases a with
  | lines ls => exact gives_map (gives_ofRes fun m hm => ⟨h.attrs, shared_lines h.ins hm, h.vars⟩)
  | vars vs => exact gives_map ((gives_addVars vs _ ha h.vars).mono fun m hm => ⟨h.attrs, h.ins, hm⟩)
  | varTypes vs => exact gives_map ((gives_addVarTypes vs _ ha h.vars).mono fun m hm => ⟨h.attrs, h.ins, hm⟩)
  | frames fs => exact gives_pure h
  | invisibleType as => exact gives_pure (add ha)
  | visibleType as => exact gives_pure (add ha)
  | raw a => exact gives_pure (add ha)

theorem gives_codeAttrs {idx : Nat → Option Nat} : ∀ (n : Nat) {acc : AttrAcc}, SharedAcc acc →
    Gives SharedAcc (readCodeAttrs idx n acc)
  | 0, _, h => gives_pure h
  | n + 1, _, h => gives_bind gives_codeAttr fun _ ha => gives_bind (gives_step h ha) fun _ h' => gives_codeAttrs n h'

theorem shared_labels {idx : Nat → Option Nat} : ∀ {m : LabelMap} {ins ins' : Nat → List Insn},
    (∀ k, ∀ i ∈ ins k, SharedInsn i) → addLabels idx ins m = .ok ins' → ∀ k, ∀ i ∈ ins' k, SharedInsn i
  | [], _, _, h, e => by cases e; exact h
  | (o, l) :: ls, ins, ins', h, e => by
    rw [addLabels] at e
    split at e
    · cases e
    · refine shared_labels (fun k i hi => ?_) e
      split at hi
      · rcases List.mem_append.mp hi with hi | hi
        · exact h k i hi
        · rw [List.mem_singleton] at hi; exact hi ▸ shared_label
      · exact h k i hi

theorem insertAt_keeps {Q : Insn → Prop} {k : Nat} : ∀ {vs is : List Insn}, (∀ i ∈ is, Q i) → (∀ v ∈ vs, Q v) →
    ∀ i ∈ insertAt k is vs, Q i
  | [], _, h, _ => h
  | v :: vs, is, h, hv => by
    rw [insertAt]
    refine insertAt_keeps (fun i hi => ?_) (fun x hx => hv x (by simp [hx]))
    by_cases hk : k ≤ is.length
    · rcases (List.mem_insertIdx hk).mp hi with rfl | hi
      · exact hv i (by simp)
      · exact h i hi
    · rw [List.insertIdx_of_length_lt (by omega)] at hi
      exact h i hi

theorem insertDown_keeps {Q : Insn → Prop} {ins : Nat → List Insn} (hi : ∀ k, ∀ i ∈ ins k, Q i) :
    ∀ (k : Nat) {is : List Insn}, (∀ i ∈ is, Q i) → ∀ i ∈ insertDown ins is k, Q i
  | 0, _, h => insertAt_keeps h (hi 0)
  | k + 1, _, h => insertDown_keeps hi k (insertAt_keeps h (hi (k + 1)))

theorem gives_markers {idx : Nat → Option Nat} {ins : Nat → List Insn} {is : List Insn}
    (h : ∀ k, ∀ i ∈ ins k, SharedInsn i) (hi : ∀ i ∈ is, SharedInsn i) :
    Gives (fun is => ∀ i ∈ is, SharedInsn i) (placeMarkers idx ins is) := by
  intro env st bs x st' rest hp hr
  unfold placeMarkers at hr
  split at hr
  · cases hr
  · split at hr
    · cases hr
    · rename_i hl
      cases hr
      exact insertDown_keeps (shared_labels h hl) _ hi

/-- Orders of local variables that do not change what there is. -/
def Keeps (ord : Nat → List LocalVariable → List LocalVariable) : Prop := ∀ n l, ∀ v ∈ ord n l, v ∈ l

def SharedCode (x : Code) : Prop := AllCode Legible x ∧ ∀ i ∈ x.code, ∀ d ∈ insnDynamics i, Shared d

theorem gives_code {ord : Nat → List LocalVariable → List LocalVariable} (ho : Keeps ord) :
    Gives SharedCode (Code.read ord) := by
  have key : Gives SharedCode (Code.readIn ord) := by
    refine gives_bind (gives_any _) fun _ _ => gives_bind (gives_any _) fun _ _ => gives_bind (gives_any _) fun _ _ =>
      gives_bind (gives_any _) fun code _ => gives_bind (gives_insns code) fun pis hpis =>
      gives_bind (gives_vec gives_catch) fun catches hc => gives_bind (gives_any _) fun n _ =>
      gives_bind (P := SharedAcc) ?_ fun acc hacc => gives_bind (gives_markers hacc.ins ?_) fun is his => ?_
    · intro env st bs x st' rest hp hr
      exact gives_codeAttrs (idx := indexIn (pis.map Prod.fst ++ [code.length])) n.toNat
        (acc := ⟨[], fun _ => [], []⟩) ⟨by simp, by simp, by simp⟩
        { env with catches := some catches } _ _ _ _ _ hp hr
    · intro i hi
      obtain ⟨p, hp, rfl⟩ := List.mem_map.mp hi
      exact hpis p hp
    · intro env st bs x st' rest hp hr
      cases hr
      refine ⟨⟨fun i hi => (his i hi).1, hc, ?_⟩, fun i hi => (his i hi).2⟩
      intro a ha
      simp only at ha
      split at ha
      · exact hacc.attrs a ha
      · rcases List.mem_append.mp ha with ha | ha
        · exact hacc.attrs a ha
        · rw [List.mem_singleton] at ha
          subst ha
          exact fun v hv => hacc.vars v (ho _ _ v hv)
  intro env st bs x st' rest hp hr
  unfold Code.read at hr
  split at hr
  · cases hr
  · rename_i h; cases hr; exact key { env with catches := some [] } _ _ _ _ _ hp h

/-! ## Methods and classes -/

structure SharedMethodAttr (a : MethodAttr) : Prop where
  all : AllMethodAttr Legible a
  cells : ∀ d ∈ attrDynamics a, Shared d

theorem gives_methodAttr {ord : Order} (ho : ∀ k, Keeps (ord k)) : Gives SharedMethodAttr (MethodAttr.read ord) := by
  intro env st bs x st' rest hp hr
  have key : Gives SharedMethodAttr (rAttr (MethodAttr.table (ord bs.length)) .raw) := by
    refine gives_attr (fun name => ?_) fun s b hs => ⟨hs, nofun⟩
    unfold MethodAttr.table
    refine table_cons (gives_map ((gives_code (ho _)).mono fun x h => ⟨h.1, fun d hd => ?_⟩)) ?_
    · rw [attrDynamics] at hd
      obtain ⟨i, hi, hd⟩ := List.mem_flatMap.mp hd
      exact h.2 i hi d hd
    refine table_cons (gives_pure ⟨trivial, nofun⟩) ?_
    refine table_cons (gives_pure ⟨trivial, nofun⟩) ?_
    refine table_cons (gives_map (gives_methodSig.mono fun _ h => ⟨h, nofun⟩)) ?_
    refine table_cons (gives_map (gives_annotations.mono fun _ h => ⟨h, nofun⟩)) ?_
    refine table_cons (gives_map (gives_annotations.mono fun _ h => ⟨h, nofun⟩)) ?_
    refine table_cons (gives_map (gives_typeAnns.mono fun _ h => ⟨h, nofun⟩)) ?_
    refine table_cons (gives_map (gives_typeAnns.mono fun _ h => ⟨h, nofun⟩)) ?_
    refine table_cons (gives_map ((gives_vec gives_annotations).mono fun _ h => ⟨h, nofun⟩)) ?_
    refine table_cons (gives_map ((gives_vec gives_annotations).mono fun _ h => ⟨h, nofun⟩)) ?_
    refine table_cons (gives_map (gives_strs.mono fun _ h => ⟨h, nofun⟩)) ?_
    refine table_cons (gives_map (gives_value.mono fun _ h => ⟨h, nofun⟩)) ?_
    refine table_cons (gives_map ((gives_vec (Q := fun (p : MethodParameter) => AllOpt Legible p.name)
      (gives_ap (gives_map (gives_utf8Opt.mono fun _ h _ _ => h)) (gives_any _))).mono fun _ h => ⟨h, nofun⟩)) ?_
    exact nofun
  exact key _ _ _ _ _ _ hp hr

/-- Classes that were read. -/
structure SharedClass (x : Class) : Prop where
  name : Legible x.name
  superName : AllOpt Legible x.superName
  interfaces : ∀ s ∈ x.interfaces, Legible s
  fields : ∀ f ∈ x.fields, AllField Legible f
  methods : ∀ m ∈ x.methods, AllMethod Legible m
  attrs : ∀ a ∈ x.attrs, SharedClassAttr a
  cells : ∀ d ∈ classDynamics x, Shared d

theorem gives_method {ord : Order} (ho : ∀ k, Keeps (ord k)) :
    Gives (fun m => AllMethod Legible m ∧ ∀ a ∈ m.attrs, ∀ d ∈ attrDynamics a, Shared d) (Method.read ord) :=
  gives_ap (gives_ap (gives_ap (gives_map ((gives_any _).mono fun _ _ _ hn _ ht _ ha =>
    ⟨⟨hn, ht.1, fun a h => (ha a h).all⟩, fun a h => (ha a h).cells⟩)) gives_utf8) gives_type)
    (gives_vec (gives_methodAttr ho))

theorem gives_body {ord : Order} (ho : ∀ k, Keeps (ord k)) (v : Version) : Gives SharedClass (Class.readBody ord v) :=
  gives_ap (gives_ap (gives_ap (gives_ap (gives_ap (gives_ap (gives_map ((gives_any _).mono
    fun _ _ _ h1 _ h2 _ h3 _ h4 _ h5 _ h6 => ⟨h1, h2, h3, h4, fun m hm => (h5 m hm).1, h6, fun d hd => by
      obtain ⟨m, hm, hd⟩ := List.mem_flatMap.mp hd
      obtain ⟨a, ha, hd⟩ := List.mem_flatMap.mp hd
      exact (h5 m hm).2 a ha d hd⟩))
    gives_str) gives_clsOpt) gives_strs) (gives_vec gives_field)) (gives_vec (gives_method ho)))
    (gives_vec gives_classAttr)

theorem read_shared {ord : Order} (ho : ∀ k, Keeps (ord k)) {bs rest : Bytes} {x : Class}
    (h : Class.read ord bs = .ok (x, rest)) : SharedClass x := by
  unfold Class.read at h
  split at h
  · cases h
  split at h
  · split at h
    · cases h
    split at h
    · cases h
    rename_i bs1 _ _ _ _ bs2 _ _ cp bs3 hcp
    split at h
    · cases h
    · rename_i hb
      split at h
      · cases h
      · cases h
        have h1 := read_pool (List.infix_refl bs2)
        rw [hcp] at h1
        exact gives_body ho _ _ _ _ _ _ _ (fun i s hs => (pool_fine h1.2 i s hs).loose) hb
  · cases h

end Verif
