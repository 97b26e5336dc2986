import Verif.Model.Asm
import Verif.Lemmas.Instr

/-! # Lemmas about the assembly of method bodies -/

namespace Verif
open Spec

def Branch.insn : Branch → Insn
  | .lookup d t => .lookupSwitch d t
  | .table d low ls => .tableSwitch d low ls
  | .jump c l => .jump c l
  | .jsr l => .jsr l

/-! ## The pieces of a list of instructions -/

/-- The instructions as pieces of straight code (the first one continuing piece `k` at offset `off`)
separated by branches, with the places of the labels. -/
inductive Pieces (enc : Insn → Bytes → Prop) :
    Nat → Nat → List Insn → Bytes → List (Branch × Bytes) → List (Label × (Nat × Nat)) → Prop
  | nil {k off : Nat} : Pieces enc k off [] [] [] []
  | straight {k off : Nat} {i : Insn} {is : List Insn} {b first : Bytes} {rest : List (Branch × Bytes)}
      {ls : List (Label × (Nat × Nat))} : enc i b → Pieces enc k (off + b.length) is first rest ls →
      Pieces enc k off (i :: is) (b ++ first) rest ls
  | label {k off : Nat} {l : Label} {is : List Insn} {first : Bytes} {rest : List (Branch × Bytes)}
      {ls : List (Label × (Nat × Nat))} : Pieces enc k off is first rest ls →
      Pieces enc k off (.label l :: is) first rest ((l, (k, off)) :: ls)
  | line {k off : Nat} {n : UInt16} {is : List Insn} {first : Bytes} {rest : List (Branch × Bytes)}
      {ls : List (Label × (Nat × Nat))} : Pieces enc k off is first rest ls →
      Pieces enc k off (.lineNumber n :: is) first rest ls
  | branch {k off : Nat} (j : Branch) {is : List Insn} {first : Bytes} {rest : List (Branch × Bytes)}
      {ls : List (Label × (Nat × Nat))} : Pieces enc (k + 1) 0 is first rest ls →
      Pieces enc k off (j.insn :: is) [] ((j, first) :: rest) ls

structure Split (enc : Insn → Bytes → Prop) (b b' : CodeBuf) (is : List Insn) : Prop where
  split : ∃ first rest ls, Pieces enc b.buf.length b.cur.length is first rest ls ∧
    b'.buf ++ [b'.cur] = b.buf ++ (b.cur ++ first) :: rest.map Prod.snd ∧
    b'.jumps = b.jumps ++ rest.map Prod.fst ∧ b'.labels = ls.reverse ++ b.labels

theorem Split.branch {enc : Insn → Bytes → Prop} {b b' : CodeBuf} {is : List Insn} (j : Branch)
    (h : Split enc (b.branch j) b' is) : Split enc b b' (j.insn :: is) := by
  obtain ⟨first, rest, ls, h1, h2, h3, h4⟩ := h
  refine ⟨[], (j, first) :: rest, ls, ?_, ?_, ?_, h4⟩
  · apply Pieces.branch
    simpa [CodeBuf.branch] using h1
  · simpa [CodeBuf.branch] using h2
  · simpa [CodeBuf.branch] using h3

/-- How straight code is encoded. -/
def StraightIn (W : World) (i : Insn) (bs : Bytes) : Prop :=
  EncOk i ∧ ∀ (env : WEnv) (p : Nat), Enc (env.ctx W) p i bs

theorem split_insns (is : List Insn) (h : ∀ i ∈ is, CodeOk i) (b : CodeBuf) :
    GoodW (writeInsns b is)
      (fun W b' => Split (StraightIn W) b b' is) := by
  induction is generalizing b with
  | nil =>
    refine GoodW.pure _ fun W => ⟨[], [], [], .nil, ?_, ?_, ?_⟩ <;> simp
  | cons i is ih =>
    have ih := fun b => ih (fun i hi => h i (by simp [hi])) b
    have hi := h i (by simp)
    rw [writeInsns]
    have st : EncOk i → writeInsn b i = (do
          let bs ← i.encode
          pure { b with cur := b.cur ++ bs }) →
        GoodW (writeInsn b i >>= fun b => writeInsns b is)
          (fun W b' => Split (StraightIn W) b b' (i :: is)) := by
      intro he hw
      rw [hw]
      have g : GoodW i.encode (fun W bs => ∀ env p, Enc (WEnv.ctx env W) p i bs) := by
        intro cp bs cp' hc e
        exact ⟨(encode_enc WEnv.outside i he cp bs cp' hc e).1,
          fun W hW env => (encode_enc env i he cp bs cp' hc e).2 W hW⟩
      refine GoodW.bind (p := fun W b' => ∃ bs, b' = { b with cur := b.cur ++ bs } ∧
          ∀ env p, Enc (WEnv.ctx env W) p i bs)
        (GoodW.bind g (q := fun bs _ b' => b' = { b with cur := b.cur ++ bs })
          (fun bs => GoodW.pure _ fun _ => rfl) ?_) ih ?_
      · intro W bs b' h1 h2
        exact ⟨bs, h2, h1⟩
      · rintro W _ b' ⟨bs, rfl, h1⟩ ⟨first, rest, ls, h2, h3, h4, h5⟩
        refine ⟨bs ++ first, rest, ls, .straight ⟨he, h1⟩ ?_, ?_, h4, h5⟩
        · simpa using h2
        · simpa using h3
    have br : ∀ j : Branch, i = j.insn → writeInsn b i = pure (b.branch j) →
        GoodW (writeInsn b i >>= fun b => writeInsns b is)
          (fun W b' => Split (StraightIn W) b b' (i :: is)) := by
      intro j hj hw
      subst hj
      rw [hw]
      refine GoodW.bind (GoodW.pure (b.branch j) (post := fun _ b' => b' = b.branch j) fun _ => rfl) ih ?_
      rintro W _ b' rfl h2
      exact h2.branch j
    cases i with
    | label l =>
      refine GoodW.bind (GoodW.pure { b with labels := (l, (b.buf.length, b.cur.length)) :: b.labels }
        (post := fun _ b' => b' = { b with labels := (l, (b.buf.length, b.cur.length)) :: b.labels })
        fun _ => rfl) ih ?_
      rintro W _ b' rfl ⟨first, rest, ls, h2, h3, h4, h5⟩
      exact ⟨first, rest, _ :: ls, .label h2, h3, h4, by simpa using h5⟩
    | lineNumber n =>
      refine GoodW.bind (GoodW.pure b (post := fun _ b' => b' = b) fun _ => rfl) ih ?_
      rintro W _ b' rfl ⟨first, rest, ls, h2, h3, h4, h5⟩
      exact ⟨first, rest, ls, .line h2, h3, h4, h5⟩
    | lookupSwitch d t => exact br (.lookup d t) rfl rfl
    | tableSwitch d low ls => exact br (.table d low ls) rfl rfl
    | jump c l => exact br (.jump c l) rfl rfl
    | jsr l => exact br (.jsr l) rfl rfl
    | _ => exact st hi rfl

/-! ## From pieces to a layout -/

/-- Branches and pieces put one after the other, the first piece at `p`; `S` tells where each piece
begins. -/
def Placed (c : Ctx) (S : Nat → Nat) (k p : Nat) (first : Bytes) : List (Branch × Bytes) → Bytes → Prop
  | [], out => out = first
  | (j, b) :: rest, out => ∃ o out', out = first ++ (o ++ out') ∧ Enc c (p + first.length) j.insn o ∧
      S (k + 1) = p + first.length + o.length ∧ Placed c S (k + 1) (S (k + 1)) b rest out'

theorem Placed.skip {c : Ctx} {S : Nat → Nat} {k p : Nat} {b first : Bytes} {rest : List (Branch × Bytes)}
    {out : Bytes} (h : Placed c S k p (b ++ first) rest out) :
    ∃ out', out = b ++ out' ∧ Placed c S k (p + b.length) first rest out' := by
  cases rest with
  | nil => exact ⟨first, h, rfl⟩
  | cons e rest =>
    obtain ⟨o, out', h1, h2, h3, h4⟩ := h
    refine ⟨first ++ (o ++ out'), by simp [h1], o, out', rfl, ?_, ?_, h4⟩
    · simpa [Nat.add_assoc] using h2
    · simpa [Nat.add_assoc] using h3

theorem Pieces.layout {c : Ctx} {S : Nat → Nat} {enc : Insn → Bytes → Prop}
    (henc : ∀ i b p, enc i b → Enc c p i b) {k off : Nat} {is : List Insn} {first : Bytes}
    {rest : List (Branch × Bytes)} {ls : List (Label × (Nat × Nat))}
    (h : Pieces enc k off is first rest ls) (hl : ∀ e ∈ ls, c.pos e.1 = some (S e.2.1 + e.2.2)) {out : Bytes}
    (hp : Placed c S k (S k + off) first rest out) : Layout c (S k + off) is out := by
  induction h generalizing out with
  | nil =>
    have : out = [] := hp
    rw [this]
    exact .nil
  | @straight k off i is b first rest ls h1 h2 ih =>
    obtain ⟨out', rfl, h3⟩ := hp.skip
    refine .cons (henc _ _ _ h1) ?_
    rw [Nat.add_assoc] at h3 ⊢
    exact ih hl h3
  | @label k off l is first rest ls h1 ih =>
    have : Layout c (S k + off + ([] : Bytes).length) is out := ih (fun e he => hl e (by simp [he])) hp
    exact .cons (b := []) (.label (hl (l, (k, off)) (by simp))) this
  | line h1 ih => exact .cons (b := []) .line (ih hl hp)
  | @branch k off j is first rest ls h1 ih =>
    obtain ⟨o, out', rfl, h2, h3, h4⟩ := hp
    simp only [List.length_nil, Nat.add_zero] at h2 h3
    simp only [List.nil_append]
    refine .cons h2 ?_
    rw [← h3]
    exact ih hl h4

theorem Pieces.marks {enc : Insn → Bytes → Prop} (henc : ∀ l b, ¬ enc (.label l) b) {k off : Nat} {is : List Insn}
    {first : Bytes} {rest : List (Branch × Bytes)} {ls : List (Label × (Nat × Nat))}
    (h : Pieces enc k off is first rest ls) : ls.map Prod.fst = marks is := by
  induction h with
  | nil => rfl
  | @straight k off i is b first rest ls h1 h2 ih =>
    rw [ih]
    cases i <;> first | rfl | exact absurd h1 (henc _ _)
  | label _ ih => rw [List.map_cons, ih]; rfl
  | line _ ih => exact ih
  | branch j _ ih => rw [ih]; cases j <;> rfl

theorem lookup_of_mem {α β : Type} [BEq α] [LawfulBEq α] {l : List (α × β)} (h : (l.map Prod.fst).Nodup) {a : α} {b : β}
    (hm : (a, b) ∈ l) : l.lookup a = some b := by
  induction l with
  | nil => cases hm
  | cons e l ih =>
    obtain ⟨a', b'⟩ := e
    rw [List.map_cons, List.nodup_cons] at h
    rw [List.lookup_cons]
    rcases List.mem_cons.mp hm with h1 | h1
    · cases h1
      simp
    · have : a ∈ l.map Prod.fst := List.mem_map.mpr ⟨_, h1, rfl⟩
      have hne : a ≠ a' := by
        rintro rfl
        exact h.1 this
      simp [beq_eq_false_iff_ne.mpr hne, ih h.2 h1]

theorem mem_of_lookup {α β : Type} [BEq α] [LawfulBEq α] {l : List (α × β)} {a : α} {b : β}
    (h : l.lookup a = some b) : (a, b) ∈ l := by
  induction l with
  | nil => cases h
  | cons e l ih =>
    obtain ⟨a', b'⟩ := e
    rw [List.lookup_cons] at h
    split at h
    · rename_i he
      cases h
      simp [beq_iff_eq.mp he]
    · exact List.mem_cons_of_mem _ (ih h)

/-- The places of the labels lie inside their pieces. -/
theorem Pieces.bound {enc : Insn → Bytes → Prop} {k off : Nat} {is : List Insn}
    {first : Bytes} {rest : List (Branch × Bytes)} {ls : List (Label × (Nat × Nat))}
    (h : Pieces enc k off is first rest ls) (pre : List Bytes) (cur : Bytes) (hk : pre.length = k)
    (hc : cur.length = off) :
    ∀ e ∈ ls, ∃ b, (pre ++ (cur ++ first) :: rest.map Prod.snd)[e.2.1]? = some b ∧ e.2.2 ≤ b.length := by
  induction h generalizing pre cur with
  | nil => simp
  | @straight k off i is b first rest ls h1 h2 ih =>
    have := ih pre (cur ++ b) hk (by simp [hc])
    simpa using this
  | @label k off l is first rest ls h1 ih =>
    intro e he
    rcases List.mem_cons.mp he with rfl | he
    · exact ⟨cur ++ first, by simp [← hk], by simp [hc]⟩
    · exact ih pre cur hk hc e he
  | line _ ih => exact ih pre cur hk hc
  | @branch k off j is first rest ls h1 ih =>
    have := ih (pre ++ [cur]) [] (by simp [hk]) rfl
    simpa using this

/-! ## Positions -/

/-- The positions after each branch, for given sizes of the branches. -/
def starts (last : Nat) : List Nat → List Bytes → List Nat
  | s :: ss, b :: bs => (last + b.length + s) :: starts (last + b.length + s) ss bs
  | _, _ => []

theorem hints_starts {last : Nat} {js : List Branch} {bs : List Bytes} {hs : List Nat}
    (h : hintsFrom last js bs = .ok hs) : hs = starts last (js.map Branch.maxSize) bs := by
  induction js generalizing last bs hs with
  | nil => cases h; rfl
  | cons j js ih =>
    cases bs with
    | nil => cases h
    | cons b bs =>
      rw [hintsFrom] at h
      split at h
      · rename_i hs' h1
        cases h
        rw [List.map_cons, starts, ih h1, Nat.add_assoc, Nat.add_comm j.maxSize]
      · cases h

theorem layout_starts {L : List (Label × (Nat × Nat))} {H : List Nat} {last : Nat} {js : List Branch}
    {bs : List Bytes} {r : List (Nat × Nat)} (h : layoutFrom L H last js bs = .ok r) :
    r.map Prod.snd = starts last (r.map Prod.fst) bs ∧ r.length = js.length := by
  induction js generalizing last bs r with
  | nil => cases h; exact ⟨rfl, rfl⟩
  | cons j js ih =>
    cases bs with
    | nil => cases h
    | cons b bs =>
      rw [layoutFrom] at h
      split at h
      · cases h
      · split at h
        · cases h
        · rename_i s _ r' h1
          cases h
          obtain ⟨h2, h3⟩ := ih h1
          exact ⟨by simp [starts, h2], by simp [h3]⟩

theorem starts_length {last : Nat} {ss : List Nat} {bs : List Bytes} (h : ss.length ≤ bs.length) :
    (starts last ss bs).length = ss.length := by
  induction ss generalizing last bs with
  | nil => rfl
  | cons s ss ih =>
    cases bs with
    | nil => simp at h
    | cons b bs => simp [starts, ih (by simpa using h)]

/-- Where each piece ends is at most where the last one ends. -/
theorem starts_bound {last : Nat} {ss : List Nat} {bs : List Bytes} {final : Bytes}
    (hf : bs[ss.length]? = some final) {k s : Nat} {b : Bytes} (h : (last :: starts last ss bs)[k]? = some s)
    (hb : bs[k]? = some b) (hk : k ≤ ss.length) :
    s + b.length ≤ final.length + (starts last ss bs).getLast?.getD last := by
  induction ss generalizing last bs k s b with
  | nil =>
    obtain rfl : k = 0 := by simpa using hk
    simp only [List.length_nil] at hf
    rw [hf] at hb
    cases hb
    simp only [List.getElem?_cons_zero, Option.some.injEq] at h
    subst h
    simp [starts]
    omega
  | cons t ss ih =>
    cases bs with
    | nil => cases hb
    | cons b0 bs =>
      rw [starts] at h ⊢
      have hl : ((last + b0.length + t) :: starts (last + b0.length + t) ss bs).getLast?.getD last =
          (starts (last + b0.length + t) ss bs).getLast?.getD (last + b0.length + t) := by
        rw [List.getLast?_cons]
        rfl
      rw [hl]
      have hf' : bs[ss.length]? = some final := by simpa using hf
      cases k with
      | zero =>
        simp only [List.getElem?_cons_zero, Option.some.injEq] at h hb
        subst h hb
        have hx : ∃ b', bs[0]? = some b' := by
          cases bs with
          | nil => simp at hf'
          | cons b' _ => exact ⟨b', rfl⟩
        obtain ⟨b', hb'⟩ := hx
        have := ih (last := last + b0.length + t) hf' (k := 0) (s := last + b0.length + t) rfl hb' (by omega)
        omega
      | succ k =>
        exact ih (last := last + b0.length + t) hf' (by simpa using h) (by simpa using hb) (by simpa using hk)

/-- Positions for larger sizes. -/
theorem starts_le {last last' d : Nat} (hl : last' ≤ last + d) {n : Nat} {ss ts : List Nat} {bs : List Bytes}
    (ht : ∀ (k s t : Nat), ss[k]? = some s → ts[k]? = some t → t ≤ s + n) {k s t : Nat}
    (h : (last :: starts last ss bs)[k]? = some s) (h' : (last' :: starts last' ts bs)[k]? = some t) :
    t ≤ s + d + n * k := by
  induction k generalizing last last' d ss ts bs with
  | zero =>
    simp only [List.getElem?_cons_zero, Option.some.injEq] at h h'
    omega
  | succ k ih =>
    cases bs with
    | nil => cases ss <;> simp [starts] at h
    | cons b bs =>
      cases ss with
      | nil => simp [starts] at h
      | cons s0 ss =>
        cases ts with
        | nil => simp [starts] at h'
        | cons t0 ts =>
          have h0 := ht 0 s0 t0 rfl rfl
          have := ih (last := last + b.length + s0) (last' := last' + b.length + t0) (d := d + n) (by omega)
            (ss := ss) (ts := ts) (bs := bs) (fun k s t hs ht' => ht (k + 1) s t (by simpa) (by simpa))
            (by simpa [starts] using h) (by simpa [starts] using h')
          rw [Nat.mul_succ]
          omega

theorem startOf_eq {v : List Nat} {k s : Nat} : startOf v k = .ok s ↔ (0 :: v)[k]? = some s := by
  unfold startOf indexOrPanic
  cases k with
  | zero => simp
  | succ k =>
    simp only [Nat.add_eq_zero_iff, Nat.succ_ne_self, and_false, if_false, Nat.add_sub_cancel,
      List.getElem?_cons_succ]
    cases v[k]? <;> simp

theorem Branch.size_max {L : List (Label × (Nat × Nat))} {H : List Nat} {p : Nat} {j : Branch} {s : Nat}
    (h : j.size L H p = .ok s) : j.maxSize ≤ s + 5 := by
  unfold Branch.size at h
  split at h
  · cases h
    simp only [Branch.maxSize]
    omega
  · cases h
    simp only [Branch.maxSize]
    omega
  all_goals
    split at h
    · cases h
      first
      | (simp only [Branch.maxSize]; split <;> omega)
      | (unfold Branch.maxSize; split <;> split <;> omega)
    · cases h

/-! ## The branches -/

theorem toInt32_small {n : Nat} (h : n < 2 ^ 31) : (UInt32.ofNat n).toInt32.toInt = n := by
  show (BitVec.ofNat 32 n).toInt = n
  rw [BitVec.toInt_ofNat', Int.bmod_def]
  omega

theorem Int32.toInt_sub_small {a b : Int32} {x y : Nat} (ha : a.toInt = x) (hb : b.toInt = y) (hx : x < 2 ^ 30)
    (hy : y < 2 ^ 30) : (a - b).toInt = (x : Int) - y := by
  rw [Int32.toInt_sub, ha, hb, Int.bmod_def]
  omega

theorem Int32.toInt_ofInt_small {x : Int} (h : -2 ^ 31 ≤ x) (h' : x < 2 ^ 31) : (Int32.ofInt x).toInt = x := by
  rw [Int32.toInt_ofInt, show Int32.size = 4294967296 from rfl, Int.bmod_def]
  split <;> omega

theorem toInt16_small {o : Int32} (h : fitsI16 o = true) : o.toInt16.toInt = o.toInt := by
  unfold fitsI16 at h
  simp only [Bool.and_eq_true, decide_eq_true_eq] at h
  rw [Int32.toInt_toInt16, Int.bmod_def]
  omega

/-- `c` knows the labels; their positions are at most `N`. -/
def Sound (c : Ctx) (L : List (Label × (Nat × Nat))) (I : List Nat) (N : Nat) : Prop :=
  ∀ l k o s, L.lookup l = some (k, o) → startOf I k = .ok s → c.pos l = some (s + o) ∧ s + o ≤ N

theorem resolve_dist {c : Ctx} {L : List (Label × (Nat × Nat))} {I : List Nat} {N : Nat} (hs : Sound c L I N)
    (hN : N ≤ 65535) {p s idx : Nat} (hp : p + s = idx) (hi : idx ≤ 65535) {l : Label} {o : Int32}
    (h : resolveLabel L I s idx l = .ok o) :
    ∃ t, c.pos l = some t ∧ t ≤ N ∧ o.toInt = (t : Int) - p := by
  unfold resolveLabel findLabel at h
  split at h
  · cases h
  · rename_i k f h1
    split at h1 <;> cases h1
    rename_i h1
    split at h
    · cases h
    · rename_i st h2
      obtain ⟨h3, h4⟩ := hs _ _ _ _ h1 h2
      refine ⟨st + f, h3, h4, ?_⟩
      split at h
      · simp only at h
        have e1 : UInt32.ofNat st + UInt32.ofNat f = UInt32.ofNat (st + f) := by
          rw [UInt32.ofNat_add]
        rw [e1, Int32.toInt_sub_small (toInt32_small (by omega)) (toInt32_small (by omega)) (by omega) (by omega),
          toInt32_small (by omega)] at h
        split at h
        · cases h
          rw [Int32.toInt_ofInt_small (by omega) (by omega)]
          omega
        · cases h
      · cases h

theorem resolve_far {c : Ctx} {L : List (Label × (Nat × Nat))} {I : List Nat} {N : Nat} (hs : Sound c L I N)
    (hN : N ≤ 65535) {p s idx : Nat} (hp : p + s = idx) (hi : idx ≤ 65535) {l : Label} {o : Int32}
    (h : resolveLabel L I s idx l = .ok o) : far p c l (i32.write o) := by
  obtain ⟨t, h1, h2, h3⟩ := resolve_dist hs hN hp hi h
  exact ⟨o.toInt, ⟨t, h1, h3⟩, by omega, by omega, i32_write' o⟩

theorem resolve_near {c : Ctx} {L : List (Label × (Nat × Nat))} {I : List Nat} {N : Nat} (hs : Sound c L I N)
    (hN : N ≤ 65535) {p s idx : Nat} (hp : p + s = idx) (hi : idx ≤ 65535) {l : Label} {o : Int32}
    (h : resolveLabel L I s idx l = .ok o) (hf : fitsI16 o = true) : near p c l (i16.write o.toInt16) := by
  obtain ⟨t, h1, h2, h3⟩ := resolve_dist hs hN hp hi h
  have hf' := hf
  unfold fitsI16 at hf'
  simp only [Bool.and_eq_true, decide_eq_true_eq] at hf'
  refine ⟨o.toInt, ⟨t, h1, h3⟩, by omega, by omega, ?_⟩
  rw [i16_write, toInt16_small hf]

theorem i32_write_length (x : Int32) : (i32.write x).length = 4 := by rw [i32_write']; rfl
theorem i16_write_length (x : Int16) : (i16.write x).length = 2 := by rw [i16_write]; rfl
theorem u32_write_length (x : UInt32) : (u32.write x).length = 4 := by rw [u32_write]; rfl
theorem u8_write_length (x : UInt8) : (u8.write x).length = 1 := by rw [u8_write]; rfl

theorem Res.bind_ok {α β : Type} {x : Res α} {f : α → Res β} {b : β} (h : (x >>= f) = .ok b) :
    ∃ a, x = .ok a ∧ f a = .ok b := by
  cases x with
  | error e => cases h
  | ok a => exact ⟨a, rfl, h⟩

theorem resolveAll_length {L : List (Label × (Nat × Nat))} {I : List Nat} {s idx : Nat} {ls : List Label} {bs : Bytes}
    (h : resolveAll L I s idx ls = .ok bs) : bs.length = ls.length * 4 := by
  induction ls generalizing bs with
  | nil => cases h; rfl
  | cons l ls ih =>
    rw [resolveAll] at h
    obtain ⟨o, h1, h⟩ := Res.bind_ok h
    obtain ⟨b, h2, h⟩ := Res.bind_ok h
    cases h
    simp only [List.length_append, List.length_cons, i32_write_length, ih h2]
    omega

theorem resolveAll_far {c : Ctx} {L : List (Label × (Nat × Nat))} {I : List Nat} {N : Nat} (hs : Sound c L I N)
    (hN : N ≤ 65535) {p s idx : Nat} (hp : p + s = idx) (hi : idx ≤ 65535) {ls : List Label} {bs : Bytes}
    (h : resolveAll L I s idx ls = .ok bs) : Fmt.all (far p) c ls bs := by
  induction ls generalizing bs with
  | nil => cases h; rfl
  | cons l ls ih =>
    rw [resolveAll] at h
    obtain ⟨o, h1, h⟩ := Res.bind_ok h
    obtain ⟨b, h2, h⟩ := Res.bind_ok h
    cases h
    exact ⟨_, _, rfl, resolve_far hs hN hp hi h1, ih h2⟩

theorem resolvePairs_length {L : List (Label × (Nat × Nat))} {I : List Nat} {s idx : Nat}
    {es : List (Int32 × Label)} {bs : Bytes}
    (h : resolvePairs L I s idx es = .ok bs) : bs.length = es.length * 8 := by
  induction es generalizing bs with
  | nil => cases h; rfl
  | cons e es ih =>
    obtain ⟨k, l⟩ := e
    rw [resolvePairs] at h
    obtain ⟨o, h1, h⟩ := Res.bind_ok h
    obtain ⟨b, h2, h⟩ := Res.bind_ok h
    cases h
    simp only [List.length_append, List.length_cons, i32_write_length, ih h2]
    omega

theorem resolvePairs_far {c : Ctx} {L : List (Label × (Nat × Nat))} {I : List Nat} {N : Nat} (hs : Sound c L I N)
    (hN : N ≤ 65535) {p s idx : Nat} (hp : p + s = idx) (hi : idx ≤ 65535) {es : List (Int32 × Label)}
    {bs : Bytes} (h : resolvePairs L I s idx es = .ok bs) : Fmt.all (pair p) c es bs := by
  induction es generalizing bs with
  | nil => cases h; rfl
  | cons e es ih =>
    obtain ⟨k, l⟩ := e
    rw [resolvePairs] at h
    obtain ⟨o, h1, h⟩ := Res.bind_ok h
    obtain ⟨b, h2, h⟩ := Res.bind_ok h
    cases h
    exact ⟨_, _, rfl, ⟨_, by rw [i32_write'], resolve_far hs hN hp hi h1⟩, ih h2⟩

theorem padding_le (n : Nat) : padding n ≤ 3 := by unfold padding; split <;> omega
theorem padding_mod (n : Nat) : (n + padding n) % 4 = 0 := by unfold padding; split <;> omega

theorem sorted_keys {t : List (Int32 × Label)} (h : (t.map Prod.fst).Nodup) :
    (t.mergeSort fun a b => a.1.toInt ≤ b.1.toInt).Pairwise (fun a b => a.1.toInt < b.1.toInt) := by
  have h1 := List.pairwise_mergeSort (le := fun a b : Int32 × Label => decide (a.1.toInt ≤ b.1.toInt))
    (by intro a b c; simp only [decide_eq_true_eq]; omega)
    (by intro a b; simp only [Bool.or_eq_true, decide_eq_true_eq]; omega) t
  have h2 : ((t.mergeSort fun a b => a.1.toInt ≤ b.1.toInt).map Prod.fst).Nodup :=
    ((List.mergeSort_perm t _).map Prod.fst).nodup_iff.mpr h
  rw [List.Nodup, List.pairwise_map] at h2
  refine (h1.and h2).imp ?_
  intro a b ⟨h3, h4⟩
  have h3 : a.1.toInt ≤ b.1.toInt := of_decide_eq_true h3
  have : a.1.toInt ≠ b.1.toInt := fun he => h4 (Int32.toInt_inj.mp he)
  omega

/-- The switches have the size that was allotted to them. -/
theorem Branch.emit_switch {L : List (Label × (Nat × Nat))} {I H : List Nat} {p s idx : Nat} (hp : p + s = idx)
    {j : Branch} {o : Bytes} (hs : j.size L H p = .ok s) (he : j.emit L I s idx = .ok o)
    (hj : (∃ d t, j = .lookup d t) ∨ ∃ d low ls, j = .table d low ls) : o.length = s := by
  rcases hj with ⟨d, t, rfl⟩ | ⟨d, low, ls, rfl⟩
  · cases hs
    rw [Branch.emit] at he
    obtain ⟨x, h1, h⟩ := Res.bind_ok he
    obtain ⟨es, h2, h⟩ := Res.bind_ok h
    cases h
    have : idx - (1 + (padding (p + 1) + 8 + t.length * 8)) + 1 = p + 1 := by omega
    rw [this]
    simp only [List.length_append, List.length_replicate, i32_write_length, u32_write_length, u8_write_length,
      resolvePairs_length h2, List.length_mergeSort]
    omega
  · cases hs
    rw [Branch.emit] at he
    obtain ⟨x, h1, h⟩ := Res.bind_ok he
    split at h
    · cases h
    · simp only at h
      split at h
      · obtain ⟨es, h2, h⟩ := Res.bind_ok h
        cases h
        have : idx - (1 + (padding (p + 1) + 12 + ls.length * 4)) + 1 = p + 1 := by omega
        rw [this]
        simp only [List.length_append, List.length_replicate, i32_write_length, u8_write_length,
          resolveAll_length h2]
        omega
      · cases h

theorem condOp_opcode (k : Cond) : u8.write k.opcode = U1 (condOp k).code := by cases k <;> rfl

theorem Branch.emit_cond {L : List (Label × (Nat × Nat))} {I : List Nat} {s idx : Nat} {k : Cond} {l : Label}
    (hk : k ≠ .always) : (Branch.jump k l).emit L I s idx = (do
      let o ← resolveLabel L I s idx l
      if fitsI16 o then return u8.write k.opcode ++ i16.write o.toInt16
      else match k.neg with
        | none => .error .panic
        | some n => return u8.write n.opcode ++ i32.write 5 ++ u8.write opc.GOTO_W ++ i32.write o) := by
  cases k <;> first | rfl | exact absurd rfl hk

theorem Branch.size_cond {L : List (Label × (Nat × Nat))} {H : List Nat} {p : Nat} {k : Cond} {l : Label}
    (hk : k ≠ .always) : (Branch.jump k l).size L H p = (match targetOff L H l with
      | .ok t => .ok (1 + (if t ≤ 65535 then 2 else 7))
      | .error e => .error e) := by
  cases k <;> first | rfl | exact absurd rfl hk

/-- A branch that has the size allotted to it is encoded correctly. -/
theorem Branch.emit_enc {c : Ctx} {L : List (Label × (Nat × Nat))} {I H : List Nat} {N : Nat}
    (hS : Sound c L I N) (hN : N ≤ 65535) {p s idx : Nat} (hp : p + s = idx) (hi : idx ≤ 65535)
    {j : Branch} {o : Bytes} (hj : CodeOk j.insn) (hs : j.size L H p = .ok s) (he : j.emit L I s idx = .ok o)
    (hl : o.length = s) : Enc c p j.insn o := by
  have e1 : idx - s + 1 = p + 1 := by omega
  cases j with
  | lookup d t =>
    rw [Branch.emit] at he
    obtain ⟨x, h1, h⟩ := Res.bind_ok he
    obtain ⟨es, h2, h⟩ := Res.bind_ok h
    cases h
    rw [e1]
    have hlen : t.length < 2 ^ 32 := by
      simp only [Branch.size] at hs
      cases hs
      omega
    have hm : (t.mergeSort fun a b => a.1.toInt ≤ b.1.toInt).length = t.length := List.length_mergeSort _
    have := Enc.lookupSwitch (c := c) (p := p) (d := d) (t := t)
      (pad := List.replicate (padding (p + 1)) 0) (by simpa using padding_le _)
      (by simpa using padding_mod (p + 1)) (List.mergeSort_perm t _) (sorted_keys hj) (by omega)
      (resolve_far hS hN hp hi h1) (resolvePairs_far hS hN hp hi h2)
    rw [hm] at this
    have e2 : u32.write (UInt32.ofNat t.length) = U4 t.length := by
      rw [u32_write, UInt32.toNat_ofNat', Nat.mod_eq_of_lt (by omega)]
    rw [e2]
    exact this
  | table d low ls =>
    rw [Branch.emit] at he
    obtain ⟨x, h1, h⟩ := Res.bind_ok he
    have hlen : ls.length ≤ 65535 := by
      simp only [Branch.size] at hs
      cases hs
      omega
    split at h
    · cases h
    · rename_i hne
      simp only at h
      rw [toInt32_small (by omega)] at h
      split at h
      · rename_i hh
        obtain ⟨es, h2, h⟩ := Res.bind_ok h
        cases h
        rw [e1]
        have := Enc.tableSwitch (c := c) (p := p) (d := d) (low := low) (ls := ls)
          (pad := List.replicate (padding (p + 1)) 0) (by simpa using padding_le _)
          (by simpa using padding_mod (p + 1)) (by rintro rfl; exact hne rfl) (by omega) (by omega)
          (resolve_far hS hN hp hi h1) (resolveAll_far hS hN hp hi h2)
        have e2 : i32.write (Int32.ofInt (low.toInt + ((ls.length - 1 : Nat) : Int))) =
            S4 (low.toInt + ls.length - 1) := by
          rw [i32_write', Int32.toInt_ofInt_small (by omega) (by omega)]
          congr 1
          omega
        rw [e2, i32_write' low]
        exact this
      · cases h
  | jsr l =>
    rw [Branch.emit] at he
    obtain ⟨x, h1, h⟩ := Res.bind_ok he
    split at h
    · rename_i hf
      cases h
      exact .jsr (resolve_near hS hN hp hi h1 hf)
    · cases h
      exact .jsrWide (resolve_far hS hN hp hi h1)
  | jump k l =>
    by_cases hk : k = .always
    · subst hk
      rw [Branch.emit] at he
      obtain ⟨x, h1, h⟩ := Res.bind_ok he
      split at h
      · rename_i hf
        cases h
        exact .jump (k := .always) (resolve_near hS hN hp hi h1 hf)
      · cases h
        exact .gotoWide (resolve_far hS hN hp hi h1)
    · rw [Branch.emit_cond hk] at he
      obtain ⟨x, h1, h⟩ := Res.bind_ok he
      split at h
      · rename_i hf
        cases h
        rw [condOp_opcode]
        exact .jump (resolve_near hS hN hp hi h1 hf)
      · exfalso
        obtain ⟨n, hn⟩ : ∃ n, k.neg = some n := by cases k <;> first | exact ⟨_, rfl⟩ | exact absurd rfl hk
        rw [hn] at h
        cases h
        rw [Branch.size_cond hk] at hs
        simp only [List.length_append, i32_write_length, u8_write_length] at hl
        split at hs
        · cases hs
          split at hl <;> omega
        · cases hs

/-- Nothing is smaller than what was allotted to it for near targets. -/
theorem Branch.emit_ge {L : List (Label × (Nat × Nat))} {I H : List Nat}
    (hH : ∀ l t, targetOff L H l = .ok t → t ≤ 65535) {p s idx : Nat} (hp : p + s = idx)
    {j : Branch} {o : Bytes} (hs : j.size L H p = .ok s) (he : j.emit L I s idx = .ok o) : s ≤ o.length := by
  cases j with
  | lookup d t => exact Nat.le_of_eq (Branch.emit_switch hp hs he (.inl ⟨_, _, rfl⟩)).symm
  | table d low ls => exact Nat.le_of_eq (Branch.emit_switch hp hs he (.inr ⟨_, _, _, rfl⟩)).symm
  | jsr l =>
    rw [Branch.size] at hs
    split at hs
    · rename_i t ht
      rw [if_pos (hH _ _ ht)] at hs
      cases hs
      rw [Branch.emit] at he
      obtain ⟨x, h1, h⟩ := Res.bind_ok he
      split at h <;> cases h <;>
        simp only [List.length_append, i32_write_length, i16_write_length, u8_write_length] <;> omega
    · cases hs
  | jump k l =>
    by_cases hk : k = .always
    · subst hk
      rw [Branch.size] at hs
      split at hs
      · rename_i t ht
        rw [if_pos (hH _ _ ht)] at hs
        cases hs
        rw [Branch.emit] at he
        obtain ⟨x, h1, h⟩ := Res.bind_ok he
        split at h <;> cases h <;>
          simp only [List.length_append, i32_write_length, i16_write_length, u8_write_length] <;> omega
      · cases hs
    · rw [Branch.size_cond hk] at hs
      split at hs
      · rename_i t ht
        rw [if_pos (hH _ _ ht)] at hs
        cases hs
        rw [Branch.emit_cond hk] at he
        obtain ⟨x, h1, h⟩ := Res.bind_ok he
        split at h
        · cases h
          simp only [List.length_append, i32_write_length, i16_write_length, u8_write_length]
          omega
        · split at h
          · cases h
          · cases h
            simp only [List.length_append, i32_write_length, i16_write_length, u8_write_length]
            omega
      · cases hs

/-- In code of at most 32767 bytes the branches have the size that was allotted to them. -/
theorem Branch.emit_eq {c : Ctx} {L : List (Label × (Nat × Nat))} {I H : List Nat} {N : Nat}
    (hS : Sound c L I N) (hN : N ≤ 32767) (hH : ∀ l t, targetOff L H l = .ok t → t ≤ 65535)
    {p s idx : Nat} (hp : p + s = idx) (hi : idx ≤ 32767)
    {j : Branch} {o : Bytes} (hs : j.size L H p = .ok s) (he : j.emit L I s idx = .ok o) : o.length = s := by
  have hf : ∀ l x, resolveLabel L I s idx l = .ok x → fitsI16 x = true := by
    intro l x hx
    obtain ⟨t, _, h2, h3⟩ := resolve_dist hS (by omega) hp (by omega) hx
    unfold fitsI16
    simp only [Bool.and_eq_true, decide_eq_true_eq]
    omega
  cases j with
  | lookup d t => exact Branch.emit_switch hp hs he (.inl ⟨_, _, rfl⟩)
  | table d low ls => exact Branch.emit_switch hp hs he (.inr ⟨_, _, _, rfl⟩)
  | jsr l =>
    rw [Branch.size] at hs
    split at hs
    · rename_i t ht
      rw [if_pos (hH _ _ ht)] at hs
      rw [Branch.emit] at he
      obtain ⟨x, h1, h⟩ := Res.bind_ok he
      rw [if_pos (hf _ _ h1)] at h
      cases hs
      cases h
      simp only [List.length_append, i16_write_length, u8_write_length]
    · cases hs
  | jump k l =>
    by_cases hk : k = .always
    · subst hk
      rw [Branch.size] at hs
      split at hs
      · rename_i t ht
        rw [if_pos (hH _ _ ht)] at hs
        rw [Branch.emit] at he
        obtain ⟨x, h1, h⟩ := Res.bind_ok he
        rw [if_pos (hf _ _ h1)] at h
        cases hs
        cases h
        simp only [List.length_append, i16_write_length, u8_write_length]
      · cases hs
    · rw [Branch.size_cond hk] at hs
      split at hs
      · rename_i t ht
        rw [if_pos (hH _ _ ht)] at hs
        rw [Branch.emit_cond hk] at he
        obtain ⟨x, h1, h⟩ := Res.bind_ok he
        rw [if_pos (hf _ _ h1)] at h
        cases hs
        cases h
        simp only [List.length_append, i16_write_length, u8_write_length]
      · cases hs

/-- Every branch takes at least three bytes and at most five less than its largest size. -/
theorem Branch.emit_max {L : List (Label × (Nat × Nat))} {I : List Nat} {s idx : Nat} {j : Branch} {o : Bytes}
    (he : j.emit L I s idx = .ok o) : 3 ≤ o.length ∧ j.maxSize ≤ o.length + 5 := by
  cases j with
  | lookup d t =>
    rw [Branch.emit] at he
    obtain ⟨x, h1, h⟩ := Res.bind_ok he
    obtain ⟨es, h2, h⟩ := Res.bind_ok h
    cases h
    simp only [List.length_append, List.length_replicate, i32_write_length, u32_write_length, u8_write_length,
      resolvePairs_length h2, List.length_mergeSort, Branch.maxSize]
    omega
  | table d low ls =>
    rw [Branch.emit] at he
    obtain ⟨x, h1, h⟩ := Res.bind_ok he
    split at h
    · cases h
    · simp only at h
      split at h
      · obtain ⟨es, h2, h⟩ := Res.bind_ok h
        cases h
        simp only [List.length_append, List.length_replicate, i32_write_length, u8_write_length,
          resolveAll_length h2, Branch.maxSize]
        omega
      · cases h
  | jsr l =>
    rw [Branch.emit] at he
    obtain ⟨x, h1, h⟩ := Res.bind_ok he
    split at h <;> cases h <;>
      simp only [List.length_append, i32_write_length, i16_write_length, u8_write_length, Branch.maxSize] <;> omega
  | jump k l =>
    have hm : (Branch.jump k l).maxSize ≤ 8 := by cases k <;> simp [Branch.maxSize]
    by_cases hk : k = .always
    · subst hk
      rw [Branch.emit] at he
      obtain ⟨x, h1, h⟩ := Res.bind_ok he
      split at h <;> cases h <;>
        simp only [List.length_append, i32_write_length, i16_write_length, u8_write_length] <;> omega
    · rw [Branch.emit_cond hk] at he
      obtain ⟨x, h1, h⟩ := Res.bind_ok he
      split at h
      · cases h
        simp only [List.length_append, i32_write_length, i16_write_length, u8_write_length]
        omega
      · split at h
        · cases h
        · cases h
          simp only [List.length_append, i32_write_length, i16_write_length, u8_write_length]
          omega

/-! ## The whole code -/

/-- Where the last piece ends. -/
def fin (last : Nat) : List (Nat × Nat) → List Bytes → Nat
  | (_, idx) :: r, _ :: bs => fin idx r bs
  | [], b :: _ => last + b.length
  | _, [] => last

theorem layout_cons {L : List (Label × (Nat × Nat))} {H : List Nat} {last : Nat} {j : Branch} {js : List Branch}
    {b : Bytes} {bs : List Bytes} {r : List (Nat × Nat)} (h : layoutFrom L H last (j :: js) (b :: bs) = .ok r) :
    ∃ s r', j.size L H (last + b.length) = .ok s ∧ layoutFrom L H (last + b.length + s) js bs = .ok r' ∧
      r = (s, last + b.length + s) :: r' := by
  rw [layoutFrom] at h
  split at h
  · cases h
  · rename_i s h1
    split at h
    · cases h
    · rename_i r' h2
      cases h
      exact ⟨s, r', h1, h2, rfl⟩

theorem emit_cons {L : List (Label × (Nat × Nat))} {I : List Nat} {j : Branch} {js : List Branch}
    {b : Bytes} {bs : List Bytes} {s idx : Nat} {r : List (Nat × Nat)} {code : Bytes}
    (h : emitFrom L I (j :: js) (b :: bs) ((s, idx) :: r) = .ok code) :
    ∃ o rest, j.emit L I s idx = .ok o ∧ emitFrom L I js bs r = .ok rest ∧ code = o ++ b ++ rest := by
  rw [emitFrom] at h
  split at h
  · cases h
  · rename_i o h1
    split at h
    · cases h
    · rename_i rest h2
      cases h
      exact ⟨o, rest, h1, h2, rfl⟩

theorem fin_ge {L : List (Label × (Nat × Nat))} {H : List Nat} {last : Nat} {js : List Branch}
    {bs : List Bytes} {r : List (Nat × Nat)} (h : layoutFrom L H last js bs = .ok r) : last ≤ fin last r bs := by
  induction js generalizing last bs r with
  | nil =>
    cases h
    cases bs <;> simp [fin]
  | cons j js ih =>
    cases bs with
    | nil => cases h
    | cons b bs =>
      obtain ⟨s, r', h1, h2, rfl⟩ := layout_cons h
      have := ih h2
      rw [fin]
      omega

theorem fin_eq {L : List (Label × (Nat × Nat))} {H : List Nat} {last : Nat} {js : List Branch}
    {bs : List Bytes} {r : List (Nat × Nat)} (h : layoutFrom L H last js bs = .ok r) {final : Bytes}
    (hf : bs[js.length]? = some final) : fin last r bs = final.length + (r.map Prod.snd).getLast?.getD last := by
  induction js generalizing last bs r with
  | nil =>
    cases h
    cases bs with
    | nil => simp at hf
    | cons b bs =>
      simp only [List.length_nil, List.getElem?_cons_zero, Option.some.injEq] at hf
      subst hf
      simp [fin, Nat.add_comm]
  | cons j js ih =>
    cases bs with
    | nil => cases h
    | cons b bs =>
      obtain ⟨s, r', h1, h2, rfl⟩ := layout_cons h
      rw [fin, ih h2 (by simpa using hf), List.map_cons, List.getLast?_cons]
      rfl

theorem total_ge {L : List (Label × (Nat × Nat))} {I H : List Nat}
    (hH : ∀ l t, targetOff L H l = .ok t → t ≤ 65535) {js : List Branch} {first : Bytes} {bs : List Bytes}
    {last : Nat} {r : List (Nat × Nat)} {code : Bytes} (h : layoutFrom L H last js (first :: bs) = .ok r)
    (he : emitFrom L I js bs r = .ok code) (hb : bs.length = js.length) :
    fin last r (first :: bs) ≤ last + first.length + code.length := by
  induction js generalizing first bs last r code with
  | nil =>
    cases h
    simp [fin]
  | cons j js ih =>
    cases bs with
    | nil => simp at hb
    | cons b bs =>
      obtain ⟨s, r', h1, h2, rfl⟩ := layout_cons h
      obtain ⟨o, rest, h3, h4, rfl⟩ := emit_cons he
      have := ih h2 h4 (by simpa using hb)
      have := Branch.emit_ge hH rfl h1 h3
      rw [fin]
      simp only [List.length_append]
      omega

theorem total_eq {c : Ctx} {L : List (Label × (Nat × Nat))} {I H : List Nat} {N : Nat}
    (hS : Sound c L I N) (hN : N ≤ 32767) (hH : ∀ l t, targetOff L H l = .ok t → t ≤ 65535)
    {js : List Branch} {first : Bytes} {bs : List Bytes}
    {last : Nat} {r : List (Nat × Nat)} {code : Bytes} (h : layoutFrom L H last js (first :: bs) = .ok r)
    (he : emitFrom L I js bs r = .ok code) (hb : bs.length = js.length)
    (hf : fin last r (first :: bs) ≤ 32767) :
    fin last r (first :: bs) = last + first.length + code.length := by
  induction js generalizing first bs last r code with
  | nil =>
    cases h
    have : code = [] := by
      cases bs <;> cases he <;> rfl
    simp [fin, this]
  | cons j js ih =>
    cases bs with
    | nil => simp at hb
    | cons b bs =>
      obtain ⟨s, r', h1, h2, rfl⟩ := layout_cons h
      obtain ⟨o, rest, h3, h4, rfl⟩ := emit_cons he
      rw [fin] at hf ⊢
      have := ih h2 h4 (by simpa using hb) hf
      have := fin_ge h2
      have := Branch.emit_eq hS hN hH rfl (by omega) h1 h3
      simp only [List.length_append]
      omega

/-- If the declared length is right then so is every position. -/
theorem placed_of_total {c : Ctx} {S : Nat → Nat} {L : List (Label × (Nat × Nat))} {I H : List Nat} {N : Nat}
    (hS : Sound c L I N) (hN : N ≤ 65535) (hH : ∀ l t, targetOff L H l = .ok t → t ≤ 65535)
    {js : List Branch} (hj : ∀ j ∈ js, CodeOk j.insn) {first : Bytes} {bs : List Bytes}
    {k last : Nat} {r : List (Nat × Nat)} {code : Bytes} (h : layoutFrom L H last js (first :: bs) = .ok r)
    (he : emitFrom L I js bs r = .ok code) (hb : bs.length = js.length)
    (hf : fin last r (first :: bs) ≤ 65535) (ht : fin last r (first :: bs) = last + first.length + code.length)
    (hI : ∀ i s idx, r[i]? = some (s, idx) → S (k + 1 + i) = idx) :
    Placed c S k last first (js.zip bs) (first ++ code) := by
  induction js generalizing first bs last r code k with
  | nil =>
    cases h
    have : code = [] := by
      cases bs <;> cases he <;> rfl
    simp [Placed, this]
  | cons j js ih =>
    cases bs with
    | nil => simp at hb
    | cons b bs =>
      obtain ⟨s, r', h1, h2, rfl⟩ := layout_cons h
      obtain ⟨o, rest, h3, h4, rfl⟩ := emit_cons he
      rw [fin] at hf ht
      have g1 := total_ge hH h2 h4 (by simpa using hb)
      have g2 := Branch.emit_ge hH rfl h1 h3
      have g3 := fin_ge h2
      simp only [List.length_append] at ht
      have g4 : o.length = s := by omega
      have hS1 : S (k + 1) = last + first.length + s := hI 0 _ _ rfl
      refine ⟨o, b ++ rest, by simp, ?_, by rw [hS1, g4], ?_⟩
      · exact Branch.emit_enc hS hN rfl (by omega) (hj j (by simp)) h1 h3 g4
      · rw [hS1]
        exact ih (fun j h => hj j (by simp [h])) h2 h4 (by simpa using hb) hf (by omega)
          (fun i s' idx hi => by
            have := hI (i + 1) s' idx (by simpa using hi)
            rwa [show k + 1 + (i + 1) = k + 1 + 1 + i from by omega] at this)

theorem total_branches {L : List (Label × (Nat × Nat))} {I H : List Nat} {js : List Branch} {bs : List Bytes}
    {first : Bytes} {last last' d : Nat} {r : List (Nat × Nat)} {code final : Bytes}
    (h : layoutFrom L H last js (first :: bs) = .ok r) (hl : last' ≤ d)
    (hf : (first :: bs)[js.length]? = some final)
    (he : emitFrom L I js bs r = .ok code) (hb : bs.length = js.length) : 3 * js.length ≤ code.length ∧
    final.length + (starts last' (js.map Branch.maxSize) (first :: bs)).getLast?.getD last' ≤
      d + first.length + code.length + 5 * js.length := by
  induction js generalizing first bs last r code last' d with
  | nil =>
    simp only [List.length_nil, List.getElem?_cons_zero, Option.some.injEq] at hf
    subst hf
    simp [starts]
    omega
  | cons j js ih =>
    cases bs with
    | nil => simp at hb
    | cons b bs =>
      obtain ⟨s, r', h1, h2, rfl⟩ := layout_cons h
      obtain ⟨o, rest, h3, h4, rfl⟩ := emit_cons he
      have g := Branch.emit_max h3
      have := ih (last' := last' + first.length + j.maxSize) (d := d + first.length + o.length + 5) h2 (by omega)
        (by simpa using hf) h4 (by simpa using hb)
      rw [List.map_cons, starts, List.getLast?_cons, Option.getD_some]
      simp only [List.length_append, List.length_cons]
      omega

theorem StraightIn.plain {W : World} {i : Insn} {b : Bytes} (h : StraightIn W i b) :
    (∀ l, i ≠ .label l) ∧ branches [i] = 0 := by
  have h := h.1
  cases i <;> first | exact ⟨fun l hl => Insn.noConfusion hl, rfl⟩ | cases h

theorem Pieces.branches {enc : Insn → Bytes → Prop} (henc : ∀ i b, enc i b → branches [i] = 0) {k off : Nat} {is : List Insn}
    {first : Bytes} {rest : List (Branch × Bytes)} {ls : List (Label × (Nat × Nat))}
    (h : Pieces enc k off is first rest ls) : rest.length = branches is ∧ ∀ e ∈ rest, e.1.insn ∈ is := by
  induction h with
  | nil => exact ⟨rfl, by simp⟩
  | @straight k off i is b first rest ls h1 h2 ih =>
    refine ⟨?_, fun e he => List.mem_cons_of_mem _ (ih.2 e he)⟩
    rw [ih.1]
    have := henc _ _ h1
    cases i <;> first | rfl | cases this
  | label _ ih => exact ⟨ih.1, fun e he => List.mem_cons_of_mem _ (ih.2 e he)⟩
  | line _ ih => exact ⟨ih.1, fun e he => List.mem_cons_of_mem _ (ih.2 e he)⟩
  | branch j _ ih =>
    refine ⟨?_, ?_⟩
    · rw [List.length_cons, ih.1]
      cases j <;> rfl
    · intro e he
      rcases List.mem_cons.mp he with rfl | he
      · exact List.mem_cons_self
      · exact List.mem_cons_of_mem _ (ih.2 e he)


theorem layout_sizes {L : List (Label × (Nat × Nat))} {H : List Nat} {last : Nat} {js : List Branch}
    {bs : List Bytes} {r : List (Nat × Nat)} (h : layoutFrom L H last js bs = .ok r) {k s t : Nat}
    (hs : (r.map Prod.fst)[k]? = some s) (ht : (js.map Branch.maxSize)[k]? = some t) : t ≤ s + 5 := by
  induction js generalizing last bs r k with
  | nil => simp at ht
  | cons j js ih =>
    cases bs with
    | nil => cases h
    | cons b bs =>
      obtain ⟨s0, r', h1, h2, rfl⟩ := layout_cons h
      cases k with
      | zero =>
        simp only [List.map_cons, List.getElem?_cons_zero, Option.some.injEq] at hs ht
        subst hs ht
        exact Branch.size_max h1
      | succ k => exact ih h2 (by simpa using hs) (by simpa using ht)

/-- The assembly of a list of instructions, step by step. -/
theorem writeCode_steps {is : List Insn} (hi : ∀ i ∈ is, CodeOk i) {cp cp' : VecCp}
    {a : Assembled} (hc : cp.Inv) (h : writeCode is cp = .ok (a, cp')) :
    Steps cp cp' ∧ ∃ (L : List (Label × (Nat × Nat))) (js : List Branch) (first : Bytes) (bs : List Bytes)
      (H : List Nat) (r : List (Nat × Nat)) (final code : Bytes),
      hintsFrom 0 js (first :: bs) = .ok H ∧ layoutFrom L H 0 js (first :: bs) = .ok r ∧
      (first :: bs)[js.length]? = some final ∧ emitFrom L (r.map Prod.snd) js bs r = .ok code ∧
      a = ⟨UInt32.ofNat (final.length + (r.map Prod.snd).getLast?.getD 0), first ++ code,
        labelPos L (r.map Prod.snd)⟩ ∧ bs.length = js.length ∧
      ∀ W : World, W.Fits cp' → ∃ ls, L = ls.reverse ∧ Pieces (StraightIn W) 0 0 is first (js.zip bs) ls := by
  unfold writeCode at h
  obtain ⟨b, cp1, h1, h2⟩ := Ins.bind_ok h
  obtain ⟨h3, rfl⟩ := Ins.lift_ok h2
  obtain ⟨hst, hsp⟩ := split_insns is hi .empty cp b _ hc h1
  unfold assemble at h3
  simp only at h3
  split at h3
  · cases h3
  rename_i hints hh
  split at h3
  · cases h3
  rename_i r hr
  split at h3
  · cases h3
  rename_i final hf
  split at h3
  · cases h3
  rename_i first rest hb
  split at h3
  · cases h3
  rename_i code he
  cases h3
  rw [hb] at hf hr hh
  have hW : ∀ W : World, W.Fits cp' → rest.length = b.jumps.length ∧
      ∃ ls, b.labels = ls.reverse ∧ Pieces (StraightIn W) 0 0 is first (b.jumps.zip rest) ls := by
    intro W hW
    obtain ⟨first', rest', ls, hP, e1, e2, e3⟩ := hsp W hW
    simp only [CodeBuf.empty, List.nil_append, List.append_nil] at e1 e2 e3
    rw [hb] at e1
    cases e1
    rw [e2]
    refine ⟨by simp, ls, e3, ?_⟩
    have : (rest'.map Prod.fst).zip (rest'.map Prod.snd) = rest' := by
      rw [List.zip_map']
      simp
    rw [this]
    exact hP
  obtain ⟨P, hP⟩ := agrees_exists cp'.entries
  exact ⟨hst, b.labels, b.jumps, first, rest, hints, r, final, code, hh, hr, hf, he, rfl,
    (hW ⟨P, cp'.bsm⟩ ⟨hP, List.prefix_refl _⟩).1, fun W h => (hW W h).2⟩

/-- Everything about the assembly of a list of instructions. -/
theorem writeCode_ok {is : List Insn} (hi : ∀ i ∈ is, CodeOk i) (hm : (marks is).Nodup) {cp cp' : VecCp}
    {a : Assembled} (hc : cp.Inv) (h : writeCode is cp = .ok (a, cp')) :
    Steps cp cp' ∧ 3 * branches is ≤ a.code.length ∧
    (a.code.length + 5 * branches is ≤ 65535 → a.len.toNat ≤ a.code.length ∧
      (a.code.length ≤ 32767 → a.len.toNat = a.code.length) ∧
      (a.len.toNat = a.code.length → ∀ (W : World) (env : WEnv), W.Fits cp' → env.label = a.label →
        Layout (env.ctx W) 0 is a.code)) := by
  obtain ⟨hst, L, js, first, bs, H, r, final, code, hh, hr, hf, he, rfl, hb, hW⟩ := writeCode_steps hi hc h
  have hr1 := layout_starts hr
  have hfin := fin_eq hr hf
  obtain ⟨hb3, hmx⟩ := total_branches hr (Nat.le_refl 0) hf he hb
  rw [← hints_starts hh] at hmx
  refine ⟨hst, ?_⟩
  obtain ⟨P, hP⟩ := agrees_exists cp'.entries
  -- the facts that do not depend on the final constant pool
  obtain ⟨hbr, hlab⟩ : js.length = branches is ∧
      ∀ l k o, L.lookup l = some (k, o) → ∃ b, (first :: bs)[k]? = some b ∧ o ≤ b.length := by
    obtain ⟨ls, rfl, hP⟩ := hW ⟨P, cp'.bsm⟩ ⟨hP, List.prefix_refl _⟩
    refine ⟨?_, ?_⟩
    · have := (hP.branches fun i b h => h.plain.2).1
      rwa [List.length_zip, hb, Nat.min_self] at this
    · intro l k o hl
      have := hP.bound [] [] rfl rfl (l, (k, o)) (by simpa using mem_of_lookup hl)
      have hs : (js.zip bs).map Prod.snd = bs := List.map_snd_zip (by omega)
      rw [hs] at this
      simpa using this
  have hkk : ∀ l k o, L.lookup l = some (k, o) → k ≤ js.length := by
    intro l k o hl
    obtain ⟨b, hb', _⟩ := hlab l k o hl
    have := (List.getElem?_eq_some_iff.mp hb').1
    simp only [List.length_cons] at this
    omega
  rw [← hbr]
  simp only [List.length_append]
  refine ⟨by omega, fun hsmall => ?_⟩
  have hH : ∀ l t, targetOff L H l = .ok t → t ≤ 65535 := by
    intro l t ht
    unfold targetOff findLabel at ht
    split at ht
    · rename_i k o hl
      split at hl
      · rename_i q hq
        cases hl
        split at ht
        · rename_i s hs
          cases ht
          obtain ⟨b, hb', ho⟩ := hlab _ _ _ hq
          rw [startOf_eq, hints_starts hh] at hs
          have := starts_bound (by simpa using hf) hs hb' (by simpa using hkk _ _ _ hq)
          rw [← hints_starts hh] at this
          omega
        · cases ht
      · cases hl
    · cases ht
  have htot := total_ge hH hr he hb
  have hlen : (UInt32.ofNat (final.length + (r.map Prod.snd).getLast?.getD 0)).toNat = fin 0 r (first :: bs) := by
    rw [← hfin, UInt32.toNat_ofNat', Nat.mod_eq_of_lt (by omega)]
  rw [hlen]
  have hpos : ∀ l k o s, L.lookup l = some (k, o) → startOf (r.map Prod.snd) k = .ok s →
      s + o ≤ fin 0 r (first :: bs) := by
    intro l k o s hl hs
    obtain ⟨b, hb', ho⟩ := hlab _ _ _ hl
    rw [startOf_eq, hr1.1] at hs
    have := starts_bound (by simpa [hr1.2] using hf) hs hb' (by simpa [hr1.2] using hkk _ _ _ hl)
    rw [← hr1.1] at this
    omega
  have hS : ∀ (W : World) (env : WEnv), env.label = labelPos L (r.map Prod.snd) →
      Sound (env.ctx W) L (r.map Prod.snd) (fin 0 r (first :: bs)) := by
    intro W env henv l k o s hl hs
    have := hpos l k o s hl hs
    refine ⟨?_, this⟩
    have e : labelPos L (r.map Prod.snd) l = .ok (UInt16.ofNat (s + o)) := by
      unfold labelPos
      simp only [hl, hs]
      rw [if_pos, UInt16.ofNat_add]
      rw [UInt16.toNat_ofNat', UInt16.toNat_ofNat', Nat.mod_eq_of_lt (by omega), Nat.mod_eq_of_lt (by omega)]
      omega
    simp only [WEnv.ctx, henv, e]
    rw [UInt16.toNat_ofNat', Nat.mod_eq_of_lt (by omega)]
  refine ⟨by omega, ?_, ?_⟩
  · intro hs
    have := total_eq (hS ⟨P, []⟩ ⟨labelPos L (r.map Prod.snd), WEnv.outside.catch_⟩ rfl) (by omega) hH hr he hb
      (by omega)
    omega
  · intro heq W env hF henv
    obtain ⟨ls, rfl, hPc⟩ := hW W hF
    have hmem := (hPc.branches fun i b h => h.plain.2).2
    let S : Nat → Nat := fun k => (0 :: r.map Prod.snd)[k]?.getD 0
    have hpl := placed_of_total (S := S) (k := 0) (hS W env henv) (by omega) hH
      (fun j hj => by
        obtain ⟨i, hlt, hj⟩ := List.mem_iff_getElem.mp hj
        have hz : (js[i], bs[i]'(by omega)) ∈ js.zip bs := by
          rw [List.mem_iff_getElem]
          exact ⟨i, by simp; omega, by simp⟩
        have := hi _ (hmem _ hz)
        rwa [← hj]) hr he hb (by omega) (by omega)
      (fun i s idx hi => by
        show (0 :: r.map Prod.snd)[0 + 1 + i]?.getD 0 = idx
        rw [Nat.zero_add, Nat.add_comm 1 i, List.getElem?_cons_succ, List.getElem?_map, hi]
        rfl)
    refine hPc.layout (fun i b p hb => hb.2 env p) (S := S) (off := 0) ?_ hpl
    intro e he'
    have hl : ls.reverse.lookup e.1 = some e.2 := by
      refine lookup_of_mem ?_ (by simpa using he')
      rw [List.map_reverse, (List.reverse_perm _).nodup_iff, hPc.marks (fun l b h => h.plain.1 l rfl)]
      exact hm
    obtain ⟨l, k, o⟩ := e
    have hk := hkk _ _ _ hl
    obtain ⟨s, hs⟩ : ∃ s, (0 :: r.map Prod.snd)[k]? = some s := by
      rw [List.getElem?_eq_getElem (by simp [hr1.2]; omega)]
      exact ⟨_, rfl⟩
    have := (hS W env henv l k o s hl (startOf_eq.mpr hs)).1
    rw [this]
    simp only [S, hs, Option.getD_some]

/-! ## Targets exist -/

theorem resolve_mem {L : List (Label × (Nat × Nat))} {I : List Nat} {s idx : Nat} {l : Label} {o : Int32}
    (h : resolveLabel L I s idx l = .ok o) : l ∈ L.map Prod.fst := by
  unfold resolveLabel findLabel at h
  split at h
  · cases h
  · rename_i k f h1
    split at h1
    · rename_i p hp
      exact List.mem_map.mpr ⟨_, mem_of_lookup hp, rfl⟩
    · cases h1

theorem resolveAll_mem {L : List (Label × (Nat × Nat))} {I : List Nat} {s idx : Nat} {ls : List Label} {bs : Bytes}
    (h : resolveAll L I s idx ls = .ok bs) : ∀ l ∈ ls, l ∈ L.map Prod.fst := by
  induction ls generalizing bs with
  | nil => simp
  | cons l ls ih =>
    rw [resolveAll] at h
    obtain ⟨o, h1, h⟩ := Res.bind_ok h
    obtain ⟨b, h2, h⟩ := Res.bind_ok h
    intro x hx
    rcases List.mem_cons.mp hx with rfl | hx
    · exact resolve_mem h1
    · exact ih h2 x hx

theorem resolvePairs_mem {L : List (Label × (Nat × Nat))} {I : List Nat} {s idx : Nat}
    {es : List (Int32 × Label)} {bs : Bytes}
    (h : resolvePairs L I s idx es = .ok bs) : ∀ e ∈ es, e.2 ∈ L.map Prod.fst := by
  induction es generalizing bs with
  | nil => simp
  | cons e es ih =>
    obtain ⟨k, l⟩ := e
    rw [resolvePairs] at h
    obtain ⟨o, h1, h⟩ := Res.bind_ok h
    obtain ⟨b, h2, h⟩ := Res.bind_ok h
    intro x hx
    rcases List.mem_cons.mp hx with rfl | hx
    · exact resolve_mem h1
    · exact ih h2 x hx

theorem Branch.emit_mem {L : List (Label × (Nat × Nat))} {I : List Nat} {s idx : Nat} {j : Branch} {o : Bytes}
    (he : j.emit L I s idx = .ok o) : ∀ l ∈ targets j.insn, l ∈ L.map Prod.fst := by
  cases j with
  | lookup d t =>
    rw [Branch.emit] at he
    obtain ⟨x, h1, h⟩ := Res.bind_ok he
    obtain ⟨es, h2, h⟩ := Res.bind_ok h
    intro l hl
    rcases List.mem_cons.mp hl with rfl | hl
    · exact resolve_mem h1
    · obtain ⟨e, he, rfl⟩ := List.mem_map.mp hl
      exact resolvePairs_mem h2 e (List.mem_mergeSort.mpr he)
  | table d low ls =>
    rw [Branch.emit] at he
    obtain ⟨x, h1, h⟩ := Res.bind_ok he
    split at h
    · cases h
    · simp only at h
      split at h
      · obtain ⟨es, h2, h⟩ := Res.bind_ok h
        intro l hl
        rcases List.mem_cons.mp hl with rfl | hl
        · exact resolve_mem h1
        · exact resolveAll_mem h2 l hl
      · cases h
  | jsr l =>
    rw [Branch.emit] at he
    obtain ⟨x, h1, h⟩ := Res.bind_ok he
    intro y hy
    obtain rfl : y = l := by simpa [targets, Branch.insn] using hy
    exact resolve_mem h1
  | jump k l =>
    have : ∃ x, resolveLabel L I s idx l = .ok x := by
      by_cases hk : k = .always
      · subst hk
        rw [Branch.emit] at he
        obtain ⟨x, h1, h⟩ := Res.bind_ok he
        exact ⟨x, h1⟩
      · rw [Branch.emit_cond hk] at he
        obtain ⟨x, h1, h⟩ := Res.bind_ok he
        exact ⟨x, h1⟩
    obtain ⟨x, h1⟩ := this
    intro y hy
    obtain rfl : y = l := by simpa [targets, Branch.insn] using hy
    exact resolve_mem h1

theorem emit_mem {L : List (Label × (Nat × Nat))} {I : List Nat} {js : List Branch} {bs : List Bytes}
    {r : List (Nat × Nat)} {code : Bytes} (hb : bs.length = js.length) (hr : r.length = js.length)
    (h : emitFrom L I js bs r = .ok code) : ∀ j ∈ js, ∀ l ∈ targets j.insn, l ∈ L.map Prod.fst := by
  induction js generalizing bs r code with
  | nil => simp
  | cons j js ih =>
    cases bs with
    | nil => simp at hb
    | cons b bs =>
      cases r with
      | nil => simp at hr
      | cons e r =>
        obtain ⟨o, rest, h1, h2, rfl⟩ := emit_cons h
        intro x hx
        rcases List.mem_cons.mp hx with rfl | hx
        · exact Branch.emit_mem h1
        · exact ih (by simpa using hb) (by simpa using hr) h2 x hx

theorem Pieces.mem {enc : Insn → Bytes → Prop} (henc : ∀ i b, enc i b → targets i = []) {k off : Nat}
    {is : List Insn} {first : Bytes} {rest : List (Branch × Bytes)} {ls : List (Label × (Nat × Nat))}
    (h : Pieces enc k off is first rest ls) :
    ∀ i ∈ is, ∀ l ∈ targets i, ∃ e ∈ rest, l ∈ targets e.1.insn := by
  induction h with
  | nil => simp
  | @straight k off i is b first rest ls h1 h2 ih =>
    intro x hx l hl
    rcases List.mem_cons.mp hx with rfl | hx
    · rw [henc _ _ h1] at hl
      cases hl
    · exact ih x hx l hl
  | label _ ih =>
    intro x hx l hl
    rcases List.mem_cons.mp hx with rfl | hx
    · cases hl
    · exact ih x hx l hl
  | line _ ih =>
    intro x hx l hl
    rcases List.mem_cons.mp hx with rfl | hx
    · cases hl
    · exact ih x hx l hl
  | branch j _ ih =>
    intro x hx l hl
    rcases List.mem_cons.mp hx with rfl | hx
    · exact ⟨_, List.mem_cons_self, hl⟩
    · obtain ⟨e, h1, h2⟩ := ih x hx l hl
      exact ⟨e, List.mem_cons_of_mem _ h1, h2⟩

theorem writeCode_targets {is : List Insn} (hi : ∀ i ∈ is, CodeOk i) {cp cp' : VecCp}
    {a : Assembled} (hc : cp.Inv) (h : writeCode is cp = .ok (a, cp')) :
    ∀ i ∈ is, ∀ l ∈ targets i, l ∈ marks is := by
  obtain ⟨hst, L, js, first, bs, H, r, final, code, hh, hr, hf, he, rfl, hb, hW⟩ := writeCode_steps hi hc h
  obtain ⟨P, hP⟩ := agrees_exists cp'.entries
  obtain ⟨ls, rfl, hP⟩ := hW ⟨P, cp'.bsm⟩ ⟨hP, List.prefix_refl _⟩
  intro i hm l hl
  have htg : ∀ i b, StraightIn ⟨P, cp'.bsm⟩ i b → targets i = [] := by
    intro i b h
    have h := h.1
    cases i <;> first | rfl | cases h
  obtain ⟨e, h1, h2⟩ := hP.mem htg i hm l hl
  have hj : e.1 ∈ js := (List.of_mem_zip (a := e.1) (b := e.2) h1).1
  have := emit_mem hb (layout_starts hr).2 he e.1 hj l h2
  rw [List.map_reverse, List.mem_reverse, hP.marks (fun l b h => h.plain.1 l rfl)] at this
  exact this

end Verif
