import Verif.Model.Format
import Verif.Lemmas.Wtf8Api
import Verif.Lemmas.TySound

/-! # Formatting with a width and a precision -/

namespace Verif.Format
open Spec Wtf8

/-- What `Laid` asks of a text that has been cut. -/
def Filled (o : Options) (cut out : List Nat) : Prop :=
  ∃ l r, out = List.replicate l o.fill ++ cut ++ List.replicate r o.fill ∧ l + r = o.width.getD 0 - cut.length ∧
    match o.align with
    | none | some .left => l = 0
    | some .right => r = 0
    | some .center => r = l ∨ r = l + 1

theorem filled_fill (o : Options) (cut : List Nat) : Filled o cut (fill o cut) := by
  unfold Filled fill
  rcases hw : o.width with _ | w
  · refine ⟨0, 0, by simp, by simp, ?_⟩
    split <;> simp
  · dsimp only
    by_cases hl : w ≤ cut.length
    · rw [if_pos hl]
      refine ⟨0, 0, by simp, by simp; omega, ?_⟩
      split <;> simp
    · rw [if_neg hl]
      rcases o.align with _ | _ | _ | _
      · exact ⟨_, _, rfl, by simp, rfl⟩
      · exact ⟨_, _, rfl, by simp, rfl⟩
      · exact ⟨_, _, rfl, by simp, rfl⟩
      · refine ⟨_, _, rfl, ?_, ?_⟩
        · simp only [Option.getD_some]; omega
        · show (w - cut.length + 1) / 2 = (w - cut.length) / 2 ∨ (w - cut.length + 1) / 2 = (w - cut.length) / 2 + 1
          omega

theorem filled_unique {o : Options} {cut out : List Nat} (h : Filled o cut out) : out = fill o cut := by
  obtain ⟨l, r, rfl, hs, ha⟩ := h
  unfold fill
  rcases hw : o.width with _ | w
  · rw [hw] at hs
    obtain ⟨rfl, rfl⟩ : l = 0 ∧ r = 0 := by simp at hs; omega
    simp
  · rw [hw] at hs
    simp only [Option.getD_some] at hs
    dsimp only
    by_cases hl : w ≤ cut.length
    · rw [if_pos hl]
      obtain ⟨rfl, rfl⟩ : l = 0 ∧ r = 0 := by omega
      simp
    · rw [if_neg hl]
      rcases h : o.align with _ | _ | _ | _ <;> rw [h] at ha <;> dsimp only at ha ⊢
      · subst ha
        rw [show r = w - cut.length by omega]
      · subst ha
        rw [show r = w - cut.length by omega]
      · subst ha
        rw [show l = w - cut.length by omega]
      · rw [show l = (w - cut.length) / 2 by omega, show r = (w - cut.length + 1) / 2 by omega]

/-- What `pad` does is what the documentation says, and nothing else is. -/
theorem laid_iff (o : Options) (text out : List Nat) : Laid o text out ↔ out = pad o text := by
  have h : ∀ cut, Filled o cut out ↔ out = fill o cut := fun cut => ⟨filled_unique, fun e => e ▸ filled_fill o cut⟩
  unfold Laid pad
  rcases o.precision with _ | p
  · exact h text
  · exact h (text.take p)

/-! ## Strings -/

theorem display_past (o : Options) (s : Bytes) (pos : Nat) (h : pos ≠ 0) :
    displayWithFrom o s pos = .ok (displayFrom s pos).flatten := by
  fun_induction displayWithFrom o s pos with
  | case1 pos p hp ih =>
    rw [ih (by omega)]
    conv => rhs; unfold displayFrom
    split
    · rename_i q hq
      rw [hp] at hq
      cases hq
      simp [bind, Except.bind, pure, Except.pure]
    · simp_all
  | case2 => exact absurd rfl h
  | case3 pos hn h0 =>
    unfold displayFrom
    split
    · simp_all
    · simp

/-- Without a surrogate the options are heeded, with one they are not. -/
theorem displayWith_spec (o : Options) (cs : List Nat) (h : ∀ c ∈ cs, IsCodePoint c) :
    ((∀ c ∈ cs, ¬ IsSurrogate c) → displayWith o (encodeCps cs) = .ok (encodeCps (pad o cs))) ∧
      ((∃ c ∈ cs, IsSurrogate c) → displayWith o (encodeCps cs) = .ok (encodeCps (cs.map repl))) := by
  have hd : nextSurrogate (encodeCps cs) 0 = nextSurrogateFrom 0 (encodeCps cs) := rfl
  rcases nextSurrogateFrom_encode cs h 0 with ⟨h1, h2⟩ | ⟨as, c, bs, e, _, h2, h1⟩
  · refine ⟨fun _ => ?_, fun ⟨c, hc, hs⟩ => absurd hs (h2 c hc)⟩
    unfold displayWith displayWithFrom
    split
    · rename_i q hq
      rw [hd, h1] at hq
      cases hq
    · rw [if_pos rfl, List.drop_zero, strFmt, codepoints_encode cs h]
  · refine ⟨fun hn => absurd h2 (hn c (e ▸ by simp)), fun _ => ?_⟩
    have h3 : displayWith o (encodeCps cs) = .ok (displayFrom (encodeCps cs) 0).flatten := by
      unfold displayWith displayWithFrom
      conv => rhs; unfold displayFrom
      split
      · rename_i q hq
        rw [display_past o _ _ (by omega)]
        split
        · rename_i q' hq'
          rw [hq] at hq'
          cases hq'
          simp [bind, Except.bind, pure, Except.pure]
        · simp_all
      · rename_i hn
        rw [hd, h1] at hn
        cases hn
    rw [h3, displayFrom_flatten]
    exact congrArg _ (JType.toStringLossy_encode cs h)

/-! ## Types -/

mutual
/-- The numbers of dimensions of the arrays in a type. -/
def dims : JType → List Nat
  | .array d t => d.toNat :: dims t
  | .method ps r => dimsAll ps ++ match r with
    | some t => dims t
    | none => []
  | _ => []
def dimsAll : List JType → List Nat
  | [] => []
  | t :: ts => dims t ++ dimsAll ts
end

theorem encode_brackets (n : Nat) : encodeCps (List.replicate n 0x5B) = List.replicate n 0x5B := by
  induction n with
  | zero => rfl
  | succ n ih => rw [List.replicate_succ, encodeCps_cons, ih, List.replicate_succ]; rfl

mutual
theorem typeWith_plain (o : Options) : ∀ t : JType,
    (∀ d ∈ dims t, pad o (List.replicate d 0x5B) = List.replicate d 0x5B) → typeWith o t = t.display
  | .array d t, h => by
    rw [dims] at h
    rw [typeWith, JType.display, h _ (.head _), encode_brackets, typeWith_plain o t fun d hd => h d (.tail _ hd)]
  | .method ps r, h => by
    unfold dims at h
    unfold typeWith JType.display
    rw [typesWith_plain o ps fun d hd => h d (List.mem_append_left _ hd)]
    cases r with
    | none => rfl
    | some t =>
      dsimp only
      rw [typeWith_plain o t fun d hd => h d (List.mem_append_right _ hd)]
  | .byte, _ | .char, _ | .double, _ | .float, _ | .int, _ | .long, _ | .boolean, _ | .short, _ | .ref _, _ => by
    rw [typeWith, JType.display]
theorem typesWith_plain (o : Options) : ∀ ts : List JType,
    (∀ d ∈ dimsAll ts, pad o (List.replicate d 0x5B) = List.replicate d 0x5B) → typesWith o ts = JType.displayAll ts
  | [], _ => by rw [typesWith, JType.displayAll]
  | t :: ts, h => by
    rw [dimsAll] at h
    rw [typesWith, JType.displayAll, typeWith_plain o t fun d hd => h d (List.mem_append_left _ hd),
      typesWith_plain o ts fun d hd => h d (List.mem_append_right _ hd)]
end

theorem pad_same {o : Options} {text : List Nat} (hw : ∀ w, o.width = some w → w ≤ text.length)
    (hp : ∀ p, o.precision = some p → text.length ≤ p) : pad o text = text := by
  have hf : fill o text = text := by
    unfold fill
    rcases h : o.width with _ | w
    · rfl
    · dsimp only
      rw [if_pos (hw w h)]
  unfold pad
  rcases h : o.precision with _ | p
  · exact hf
  · dsimp only
    rw [List.take_of_length_le (hp p h), hf]

/-! ## Versions -/

/-- The digits of a number, the first one not zero unless it is the only one. -/
theorem decimal_inj : ∀ m n, decimal m = decimal n → m = n := by
  have hlast : ∀ n, ∃ ds, decimal n = ds ++ [0x30 + n % 10] ∧ (ds = [] ∧ n < 10 ∨ 10 ≤ n ∧ ds = decimal (n / 10)) := by
    intro n
    rw [decimal]
    split
    · exact ⟨[], by simp; omega, .inl ⟨rfl, by omega⟩⟩
    · exact ⟨_, rfl, .inr ⟨by omega, rfl⟩⟩
  have hne : ∀ n, decimal n ≠ [] := fun n h => by
    obtain ⟨ds, h1, _⟩ := hlast n
    rw [h1] at h
    simp at h
  intro m
  induction m using Nat.strongRecOn with
  | _ m ih =>
    intro n h
    obtain ⟨ds, h1, h2⟩ := hlast m
    obtain ⟨ds', h3, h4⟩ := hlast n
    rw [h1, h3] at h
    obtain ⟨e1, e2⟩ := List.append_inj' h rfl
    have e2 : 0x30 + m % 10 = 0x30 + n % 10 := List.head_eq_of_cons_eq e2
    rcases h2 with ⟨rfl, h2⟩ | ⟨h2, rfl⟩
    · rcases h4 with ⟨_, h4⟩ | ⟨_, rfl⟩
      · omega
      · exact absurd e1.symm (hne _)
    · rcases h4 with ⟨rfl, _⟩ | ⟨h4, rfl⟩
      · exact absurd e1 (hne _)
      · have := ih (m / 10) (by omega) (n / 10) e1
        omega

theorem decimal_value (n : Nat) : ∃ ds : List Nat, (∀ d ∈ ds, d < 10) ∧ ds.foldl (fun n d => 10 * n + d) 0 = n ∧
    decimal n = ds.map (0x30 + ·) := by
  fun_induction decimal n with
  | case1 n h => exact ⟨[n], by simpa using h, by simp, rfl⟩
  | case2 n h ih =>
    obtain ⟨ds, h1, h2, h3⟩ := ih
    refine ⟨ds ++ [n % 10], ?_, ?_, by rw [h3, List.map_append]; rfl⟩
    · intro d hd
      rcases List.mem_append.mp hd with hd | hd
      · exact h1 d hd
      · rw [List.mem_singleton.mp hd]
        omega
    · rw [List.foldl_append, h2]
      show 10 * (n / 10) + n % 10 = n
      omega

theorem before_mark {a b s t : List Nat} {c : Nat} (ha : c ∉ a) (hb : c ∉ b) (h : a ++ c :: s = b ++ c :: t) :
    a = b ∧ s = t := by
  induction a generalizing b with
  | nil =>
    cases b with
    | nil => exact ⟨rfl, (List.cons.inj h).2⟩
    | cons y b => exact absurd (List.cons.inj h).1 fun e => hb (e ▸ .head _)
  | cons x a ih =>
    cases b with
    | nil => exact absurd (List.cons.inj h).1 fun e => ha (e ▸ .head _)
    | cons y b =>
      obtain ⟨e, h⟩ := List.cons.inj h
      obtain ⟨h1, h2⟩ := ih (fun hm => ha (.tail _ hm)) (fun hm => hb (.tail _ hm)) h
      exact ⟨by rw [e, h1], h2⟩

/-- The texts before `minor`. -/
def majorTexts : Major → List (List Nat)
  | .j1 => [versionText.text "JDK 1.0.2 ", versionText.text "JDK 1.1 "]
  | .j1_2 => [versionText.text "JDK 1.2 "]
  | .j1_3 => [versionText.text "JDK 1.3 "]
  | .j1_4 => [versionText.text "JDK 1.4 "]
  | .j5 => [versionText.text "Java SE 5.0 "]
  | .j6 => [versionText.text "Java SE 6.0 "]
  | .j7 => [versionText.text "Java SE 7 "]
  | .j8 => [versionText.text "Java SE 8 "]
  | .j9 => [versionText.text "Java SE 9 "]
  | .j10 => [versionText.text "Java SE 10 "]
  | .j11 => [versionText.text "Java SE 11 "]
  | .j12 => [versionText.text "Java SE 12 "]
  | .j13 => [versionText.text "Java SE 13 "]
  | .j14 => [versionText.text "Java SE 14 "]
  | .j15 => [versionText.text "Java SE 15 "]

theorem majorTexts_inj (x y : Major) : (∃ a ∈ majorTexts x, a ∈ majorTexts y) → x = y := by
  cases x <;> cases y <;> first | (exact fun _ => rfl) | decide

theorem text_parts (v : Version) : ∃ name, versionText v = name ++ 109 :: (versionText.text "inor version " ++
    decimal v.minor.toNat) ∧ 109 ∉ name ∧ name ∈ majorTexts v.major := by
  obtain ⟨m, v⟩ := v
  cases v
  case j1 =>
    by_cases h : m ≤ 3
    · refine ⟨_, ?_, ?_, List.Mem.head _⟩
      · unfold versionText
        simp only [if_pos h]
        rfl
      · decide
    · refine ⟨_, ?_, ?_, List.Mem.tail _ (List.Mem.head _)⟩
      · unfold versionText
        simp only [if_neg h]
        rfl
      · decide
  all_goals
    refine ⟨_, ?_, ?_, List.Mem.head _⟩
    · rfl
    · decide

end Verif.Format
