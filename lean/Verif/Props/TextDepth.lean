import Verif.Lemmas.Depth
import Verif.Lemmas.Wtf8

/-! # C84: how deep the parsers of descriptors and signatures recurse

`parseTypeD d` and `parseRefD d` are the parsers on a thread with room for `d` nested calls of `get_type`, or of
`ref_type_sig`; a further call is `diverge` (the stack overflows and the process is aborted). -/

namespace Verif.Props
open Spec

/-- `FieldSignature::from_str` (src/signature.rs:521-527) with room for `d` calls of `ref_type_sig`. -/
def parseRefD (d : Nat) (i : Str) : Res RefSig := Sig.dropRest (Sig.refTypeSigD d i)

/-- Full claim: some depth is enough for all descriptors, and for all signatures of fields. -/
def C84_full : Prop :=
  (∃ d, ∀ s, JType.parseTypeD d s = JType.parseType s) ∧ ∃ d, ∀ i, parseRefD d i = Sig.parseRef i

/-- The bytes of a text of ASCII characters. -/
def ascii (cs : List Nat) : Bytes := cs.map UInt8.ofNat

theorem ascii_length (cs : List Nat) : (ascii cs).length = cs.length := List.length_map _

theorem codepoints_ascii (cs : List Nat) (h : ∀ c ∈ cs, c < 128) : Wtf8.codepoints (ascii cs) = some cs := by
  have : ascii cs = encodeCps cs := by
    induction cs with
    | nil => rfl
    | cons c cs ih =>
      have := ih (fun x hx => h x (List.mem_cons_of_mem _ hx))
      rw [Wtf8.encodeCps_cons, ← this, gutf8, if_pos (h c (List.mem_cons_self ..))]
      rfl
  rw [this]
  exact Wtf8.codepoints_encode cs fun c hc => by
    have := h c hc
    unfold IsCodePoint
    omega

theorem codepoints_length (s : Bytes) : ∀ cs, Wtf8.codepoints s = some cs → cs.length ≤ s.length := by
  induction hn : s.length using Nat.strongRecOn generalizing s with
  | _ n ih =>
    intro cs h
    unfold Wtf8.codepoints at h
    split at h
    · cases h
      simp
    · exact nomatch h
    · rename_i c rest hr
      have hl := Wtf8.nextCodePoint_length hr
      cases hc : Wtf8.codepoints rest with
      | none =>
        rw [hc] at h
        exact nomatch h
      | some t =>
        rw [hc] at h
        simp only [Option.map_some, Option.some.injEq] at h
        have := ih rest.length (by omega) rest rfl t hc
        rw [← h]
        simp only [List.length_cons]
        omega

/-! ## Descriptors -/

/-- `n` times `(`, and `[`. -/
def opens (n : Nat) : List Nat := List.replicate n 0x28 ++ [0x5B]

theorem opens_step (n : Nat) : opens (n + 1) = 0x28 :: opens n := rfl

theorem opens_head (n : Nat) : (opens n).head?.getD 0x29 ≠ 0x29 := by
  cases n <;> simp [opens, List.replicate_succ]

theorem opens_deep : ∀ (n d : Nat), d ≤ n + 1 → JType.getTypeD d (opens n) = .error .diverge
  | _, 0, _ => rfl
  | 0, 1, _ => rfl
  | 0, d + 2, h => absurd h (by omega)
  | n + 1, d + 1, h => by
    rw [opens_step, JType.getTypeD]
    show (match JType.paramsWith (JType.getTypeD d) _ (opens n) with
      | .ok (ts, rest) => _
      | .error e => _) = _
    rw [List.length_cons, JType.paramsWith, if_neg (opens_head n), opens_deep n d (by omega)]

theorem opens_refused : ∀ (n d : Nat), n + 1 < d → JType.getTypeD d (opens n) = .error .invalid
  | _, 0, h => absurd h (by omega)
  | 0, 1, h => absurd h (by omega)
  | 0, d + 2, _ => rfl
  | n + 1, d + 1, h => by
    rw [opens_step, JType.getTypeD]
    show (match JType.paramsWith (JType.getTypeD d) _ (opens n) with
      | .ok (ts, rest) => _
      | .error e => _) = _
    rw [List.length_cons, JType.paramsWith, if_neg (opens_head n), opens_refused n d (by omega)]

/-- `n` times `[()`, and `[I`. -/
def returns : Nat → List Nat
  | 0 => [0x5B, 0x49]
  | n + 1 => 0x5B :: 0x28 :: 0x29 :: returns n

def returnsType : Nat → JType
  | 0 => .array 1 .int
  | n + 1 => .array 1 (.method [] (some (returnsType n)))

theorem returns_length : ∀ n, (returns n).length = 3 * n + 2
  | 0 => rfl
  | n + 1 => by simp only [returns, List.length_cons, returns_length n]; omega

theorem returns_head (n : Nat) : ¬ (returns n).head? = some 0x56 := by
  cases n <;> simp [returns]

theorem returns_step (n d : Nat) : JType.getTypeD (d + 2) (returns (n + 1)) =
    match JType.getTypeD d (returns n) with
    | .ok (t, rest) => .ok (.array 1 (.method [] (some t)), rest)
    | .error e => .error e := by
  have h : JType.getTypeD (d + 1) (0x28 :: 0x29 :: returns n) =
      match JType.getTypeD d (returns n) with
      | .ok (t, rest) => .ok (.method [] (some t), rest)
      | .error e => .error e := by
    rw [JType.getTypeD]
    show (if (returns n).head? = some 0x56 then _ else _) = _
    rw [if_neg (returns_head n)]
    rfl
  rw [returns, JType.getTypeD]
  show (match JType.getTypeD (d + 1) (0x28 :: 0x29 :: returns n) with
    | .ok (t, rest) => (.ok (.array 1 t, rest) : Res (JType × List Nat))
    | .error e => .error e) = _
  rw [h]
  cases JType.getTypeD d (returns n) <;> rfl

theorem returns_deep : ∀ (n d : Nat), d ≤ 2 * n + 1 → JType.getTypeD d (returns n) = .error .diverge
  | _, 0, _ => rfl
  | 0, 1, _ => rfl
  | 0, d + 2, h => absurd h (by omega)
  | n + 1, 1, _ => rfl
  | n + 1, d + 2, h => by rw [returns_step, returns_deep n d (by omega)]

theorem returns_read : ∀ (n d : Nat), 2 * n + 1 < d → JType.getTypeD d (returns n) = .ok (returnsType n, [])
  | _, 0, h => absurd h (by omega)
  | _, 1, h => absurd h (by omega)
  | 0, d + 2, _ => rfl
  | n + 1, d + 2, h => by
    rw [returns_step, returns_read n d (by omega)]
    rfl

theorem parse_ascii (d : Nat) (cs : List Nat) (h : ∀ c ∈ cs, c < 128) : JType.parseTypeD d (ascii cs) =
    match JType.getTypeD d cs with
    | .ok (t, _) => .ok t
    | .error e => .error e := by
  unfold JType.parseTypeD
  rw [codepoints_ascii cs h]
  rfl

/-- Proved: a depth beyond the length of the descriptor is enough. -/
theorem C84_bound_partial (d : Nat) (s : Bytes) (h : s.length < d) : JType.parseTypeD d s = JType.parseType s := by
  unfold JType.parseTypeD JType.parseType
  cases hc : Wtf8.codepoints s with
  | none => rfl
  | some cs =>
    have := codepoints_length s cs hc
    simp only
    rw [JType.getTypeD_same d cs (2 * cs.length + 2) (by omega) (by omega)]
    rfl

/-- Proved: with less room the answer is the same, or the stack overflows. -/
theorem C84_same_partial (d : Nat) (s : Bytes) :
    JType.parseTypeD d s = .error .diverge ∨ JType.parseTypeD d s = JType.parseType s := by
  rw [← C84_bound_partial (max d (s.length + 1)) s (by omega)]
  unfold JType.parseTypeD
  cases hc : Wtf8.codepoints s with
  | none => exact .inr rfl
  | some cs =>
    simp only
    by_cases h : JType.getTypeD d cs = .error .diverge
    · rw [h]
      exact .inl rfl
    · rw [JType.getTypeD_le (Nat.le_max_left d (s.length + 1)) h]
      exact .inr rfl

/-- That depth is needed: for every length there is a descriptor that takes one call more than it has bytes. -/
theorem C84_reached (n : Nat) (hn : 1 ≤ n) : ∃ s : Bytes, s.length = n ∧ JType.parseType s = .error .invalid ∧
    ∀ d ≤ n, JType.parseTypeD d s = .error .diverge := by
  obtain ⟨m, rfl⟩ : ∃ m, n = m + 1 := ⟨n - 1, by omega⟩
  have ha : ∀ c ∈ opens m, c < 128 := by
    intro c hc
    simp only [opens, List.mem_append, List.mem_replicate, List.mem_singleton] at hc
    omega
  have hl : (ascii (opens m)).length = m + 1 := by simp [ascii, opens]
  refine ⟨ascii (opens m), hl, ?_, fun d hd => ?_⟩
  · rw [← C84_bound_partial (m + 2) _ (by omega), parse_ascii _ _ ha, opens_refused m (m + 2) (by omega)]
  · rw [parse_ascii _ _ ha, opens_deep m d hd]

/-- Proved: a descriptor that is accepted takes at most two calls for three of its bytes. -/
theorem C84_accepted_partial (d : Nat) (s : Bytes) (t : JType) (h : JType.parseType s = .ok t)
    (hd : (2 * s.length + 2) / 3 ≤ d) : JType.parseTypeD d s = .ok t := by
  unfold JType.parseType at h
  unfold JType.parseTypeD
  cases hc : Wtf8.codepoints s with
  | none =>
    rw [hc] at h
    exact nomatch h
  | some cs =>
    rw [hc] at h
    have := codepoints_length s cs hc
    simp only at h ⊢
    rcases hg : JType.getType (2 * cs.length + 2) cs with e | ⟨t1, rest⟩
    · rw [hg] at h
      exact nomatch h
    · rw [hg] at h
      rw [(JType.getType_shallow _ _ _ _ hg d).1 (by omega)]
      exact h

/-- That is exact: for every `n` some descriptor of `3 n + 2` bytes is accepted and takes `2 n + 2` calls. -/
theorem C84_accepted_reached (n : Nat) : ∃ (s : Bytes) (t : JType), s.length = 3 * n + 2 ∧ JType.parseType s = .ok t ∧
    JType.parseTypeD (2 * n + 2) s = .ok t ∧ ∀ d ≤ 2 * n + 1, JType.parseTypeD d s = .error .diverge := by
  have ha : ∀ n, ∀ c ∈ returns n, c < 128 := by
    intro n
    induction n with
    | zero => decide
    | succ n ih =>
      intro c hc
      simp only [returns, List.mem_cons] at hc
      rcases hc with rfl | rfl | rfl | hc
      · omega
      · omega
      · omega
      · exact ih c hc
  have hl : (ascii (returns n)).length = 3 * n + 2 := by rw [ascii_length, returns_length]
  have hr : ∀ d, 2 * n + 1 < d → JType.parseTypeD d (ascii (returns n)) = .ok (returnsType n) := by
    intro d hd
    rw [parse_ascii _ _ (ha n), returns_read n d hd]
  refine ⟨ascii (returns n), returnsType n, hl, ?_, hr _ (by omega), fun d hd => ?_⟩
  · rw [← C84_bound_partial (3 * n + 3) _ (by omega)]
    exact hr _ (by omega)
  · rw [parse_ascii _ _ (ha n), returns_deep n d hd]

/-! ## Signatures -/

/-- `n` times `[L<`, and `[L`. -/
def angles : Nat → Str
  | 0 => [0x5B, 0x4C]
  | n + 1 => 0x5B :: 0x4C :: 0x3C :: angles n

/-- `[T;` inside `n` pairs of `[L<` and `>;`. -/
def wrapped : Nat → Str
  | 0 => [0x5B, 0x54, 0x3B]
  | n + 1 => 0x5B :: 0x4C :: 0x3C :: (wrapped n ++ [0x3E, 0x3B])

def wrappedSig : Nat → RefSig
  | 0 => .array 1 (.ref (.typeVar []))
  | n + 1 => .array 1 (.ref (.cls (.mk [] (.mk [] [.exact (wrappedSig n)]) [])))

theorem angles_length : ∀ n, (angles n).length = 3 * n + 2
  | 0 => rfl
  | n + 1 => by simp only [angles, List.length_cons, angles_length n]; omega

theorem wrapped_length : ∀ n, (wrapped n).length = 5 * n + 3
  | 0 => rfl
  | n + 1 => by simp only [wrapped, List.length_cons, List.length_append, wrapped_length n, List.length_nil]; omega

/-- `[L<` before an array signature. -/
theorem angle_step (d : Nat) (x : Str) (e : Err) (h : Sig.refTypeSigD d (0x5B :: x) = .error e) :
    Sig.refTypeSigD (d + 2) (0x5B :: 0x4C :: 0x3C :: 0x5B :: x) = .error e := by
  have h1 : Sig.refTypeSigD (d + 1) (0x4C :: 0x3C :: 0x5B :: x) = .error e := by
    rw [Sig.refTypeSigD]
    have : Sig.typeArgsWith (Sig.refTypeSigD d) ((0x5B :: x).length + 1) (0x5B :: x) = .error e := by
      rw [Sig.typeArgsWith, if_neg (by decide)]
      show (match (match Sig.refTypeSigD d (0x5B :: x) with
          | .ok (y, i) => (.ok (.exact y, i) : Res (TypeArg × Str))
          | .error e => .error e) with
        | .error e => _
        | .ok (a, i) => _) = _
      rw [h]
    have : Sig.simpleWith (Sig.refTypeSigD d) (0x3C :: 0x5B :: x) = .error e := by
      show (match Sig.typeArgsWith (Sig.refTypeSigD d) ((0x5B :: x).length + 1) (0x5B :: x) with
        | .error e => _
        | .ok (args, i') => _) = _
      rw [this]
    show (match Sig.classWith (Sig.refTypeSigD d) (0x4C :: 0x3C :: 0x5B :: x) with
      | .ok (s, i) => _
      | .error e => _) = _
    have : Sig.classWith (Sig.refTypeSigD d) (0x4C :: 0x3C :: 0x5B :: x) = .error e := by
      show (match Sig.simpleWith (Sig.refTypeSigD d) (0x3C :: 0x5B :: x) with
        | .error e => _
        | .ok (name, i) => _) = _
      rw [this]
    rw [this]
  rw [Sig.refTypeSigD]
  show (match (match Sig.refTypeSigD (d + 1) (0x4C :: 0x3C :: 0x5B :: x) with
      | .ok (y, i) => (.ok (.ref y, i) : Res (TypeSig × Str))
      | .error e => .error e) with
    | .ok (t, i) => _
    | .error e => _) = _
  rw [h1]

theorem wrap_step (d : Nat) (x rest : Str) (r : RefSig)
    (h : Sig.refTypeSigD d (0x5B :: x ++ 0x3E :: 0x3B :: rest) = .ok (r, 0x3E :: 0x3B :: rest)) :
    Sig.refTypeSigD (d + 2) (0x5B :: 0x4C :: 0x3C :: (0x5B :: x ++ 0x3E :: 0x3B :: rest)) =
      .ok (.array 1 (.ref (.cls (.mk [] (.mk [] [.exact r]) []))), rest) := by
  have h1 : Sig.refTypeSigD (d + 1) (0x4C :: 0x3C :: (0x5B :: x ++ 0x3E :: 0x3B :: rest)) =
      .ok (.cls (.mk [] (.mk [] [.exact r]) []), rest) := by
    rw [Sig.refTypeSigD]
    have : ∀ k, Sig.typeArgsWith (Sig.refTypeSigD d) (k + 2) (0x5B :: x ++ 0x3E :: 0x3B :: rest) =
        .ok ([.exact r], 0x3E :: 0x3B :: rest) := by
      intro k
      rw [List.cons_append] at h ⊢
      rw [Sig.typeArgsWith, if_neg (by decide)]
      show (match (match Sig.refTypeSigD d (0x5B :: (x ++ 0x3E :: 0x3B :: rest)) with
          | .ok (y, i) => (.ok (.exact y, i) : Res (TypeArg × Str))
          | .error e => .error e) with
        | .error e => _
        | .ok (a, i) => _) = _
      rw [h]
      rfl
    have : Sig.simpleWith (Sig.refTypeSigD d) (0x3C :: (0x5B :: x ++ 0x3E :: 0x3B :: rest)) =
        .ok (.mk [] [.exact r], 0x3B :: rest) := by
      show (match Sig.typeArgsWith (Sig.refTypeSigD d) ((x ++ 0x3E :: 0x3B :: rest).length + 2)
          (0x5B :: x ++ 0x3E :: 0x3B :: rest) with
        | .error e => _
        | .ok (args, i') => _) = _
      rw [this]
      rfl
    show (match Sig.classWith (Sig.refTypeSigD d) (0x4C :: 0x3C :: (0x5B :: x ++ 0x3E :: 0x3B :: rest)) with
      | .ok (s, i) => _
      | .error e => _) = _
    have : Sig.classWith (Sig.refTypeSigD d) (0x4C :: 0x3C :: (0x5B :: x ++ 0x3E :: 0x3B :: rest)) =
        .ok (.mk [] (.mk [] [.exact r]) [], rest) := by
      show (match Sig.simpleWith (Sig.refTypeSigD d) (0x3C :: (0x5B :: x ++ 0x3E :: 0x3B :: rest)) with
        | .error e => _
        | .ok (name, i) => _) = _
      rw [this]
      rfl
    rw [this]
  rw [Sig.refTypeSigD]
  show (match (match Sig.refTypeSigD (d + 1) (0x4C :: 0x3C :: (0x5B :: x ++ 0x3E :: 0x3B :: rest)) with
      | .ok (y, i) => (.ok (.ref y, i) : Res (TypeSig × Str))
      | .error e => .error e) with
    | .ok (t, i) => _
    | .error e => _) = _
  rw [h1]
  rfl

theorem angles_array : ∀ n, ∃ x, angles n = 0x5B :: x
  | 0 => ⟨_, rfl⟩
  | _ + 1 => ⟨_, rfl⟩

theorem wrapped_array : ∀ n, ∃ x, wrapped n = 0x5B :: x
  | 0 => ⟨_, rfl⟩
  | _ + 1 => ⟨_, rfl⟩

theorem angles_deep : ∀ (n d : Nat), d ≤ 2 * n + 1 → Sig.refTypeSigD d (angles n) = .error .diverge
  | _, 0, _ => rfl
  | 0, 1, _ => rfl
  | 0, d + 2, h => absurd h (by omega)
  | n + 1, 1, _ => rfl
  | n + 1, d + 2, h => by
    obtain ⟨x, hx⟩ := angles_array n
    have ih := angles_deep n d (by omega)
    rw [hx] at ih
    rw [angles, hx]
    exact angle_step d x _ ih

theorem angles_refused : ∀ (n d : Nat), 2 * n + 1 < d → Sig.refTypeSigD d (angles n) = .error .invalid
  | _, 0, h => absurd h (by omega)
  | _, 1, h => absurd h (by omega)
  | 0, d + 2, _ => rfl
  | n + 1, d + 2, h => by
    obtain ⟨x, hx⟩ := angles_array n
    have ih := angles_refused n d (by omega)
    rw [hx] at ih
    rw [angles, hx]
    exact angle_step d x _ ih

theorem wrapped_deep : ∀ (n d : Nat) (rest : Str), d ≤ 2 * n + 1 →
    Sig.refTypeSigD d (wrapped n ++ rest) = .error .diverge
  | _, 0, _, _ => rfl
  | 0, 1, _, _ => rfl
  | 0, d + 2, _, h => absurd h (by omega)
  | n + 1, 1, _, _ => rfl
  | n + 1, d + 2, rest, h => by
    obtain ⟨x, hx⟩ := wrapped_array n
    have ih := wrapped_deep n d (0x3E :: 0x3B :: rest) (by omega)
    rw [hx] at ih
    rw [wrapped, hx]
    simp only [List.cons_append, List.append_assoc, List.nil_append] at ih ⊢
    exact angle_step d _ _ ih

theorem wrapped_read : ∀ (n d : Nat) (rest : Str), 2 * n + 1 < d →
    Sig.refTypeSigD d (wrapped n ++ rest) = .ok (wrappedSig n, rest)
  | _, 0, _, h => absurd h (by omega)
  | _, 1, _, h => absurd h (by omega)
  | 0, d + 2, _, _ => rfl
  | n + 1, d + 2, rest, h => by
    obtain ⟨x, hx⟩ := wrapped_array n
    have ih := wrapped_read n d (0x3E :: 0x3B :: rest) (by omega)
    rw [hx] at ih
    have := wrap_step d x rest _ ih
    rw [wrapped, hx]
    simp only [List.cons_append, List.append_assoc, List.nil_append] at this ⊢
    exact this

/-- Proved: two calls for three characters of a signature are enough. -/
theorem C84_signature_bound_partial (d : Nat) (i : Str) (h1 : 1 ≤ d) (h : (2 * i.length + 2) / 3 ≤ d) :
    parseRefD d i = Sig.parseRef i := by
  unfold parseRefD Sig.parseRef Sig.enough
  rw [(Sig.refTypeSigD_same d i (4 * i.length + 8) h1 (by omega)).1 (by omega)]

/-- Proved: with less room the answer is the same, or the stack overflows. -/
theorem C84_signature_same_partial (d : Nat) (i : Str) :
    parseRefD d i = .error .diverge ∨ parseRefD d i = Sig.parseRef i := by
  rw [← C84_signature_bound_partial (max d (i.length + 1)) i (by omega) (by omega)]
  unfold parseRefD
  rcases (Sig.refTypeSigD_le (Nat.le_max_left d (i.length + 1))).or i with h | h
  · rw [h]
    exact .inl rfl
  · rw [h]
    exact .inr rfl

/-- That is exact: for every `n` some signature of `3 n + 2` characters takes `2 n + 2` calls. -/
theorem C84_signature_reached (n : Nat) : ∃ i : Str, i.length = 3 * n + 2 ∧ Sig.parseRef i = .error .invalid ∧
    ∀ d ≤ 2 * n + 1, parseRefD d i = .error .diverge := by
  refine ⟨angles n, angles_length n, ?_, fun d hd => ?_⟩
  · rw [← C84_signature_bound_partial (2 * n + 2) _ (by omega) (by rw [angles_length]; omega)]
    unfold parseRefD
    rw [angles_refused n _ (by omega)]
    rfl
  · unfold parseRefD
    rw [angles_deep n d hd]
    rfl

/-- Proved: a signature that is accepted takes at most two calls for five of its characters. -/
theorem C84_signature_accepted_partial (d : Nat) (i : Str) (r : RefSig) (h : Sig.parseRef i = .ok r)
    (hd : (2 * i.length + 4) / 5 ≤ d) : parseRefD d i = .ok r := by
  unfold Sig.parseRef at h
  unfold parseRefD
  rcases hg : Sig.refTypeSig (Sig.enough i) i with e | ⟨r1, rest⟩
  · rw [hg] at h
    exact nomatch h
  · rw [hg] at h
    rw [(Sig.shallowR _ _ _ _ hg d).1 (by omega)]
    exact h

/-- That is exact: for every `n` some signature of `5 n + 3` characters is accepted and takes `2 n + 2` calls. -/
theorem C84_signature_accepted_reached (n : Nat) : ∃ (i : Str) (r : RefSig), i.length = 5 * n + 3 ∧
    Sig.parseRef i = .ok r ∧ parseRefD (2 * n + 2) i = .ok r ∧ ∀ d ≤ 2 * n + 1, parseRefD d i = .error .diverge := by
  have hr : ∀ d, 2 * n + 1 < d → parseRefD d (wrapped n) = .ok (wrappedSig n) := by
    intro d hd
    have := wrapped_read n d [] hd
    rw [List.append_nil] at this
    unfold parseRefD
    rw [this]
    rfl
  refine ⟨wrapped n, wrappedSig n, wrapped_length n, ?_, hr _ (by omega), fun d hd => ?_⟩
  · rw [← C84_signature_bound_partial (5 * n + 3) _ (by omega) (by rw [wrapped_length]; omega)]
    exact hr _ (by omega)
  · have := wrapped_deep n d [] hd
    rw [List.append_nil] at this
    unfold parseRefD
    rw [this]
    rfl

/-- No depth is enough. -/
theorem C84_violated : ¬ C84_full := by
  rintro ⟨⟨d, h⟩, _⟩
  obtain ⟨s, _, h1, h2⟩ := C84_reached (d + 1) (by omega)
  have := h s
  rw [h1, h2 d (by omega)] at this
  exact nomatch this

theorem C84_signature_violated : ¬ ∃ d, ∀ i, parseRefD d i = Sig.parseRef i := by
  rintro ⟨d, h⟩
  obtain ⟨i, _, h1, h2⟩ := C84_signature_reached d
  have := h i
  rw [h1, h2 d (by omega)] at this
  exact nomatch this

/-- A constant of a class file can hold a descriptor of 65535 bytes that takes 65536 calls before it is refused, and one
of 65534 bytes that is accepted after 43690 calls. -/
example : (∃ s : Bytes, s.length = 65535 ∧ JType.parseType s = .error .invalid ∧
      JType.parseTypeD 65535 s = .error .diverge) ∧
    ∃ (s : Bytes) (t : JType), s.length = 65534 ∧ JType.parseType s = .ok t ∧ JType.parseTypeD 43689 s = .error .diverge := by
  constructor
  · obtain ⟨s, h1, h2, h3⟩ := C84_reached 65535 (by omega)
    exact ⟨s, h1, h2, h3 _ (by omega)⟩
  · obtain ⟨s, t, h1, h2, _, h3⟩ := C84_accepted_reached 21844
    exact ⟨s, t, h1, h2, h3 _ (by omega)⟩

/-- `([I)V` takes three calls: for the method, the array and its elements. -/
example : JType.parseTypeD 3 (ascii [0x28, 0x5B, 0x49, 0x29, 0x56]) = .ok (.method [.array 1 .int] none) ∧
    JType.parseTypeD 2 (ascii [0x28, 0x5B, 0x49, 0x29, 0x56]) = .error .diverge := by
  constructor <;> (rw [parse_ascii _ _ (by decide)]; rfl)

end Verif.Props
