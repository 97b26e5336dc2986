import Verif.Spec.Exec
import Verif.Lemmas.Code
import Verif.Lemmas.Wtf8Api

/-! Bytes at a position encode one instruction at most, up to its canonical form. -/

namespace Verif
open Spec Wtf8

/-! ## What an index stands for -/

theorem isUtf8_unique {P : Pool} {i : UInt16} {s s' : Bytes} (h : IsUtf8 P i s) (h' : IsUtf8 P i s') : s = s' := by
  unfold IsUtf8 at h h'
  rw [h] at h'
  cases h'
  rfl

theorem isClass_unique {P : Pool} {i : UInt16} {s s' : Bytes} (h : IsClass P i s) (h' : IsClass P i s') : s = s' := by
  obtain ⟨j, h1, h2⟩ := h
  obtain ⟨j', h1', h2'⟩ := h'
  rw [h1] at h1'
  cases h1'
  exact isUtf8_unique h2 h2'

theorem isString_unique {P : Pool} {i : UInt16} {s s' : Bytes} (h : IsString P i s) (h' : IsString P i s') :
    s = s' := by
  obtain ⟨j, h1, h2⟩ := h
  obtain ⟨j', h1', h2'⟩ := h'
  rw [h1] at h1'
  cases h1'
  exact isUtf8_unique h2 h2'

theorem isDescr_unique {P : Pool} {i : UInt16} {t t' : JType} (h : IsDescr P i t) (h' : IsDescr P i t') : t = t' := by
  obtain ⟨h1, cs, h2, h3⟩ := h
  obtain ⟨h1', cs', h2', h3'⟩ := h'
  refine Props.C15_injective t t' h1 h1' ?_
  rw [Props.C15_write_text h2, Props.C15_write_text h2']
  exact isUtf8_unique h3 h3'

theorem isNat_unique {P : Pool} {i : UInt16} {n n' : Bytes} {t t' : JType} (h : IsNat P i n t) (h' : IsNat P i n' t') :
    n = n' ∧ t = t' := by
  obtain ⟨a, b, h1, h2, h3⟩ := h
  obtain ⟨a', b', h1', h2', h3'⟩ := h'
  rw [h1] at h1'
  cases h1'
  exact ⟨isUtf8_unique h2 h2', isDescr_unique h3 h3'⟩

theorem isMember_unique {P : Pool} {i : UInt16} {m m' : MemberRef} (h : IsMember P i m) (h' : IsMember P i m') :
    m.norm = m'.norm := by
  obtain ⟨o, n, d, f⟩ := m
  obtain ⟨o', n', d', f'⟩ := m'
  cases h with
  | field a b h1 h2 h3 h4 =>
    cases h' with
    | field a' b' h1' h2' h3' h4' =>
      rw [h1] at h1'
      cases h1'
      obtain ⟨e1, e2⟩ := isNat_unique h4 h4'
      have e3 := isClass_unique h3 h3'
      dsimp only at e1 e2 e3 h2
      subst e1 e2 e3
      have : JType.isMethod d = false := by
        cases d <;> first | rfl | exact absurd rfl (h2 _ _)
      simp [MemberRef.norm, this]
    | method a' b' ps r h1' => rw [h1] at h1'; cases h1'
    | imethod a' b' ps r h1' => rw [h1] at h1'; cases h1'
  | method a b ps r h1 h2 h3 h4 h5 =>
    cases h' with
    | field a' b' h1' => rw [h1] at h1'; cases h1'
    | method a' b' ps' r' h1' h2' h3' h4' h5' =>
      rw [h1] at h1'
      cases h1'
      obtain ⟨e1, e2⟩ := isNat_unique h5 h5'
      have e3 := isClass_unique h4 h4'
      dsimp only at e1 e2 e3 h3 h3'
      subst e1 e2 e3 h3 h3'
      rfl
    | imethod a' b' ps r h1' => rw [h1] at h1'; cases h1'
  | imethod a b ps r h1 h2 h3 h4 h5 =>
    cases h' with
    | field a' b' h1' => rw [h1] at h1'; cases h1'
    | method a' b' ps' r' h1' => rw [h1] at h1'; cases h1'
    | imethod a' b' ps' r' h1' h2' h3' h4' h5' =>
      rw [h1] at h1'
      cases h1'
      obtain ⟨e1, e2⟩ := isNat_unique h5 h5'
      have e3 := isClass_unique h4 h4'
      dsimp only at e1 e2 e3 h3 h3'
      subst e1 e2 e3 h3 h3'
      rfl

theorem isHandle_unique {P : Pool} {i : UInt16} {h h' : MethodHandle} (e : IsHandle P i h) (e' : IsHandle P i h') :
    h.kind = h'.kind ∧ h.member.norm = h'.member.norm := by
  obtain ⟨m, h1, h2⟩ := e
  obtain ⟨m', h1', h2'⟩ := e'
  rw [h1] at h1'
  injection h1' with h1'
  injection h1' with e1 e2
  subst e2
  refine ⟨?_, isMember_unique h2 h2'⟩
  revert e1
  cases h.kind <;> cases h'.kind <;> decide

/-- The kinds of entries that constants have. -/
def entryOf : Entry → Option Nat
  | .int _ => some 0
  | .float _ => some 1
  | .long _ => some 2
  | .double _ => some 3
  | .str _ => some 4
  | .cls _ => some 5
  | .field _ _ => some 6
  | .method _ _ => some 6
  | .imethod _ _ => some 6
  | .mtype _ => some 7
  | .handle _ _ => some 8
  | _ => none

def constKind : Constant → Nat
  | .i32 _ => 0
  | .f32 _ => 1
  | .i64 _ => 2
  | .f64 _ => 3
  | .string _ => 4
  | .cls _ => 5
  | .member _ => 6
  | .methodType _ => 7
  | .methodHandle _ => 8

theorem isConstant_kind {P : Pool} {i : UInt16} {x : Constant} (h : IsConstant P i x) :
    ∃ e, P i = some e ∧ entryOf e = some (constKind x) := by
  cases h with
  | int x h => exact ⟨_, h, rfl⟩
  | float x h => exact ⟨_, h, rfl⟩
  | long x h => exact ⟨_, h, rfl⟩
  | double x h => exact ⟨_, h, rfl⟩
  | string s h => obtain ⟨j, h, _⟩ := h; exact ⟨_, h, rfl⟩
  | cls s h => obtain ⟨j, h, _⟩ := h; exact ⟨_, h, rfl⟩
  | member m h => cases h with
    | field _ _ h => exact ⟨_, h, rfl⟩
    | method _ _ _ _ h => exact ⟨_, h, rfl⟩
    | imethod _ _ _ _ h => exact ⟨_, h, rfl⟩
  | methodType t j h _ => exact ⟨_, h, rfl⟩
  | methodHandle m h => obtain ⟨j, h, _⟩ := h; exact ⟨_, h, rfl⟩

theorem isConstant_unique {P : Pool} {i : UInt16} {x x' : Constant} (h : IsConstant P i x) (h' : IsConstant P i x') :
    x.norm = x'.norm := by
  have hk : constKind x = constKind x' := by
    obtain ⟨e, h1, h2⟩ := isConstant_kind h
    obtain ⟨e', h1', h2'⟩ := isConstant_kind h'
    rw [h1] at h1'
    cases h1'
    rw [h2] at h2'
    exact Option.some.inj h2'
  cases h with
  | int x h => cases h' with
    | int x' h' => rw [h] at h'; cases h'; rfl
    | _ => cases hk
  | float x h => cases h' with
    | float x' h' => rw [h] at h'; cases h'; rfl
    | _ => cases hk
  | long x h => cases h' with
    | long x' h' => rw [h] at h'; cases h'; rfl
    | _ => cases hk
  | double x h => cases h' with
    | double x' h' => rw [h] at h'; cases h'; rfl
    | _ => cases hk
  | string x h => cases h' with
    | string x' h' => rw [isString_unique h h']
    | _ => cases hk
  | cls x h => cases h' with
    | cls x' h' => rw [isClass_unique h h']
    | _ => cases hk
  | member x h => cases h' with
    | member x' h' => exact congrArg Constant.member (isMember_unique h h')
    | _ => cases hk
  | methodType x j h hd => cases h' with
    | methodType x' j' h' hd' => rw [h] at h'; cases h'; rw [isDescr_unique hd hd']
    | _ => cases hk
  | methodHandle x h => cases h' with
    | methodHandle x' h' =>
      obtain ⟨e1, e2⟩ := isHandle_unique h h'
      simp only [Constant.norm, e1, e2]
    | _ => cases hk

theorem isDynamic_unique {P : Pool} {i b b' : UInt16} {n n' : Bytes} {t t' : JType} (h : IsDynamic P i b n t)
    (h' : IsDynamic P i b' n' t') : b = b' ∧ n = n' ∧ t = t' := by
  cases h with
  | constant nt h1 _ h2 => cases h' with
    | constant nt' h1' _ h2' =>
      rw [h1] at h1'
      cases h1'
      exact ⟨rfl, isNat_unique h2 h2'⟩
    | callSite nt' _ _ h1' => rw [h1] at h1'; cases h1'
  | callSite nt _ _ h1 _ h2 => cases h' with
    | constant nt' h1' _ h2' => rw [h1] at h1'; cases h1'
    | callSite nt' _ _ h1' _ h2' =>
      rw [h1] at h1'
      cases h1'
      exact ⟨rfl, isNat_unique h2 h2'⟩

theorem isDyn_unique {c : Ctx} (hT : c.bsm.length ≤ 65536) {i : UInt16} {d d' : Dynamic} (h : IsDyn c i d)
    (h' : IsDyn c i d') : d = d' := by
  obtain ⟨k, b, h1, h2, h3⟩ := h
  obtain ⟨k', b', h1', h2', h3'⟩ := h'
  obtain ⟨e1, e2, e3⟩ := isDynamic_unique h1 h1'
  have l1 := (List.getElem?_eq_some_iff.mp h2).1
  have l2 := (List.getElem?_eq_some_iff.mp h2').1
  have : k = k' := by
    have := congrArg UInt16.toNat e1
    simp only [UInt16.toNat_ofNat'] at this
    omega
  subst this
  rw [h2] at h2'
  cases h2'
  obtain ⟨dt, dn, db⟩ := d
  obtain ⟨dt', dn', db'⟩ := d'
  simp only at e2 e3 h3 h3'
  rw [e2, e3, h3, h3']

/-- Two things that the same index may stand for. -/
def SameO {α : Type} (same : α → α → Prop) : OrDynamic α → OrDynamic α → Prop
  | .static a, .static b => same a b
  | .dynamic d, .dynamic e => d = e
  | _, _ => False

theorem isOrDyn_unique {α : Type} {is : Pool → UInt16 → α → Prop} {same : α → α → Prop} {c : Ctx}
    (hT : c.bsm.length ≤ 65536) (hs : ∀ P i a b, is P i a → is P i b → same a b)
    (hd : ∀ P i a b nt, is P i a → P i ≠ some (.dyn b nt)) {i : UInt16} {x y : OrDynamic α} (h : IsOrDyn is c i x)
    (h' : IsOrDyn is c i y) : SameO same x y := by
  have key : ∀ {d : Dynamic} {a : α}, IsOrDyn is c i (.dynamic d) → IsOrDyn is c i (.static a) → False := by
    rintro d a ⟨h1, k, b, h2, _⟩ h3
    cases h2 with
    | constant nt h4 _ _ => exact hd _ _ _ _ _ h3 h4
    | callSite nt ps r _ h4 _ => exact h1 _ _ h4
  cases x with
  | static a => cases y with
    | static b => exact hs _ _ _ _ h h'
    | dynamic e => exact key h' h
  | dynamic d => cases y with
    | static b => exact key h h'
    | dynamic e => exact isDyn_unique hT h.2 h'.2

theorem sameO_eq {α : Type} {x y : OrDynamic α} (h : SameO Eq x y) : x = y := by
  cases x <;> cases y <;> first | exact h.elim | (cases h; rfl)

theorem isClassType_unique {P : Pool} {i : UInt16} {t t' : ClassType} (h : IsClassType P i t)
    (h' : IsClassType P i t') : t = t' := by
  obtain ⟨s, h1, h2⟩ := h
  obtain ⟨s', h1', h2'⟩ := h'
  obtain rfl := isClass_unique h2 h2'
  generalize hs : s = s' at h1'
  cases h1 with
  | object n => cases h1' with
    | object n' => rw [hs]
    | array a' b' =>
      refine absurd ?_ n
      rw [hs]
      exact (parse_array a' b').2
  | array a b => cases h1' with
    | object n' =>
      refine absurd ?_ n'
      rw [← hs]
      exact (parse_array a b).2
    | array a' b' =>
      have := (parse_array a b).1
      rw [hs, (parse_array a' b').1] at this
      cases this
      rfl

theorem isElem_unique {P : Pool} {i : UInt16} {t t' : JType} (h : IsElem P i t) (h' : IsElem P i t') : t = t' := by
  obtain ⟨s, h1, h2⟩ := h
  obtain ⟨s', h1', h2'⟩ := h'
  obtain rfl := isClass_unique h2 h2'
  generalize hs : s = s' at h1'
  cases h1 with
  | ref n => cases h1' with
    | ref n' => rw [hs]
    | array a' b' =>
      refine absurd ?_ n
      rw [hs]
      exact (parse_array a' b').2
  | array a b => cases h1' with
    | ref n' =>
      refine absurd ?_ n'
      rw [← hs]
      exact (parse_array a b).2
    | array a' b' =>
      have := (parse_array a b).1
      rw [hs, (parse_array a' b').1] at this
      cases this
      rfl

theorem isClassType_not_dyn {P : Pool} {i : UInt16} {t : ClassType} (h : IsClassType P i t) (b nt : UInt16) :
    P i ≠ some (.dyn b nt) := by
  obtain ⟨s, _, h⟩ := h
  exact isClass_not_dyn h b nt

theorem isElem_not_dyn {P : Pool} {i : UInt16} {t : JType} (h : IsElem P i t) (b nt : UInt16) :
    P i ≠ some (.dyn b nt) := by
  obtain ⟨s, _, h⟩ := h
  exact isClass_not_dyn h b nt

theorem isConstant_not_dyn {P : Pool} {i : UInt16} {x : Constant} (h : IsConstant P i x) (b nt : UInt16) :
    P i ≠ some (.dyn b nt) := by
  obtain ⟨e, h1, h2⟩ := isConstant_kind h
  rw [h1]
  rintro ⟨⟩
  cases h2

/-! ## Numbers and labels -/

theorem u1_cancel {a b : Nat} {r r' : Bytes} (ha : a < 256) (hb : b < 256) (h : U1 a ++ r = U1 b ++ r') :
    a = b ∧ r = r' := by
  simp only [U1, List.singleton_append, List.cons.injEq] at h
  refine ⟨?_, h.2⟩
  have := congrArg UInt8.toNat h.1
  simp only [UInt8.toNat_ofNat'] at this
  omega

theorem u2_cancel {a b : Nat} {r r' : Bytes} (ha : a < 65536) (hb : b < 65536) (h : U2 a ++ r = U2 b ++ r') :
    a = b ∧ r = r' := by
  simp only [U2, List.cons_append, List.nil_append, List.cons.injEq] at h
  refine ⟨?_, h.2.2⟩
  have h1 := congrArg UInt8.toNat h.1
  have h2 := congrArg UInt8.toNat h.2.1
  simp only [UInt8.toNat_ofNat'] at h1 h2
  omega

theorem u4_cancel {a b : Nat} {r r' : Bytes} (ha : a < 2 ^ 32) (hb : b < 2 ^ 32) (h : U4 a ++ r = U4 b ++ r') :
    a = b ∧ r = r' := by
  simp only [U4, U2, List.cons_append, List.nil_append, List.cons.injEq] at h
  obtain ⟨e1, e2, e3, e4, e5⟩ := h
  refine ⟨?_, e5⟩
  have h1 := congrArg UInt8.toNat e1
  have h2 := congrArg UInt8.toNat e2
  have h3 := congrArg UInt8.toNat e3
  have h4 := congrArg UInt8.toNat e4
  simp only [UInt8.toNat_ofNat'] at h1 h2 h3 h4
  omega

theorem s1_cancel {a b : Int8} {r r' : Bytes} (h : S1 a.toInt ++ r = S1 b.toInt ++ r') : a = b ∧ r = r' := by
  unfold S1 at h
  obtain ⟨e1, e2⟩ := u1_cancel (by omega) (by omega) h
  refine ⟨Int8.toInt_inj.mp ?_, e2⟩
  have h1 := a.le_toInt
  have h2 := a.toInt_lt
  have h3 := b.le_toInt
  have h4 := b.toInt_lt
  omega

theorem s2_cancel {a b : Int} {r r' : Bytes} (ha : -2 ^ 15 ≤ a ∧ a < 2 ^ 15) (hb : -2 ^ 15 ≤ b ∧ b < 2 ^ 15)
    (h : S2 a ++ r = S2 b ++ r') : a = b ∧ r = r' := by
  unfold S2 at h
  obtain ⟨e1, e2⟩ := u2_cancel (by omega) (by omega) h
  exact ⟨by omega, e2⟩

theorem s4_cancel {a b : Int} {r r' : Bytes} (ha : -2 ^ 31 ≤ a ∧ a < 2 ^ 31) (hb : -2 ^ 31 ≤ b ∧ b < 2 ^ 31)
    (h : S4 a ++ r = S4 b ++ r') : a = b ∧ r = r' := by
  unfold S4 at h
  obtain ⟨e1, e2⟩ := u4_cancel (by omega) (by omega) h
  exact ⟨by omega, e2⟩

/-- No two labels have the same position. -/
def Apart (c : Ctx) : Prop := ∀ l l' n, c.pos l = some n → c.pos l' = some n → l = l'

theorem dist_unique {c : Ctx} (hc : Apart c) {p : Nat} {l l' : Label} {n : Int} (h : Dist c p l n)
    (h' : Dist c p l' n) : l = l' := by
  obtain ⟨t, h1, h2⟩ := h
  obtain ⟨t', h1', h2'⟩ := h'
  have : t = t' := by omega
  subst this
  exact hc _ _ _ h1 h1'

theorem near_unique {c : Ctx} (hc : Apart c) {p : Nat} {l l' : Label} {b b' r r' : Bytes} (h : near p c l b)
    (h' : near p c l' b') (e : b ++ r = b' ++ r') : l = l' ∧ r = r' := by
  obtain ⟨n, h1, h2, h3, rfl⟩ := h
  obtain ⟨n', h1', h2', h3', rfl⟩ := h'
  obtain ⟨rfl, e'⟩ := s2_cancel ⟨h2, h3⟩ ⟨h2', h3'⟩ e
  exact ⟨dist_unique hc h1 h1', e'⟩

theorem far_unique {c : Ctx} (hc : Apart c) {p : Nat} {l l' : Label} {b b' r r' : Bytes} (h : far p c l b)
    (h' : far p c l' b') (e : b ++ r = b' ++ r') : l = l' ∧ r = r' := by
  obtain ⟨n, h1, h2, h3, rfl⟩ := h
  obtain ⟨n', h1', h2', h3', rfl⟩ := h'
  obtain ⟨rfl, e'⟩ := s4_cancel ⟨h2, h3⟩ ⟨h2', h3'⟩ e
  exact ⟨dist_unique hc h1 h1', e'⟩

theorem pair_unique {c : Ctx} (hc : Apart c) {p : Nat} {l l' : Int32 × Label} {b b' r r' : Bytes} (h : pair p c l b)
    (h' : pair p c l' b') (e : b ++ r = b' ++ r') : l = l' ∧ r = r' := by
  obtain ⟨x, rfl, h⟩ := h
  obtain ⟨x', rfl, h'⟩ := h'
  rw [List.append_assoc, List.append_assoc] at e
  obtain ⟨e1, e2⟩ := s4_cancel ⟨l.1.le_toInt, l.1.toInt_lt⟩ ⟨l'.1.le_toInt, l'.1.toInt_lt⟩ e
  obtain ⟨e3, e4⟩ := far_unique hc h h' e2
  exact ⟨Prod.ext (Int32.toInt_inj.mp e1) e3, e4⟩

theorem all_unique {α : Type} {f : Fmt α} {c : Ctx}
    (hf : ∀ {x x' : α} {b b' r r' : Bytes}, f c x b → f c x' b' → b ++ r = b' ++ r' → x = x' ∧ r = r') :
    ∀ {xs xs' : List α} {b b' r r' : Bytes}, xs.length = xs'.length → Fmt.all f c xs b → Fmt.all f c xs' b' →
      b ++ r = b' ++ r' → xs = xs' ∧ r = r'
  | [], [], b, b', r, r', _, h, h', e => by
    rw [Fmt.all] at h h'
    subst h h'
    exact ⟨rfl, e⟩
  | x :: xs, x' :: xs', b, b', r, r', hl, h, h', e => by
    obtain ⟨b1, b2, rfl, h1, h2⟩ := h
    obtain ⟨b1', b2', rfl, h1', h2'⟩ := h'
    rw [List.append_assoc, List.append_assoc] at e
    obtain ⟨rfl, e⟩ := hf h1 h1' e
    obtain ⟨rfl, e⟩ := all_unique hf (by simpa using hl) h2 h2' e
    exact ⟨rfl, e⟩

/-! ## Operands -/

theorem op_unique {o o' : Op} (h : UInt8.ofNat o.code = UInt8.ofNat o'.code) : o = o' := by
  have lt : ∀ o : Op, o.code < 256 := by
    intro o
    cases o <;> decide
  have h := congrArg UInt8.toNat h
  simp only [UInt8.toNat_ofNat'] at h
  have h1 := lt o
  have h2 := lt o'
  have h : o.ctorIdx = o'.ctorIdx := by
    unfold Op.code at h h1 h2
    omega
  have key : ∀ o : Op, Op.ofNat o.ctorIdx = o := by
    intro o
    cases o <;> rfl
  rw [← key o, ← key o', h]

/-- What the operands of an instruction are. -/
inductive Form where
  | plain (i : Insn)
  | bipush | sipush | ldc | ldc_w | ldc2_w
  | var (m : LoadOrStore) (t : LocalType)
  | ret | iinc | wide
  | field (o : GetOrPut) (t : MemberType)
  | call (t : MemberType)
  | special | interface | dynamic | new | newarray | anewarray | multianewarray | checkcast | instanceof
  | jump (k : Cond)
  | gotoWide | jsr | jsrWide | table | lookup

def form (o : Op) : Form :=
  match noArg o with
  | some i => .plain i
  | none => match o with
    | .bipush => .bipush
    | .sipush => .sipush
    | .ldc => .ldc
    | .ldc_w => .ldc_w
    | .ldc2_w => .ldc2_w
    | .iload => .var .load .int
    | .lload => .var .load .long
    | .fload => .var .load .float
    | .dload => .var .load .double
    | .aload => .var .load .ref
    | .istore => .var .store .int
    | .lstore => .var .store .long
    | .fstore => .var .store .float
    | .dstore => .var .store .double
    | .astore => .var .store .ref
    | .ret => .ret
    | .iinc => .iinc
    | .getstatic => .field .get .static
    | .putstatic => .field .put .static
    | .getfield => .field .get .virtual
    | .putfield => .field .put .virtual
    | .invokestatic => .call .static
    | .invokevirtual => .call .virtual
    | .invokespecial => .special
    | .invokeinterface => .interface
    | .invokedynamic => .dynamic
    | .new => .new
    | .newarray => .newarray
    | .anewarray => .anewarray
    | .multianewarray => .multianewarray
    | .checkcast => .checkcast
    | .instanceof => .instanceof
    | .ifeq => .jump .eqZ
    | .ifne => .jump .neZ
    | .iflt => .jump .ltZ
    | .ifge => .jump .geZ
    | .ifgt => .jump .gtZ
    | .ifle => .jump .leZ
    | .if_icmpeq => .jump .intEq
    | .if_icmpne => .jump .intNe
    | .if_icmplt => .jump .intLt
    | .if_icmpge => .jump .intGe
    | .if_icmpgt => .jump .intGt
    | .if_icmple => .jump .intLe
    | .if_acmpeq => .jump .refEq
    | .if_acmpne => .jump .refNe
    | .ifnull => .jump .isNull
    | .ifnonnull => .jump .isNonNull
    | .goto => .jump .always
    | .goto_w => .gotoWide
    | .jsr => .jsr
    | .jsr_w => .jsrWide
    | .tableswitch => .table
    | .lookupswitch => .lookup
    | _ => .wide

/-- The operands `t` of the instruction `i`. -/
def Args (c : Ctx) (p : Nat) : Form → Insn → Bytes → Prop
  | .plain j, i, t => t = [] ∧ normal i = normal j
  | .bipush, i, t => ∃ x : Int8, i = .push (.static (.i32 (Int32.ofInt x.toInt))) ∧ t = S1 x.toInt
  | .sipush, i, t => ∃ x : Int16, i = .push (.static (.i32 (Int32.ofInt x.toInt))) ∧ t = S2 x.toInt
  | .ldc, i, t => ∃ (x : OrDynamic Constant) (k : UInt16), i = .push x ∧ IsOrDyn IsConstant c k x ∧ k.toNat < 256 ∧
      t = U1 k.toNat
  | .ldc_w, i, t | .ldc2_w, i, t => ∃ (x : OrDynamic Constant) (k : UInt16), i = .push x ∧
      IsOrDyn IsConstant c k x ∧ t = U2 k.toNat
  | .var m s, i, t => ∃ n < 256, i = .localVariable m s (UInt16.ofNat n) ∧ t = U1 n
  | .ret, i, t => ∃ n < 256, i = .ret (UInt16.ofNat n) ∧ t = U1 n
  | .iinc, i, t => ∃ n < 256, ∃ x : Int8, i = .intIncrement (UInt16.ofNat n) (Int16.ofInt x.toInt) ∧
      t = U1 n ++ S1 x.toInt
  | .wide, i, t => (∃ (m : LoadOrStore) (s : LocalType) (n : UInt16), i = .localVariable m s n ∧
        t = U1 (varOp m s).code ++ U2 n.toNat) ∨
      (∃ n : UInt16, i = .ret n ∧ t = U1 Op.ret.code ++ U2 n.toNat) ∨
      ∃ (n : UInt16) (x : Int16), i = .intIncrement n x ∧ t = U1 Op.iinc.code ++ U2 n.toNat ++ S2 x.toInt
  | .field o s, i, t => ∃ (m : OrDynamic MemberRef) (k : UInt16), i = .field o s m ∧ IsOrDyn IsMember c k m ∧
      t = U2 k.toNat
  | .call s, i, t => ∃ (m : OrDynamic MemberRef) (k : UInt16), i = .invokeExact s m ∧ IsOrDyn IsMember c k m ∧
      t = U2 k.toNat
  | .special, i, t => ∃ (m : OrDynamic MemberRef) (k : UInt16), i = .invokeSpecial m ∧ IsOrDyn IsMember c k m ∧
      t = U2 k.toNat
  | .interface, i, t => ∃ (m : OrDynamic MemberRef) (k : UInt16) (n : UInt8), i = .invokeInterface m n ∧
      IsOrDyn IsMember c k m ∧ t = U2 k.toNat ++ (U1 n.toNat ++ U1 0)
  | .dynamic, i, t => ∃ (d : Dynamic) (k : UInt16), i = .invokeDynamic d ∧ IsDyn c k d ∧ t = U2 k.toNat ++ U2 0
  | .new, i, t => ∃ (x : OrDynamic Bytes) (k : UInt16), i = .new x ∧ IsOrDyn IsClass c k x ∧ t = U2 k.toNat
  | .newarray, i, t => ∃ (x : JType) (n : Nat), i = .newArray (.static x) 1 ∧ arrayCode x = some n ∧ t = U1 n
  | .anewarray, i, t => ∃ (x : OrDynamic JType) (k : UInt16), i = .newArray x 1 ∧ IsOrDyn IsElem c k x ∧
      t = U2 k.toNat
  | .multianewarray, i, t => ∃ (x : OrDynamic JType) (k : UInt16) (n : UInt8), i = .newArray x n ∧
      IsOrDyn IsElem c k x ∧ t = U2 k.toNat ++ U1 n.toNat
  | .checkcast, i, t => ∃ (x : OrDynamic ClassType) (k : UInt16), i = .checkCast x ∧ IsOrDyn IsClassType c k x ∧
      t = U2 k.toNat
  | .instanceof, i, t => ∃ (x : OrDynamic ClassType) (k : UInt16), i = .instanceOf x ∧ IsOrDyn IsClassType c k x ∧
      t = U2 k.toNat
  | .jump k, i, t => ∃ l, i = .jump k l ∧ near p c l t
  | .gotoWide, i, t => ∃ l, i = .jump .always l ∧ far p c l t
  | .jsr, i, t => ∃ l, i = .jsr l ∧ near p c l t
  | .jsrWide, i, t => ∃ l, i = .jsr l ∧ far p c l t
  | .table, i, t => ∃ (d : Label) (low : Int32) (ls : List Label) (pad b b' : Bytes), i = .tableSwitch d low ls ∧
      pad.length ≤ 3 ∧ (p + 1 + pad.length) % 4 = 0 ∧ ls ≠ [] ∧ low.toInt + ls.length - 1 < 2 ^ 31 ∧ far p c d b ∧
      Fmt.all (far p) c ls b' ∧ t = pad ++ (b ++ (S4 low.toInt ++ (S4 (low.toInt + ls.length - 1) ++ b')))
  | .lookup, i, t => ∃ (d : Label) (x es : List (Int32 × Label)) (pad b b' : Bytes), i = .lookupSwitch d x ∧
      pad.length ≤ 3 ∧ (p + 1 + pad.length) % 4 = 0 ∧ es.Perm x ∧ es.Pairwise (fun a b => a.1.toInt < b.1.toInt) ∧
      es.length < 2 ^ 32 ∧ far p c d b ∧ Fmt.all (pair p) c es b' ∧ t = pad ++ (b ++ (U4 es.length ++ b'))

theorem enc_form {c : Ctx} {p : Nat} {i : Insn} {b : Bytes} (h : Enc c p i b) :
    b = [] ∨ ∃ o t, b = UInt8.ofNat o.code :: t ∧ Args c p (form o) i t := by
  cases h with
  | @noArg o i h =>
    refine .inr ⟨o, [], rfl, ?_⟩
    have : form o = .plain i := by simp only [form, h]
    rw [this]
    exact ⟨rfl, rfl⟩
  | @fromInt o t h =>
    refine .inr ⟨o, [], rfl, ?_⟩
    cases t <;> cases h <;> exact ⟨rfl, rfl⟩
  | sameType => exact .inl rfl
  | sameInt => exact .inl rfl
  | label => exact .inl rfl
  | line => exact .inl rfl
  | bipush => exact .inr ⟨.bipush, _, rfl, _, rfl, rfl⟩
  | sipush => exact .inr ⟨.sipush, _, rfl, _, rfl, rfl⟩
  | ldc h _ _ h' => exact .inr ⟨.ldc, _, rfl, _, _, rfl, h, h', rfl⟩
  | ldc_w h => exact .inr ⟨.ldc_w, _, rfl, _, _, rfl, h, rfl⟩
  | ldc2_w h => exact .inr ⟨.ldc2_w, _, rfl, _, _, rfl, h, rfl⟩
  | @var m t n h =>
    refine .inr ⟨varOp m t, _, rfl, ?_⟩
    have : form (varOp m t) = .var m t := by cases m <;> cases t <;> rfl
    rw [this]
    exact ⟨_, h, rfl, rfl⟩
  | varWide => exact .inr ⟨.wide, _, rfl, .inl ⟨_, _, _, rfl, rfl⟩⟩
  | ret h => exact .inr ⟨.ret, _, rfl, _, h, rfl, rfl⟩
  | retWide => exact .inr ⟨.wide, _, rfl, .inr (.inl ⟨_, rfl, rfl⟩)⟩
  | iinc h => exact .inr ⟨.iinc, _, rfl, _, h, _, rfl, rfl⟩
  | iincWide => exact .inr ⟨.wide, _, rfl, .inr (.inr ⟨_, _, rfl, rfl⟩)⟩
  | @field o t m k h =>
    refine .inr ⟨Spec.fieldOp o t, _, rfl, ?_⟩
    have : form (Spec.fieldOp o t) = .field o t := by cases o <;> cases t <;> rfl
    rw [this]
    exact ⟨_, _, rfl, h, rfl⟩
  | @call t m k h =>
    refine .inr ⟨callOp t, _, rfl, ?_⟩
    have : form (callOp t) = .call t := by cases t <;> rfl
    rw [this]
    exact ⟨_, _, rfl, h, rfl⟩
  | special h => exact .inr ⟨.invokespecial, _, rfl, _, _, rfl, h, rfl⟩
  | interface h => exact .inr ⟨.invokeinterface, _, rfl, _, _, _, rfl, h, rfl⟩
  | dynamic _ h => exact .inr ⟨.invokedynamic, _, rfl, _, _, rfl, h, rfl⟩
  | new h => exact .inr ⟨.new, _, rfl, _, _, rfl, h, rfl⟩
  | newarray h => exact .inr ⟨.newarray, _, rfl, _, _, rfl, h, rfl⟩
  | anewarray h => exact .inr ⟨.anewarray, _, rfl, _, _, rfl, h, rfl⟩
  | multianewarray h => exact .inr ⟨.multianewarray, _, rfl, _, _, _, rfl, h, rfl⟩
  | checkcast h => exact .inr ⟨.checkcast, _, rfl, _, _, rfl, h, rfl⟩
  | instanceof h => exact .inr ⟨.instanceof, _, rfl, _, _, rfl, h, rfl⟩
  | @jump k l b h =>
    refine .inr ⟨condOp k, _, rfl, ?_⟩
    have : form (condOp k) = .jump k := by cases k <;> rfl
    rw [this]
    exact ⟨_, rfl, h⟩
  | gotoWide h => exact .inr ⟨.goto_w, _, rfl, _, rfl, h⟩
  | jsr h => exact .inr ⟨.jsr, _, rfl, _, rfl, h⟩
  | jsrWide h => exact .inr ⟨.jsr_w, _, rfl, _, rfl, h⟩
  | @tableSwitch d low ls pad b b' h1 h2 h3 h4 h5 h6 h7 =>
    refine .inr ⟨.tableswitch, pad ++ (b ++ (S4 low.toInt ++ (S4 (low.toInt + ls.length - 1) ++ b'))), ?_, ?_⟩
    · simp only [U1, List.append_assoc, List.cons_append, List.nil_append]
    · exact ⟨d, low, ls, pad, b, b', rfl, h1, h2, h3, h5, h6, h7, rfl⟩
  | @lookupSwitch d t es pad b b' h1 h2 h3 h4 h5 h6 h7 =>
    refine .inr ⟨.lookupswitch, pad ++ (b ++ (U4 es.length ++ b')), ?_, ?_⟩
    · simp only [U1, List.append_assoc, List.cons_append, List.nil_append]
    · exact ⟨d, t, es, pad, b, b', rfl, h1, h2, h3, h4, h5, h6, h7, rfl⟩

theorem idx_cancel {k k' : UInt16} {r r' : Bytes} (h : U2 k.toNat ++ r = U2 k'.toNat ++ r') : k = k' ∧ r = r' := by
  obtain ⟨e1, e2⟩ := u2_cancel k.toNat_lt k'.toNat_lt h
  exact ⟨UInt16.toNat_inj.mp e1, e2⟩

theorem int16_cancel {k k' : Int16} {r r' : Bytes} (h : S2 k.toInt ++ r = S2 k'.toInt ++ r') : k = k' ∧ r = r' := by
  obtain ⟨e1, e2⟩ := s2_cancel ⟨k.le_toInt, k.toInt_lt⟩ ⟨k'.le_toInt, k'.toInt_lt⟩ h
  exact ⟨Int16.toInt_inj.mp e1, e2⟩

theorem byte_cancel {k k' : UInt8} {r r' : Bytes} (h : U1 k.toNat ++ r = U1 k'.toNat ++ r') : k = k' ∧ r = r' := by
  obtain ⟨e1, e2⟩ := u1_cancel k.toNat_lt k'.toNat_lt h
  exact ⟨UInt8.toNat_inj.mp e1, e2⟩

theorem op_cancel {o o' : Op} {r r' : Bytes} (h : U1 o.code ++ r = U1 o'.code ++ r') : o = o' ∧ r = r' := by
  simp only [U1, List.singleton_append, List.cons.injEq] at h
  exact ⟨op_unique h.1, h.2⟩

theorem push_same {x y : OrDynamic Constant} (h : SameO (fun a b => a.norm = b.norm) x y) :
    normal (.push x) = normal (.push y) := by
  cases x <;> cases y <;> first
    | exact h.elim
    | (have h : _ = _ := h; simp only [normal, h])

theorem member_same (f : OrDynamic MemberRef → Insn)
    (hf : ∀ m, normal (f (.static m)) = some (f (.static m.norm))) {x y : OrDynamic MemberRef}
    (h : SameO (fun a b => a.norm = b.norm) x y) : normal (f x) = normal (f y) := by
  cases x <;> cases y <;> first
    | exact h.elim
    | (have h : _ = _ := h; simp only [hf, h])

theorem args_unique {c : Ctx} (hT : c.bsm.length ≤ 65536) (hc : Apart c) {p : Nat} {f : Form} {i j : Insn}
    {t t' r r' : Bytes} (h : Args c p f i t) (h' : Args c p f j t') (e : t ++ r = t' ++ r') :
    normal i = normal j ∧ r = r' := by
  have con : ∀ {k : UInt16} {x y : OrDynamic Constant}, IsOrDyn IsConstant c k x → IsOrDyn IsConstant c k y →
      normal (.push x) = normal (.push y) := fun h h' => push_same (isOrDyn_unique (is := IsConstant) (same := fun a b : Constant => a.norm = b.norm) hT
    (fun _ _ _ _ h h' => isConstant_unique h h') (fun _ _ _ b nt h => isConstant_not_dyn h b nt) h h')
  have mem : ∀ (f : OrDynamic MemberRef → Insn) (_ : ∀ m, normal (f (.static m)) = some (f (.static m.norm)))
      {k : UInt16} {x y : OrDynamic MemberRef}, IsOrDyn IsMember c k x → IsOrDyn IsMember c k y →
      normal (f x) = normal (f y) := fun f hf _ _ _ h h' => member_same f hf (isOrDyn_unique (is := IsMember) (same := fun a b : MemberRef => a.norm = b.norm) hT
    (fun _ _ _ _ h h' => isMember_unique h h') (fun _ _ _ b nt h => isMember_not_dyn h b nt) h h')
  cases f with
  | plain k =>
    obtain ⟨rfl, h⟩ := h
    obtain ⟨rfl, h'⟩ := h'
    exact ⟨h.trans h'.symm, e⟩
  | bipush =>
    obtain ⟨x, rfl, rfl⟩ := h
    obtain ⟨y, rfl, rfl⟩ := h'
    obtain ⟨rfl, e1⟩ := s1_cancel e
    exact ⟨rfl, e1⟩
  | sipush =>
    obtain ⟨x, rfl, rfl⟩ := h
    obtain ⟨y, rfl, rfl⟩ := h'
    obtain ⟨rfl, e1⟩ := int16_cancel e
    exact ⟨rfl, e1⟩
  | ldc =>
    obtain ⟨x, k, rfl, h1, h2, rfl⟩ := h
    obtain ⟨y, k', rfl, h1', h2', rfl⟩ := h'
    obtain ⟨e1, e2⟩ := u1_cancel h2 h2' e
    obtain rfl := UInt16.toNat_inj.mp e1
    exact ⟨con h1 h1', e2⟩
  | ldc_w =>
    obtain ⟨x, k, rfl, h1, rfl⟩ := h
    obtain ⟨y, k', rfl, h1', rfl⟩ := h'
    obtain ⟨rfl, e2⟩ := idx_cancel e
    exact ⟨con h1 h1', e2⟩
  | ldc2_w =>
    obtain ⟨x, k, rfl, h1, rfl⟩ := h
    obtain ⟨y, k', rfl, h1', rfl⟩ := h'
    obtain ⟨rfl, e2⟩ := idx_cancel e
    exact ⟨con h1 h1', e2⟩
  | var m s =>
    obtain ⟨n, hn, rfl, rfl⟩ := h
    obtain ⟨n', hn', rfl, rfl⟩ := h'
    obtain ⟨rfl, e1⟩ := u1_cancel hn hn' e
    exact ⟨rfl, e1⟩
  | ret =>
    obtain ⟨n, hn, rfl, rfl⟩ := h
    obtain ⟨n', hn', rfl, rfl⟩ := h'
    obtain ⟨rfl, e1⟩ := u1_cancel hn hn' e
    exact ⟨rfl, e1⟩
  | iinc =>
    obtain ⟨n, hn, x, rfl, rfl⟩ := h
    obtain ⟨n', hn', x', rfl, rfl⟩ := h'
    rw [List.append_assoc, List.append_assoc] at e
    obtain ⟨rfl, e1⟩ := u1_cancel hn hn' e
    obtain ⟨rfl, e2⟩ := s1_cancel e1
    exact ⟨rfl, e2⟩
  | wide =>
    rcases h with ⟨m, s, n, rfl, rfl⟩ | ⟨n, rfl, rfl⟩ | ⟨n, x, rfl, rfl⟩ <;>
    rcases h' with ⟨m', s', n', rfl, rfl⟩ | ⟨n', rfl, rfl⟩ | ⟨n', x', rfl, rfl⟩ <;>
    simp only [List.append_assoc] at e <;> obtain ⟨e0, e1⟩ := op_cancel e
    · obtain ⟨rfl, e2⟩ := idx_cancel e1
      refine ⟨?_, e2⟩
      cases m <;> cases s <;> cases m' <;> cases s' <;> first | rfl | (cases e0; done)
    · cases m <;> cases s <;> cases e0
    · cases m <;> cases s <;> cases e0
    · cases m' <;> cases s' <;> cases e0
    · obtain ⟨rfl, e2⟩ := idx_cancel e1
      exact ⟨rfl, e2⟩
    · cases e0
    · cases m' <;> cases s' <;> cases e0
    · cases e0
    · obtain ⟨rfl, e2⟩ := idx_cancel e1
      obtain ⟨rfl, e3⟩ := int16_cancel e2
      exact ⟨rfl, e3⟩
  | field o s =>
    obtain ⟨x, k, rfl, h1, rfl⟩ := h
    obtain ⟨y, k', rfl, h1', rfl⟩ := h'
    obtain ⟨rfl, e2⟩ := idx_cancel e
    exact ⟨mem (.field o s) (fun _ => rfl) h1 h1', e2⟩
  | call s =>
    obtain ⟨x, k, rfl, h1, rfl⟩ := h
    obtain ⟨y, k', rfl, h1', rfl⟩ := h'
    obtain ⟨rfl, e2⟩ := idx_cancel e
    exact ⟨mem (.invokeExact s) (fun _ => rfl) h1 h1', e2⟩
  | special =>
    obtain ⟨x, k, rfl, h1, rfl⟩ := h
    obtain ⟨y, k', rfl, h1', rfl⟩ := h'
    obtain ⟨rfl, e2⟩ := idx_cancel e
    exact ⟨mem .invokeSpecial (fun _ => rfl) h1 h1', e2⟩
  | interface =>
    obtain ⟨x, k, n, rfl, h1, rfl⟩ := h
    obtain ⟨y, k', n', rfl, h1', rfl⟩ := h'
    simp only [List.append_assoc] at e
    obtain ⟨rfl, e2⟩ := idx_cancel e
    obtain ⟨rfl, e3⟩ := byte_cancel e2
    exact ⟨mem (fun m => .invokeInterface m n) (fun _ => rfl) h1 h1', (u1_cancel (by omega) (by omega) e3).2⟩
  | dynamic =>
    obtain ⟨x, k, rfl, h1, rfl⟩ := h
    obtain ⟨y, k', rfl, h1', rfl⟩ := h'
    simp only [List.append_assoc] at e
    obtain ⟨rfl, e2⟩ := idx_cancel e
    rw [isDyn_unique hT h1 h1']
    exact ⟨rfl, (u2_cancel (by omega) (by omega) e2).2⟩
  | new =>
    obtain ⟨x, k, rfl, h1, rfl⟩ := h
    obtain ⟨y, k', rfl, h1', rfl⟩ := h'
    obtain ⟨rfl, e2⟩ := idx_cancel e
    rw [sameO_eq (isOrDyn_unique (is := IsClass) (same := Eq) hT (fun _ _ _ _ h h' => isClass_unique h h') (fun _ _ _ b nt h => isClass_not_dyn h b nt) h1 h1')]
    exact ⟨rfl, e2⟩
  | newarray =>
    obtain ⟨x, n, rfl, h1, rfl⟩ := h
    obtain ⟨y, n', rfl, h1', rfl⟩ := h'
    have lt : ∀ {x : JType} {n : Nat}, arrayCode x = some n → n < 256 := by
      intro x n h
      cases x <;> cases h <;> omega
    obtain ⟨rfl, e2⟩ := u1_cancel (lt h1) (lt h1') e
    refine ⟨?_, e2⟩
    cases x <;> cases h1 <;> cases y <;> first | rfl | (cases h1'; done)
  | anewarray =>
    obtain ⟨x, k, rfl, h1, rfl⟩ := h
    obtain ⟨y, k', rfl, h1', rfl⟩ := h'
    obtain ⟨rfl, e2⟩ := idx_cancel e
    rw [sameO_eq (isOrDyn_unique (is := IsElem) (same := Eq) hT (fun _ _ _ _ h h' => isElem_unique h h') (fun _ _ _ b nt h => isElem_not_dyn h b nt) h1 h1')]
    exact ⟨rfl, e2⟩
  | multianewarray =>
    obtain ⟨x, k, n, rfl, h1, rfl⟩ := h
    obtain ⟨y, k', n', rfl, h1', rfl⟩ := h'
    simp only [List.append_assoc] at e
    obtain ⟨rfl, e2⟩ := idx_cancel e
    obtain ⟨rfl, e3⟩ := byte_cancel e2
    rw [sameO_eq (isOrDyn_unique (is := IsElem) (same := Eq) hT (fun _ _ _ _ h h' => isElem_unique h h') (fun _ _ _ b nt h => isElem_not_dyn h b nt) h1 h1')]
    exact ⟨rfl, e3⟩
  | checkcast =>
    obtain ⟨x, k, rfl, h1, rfl⟩ := h
    obtain ⟨y, k', rfl, h1', rfl⟩ := h'
    obtain ⟨rfl, e2⟩ := idx_cancel e
    rw [sameO_eq (isOrDyn_unique (is := IsClassType) (same := Eq) hT (fun _ _ _ _ h h' => isClassType_unique h h')
      (fun _ _ _ b nt h => isClassType_not_dyn h b nt) h1 h1')]
    exact ⟨rfl, e2⟩
  | instanceof =>
    obtain ⟨x, k, rfl, h1, rfl⟩ := h
    obtain ⟨y, k', rfl, h1', rfl⟩ := h'
    obtain ⟨rfl, e2⟩ := idx_cancel e
    rw [sameO_eq (isOrDyn_unique (is := IsClassType) (same := Eq) hT (fun _ _ _ _ h h' => isClassType_unique h h')
      (fun _ _ _ b nt h => isClassType_not_dyn h b nt) h1 h1')]
    exact ⟨rfl, e2⟩
  | jump k =>
    obtain ⟨l, rfl, h1⟩ := h
    obtain ⟨l', rfl, h1'⟩ := h'
    obtain ⟨rfl, e1⟩ := near_unique hc h1 h1' e
    exact ⟨rfl, e1⟩
  | gotoWide =>
    obtain ⟨l, rfl, h1⟩ := h
    obtain ⟨l', rfl, h1'⟩ := h'
    obtain ⟨rfl, e1⟩ := far_unique hc h1 h1' e
    exact ⟨rfl, e1⟩
  | jsr =>
    obtain ⟨l, rfl, h1⟩ := h
    obtain ⟨l', rfl, h1'⟩ := h'
    obtain ⟨rfl, e1⟩ := near_unique hc h1 h1' e
    exact ⟨rfl, e1⟩
  | jsrWide =>
    obtain ⟨l, rfl, h1⟩ := h
    obtain ⟨l', rfl, h1'⟩ := h'
    obtain ⟨rfl, e1⟩ := far_unique hc h1 h1' e
    exact ⟨rfl, e1⟩
  | table =>
    obtain ⟨d, low, ls, pad, b, b', rfl, h1, h2, h3, h4, h5, h6, rfl⟩ := h
    obtain ⟨d', low', ls', pad', b1, b1', rfl, h1', h2', h3', h4', h5', h6', rfl⟩ := h'
    simp only [List.append_assoc] at e
    obtain ⟨_, e1⟩ := List.append_inj e (by omega)
    obtain ⟨rfl, e2⟩ := far_unique hc h5 h5' e1
    obtain ⟨g1, e3⟩ := s4_cancel ⟨low.le_toInt, low.toInt_lt⟩ ⟨low'.le_toInt, low'.toInt_lt⟩ e2
    obtain rfl := Int32.toInt_inj.mp g1
    have p1 := List.length_pos_iff.mpr h3
    have p2 := List.length_pos_iff.mpr h3'
    have := low.le_toInt
    obtain ⟨g2, e4⟩ := s4_cancel ⟨by omega, h4⟩ ⟨by omega, h4'⟩ e3
    obtain ⟨rfl, e5⟩ := all_unique (fun a b c => far_unique hc a b c) (by omega) h6 h6' e4
    exact ⟨rfl, e5⟩
  | lookup =>
    obtain ⟨d, x, es, pad, b, b', rfl, h1, h2, h3, h4, h5, h6, h7, rfl⟩ := h
    obtain ⟨d', x', es', pad', b1, b1', rfl, h1', h2', h3', h4', h5', h6', h7', rfl⟩ := h'
    simp only [List.append_assoc] at e
    obtain ⟨_, e1⟩ := List.append_inj e (by omega)
    obtain ⟨rfl, e2⟩ := far_unique hc h6 h6' e1
    obtain ⟨g1, e3⟩ := u4_cancel h5 h5' e2
    obtain ⟨rfl, e5⟩ := all_unique (fun a b c => pair_unique hc a b c) g1 h7 h7' e3
    refine ⟨?_, e5⟩
    simp only [normal, sorted_unique h3 h4, sorted_unique h3' h4']

/-- The first instruction of a sequence of bytes is determined. -/
theorem enc_unique {c : Ctx} (hT : c.bsm.length ≤ 65536) (hc : Apart c) {p : Nat} {i j : Insn} {b b' r r' : Bytes}
    (h : Enc c p i b) (h' : Enc c p j b') (hb : b ≠ []) (hb' : b' ≠ []) (e : b ++ r = b' ++ r') :
    normal i = normal j ∧ b = b' ∧ r = r' := by
  rcases enc_form h with rfl | ⟨o, t, rfl, h1⟩
  · exact absurd rfl hb
  rcases enc_form h' with rfl | ⟨o', t', rfl, h1'⟩
  · exact absurd rfl hb'
  simp only [List.cons_append, List.cons.injEq] at e
  obtain rfl := op_unique e.1
  obtain ⟨e1, rfl⟩ := args_unique hT hc h1 h1' e.2
  exact ⟨e1, by rw [List.append_cancel_right e.2], rfl⟩

end Verif
