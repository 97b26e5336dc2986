import Verif.Spec.Class

/-!
# Execution of method bodies (JVMS 2.11, 3.10, 6.5)

What the instructions do to the data is left open: a `Machine` may do anything to the stack, the
variables, the heap and the world outside. What is fixed is control: which instruction comes next. The
same machine runs an instruction list with labels and a code array.

Only data types are taken from the model.
-/

namespace Verif.Spec

/-- What the instructions do to a state. (Relations, since threads, calls and input may interfere.) -/
structure Machine (σ : Type) where
  /-- An instruction that is followed by the next one. -/
  plain : Insn → σ → σ → Prop
  /-- An instruction that throws. -/
  fails : Insn → σ → σ → Prop
  /-- An instruction that returns to the caller. -/
  leaves : Insn → σ → σ → Prop
  /-- The operands are taken from the stack and compared. -/
  holds : Cond → σ → Bool → σ → Prop
  /-- The key of a switch is taken from the stack. -/
  key : σ → Int32 → σ → Prop
  /-- `jsr` pushes a return address, `ret` takes one from a variable. -/
  save : Nat → σ → σ → Prop
  saved : UInt16 → σ → Nat → σ → Prop
  /-- The exception thrown is of this class (`none`: of any class). -/
  caught : Option Bytes → σ → Prop

/-- A program: the instruction at an address with the address after it, the address of a label, the value
that stands for a return address, and the handlers. -/
structure Prog where
  insn : Nat → Insn → Nat → Prop
  target : Label → Nat → Prop
  token : Nat → Nat
  catches : List Catch

/-- The state of a method: at an instruction, after its return, or after an exception that is not caught. -/
inductive Conf (σ : Type) where
  | at (pc : Nat) (s : σ)
  | returned (s : σ)
  | thrown (s : σ)

/-- Instructions after which the next one follows. -/
def Flows : Insn → Prop
  | .jump _ _ | .jsr _ | .ret _ | .tableSwitch _ _ _ | .lookupSwitch _ _ | .return _ | .throw | .label _
  | .lineNumber _ => False
  | _ => True

/-- The label chosen by the key of a switch. -/
def tableLabel (d : Label) (low : Int32) (ls : List Label) (k : Int32) : Label :=
  if low.toInt ≤ k.toInt then (ls[(k.toInt - low.toInt).toNat]?).getD d else d
def lookupLabel (d : Label) (t : List (Int32 × Label)) (k : Int32) : Label := (t.lookup k).getD d

section
variable {σ : Type} (M : Machine σ) (P : Prog)

/-- Where an instruction goes, with `n` the address after it. -/
inductive Goes (n : Nat) : Insn → σ → Nat → σ → Prop
  | plain {i : Insn} {s s' : σ} : Flows i → M.plain i s s' → Goes n i s n s'
  | taken {k : Cond} {l : Label} {s s' : σ} {a : Nat} : (k = .always → s' = s) → (k ≠ .always → M.holds k s true s') →
      P.target l a → Goes n (.jump k l) s a s'
  | passed {k : Cond} {l : Label} {s s' : σ} : k ≠ .always → M.holds k s false s' → Goes n (.jump k l) s n s'
  | jsr {l : Label} {s s' : σ} {a : Nat} : M.save (P.token n) s s' → P.target l a → Goes n (.jsr l) s a s'
  | ret {v : UInt16} {s s' : σ} {a : Nat} : M.saved v s (P.token a) s' → (∃ i m, P.insn a i m) →
      Goes n (.ret v) s a s'
  | table {d : Label} {low : Int32} {ls : List Label} {s s' : σ} {k : Int32} {a : Nat} : M.key s k s' →
      P.target (tableLabel d low ls k) a → Goes n (.tableSwitch d low ls) s a s'
  | lookup {d : Label} {t : List (Int32 × Label)} {s s' : σ} {k : Int32} {a : Nat} : M.key s k s' →
      P.target (lookupLabel d t k) a → Goes n (.lookupSwitch d t) s a s'

/-- The handler is for exceptions thrown at `pc` in this state. -/
def Handles (k : Catch) (pc : Nat) (s : σ) : Prop :=
  (∃ a b, P.target k.start a ∧ P.target k.stop b ∧ a ≤ pc ∧ pc < b) ∧ M.caught k.ty s

/-- One step. Of the handlers the first counts. -/
inductive Step : Conf σ → Conf σ → Prop
  | go {pc n a : Nat} {i : Insn} {s s' : σ} : P.insn pc i n → Goes M P n i s a s' → Step (.at pc s) (.at a s')
  | leave {pc n : Nat} {t : Option LocalType} {s s' : σ} : P.insn pc (.return t) n → M.leaves (.return t) s s' →
      Step (.at pc s) (.returned s')
  | handled {pc n a : Nat} {i : Insn} {s s' : σ} {ks ks' : List Catch} {k : Catch} : P.insn pc i n →
      targets i = [] → M.fails i s s' → P.catches = ks ++ k :: ks' → (∀ h ∈ ks, ¬ Handles M P h pc s') →
      Handles M P k pc s' → P.target k.handler a → Step (.at pc s) (.at a s')
  | escapes {pc n : Nat} {i : Insn} {s s' : σ} : P.insn pc i n → targets i = [] → M.fails i s s' →
      (∀ h ∈ P.catches, ¬ Handles M P h pc s') → Step (.at pc s) (.thrown s')

/-- Some number of steps. -/
inductive Runs : Nat → Conf σ → Conf σ → Prop
  | zero {c : Conf σ} : Runs 0 c c
  | more {n : Nat} {c d e : Conf σ} : Runs n c d → Step M P d e → Runs (n + 1) c e

end

/-- A state with another address. -/
def Conf.map {σ : Type} (φ : Nat → Nat) : Conf σ → Conf σ
  | .at pc s => .at (φ pc) s
  | .returned s => .returned s
  | .thrown s => .thrown s

/-- The two programs do the same, whatever the machine and the initial state: after every number of
steps they are in the same state, at addresses that correspond by `φ`. -/
def Alike (P Q : Prog) (φ : Nat → Nat) : Prop :=
  ∀ (σ : Type) (M : Machine σ) (s : σ) (n : Nat),
    (∀ d, Runs M P n (.at 0 s) d → Runs M Q n (.at 0 s) (d.map φ)) ∧
    (∀ e, Runs M Q n (.at 0 s) e → ∃ d, e = d.map φ ∧ Runs M P n (.at 0 s) d)

/-- The two programs do the same as far as can be told from outside: they take the same number of steps to the
same results, and go through the same states. -/
def Equivalent (P Q : Prog) : Prop :=
  ∀ (σ : Type) (M : Machine σ) (s : σ) (n : Nat) (r : σ),
    (Runs M P n (.at 0 s) (.returned r) ↔ Runs M Q n (.at 0 s) (.returned r)) ∧
    (Runs M P n (.at 0 s) (.thrown r) ↔ Runs M Q n (.at 0 s) (.thrown r)) ∧
    ((∃ pc, Runs M P n (.at 0 s) (.at pc r)) ↔ ∃ pc, Runs M Q n (.at 0 s) (.at pc r))

/-! ## The two kinds of programs -/

/-- The program of an instruction list: the addresses are the numbers of the instructions (that occupy
space), a label is where it is placed. `τ` gives the return addresses. -/
def source (is : List Insn) (ks : List Catch) (τ : Nat → Nat) : Prog where
  insn k i n := (is.filterMap normal)[k]? = some i ∧ n = k + 1
  target l k := place l is = some k
  token := τ
  catches := ks

/-- In a class file labels are positions. -/
def absolute (P : Pool) (T : List Bsm) : Ctx where
  pool := P
  bsm := T
  pos l := some l.toNat
  handler _ := none

/-- Instructions of a code array begin at 0, and where the one before ends: at `p` follow the bytes `t`. -/
inductive Begins (c : Ctx) (code : Bytes) : Nat → Bytes → Prop
  | first : Begins c code 0 code
  | next {p : Nat} {i : Insn} {b t : Bytes} : Begins c code p (b ++ t) → Enc c p i b → b ≠ [] →
      Begins c code (p + b.length) t

/-- The program of a code array and an exception table: the addresses are positions, and so are the
labels in its instructions and handlers. -/
def binary (P : Pool) (T : List Bsm) (code : Bytes) (ks : List Catch) : Prog where
  insn p i n := ∃ j b t, Begins (absolute P T) code p (b ++ t) ∧ Enc (absolute P T) p j b ∧ normal j = some i ∧
    n = p + b.length
  target l p := p = l.toNat
  token p := p
  catches := ks

/-- The content `bs` of an attribute `Code` has this code array and this exception table (JVMS 4.7.3). -/
def HasCode (P : Pool) (T : List Bsm) (bs code : Bytes) (ks : List Catch) : Prop :=
  ∃ (ms ml : UInt16) (hs as : Bytes), code.length < 2 ^ 32 ∧
    bs = U2 ms.toNat ++ U2 ml.toNat ++ U4 code.length ++ code ++ hs ++ as ∧
    Fmt.table2 handlerEntry (absolute P T) ks hs

/-- No subroutines (they ended with class files of version 50). -/
def NoSubroutines (is : List Insn) : Prop := ∀ i ∈ is, (∀ l, i ≠ .jsr l) ∧ ∀ v, i ≠ .ret v

/-! ## Class files -/

/-- The content of an attribute `Code` as a program. -/
def program : Fmt Prog := fun c P bs =>
  ∃ code ks, HasCode c.pool c.bsm bs code ks ∧ P = binary c.pool c.bsm code ks

/-- The same classes up to method bodies. -/
structure SameParts {C D : Type} (R : C → D → Prop) (x : ClassOf C) (y : ClassOf D) : Prop where
  version : y.version = x.version
  access : y.access = x.access
  name : y.name = x.name
  superName : y.superName = x.superName
  interfaces : y.interfaces = x.interfaces
  fields : y.fields = x.fields
  methods : Matched (SameMethod R) x.methods y.methods
  attrs : y.attrs = x.attrs

end Verif.Spec
