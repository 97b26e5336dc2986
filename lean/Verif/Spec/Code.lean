import Verif.Spec.Instr
import Verif.Spec.Attr
import Verif.Spec.Frame
import Verif.Model.Code

/-!
# Method bodies (JVMS 4.7.3, 4.7.12 – 4.7.14)

Only data types are taken from the model.
-/

namespace Verif.Spec
open Fmt Sig

/-! ## Layout of the attribute `Code` -/

/-- JVMS 4.7.12. -/
def lineEntry : Fmt LineEntry := struct [on LineEntry.pc word, on LineEntry.line word]

/-- JVMS 4.7.13. -/
def varEntry : Fmt VarEntry := struct [on VarEntry.start word, on VarEntry.len word,
  on VarEntry.name utf8, on VarEntry.descriptor descr, on VarEntry.index word]

/-- JVMS 4.7.14. -/
def varTypeEntry : Fmt VarTypeEntry := struct [on VarTypeEntry.start word, on VarTypeEntry.len word,
  on VarTypeEntry.name utf8, on VarTypeEntry.signature (sig RText), on VarTypeEntry.index word]

def codeAttr : Fmt CodeAttr
  | c, .lines ls, bs => attr N.lineNumberTable (table2 lineEntry) c ls bs
  | c, .vars vs, bs => attr N.localVariableTable (table2 varEntry) c vs bs
  | c, .varTypes vs, bs => attr N.localVariableTypeTable (table2 varTypeEntry) c vs bs
  | c, .invisibleType as, bs =>
    attr N.runtimeInvisibleTypeAnnotations (table2 (typeAnnotation codeTarget)) c as bs
  | c, .visibleType as, bs =>
    attr N.runtimeVisibleTypeAnnotations (table2 (typeAnnotation codeTarget)) c as bs
  | c, .frames fs, bs => attr N.stackMapTable (table2 frame) c fs bs
  | c, .raw a, bs => attr a.name bytes c a.inner bs

/-- An entry of the exception table. -/
def handlerEntry : Fmt Catch := struct [on Catch.start label, on Catch.stop label,
  on Catch.handler label, on Catch.ty (indexOpt IsClass)]

/-- What the attribute `Code` of a class file says. -/
structure Body where
  maxStack : UInt16
  maxLocals : UInt16
  code : List Insn
  catches : List Catch
  attrs : List CodeAttr

/-- `max_stack`, `max_locals`, the code array `b` with its length, the exception table, the attributes. -/
def bodyWith (b : Bytes) : Fmt Body := fun c x bs =>
  ∃ hs as, Layout c 0 x.code b ∧ b.length < 4294967296 ∧ table2 handlerEntry c x.catches hs ∧
    table2 codeAttr c x.attrs as ∧
    bs = U2 x.maxStack.toNat ++ U2 x.maxLocals.toNat ++ U4 b.length ++ b ++ hs ++ as

/-! ## Positions -/

/-- The instructions that occupy space, in canonical form and with their positions. -/
inductive Positioned (c : Ctx) : Nat → List Insn → Bytes → List (Nat × Insn) → Prop
  | nil {p : Nat} : Positioned c p [] [] []
  | skip {p : Nat} {i : Insn} {is : List Insn} {bs : Bytes} {r : List (Nat × Insn)} : Enc c p i [] →
      normal i = none → Positioned c p is bs r → Positioned c p (i :: is) bs r
  | keep {p : Nat} {i j : Insn} {is : List Insn} {b bs : Bytes} {r : List (Nat × Insn)} : Enc c p i b →
      normal i = some j → Positioned c (p + b.length) is bs r →
      Positioned c p (i :: is) (b ++ bs) ((p, j) :: r)

/-- The instruction list for a code array of `len` bytes: before the instruction at `p` comes its label
`ν p` and its line number, in this order; likewise at the end. -/
def markers (ν : Nat → Option Label) (line : Nat → Option UInt16) (p : Nat) : List Insn :=
  (ν p).toList.map .label ++ (line p).toList.map .lineNumber

def rebuild (ν : Nat → Option Label) (line : Nat → Option UInt16) : List (Nat × Insn) → Nat → List Insn
  | [], len => markers ν line len
  | (p, i) :: r, len => markers ν line p ++ i :: rebuild ν line r len

/-! ## What the attributes say -/

/-- All entries of line number tables, in order. -/
def lineEntries : CodeAttr → List LineEntry
  | .lines ls => ls
  | _ => []

/-- The line of a position: the last entry counts. -/
def lineAt (ls : List LineEntry) (p : Nat) : Option UInt16 :=
  (ls.reverse.find? fun e => e.pc.toNat = p).map LineEntry.line

/-- What an entry of either table says about a variable. -/
structure VarInfo where
  start : Nat
  stop : Nat
  name : Bytes
  index : UInt16
  descriptor : Option JType
  signature : Option RefSig

def varInfos : CodeAttr → List VarInfo
  | .vars vs => vs.map fun e =>
    ⟨e.start.toNat, e.start.toNat + e.len.toNat, e.name, e.index, some e.descriptor, none⟩
  | .varTypes vs => vs.map fun e =>
    ⟨e.start.toNat, e.start.toNat + e.len.toNat, e.name, e.index, none, some e.signature⟩
  | _ => []

/-- The entry is about the variable. -/
def VarInfo.About (ν : Nat → Option Label) (e : VarInfo) (v : LocalVariable) : Prop :=
  ν e.start = some v.start ∧ ν e.stop = some v.stop ∧ e.name = v.name ∧ e.index = v.index

instance (ν : Nat → Option Label) (e : VarInfo) (v : LocalVariable) : Decidable (e.About ν v) := by
  unfold VarInfo.About
  infer_instance

/-- The variables `vs` are what the entries `es` say: every entry is about one of them, each is the
subject of some entry, no two have the same range, index and name, and types and signatures are those of
the last entry that tells. -/
structure Merged (ν : Nat → Option Label) (es : List VarInfo) (vs : List LocalVariable) : Prop where
  all : ∀ e ∈ es, ∃ v ∈ vs, e.About ν v
  only : ∀ v ∈ vs, ∃ e ∈ es, e.About ν v
  once : vs.Pairwise fun v w => ¬ (v.start = w.start ∧ v.stop = w.stop ∧ v.name = w.name ∧ v.index = w.index)
  descriptor : ∀ v ∈ vs, v.descriptor =
    ((es.filter fun e => e.About ν v).filterMap VarInfo.descriptor).getLast?
  signature : ∀ v ∈ vs, v.signature =
    ((es.filter fun e => e.About ν v).filterMap VarInfo.signature).getLast?

/-- The attributes that are kept as they are, up to the names of labels and handlers. -/
def renCatch (f : Label → Label) (k : Catch) : Catch := ⟨f k.start, f k.stop, f k.handler, k.ty⟩

def renAnnotation (f : Label → Label) (a : TypeAnnotation CodeTarget) : TypeAnnotation CodeTarget :=
  { a with target := renTarget f (renCatch f) a.target }

def keptAttr (f : Label → Label) : CodeAttr → List CodeAttribute
  | .invisibleType as => [.invisibleType (as.map (renAnnotation f))]
  | .visibleType as => [.visibleType (as.map (renAnnotation f))]
  | .raw a => [.raw a]
  | _ => []

/-! ## References -/

def vtypeLabels : VType → List Label
  | .uninit l => [l]
  | _ => []

def frameLabels : Frame → List Label
  | .same _ | .chop _ _ => []
  | .one _ v => vtypeLabels v
  | .append _ vs => vs.flatMap vtypeLabels
  | .full _ ls ss => ls.flatMap vtypeLabels ++ ss.flatMap vtypeLabels

def attrLabels : CodeAttr → List Label
  | .invisibleType as | .visibleType as => as.flatMap fun a => targetLabels a.target
  | .frames fs => fs.flatMap frameLabels
  | _ => []

def catchLabels (k : Catch) : List Label := [k.start, k.stop, k.handler]

/-- The labels used in a body. -/
def Body.labels (x : Body) : List Label :=
  (x.code.filterMap normal).flatMap targets ++ x.catches.flatMap catchLabels ++ x.attrs.flatMap attrLabels

/-- The positions a body refers to. -/
def Body.refs (c : Ctx) (x : Body) : List Nat :=
  x.labels.filterMap c.pos ++ (x.attrs.flatMap varInfos).flatMap fun e => [e.start, e.stop]

/-- The handlers that type annotations refer to. -/
def attrCatches : CodeAttr → List Catch
  | .invisibleType as | .visibleType as => as.flatMap fun a =>
    match a.target with
    | .catchParam k => [k]
    | _ => []
  | _ => []

def codeAttrNames : List Bytes := [N.lineNumberTable, N.localVariableTable, N.localVariableTypeTable,
  N.runtimeInvisibleTypeAnnotations, N.runtimeVisibleTypeAnnotations, N.stackMapTable]

def _root_.Verif.CodeAttr.Readable : CodeAttr → Prop
  | .invisibleType as => ∀ a ∈ as, Keyed a.vals
  | .visibleType as => ∀ a ∈ as, Keyed a.vals
  | .raw a => a.name ∉ codeAttrNames
  | _ => True

/-- What is asked of a body in order to be read: labels are where the code has them, entries of tables
are about positions of instructions (or the end), handlers of annotations are in the table, and the parts
can be read (C34, C43). -/
structure Body.Ok (c : Ctx) (len : Nat) (x : Body) (pis : List (Nat × Insn)) : Prop where
  insns : ∀ i ∈ x.code, Readable i
  labels : ∀ l p, c.pos l = some p → .label l ∈ x.code
  lines : ∀ e ∈ x.attrs.flatMap lineEntries, e.pc.toNat ∈ pis.map Prod.fst ++ [len]
  vars : ∀ e ∈ x.attrs.flatMap varInfos, e.start ∈ pis.map Prod.fst ++ [len] ∧
    e.stop ∈ pis.map Prod.fst ++ [len] ∧ e.stop < 65536
  handlers : ∀ k ∈ x.attrs.flatMap attrCatches, ∀ n, c.handler k = some n → x.catches[n]? = some k
  attrs : ∀ a ∈ x.attrs, a.Readable

/-- The value `y` says what the body says, with other names `ρ` for the labels: the label of the
position `p` is `ν p`. -/
structure Describes (c : Ctx) (len : Nat) (x : Body) (pis : List (Nat × Insn)) (ν : Nat → Option Label)
    (ρ : Label → Label) (y : Code) : Prop where
  inj : ∀ p q l, ν p = some l → ν q = some l → p = q
  dom : ∀ p, (ν p).isSome ↔ p ∈ x.refs c
  names : ∀ l p, c.pos l = some p → p ∈ x.refs c → ν p = some (ρ l)
  maxStack : y.maxStack = x.maxStack
  maxLocals : y.maxLocals = x.maxLocals
  code : y.code.map (resolveI c.bsm) = rebuild ν (lineAt (x.attrs.flatMap lineEntries))
    (pis.map fun e => (e.1, renI ρ e.2)) len
  catches : y.catches = x.catches.map (renCatch ρ)
  attrs : ∃ vs, Merged ν (x.attrs.flatMap varInfos) vs ∧
    y.attrs = x.attrs.flatMap (keptAttr ρ) ++ if vs.isEmpty then [] else [.locals vs]

/-! ## The attributes of a value -/

/-- The entry of a table of variables for a variable with a descriptor. -/
def varEntryOf (c : Ctx) (v : LocalVariable) (e : VarEntry) : Prop :=
  c.pos v.start = some e.start.toNat ∧ c.pos v.stop = some (e.start.toNat + e.len.toNat) ∧
    e.name = v.name ∧ e.index = v.index ∧ v.descriptor = some e.descriptor

/-- The entry of a table of types for a variable with a signature. -/
def varTypeEntryOf (c : Ctx) (v : LocalVariable) (e : VarTypeEntry) : Prop :=
  c.pos v.start = some e.start.toNat ∧ c.pos v.stop = some (e.start.toNat + e.len.toNat) ∧
    e.name = v.name ∧ e.index = v.index ∧ v.signature = some e.signature

/-- What stands in the file for an attribute of a value: variables are given in one or two tables. -/
inductive Lowers (c : Ctx) : CodeAttribute → List CodeAttr → Prop
  | visible {as : List (TypeAnnotation CodeTarget)} : Lowers c (.visibleType as) [.visibleType as]
  | invisible {as : List (TypeAnnotation CodeTarget)} : Lowers c (.invisibleType as) [.invisibleType as]
  | raw {a : RawAttribute} : Lowers c (.raw a) [.raw a]
  | locals {vs : List LocalVariable} {es : List VarEntry} {ts : List VarTypeEntry} :
      Matched (varEntryOf c) (vs.filter fun v => v.descriptor.isSome) es →
      Matched (varTypeEntryOf c) (vs.filter fun v => v.signature.isSome) ts → (es ≠ [] ∨ ts ≠ []) →
      Lowers c (.locals vs) ((if es.isEmpty then [] else [.vars es]) ++ if ts.isEmpty then [] else [.varTypes ts])

/-- What stands in the file for a value. -/
def codeBody (b : Bytes) : Fmt Code := fun c x bs =>
  ∃ lss, Matched (Lowers c) x.attrs lss ∧
    bodyWith b c ⟨x.maxStack, x.maxLocals, x.code, x.catches, lss.flatten⟩ bs

/-- What stands in a class file for a value, with the positions that its labels have there. -/
def codeFile : Fmt Code := fun c x bs =>
  ∃ (c' : Ctx) (b : Bytes), c'.pool = c.pool ∧ c'.bsm = c.bsm ∧
    (∀ l p, c'.pos l = some p → .label l ∈ x.code ∧ p < 65536) ∧
    (∀ k n, c'.handler k = some n → x.catches[n]? = some k) ∧ codeBody b c' x bs

/-- The place of a label: the number of instructions before it (that occupy space). -/
def place (l : Label) : List Insn → Option Nat
  | [] => none
  | .label l' :: is => if l' = l then some 0 else place l is
  | i :: is => (place l is).map (· + if (normal i).isSome then 1 else 0)

/-- Instructions without the markers. -/
def solid (is : List Insn) : List Insn := is.filter fun
  | .label _ | .lineNumber _ => false
  | _ => true

/-- The labels that are placed, in order. -/
def placed (is : List Insn) : List Label := is.filterMap fun
  | .label l => some l
  | _ => none

def attrVars : CodeAttribute → List LocalVariable
  | .locals vs => vs
  | _ => []

def varLabels (v : LocalVariable) : List Label := [v.start, v.stop]

def renVar (f : Label → Label) (v : LocalVariable) : LocalVariable :=
  { v with start := f v.start, stop := f v.stop }

def renCodeAttr (f : Label → Label) : CodeAttribute → List CodeAttribute
  | .invisibleType as => [.invisibleType (as.map (renAnnotation f))]
  | .visibleType as => [.visibleType (as.map (renAnnotation f))]
  | .raw a => [.raw a]
  | .locals _ => []

def codeAttrLabels : CodeAttribute → List Label
  | .invisibleType as | .visibleType as => as.flatMap fun a => targetLabels a.target
  | .locals vs => vs.flatMap varLabels
  | .raw _ => []

/-- The labels that a value refers to. -/
def codeLabels (x : Code) : List Label :=
  (x.code.filterMap normal).flatMap targets ++ x.catches.flatMap catchLabels ++ x.attrs.flatMap codeAttrLabels

/-- `y` is `x` up to names of labels: `ρ l` is the name of `l`. Labels that are not referred to and line
numbers are gone, labels in the same place have become one, and all variables are in one attribute. -/
structure SameBody (T : List Bsm) (x y : Code) (ρ : Label → Label) : Prop where
  maxStack : y.maxStack = x.maxStack
  maxLocals : y.maxLocals = x.maxLocals
  insns : solid (y.code.map (resolveI T)) = (x.code.filterMap normal).map (renI ρ)
  lines : ∀ n, .lineNumber n ∉ y.code
  placed : (placed y.code).Nodup
  only : ∀ l ∈ Spec.placed y.code, ∃ k ∈ codeLabels x, l = ρ k
  places : ∀ l ∈ codeLabels x, (place l x.code).isSome ∧ place (ρ l) (y.code.map (resolveI T)) = place l x.code
  catches : y.catches = x.catches.map (renCatch ρ)
  attrs : ∃ vs, vs.Perm ((x.attrs.flatMap attrVars).map (renVar ρ)) ∧
    y.attrs = x.attrs.flatMap (renCodeAttr ρ) ++ if vs.isEmpty then [] else [.locals vs]

/-! ## Sizes -/

/-- A bound for the bytes that are written for an instruction. -/
def room : Insn → Nat
  | .label _ | .lineNumber _ => 0
  | .jump _ _ | .jsr _ => 10
  | .tableSwitch _ _ ls => 16 + 4 * ls.length
  | .lookupSwitch _ t => 12 + 8 * t.length
  | _ => 6

/-- Bodies whose code is surely within the limits of C37. -/
def Compact (is : List Insn) : Prop :=
  (is.map room).sum ≤ 24575 ∨ (is.map room).sum + 5 * branches is ≤ 32767

/-! ## Code of any origin -/

/-- An instruction at the position `p`: the opcode, for a switch the padding up to a multiple of four,
the operands. -/
def RawAt (p : Nat) (r : RInsn) (b : Bytes) : Prop :=
  RawOk r ∧ ∃ pad, b = U1 (rawOp r).code ++ pad ++ rawArgs r ∧
    if rawOp r = .tableswitch ∨ rawOp r = .lookupswitch then pad.length < 4 ∧ (p + 1 + pad.length) % 4 = 0
    else pad = []

/-- The bytes are these instructions, at these positions. -/
inductive Decodes : Nat → Bytes → List (Nat × RInsn) → Prop
  | nil {p : Nat} : Decodes p [] []
  | cons {p : Nat} {r : RInsn} {b bs : Bytes} {rs : List (Nat × RInsn)} : RawAt p r b →
      Decodes (p + b.length) bs rs → Decodes p (b ++ bs) ((p, r) :: rs)

/-- The label at a distance from `p`. -/
def reach (ν : Nat → Option Label) (p : Nat) (off : Int) : Option Label :=
  if 0 ≤ p + off then ν (p + off).toNat else none

/-- The distance of a branch. -/
def branchOff : RInsn → Option Int
  | .IfEq a | .IfNe a | .IfLt a | .IfGe a | .IfGt a | .IfLe a | .IfICmpEq a | .IfICmpNe a | .IfICmpLt a
  | .IfICmpGe a | .IfICmpGt a | .IfICmpLe a | .IfACmpEq a | .IfACmpNe a | .Goto a | .Jsr a | .IfNull a
  | .IfNonNull a => some a.toInt
  | .GotoW a | .JsrW a => some a.toInt
  | _ => none

/-- All distances in an instruction. -/
def rawTargets : RInsn → List Int
  | .TableSwitch d t => d.toInt :: t.offsets.map Int32.toInt
  | .LookupSwitch d es => d.toInt :: es.map fun e => e.off.toInt
  | r => (branchOff r).toList

/-- The instruction `i` is not a marker and has the labels that `look` gives for the distances in `r`. Of entries of a
lookup table with equal keys the last counts. -/
def Refers (look : Int → Option Label) (r : RInsn) (i : Insn) : Prop :=
  match r with
  | .TableSwitch d t => ∃ dl ls, i = .tableSwitch dl t.low ls ∧ look d.toInt = some dl ∧
      ls.map some = t.offsets.map fun o => look o.toInt
  | .LookupSwitch d es => ∃ dl t, i = .lookupSwitch dl t ∧ look d.toInt = some dl ∧
      (∀ e ∈ es, (look e.off.toInt).isSome) ∧ (t.map Prod.fst).Nodup ∧
      ∀ k, t.lookup k = (es.reverse.find? fun e => e.key = k).bind fun e => look e.off.toInt
  | r =>
    match branchOff r with
    | none => targets i = [] ∧ solid [i] = [i]
    | some o => ∃ l, look o = some l ∧
        ((∃ k, i = .jump k l ∧ (rawOp r = condOp k ∨ k = .always ∧ rawOp r = .goto_w)) ∨
          i = .jsr l ∧ (rawOp r = .jsr ∨ rawOp r = .jsr_w))

def annCatches : CodeAttribute → List Catch
  | .invisibleType as | .visibleType as => as.flatMap fun a =>
    match a.target with
    | .catchParam k => [k]
    | _ => []
  | _ => []

def targetRanges : CodeTarget → List (Label × Label)
  | .localVar ts | .resourceVar ts => ts.map fun t => (t.start, t.stop)
  | _ => []

/-- The ranges of code in an attribute, by their first and last label. -/
def codeAttrRanges : CodeAttribute → List (Label × Label)
  | .invisibleType as | .visibleType as => as.flatMap fun a => targetRanges a.target
  | .locals vs => vs.map fun v => (v.start, v.stop)
  | .raw _ => []

/-- The labels used in a value that was read. -/
def usedLabels (y : Code) : List Label :=
  y.code.flatMap targets ++ y.catches.flatMap catchLabels ++ y.attrs.flatMap codeAttrLabels

/-- What a value that was read says about the bytes: `ν p` is the label of the position `p`. -/
structure Recovers (P : Pool) (bs : Bytes) (y : Code) (code : Bytes) (prs : List (Nat × RInsn))
    (ν : Nat → Option Label) : Prop where
  bytes : ∃ hs tail, bs = U2 y.maxStack.toNat ++ U2 y.maxLocals.toNat ++ U4 code.length ++ code ++ hs ++ tail ∧
    ∀ c : Ctx, c.pool = P → (∀ l p, ν p = some l → c.pos l = some p) → Fmt.table2 handlerEntry c y.catches hs
  decodes : Decodes 0 code prs
  inj : ∀ p q l, ν p = some l → ν q = some l → p = q
  /-- The names are the first numbers. -/
  names : ∃ n : Nat, ∀ l, (∃ p, ν p = some l) ↔ l.toNat < n
  range : ∀ p l, ν p = some l → p ∈ prs.map Prod.fst ++ [code.length]
  insns : ∃ line pis, Matched (fun e e' => e'.1 = e.1 ∧ Refers (reach ν e.1) e.2 e'.2) prs pis ∧
    y.code = rebuild ν line pis code.length
  used : ∀ l ∈ usedLabels y, ∃ p, ν p = some l
  catches : ∀ k ∈ y.attrs.flatMap annCatches, k ∈ y.catches
  ranges : ∀ r ∈ y.attrs.flatMap codeAttrRanges, ∃ p q, ν p = some r.1 ∧ ν q = some r.2 ∧ p ≤ q

end Verif.Spec

namespace Verif
open Spec Sig

/-! ## What is asked of a body -/

/-- What is asked of an annotation in order to be written. -/
def AnnWritable (catches : List Catch) (a : TypeAnnotation CodeTarget) : Prop :=
  TypeAnnOk a ∧ ∀ k ∈ targetCatches a.target, k ∈ catches

/-- What is asked of an attribute in order to be written. -/
def AttrWritable (catches : List Catch) : CodeAttribute → Prop
  | .visibleType as => ∀ a ∈ as, AnnWritable catches a
  | .invisibleType as => ∀ a ∈ as, AnnWritable catches a
  | .locals vs => ∀ v ∈ vs, (∀ d, v.descriptor = some d → IsDescriptor d) ∧
      ∀ g, v.signature = some g → SigText RText g
  | .raw _ => True

/-- What is asked of a body in order to be written. -/
structure CodeWritable (x : Code) : Prop where
  insns : ∀ i ∈ x.code, CodeOk i
  labels : (marks x.code).Nodup
  catches : x.catches.length < 65536
  attrs : x.attrs.length < 65536
  attr : ∀ a ∈ x.attrs, AttrWritable x.catches a

/-- Code for which C37 is proved. -/
def Sized (is : List Insn) (a : Assembled) : Prop := a.code.length ≤ 24575 ∨
  a.code.length + 5 * branches is ≤ 65535 ∧ (a.code.length ≤ 32767 ∨ a.len.toNat = a.code.length)

/-- What is asked of an attribute in order to be read as it was written. -/
def AttrReadable : CodeAttribute → Prop
  | .visibleType as => ∀ a ∈ as, Keyed a.vals
  | .invisibleType as => ∀ a ∈ as, Keyed a.vals
  | .locals vs => ∀ v ∈ vs, v.descriptor.isSome ∨ v.signature.isSome
  | .raw a => a.name ∉ codeAttrNames

/-- What is asked of a body in order to be read as it was written: the parts are, and no two variables
have the same name, index and range. -/
structure CodeReadable (x : Code) : Prop where
  insns : ∀ i ∈ x.code, Readable i
  attrs : ∀ a ∈ x.attrs, AttrReadable a
  vars : (x.attrs.flatMap attrVars).Pairwise fun v w => ¬ (place v.start x.code = place w.start x.code ∧
    place v.stop x.code = place w.stop x.code ∧ v.name = w.name ∧ v.index = w.index)

end Verif
