import Verif.Model.Asm
import Verif.Model.Attr
import Verif.Model.Frame

/-! # Model of method bodies: src/code.rs:26-248, 250-258, 486-608 and src/code/structure.rs:378-463 -/

namespace Verif
open Sig

/-! ## Attributes in the class file (src/code/structure.rs:388-426) -/

/-- structure.rs:389-390. -/
structure LineEntry where
  pc : UInt16
  line : UInt16
  deriving DecidableEq, Repr

def LineEntry.write (x : LineEntry) : Ins Bytes := wSeq [wNum u16 x.pc, wNum u16 x.line]
def LineEntry.read : Rd LineEntry := Rd.ap (Rd.map LineEntry.mk (rNum u16)) (rNum u16)

/-- structure.rs:392-402 `LocalVar`. -/
structure VarEntry where
  start : UInt16
  len : UInt16
  name : Bytes
  descriptor : JType
  index : UInt16

def VarEntry.write (x : VarEntry) : Ins Bytes :=
  wSeq [wNum u16 x.start, wNum u16 x.len, wUtf8 x.name, wType x.descriptor, wNum u16 x.index]
def VarEntry.read : Rd VarEntry :=
  Rd.ap (Rd.ap (Rd.ap (Rd.ap (Rd.map VarEntry.mk (rNum u16)) (rNum u16)) rUtf8) rType) (rNum u16)

/-- structure.rs:404-414 `LocalVarType`. -/
structure VarTypeEntry where
  start : UInt16
  len : UInt16
  name : Bytes
  signature : RefSig
  index : UInt16

def VarTypeEntry.write (x : VarTypeEntry) : Ins Bytes :=
  wSeq [wNum u16 x.start, wNum u16 x.len, wUtf8 x.name, wSig (showR x.signature), wNum u16 x.index]
def VarTypeEntry.read : Rd VarTypeEntry :=
  Rd.ap (Rd.ap (Rd.ap (Rd.ap (Rd.map VarTypeEntry.mk (rNum u16)) (rNum u16)) rUtf8) (rSig parseRef)) (rNum u16)

/-- structure.rs:416-426. -/
inductive CodeAttr where
  | lines (ls : List LineEntry)
  | vars (vs : List VarEntry)
  | varTypes (vs : List VarTypeEntry)
  | invisibleType (as : List (TypeAnnotation CodeTarget))
  | visibleType (as : List (TypeAnnotation CodeTarget))
  | frames (fs : List Frame)
  | raw (a : RawAttribute)

def CodeAttr.write (env : WEnv) : CodeAttr → Ins Bytes
  | .lines ls => wAttr N.lineNumberTable (wVec u16 LineEntry.write ls)
  | .vars vs => wAttr N.localVariableTable (wVec u16 VarEntry.write vs)
  | .varTypes vs => wAttr N.localVariableTypeTable (wVec u16 VarTypeEntry.write vs)
  | .invisibleType as =>
    wAttr N.runtimeInvisibleTypeAnnotations (wVec u16 (TypeAnnotation.write (CodeTarget.write env)) as)
  | .visibleType as =>
    wAttr N.runtimeVisibleTypeAnnotations (wVec u16 (TypeAnnotation.write (CodeTarget.write env)) as)
  | .frames fs => wAttr N.stackMapTable (wVec u16 (Frame.write env) fs)
  | .raw a => wRaw a

def CodeAttr.table (name : Bytes) : Option (Rd CodeAttr) :=
  if name = N.lineNumberTable then some (Rd.map .lines (rVec u16 LineEntry.read))
  else if name = N.localVariableTable then some (Rd.map .vars (rVec u16 VarEntry.read))
  else if name = N.localVariableTypeTable then some (Rd.map .varTypes (rVec u16 VarTypeEntry.read))
  else if name = N.runtimeInvisibleTypeAnnotations then
    some (Rd.map .invisibleType (rVec u16 (TypeAnnotation.read CodeTarget.read)))
  else if name = N.runtimeVisibleTypeAnnotations then
    some (Rd.map .visibleType (rVec u16 (TypeAnnotation.read CodeTarget.read)))
  else if name = N.stackMapTable then some (Rd.map .frames (rVec u16 Frame.read))
  else none

def CodeAttr.read : Rd CodeAttr := rAttr CodeAttr.table .raw

/-! ## Method bodies -/

/-- structure.rs:378-386. -/
structure LocalVariable where
  start : Label
  stop : Label
  name : Bytes
  descriptor : Option JType
  signature : Option RefSig
  index : UInt16

/-- structure.rs:428-434. -/
inductive CodeAttribute where
  | visibleType (as : List (TypeAnnotation CodeTarget))
  | invisibleType (as : List (TypeAnnotation CodeTarget))
  | locals (vs : List LocalVariable)
  | raw (a : RawAttribute)

/-- code.rs:26-33. -/
structure Code where
  maxStack : UInt16
  maxLocals : UInt16
  code : List Insn
  catches : List Catch
  attrs : List CodeAttribute

/-! ## Writing -/

/-- code.rs:504-518: the `Labeler` of `write_to`. -/
def Code.env (a : Assembled) (catches : List Catch) : WEnv where
  label := a.label
  catch_ k := .ok ((catches.findIdx? fun c => c == k).map UInt16.ofNat)

/-- code.rs:528-544. -/
def Catch.write (env : WEnv) (c : Catch) : Ins Bytes :=
  wSeq [wLabel env c.start, wLabel env c.stop, wLabel env c.handler, wOpt insertClass c.ty]

/-- code.rs:561-562, 572-573: a checked subtraction of 16-bit numbers. -/
def rangeOf (env : WEnv) (start stop : Label) : Res (UInt16 × UInt16) :=
  match env.label start with
  | .error e => .error e
  | .ok s =>
    match env.label stop with
    | .error e => .error e
    | .ok e => if e < s then .error .panic else .ok (s, e - s)

/-- code.rs:560-569: what is pushed to `var` for a variable. -/
def LocalVariable.varEntries (env : WEnv) (v : LocalVariable) : Res (List VarEntry) :=
  match v.descriptor with
  | none => .ok []
  | some d =>
    match rangeOf env v.start v.stop with
    | .error e => .error e
    | .ok (s, n) => .ok [⟨s, n, v.name, d, v.index⟩]

/-- code.rs:570-580: what is pushed to `ty` for a variable. -/
def LocalVariable.varTypeEntries (env : WEnv) (v : LocalVariable) : Res (List VarTypeEntry) :=
  match v.signature with
  | none => .ok []
  | some g =>
    match rangeOf env v.start v.stop with
    | .error e => .error e
    | .ok (s, n) => .ok [⟨s, n, v.name, g, v.index⟩]

/-- code.rs:557-582: the vectors `ty` and `var`. -/
def splitVars (env : WEnv) : List LocalVariable → Res (List VarTypeEntry × List VarEntry)
  | [] => .ok ([], [])
  | v :: vs => do
    let var ← v.varEntries env
    let ty ← v.varTypeEntries env
    let r ← splitVars env vs
    return (ty ++ r.1, var ++ r.2)

/-- code.rs:549-601: the attributes written for one attribute. -/
def CodeAttribute.lower (env : WEnv) : CodeAttribute → Res (List CodeAttr)
  | .visibleType as => .ok [.visibleType as]
  | .invisibleType as => .ok [.invisibleType as]
  | .locals vs => do
    let (ty, var) ← splitVars env vs
    match ty, var with
    | [], [] => .error .invalid
    | ty, [] => pure [.varTypes ty]
    | [], var => pure [.vars var]
    | ty, var => pure [.vars var, .varTypes ty]
  | .raw a => .ok [.raw a]

/-- code.rs:545-603: `attributes_writer` and `extra_attrs` (a checked 16-bit counter). -/
def writeCodeAttrs (env : WEnv) (extra : Nat) : List CodeAttribute → Ins (Nat × Bytes)
  | [] => pure (extra, [])
  | a :: as => do
    let ls ← Ins.lift (a.lower env)
    let extra := extra + (ls.length - 1)
    if extra < 65536 then do
      let b ← wAll (CodeAttr.write env) ls
      let (n, bs) ← writeCodeAttrs env extra as
      pure (n, b ++ bs)
    else Ins.fail .panic

/-- code.rs:250-607. The counts of handlers and attributes are cut to 16 bits; the sum in line 604 is
checked. -/
def Code.write (c : Code) : Ins Bytes := do
  let a ← writeCode c.code
  let env := Code.env a c.catches
  let hs ← wAll (Catch.write env) c.catches
  let (extra, as) ← writeCodeAttrs env 0 c.attrs
  if (UInt16.ofNat c.attrs.length).toNat + extra < 65536 then
    pure (u16.write c.maxStack ++ u16.write c.maxLocals ++ u32.write a.len ++ a.code ++
      u16.write (UInt16.ofNat c.catches.length) ++ hs ++
      u16.write (UInt16.ofNat c.attrs.length + UInt16.ofNat extra) ++ as)
  else Ins.fail .panic

/-! ## Reading -/

/-- code.rs:94-111: the instructions with their positions, in a code array of `len` bytes of which `bs`
remain. (`diverge` stands for a round that consumes nothing; `C38_progress` shows that there is none.) -/
def readLoop (len : Nat) (env : REnv) (st : RSt) (bs : Bytes) : Res (List (Nat × Insn) × RSt) :=
  if bs.length = 0 then .ok ([], st)
  else
    match rInsn (len - bs.length) env st bs with
    | .error e => .error e
    | .ok (i, st, rest) =>
      if rest.length < bs.length then
        match readLoop len env st rest with
        | .error e => .error e
        | .ok (is, st) => .ok ((len - bs.length, i) :: is, st)
      else .error .diverge
termination_by bs.length

/-- code.rs:82-112 as a reader that does not touch the input. -/
def readInsns (code : Bytes) : Rd (List (Nat × Insn)) := fun env st bs =>
  match readLoop code.length env st code with
  | .error e => .error e
  | .ok (is, st) => .ok (is, st, bs)

/-- code.rs:80-81. -/
def rBytes (n : Nat) : Rd Bytes := Rd.lift (readExact n)

/-- `pos2idx` (code.rs:92, 96, 112): the index of a position in a list of positions. -/
def indexIn : List Nat → Nat → Option Nat
  | [], _ => none
  | p :: ps, o => if p = o then some 0 else (indexIn ps o).map (· + 1)

/-- code.rs:118-136. -/
def Catch.read : Rd Catch :=
  Rd.ap (Rd.ap (Rd.ap (Rd.map Catch.mk rLabel) rLabel) rLabel) (rOpt fun i => rLookup Pool.cls i)

/-- The variables of code.rs:141-151: `attrs`, `to_insert` (without the labels, an index that is not a
key has the empty list) and `local_vars` (in the order of insertion). -/
structure AttrAcc where
  attrs : List CodeAttribute
  ins : Nat → List Insn
  vars : List LocalVariable

/-- code.rs:159-161; `pos2idx[…]` panics when there is no such position. -/
def addLines (idx : Nat → Option Nat) (ins : Nat → List Insn) : List LineEntry → Res (Nat → List Insn)
  | [] => .ok ins
  | l :: ls =>
    match idx l.pc.toNat with
    | none => .error .panic
    | some k => addLines idx (fun j => if j = k then [.lineNumber l.line] else ins j) ls

/-- code.rs:153-154 `LocalVarKey`. -/
def LocalVariable.key (v : LocalVariable) : Label × Label × UInt16 × Bytes :=
  (v.start, v.stop, v.index, v.name)

/-- code.rs:169-183, 192-205: `entry(key)`, where an existing entry is changed by `f`. -/
def upsert (f : LocalVariable → LocalVariable) (v : LocalVariable) : List LocalVariable → List LocalVariable
  | [] => [v]
  | w :: ws => if w.key = v.key then f w :: ws else w :: upsert f v ws

/-- code.rs:165-166, 188-189: the labels of a range; the sum of 16-bit numbers is checked. -/
def rangeLabels (start len : UInt16) : Rd (Label × Label) :=
  Rd.bind (getLabel start.toUInt32) fun s =>
    if start.toNat + len.toNat < 65536 then
      Rd.map (fun e => (s, e)) (getLabel (start + len).toUInt32)
    else Rd.fail .panic

/-- code.rs:164-184. -/
def addVars (vars : List LocalVariable) : List VarEntry → Rd (List LocalVariable)
  | [] => Rd.pure vars
  | l :: ls => Rd.bind (rangeLabels l.start l.len) fun r =>
    addVars (upsert (fun w => { w with descriptor := some l.descriptor })
      ⟨r.1, r.2, l.name, some l.descriptor, none, l.index⟩ vars) ls

/-- code.rs:187-206. -/
def addVarTypes (vars : List LocalVariable) : List VarTypeEntry → Rd (List LocalVariable)
  | [] => Rd.pure vars
  | l :: ls => Rd.bind (rangeLabels l.start l.len) fun r =>
    addVarTypes (upsert (fun w => { w with signature := some l.signature })
      ⟨r.1, r.2, l.name, none, some l.signature, l.index⟩ vars) ls

/-- code.rs:157-217. -/
def AttrAcc.step (idx : Nat → Option Nat) (acc : AttrAcc) : CodeAttr → Rd AttrAcc
  | .lines ls => Rd.map (fun m => { acc with ins := m }) (Rd.ofRes (addLines idx acc.ins ls))
  | .vars vs => Rd.map (fun m => { acc with vars := m }) (addVars acc.vars vs)
  | .varTypes vs => Rd.map (fun m => { acc with vars := m }) (addVarTypes acc.vars vs)
  | .frames _ => Rd.pure acc
  | .invisibleType as => Rd.pure { acc with attrs := acc.attrs ++ [.invisibleType as] }
  | .visibleType as => Rd.pure { acc with attrs := acc.attrs ++ [.visibleType as] }
  | .raw a => Rd.pure { acc with attrs := acc.attrs ++ [.raw a] }

/-- code.rs:156-218. -/
def readCodeAttrs (idx : Nat → Option Nat) : Nat → AttrAcc → Rd AttrAcc
  | 0, acc => Rd.pure acc
  | n + 1, acc => Rd.bind CodeAttr.read fun a => Rd.bind (acc.step idx a) fun acc => readCodeAttrs idx n acc

/-- `labeler.catches = &catches` (code.rs:137). -/
def withCatches {α : Type} (cs : List Catch) (r : Rd α) : Rd α := fun env st bs =>
  r { env with catches := some cs } st bs

/-- code.rs:226-235. -/
def addLabels (idx : Nat → Option Nat) (ins : Nat → List Insn) : LabelMap → Res (Nat → List Insn)
  | [] => .ok ins
  | (o, l) :: m =>
    match idx o.toNat with
    | none => .error .invalid
    | some k => addLabels idx (fun j => if j = k then ins j ++ [.label l] else ins j) m

/-- code.rs:237-239, for the index `k`. -/
def insertAt (k : Nat) (is : List Insn) : List Insn → List Insn
  | [] => is
  | v :: vs => insertAt k (is.insertIdx k v) vs

/-- code.rs:236-240, from the index `k` down to 0. -/
def insertDown (ins : Nat → List Insn) (is : List Insn) : Nat → List Insn
  | 0 => insertAt 0 is (ins 0)
  | k + 1 => insertDown ins (insertAt (k + 1) is (ins (k + 1))) k

/-- code.rs:226-240. -/
def placeMarkers (idx : Nat → Option Nat) (ins : Nat → List Insn) (is : List Insn) : Rd (List Insn) :=
  fun _ st bs =>
    match st.labels with
    | none => .error .panic
    | some m =>
      match addLabels idx ins m with
      | .error e => .error e
      | .ok ins => .ok (insertDown ins is is.length, st, bs)

/-- code.rs:77-247, with the labels in the state. The order of the local variables (219-223) is that of
the iteration over a `HashMap`: an arbitrary function `ord`, which may depend on the place in the
input. -/
def Code.readIn (ord : Nat → List LocalVariable → List LocalVariable) : Rd Code :=
  Rd.bind (rNum u16) fun maxStack => Rd.bind (rNum u16) fun maxLocals =>
  Rd.bind (rNum u32) fun len => Rd.bind (rBytes len.toNat) fun code =>
  Rd.bind (readInsns code) fun pis =>
  let idx := indexIn (pis.map Prod.fst ++ [code.length])
  Rd.bind (rVec u16 Catch.read) fun catches =>
  Rd.bind (rNum u16) fun n =>
  Rd.bind (withCatches catches (readCodeAttrs idx n.toNat ⟨[], fun _ => [], []⟩)) fun acc =>
  Rd.bind (placeMarkers idx acc.ins (pis.map Prod.snd)) fun is => fun _ st bs =>
    .ok (⟨maxStack, maxLocals, is, catches,
      if acc.vars.length = 0 then acc.attrs else acc.attrs ++ [.locals (ord bs.length acc.vars)]⟩, st, bs)

/-- code.rs:36-248: a new `Labeler` (82-86) around the reader of the class. -/
def Code.read (ord : Nat → List LocalVariable → List LocalVariable) : Rd Code := fun env st bs =>
  match Code.readIn ord { env with catches := some [] } ⟨st.pending, some []⟩ bs with
  | .error e => .error e
  | .ok (c, st', bs) => .ok (c, ⟨st'.pending, st.labels⟩, bs)

end Verif
