import Verif.Model.Class

/-! # Reading a class with an allocator that may refuse

Three places ask for a buffer whose size is given by four bytes of the file, before these bytes are known to exist:
the readers of attributes (coffer_macros/src/derive.rs:233-235 and 257-259), the reader of the code array
(src/code.rs:80-81) and the reader of the table of a `tableswitch` (src/insn.rs:42-43). All other buffers requested ahead
have a size given by one or two bytes, or grow with what is read. Here the allocator refuses some requests; a refused
request is `Err.diverge` (the process is aborted by `handle_alloc_error`). The readers are otherwise those of
`Model/Io`, `Model/Insn`, `Model/Instr`, `Model/Code` and `Model/Class`. -/

namespace Verif

/-- Which requests, in bytes, the allocator grants. -/
abbrev Grants := Nat → Bool

/-- A buffer of no bytes is not requested. -/
def Grants.gives (g : Grants) (n : Nat) : Bool := n == 0 || g n

/-- coffer_macros/src/derive.rs:232-244. -/
def rFramedM {α : Type} (g : Grants) (name : Bytes) (r : Rd α) : Rd α := fun env st bs =>
  match u32.read bs with
  | .error e => .error e
  | .ok (len, bs) =>
    if g.gives len.toNat then
      match readExact len.toNat bs with
      | .error e => .error e
      | .ok (body, bs) =>
        match r env st body with
        | .error e => .error e
        | .ok (a, st, []) => .ok (a, st, bs)
        | .ok (_, _, left@(_ :: _)) => .error (.attrLen len (len - UInt32.ofNat left.length) name)
    else .error .diverge

/-- coffer_macros/src/derive.rs:256-262. -/
def rRawBodyM (g : Grants) : Rd Bytes := fun _ st bs =>
  match u32.read bs with
  | .error e => .error e
  | .ok (len, bs) =>
    if g.gives len.toNat then
      match readExact len.toNat bs with
      | .error e => .error e
      | .ok (body, bs) => .ok (body, st, bs)
    else .error .diverge

/-- coffer_macros/src/derive.rs:249-265. -/
def rAttrM {α : Type} (g : Grants) (table : Bytes → Option (Rd α)) (raw : RawAttribute → α) : Rd α :=
  Rd.bind rUtf8 fun name =>
    match table name with
    | some r => rFramedM g name r
    | none => Rd.map (fun b => raw ⟨name, b⟩) (rRawBodyM g)

/-- src/insn.rs:39-49. An offset takes four bytes. -/
def TblSwitch.readM (g : Grants) : Reader TblSwitch :=
  Reader.bind i32.read fun low => Reader.bind i32.read fun high =>
    let len := high.toInt - low.toInt + 1
    if 0 ≤ len ∧ len < 2 ^ 31 then
      if g.gives (4 * len.toNat) then
        Reader.of1 (TblSwitch.mk low high) (Reader.replicate len.toNat i32.read)
      else Reader.fail .diverge
    else Reader.fail .panic

/-- The raw instructions (src/insn.rs:60-467): only `tableswitch` asks for a buffer. -/
def RInsn.readM (g : Grants) : Reader RInsn := fun bs =>
  match bs with
  | [] => RInsn.read []
  | o :: rest =>
    if o = opc.TABLESWITCH then Reader.of2 .TableSwitch i32.read (TblSwitch.readM g) rest
    else RInsn.read (o :: rest)

/-- src/code.rs:94-110. -/
def rInsnM (g : Grants) (pos : Nat) : Rd Insn := fun env st bs =>
  match bs with
  | [] => .error .panic
  | o :: _ =>
    if o = opc.TABLESWITCH ∨ o = opc.LOOKUPSWITCH then
      Rd.bind (Rd.lift (RInsn.readM g)) (convert pos) env st (o :: bs.drop (4 - pos % 4))
    else Rd.bind (Rd.lift (RInsn.readM g)) (convert pos) env st bs

/-- src/code.rs:94-111. -/
def readLoopM (g : Grants) (len : Nat) (env : REnv) (st : RSt) (bs : Bytes) : Res (List (Nat × Insn) × RSt) :=
  if bs.length = 0 then .ok ([], st)
  else
    match rInsnM g (len - bs.length) env st bs with
    | .error e => .error e
    | .ok (i, st, rest) =>
      if rest.length < bs.length then
        match readLoopM g len env st rest with
        | .error e => .error e
        | .ok (is, st) => .ok ((len - bs.length, i) :: is, st)
      else .error .diverge
termination_by bs.length

/-- src/code.rs:82-112. -/
def readInsnsM (g : Grants) (code : Bytes) : Rd (List (Nat × Insn)) := fun env st bs =>
  match readLoopM g code.length env st code with
  | .error e => .error e
  | .ok (is, st) => .ok (is, st, bs)

/-- src/code.rs:80-81: the buffer for the code array. -/
def rBytesM (g : Grants) (n : Nat) : Rd Bytes := if g.gives n then rBytes n else Rd.fail .diverge

/-- src/structure.rs:416-426, derived reader. -/
def CodeAttr.readM (g : Grants) : Rd CodeAttr := rAttrM g CodeAttr.table .raw

/-- src/code.rs:156-218: the loop over the attributes. -/
def readCodeAttrsM (g : Grants) (idx : Nat → Option Nat) : Nat → AttrAcc → Rd AttrAcc
  | 0, acc => Rd.pure acc
  | n + 1, acc => Rd.bind (CodeAttr.readM g) fun a => Rd.bind (acc.step idx a) fun acc => readCodeAttrsM g idx n acc

/-- src/code.rs:77-247. -/
def Code.readInM (g : Grants) (ord : Nat → List LocalVariable → List LocalVariable) : Rd Code :=
  Rd.bind (rNum u16) fun maxStack => Rd.bind (rNum u16) fun maxLocals =>
  Rd.bind (rNum u32) fun len => Rd.bind (rBytesM g len.toNat) fun code =>
  Rd.bind (readInsnsM g code) fun pis =>
  let idx := indexIn (pis.map Prod.fst ++ [code.length])
  Rd.bind (rVec u16 Catch.read) fun catches =>
  Rd.bind (rNum u16) fun n =>
  Rd.bind (withCatches catches (readCodeAttrsM g idx n.toNat ⟨[], fun _ => [], []⟩)) fun acc =>
  Rd.bind (placeMarkers idx acc.ins (pis.map Prod.snd)) fun is => fun _ st bs =>
    .ok (⟨maxStack, maxLocals, is, catches,
      if acc.vars.length = 0 then acc.attrs else acc.attrs ++ [.locals (ord bs.length acc.vars)]⟩, st, bs)

/-- src/code.rs:36-248. -/
def Code.readM (g : Grants) (ord : Nat → List LocalVariable → List LocalVariable) : Rd Code := fun env st bs =>
  match Code.readInM g ord { env with catches := some [] } ⟨st.pending, some []⟩ bs with
  | .error e => .error e
  | .ok (c, st', bs) => .ok (c, ⟨st'.pending, st.labels⟩, bs)

/-- src/member.rs:81-98. Only the code asks for more than the attribute. -/
def MethodAttr.tableM (g : Grants) (ord : Nat → List LocalVariable → List LocalVariable) (name : Bytes) :
    Option (Rd MethodAttr) :=
  if name = N.code then some (Rd.map .code (Code.readM g ord)) else MethodAttr.table ord name

/-- src/member.rs:81-98, derived reader. -/
def MethodAttr.readM (g : Grants) (ord : Order) : Rd MethodAttr := fun env st bs =>
  rAttrM g (MethodAttr.tableM g (ord bs.length)) .raw env st bs

/-- src/member.rs:51-62 and src/attr.rs:98-122, derived readers. -/
def FieldAttr.readM (g : Grants) : Rd FieldAttr := rAttrM g FieldAttr.table .raw
def ClassAttr.readM (g : Grants) : Rd ClassAttr := rAttrM g ClassAttr.table .raw

/-- src/member.rs:64-72, derived reader. -/
def Field.readM (g : Grants) : Rd Field :=
  Rd.ap (Rd.ap (Rd.ap (Rd.map Field.mk (rFlags .field)) rUtf8) rType) (rVec u16 (FieldAttr.readM g))

/-- src/member.rs:100-108, derived reader. -/
def Method.readM (g : Grants) (ord : Order) : Rd Method :=
  Rd.ap (Rd.ap (Rd.ap (Rd.map MethodOf.mk (rFlags .method)) rUtf8) rType) (rVec u16 (MethodAttr.readM g ord))

/-- src/clazz.rs:25-41. -/
def Class.readBodyM (g : Grants) (ord : Order) (v : Version) : Rd Class :=
  Rd.ap (Rd.ap (Rd.ap (Rd.ap (Rd.ap (Rd.ap (Rd.map (ClassOf.mk v) (rFlags .cls)) (rStr 7)) rClsOpt)
    (rVec u16 (rStr 7))) (rVec u16 (Field.readM g))) (rVec u16 (Method.readM g ord))) (rVec u16 (ClassAttr.readM g))

/-- src/clazz.rs:44-69 `Class::read_from`. -/
def Class.readM (g : Grants) (ord : Order) : Bytes → Res (Class × Bytes) := fun bs =>
  match u32.read bs with
  | .error e => .error e
  | .ok (magic, bs) =>
    if magic = jvmMagic then
      match Version.read bs with
      | .error e => .error e
      | .ok (v, bs) =>
        match MapCp.read bs with
        | .error e => .error e
        | .ok (cp, bs) =>
          match Class.readBodyM g ord v ⟨cp.get, none⟩ ⟨[], none⟩ bs with
          | .error e => .error e
          | .ok (c, st, bs) =>
            match resolveCells st.pending c.attrs with
            | .error e => .error e
            | .ok () => .ok (c, bs)
    else .error .invalid

end Verif
