import Verif.Model.Cp
import Verif.Model.Signature

/-!
# Model of the pool-dependent codecs: `ConstantPoolReadWrite` (src/rw.rs, src/helper.rs, src/ty.rs)

A writer is a value of `Ins Bytes`: it may insert into the pool and returns the bytes it appends.
A reader `Rd α` gets the pool, a state (the cells registered with `resolve_later`, the labels handed
out) and the remaining input. After an `Err` neither state is modelled.
-/

namespace Verif

/-- src/code/structure.rs:9 `Label(u32)`. -/
abbrev Label := UInt32

/-- src/code/structure.rs:438-443 `Catch`. -/
structure Catch where
  start : Label
  stop : Label
  handler : Label
  ty : Option Bytes
  deriving DecidableEq, Repr

/-! ## Writing -/

/-- What a `ConstantPoolWriter` answers to `label` and `catch` (src/rw.rs:160-172). Panics are
errors. -/
structure WEnv where
  label : Label → Res UInt16
  catch_ : Catch → Res (Option UInt16)

/-- `VecCp` does not override `label` and `catch`: `unreachable!` (src/rw.rs:160-172). -/
def WEnv.outside : WEnv := ⟨fun _ => .error .panic, fun _ => .error .panic⟩

/-- The parts are written one after the other; the first `Err` stops. -/
def wSeq : List (Ins Bytes) → Ins Bytes
  | [] => pure []
  | w :: ws => do
    let a ← w
    let b ← wSeq ws
    pure (a ++ b)

/-- `for x in xs { x.write_to(cp, writer)? }`. -/
def wAll {α : Type} (w : α → Ins Bytes) (xs : List α) : Ins Bytes := wSeq (xs.map w)

/-- src/helper.rs:164-181 `VecLen::write_to`. -/
def wVec {ℓ α : Type} (l : NumCodec ℓ) (w : α → Ins Bytes) (xs : List α) : Ins Bytes :=
  if xs.length < 256 ^ l.size then do
    let bs ← wAll w xs
    pure (l.write (l.ofBits xs.length) ++ bs)
  else Ins.fail .invalid

/-- `cp.insert…(…).write_to(writer)`. -/
def wIdx (i : Ins UInt16) : Ins Bytes := do
  let i ← i
  pure (u16.write i)

/-- src/helper.rs:33-39 `Normal::write_to` for a number. -/
def wNum {α : Type} (c : NumCodec α) (x : α) : Ins Bytes := pure (c.write x)

/-- src/ty.rs:164-166 `Cow<Wtf8Str>`. -/
def wUtf8 (s : Bytes) : Ins Bytes := wIdx (insertWtf8 s)

/-- src/ty.rs:189-195 `Option<Cow<Wtf8Str>>`; src/helper.rs:78-88: 0 stands for `None`. -/
def wOpt {α : Type} (f : α → Ins UInt16) : Option α → Ins Bytes
  | none => pure (u16.write 0)
  | some a => wIdx (f a)

/-- src/helper.rs:54-60 `StringCp<TAG>`. -/
def wStr (tag : UInt8) (s : Bytes) : Ins Bytes := wIdx (insertIndirect tag s)

/-- src/ty.rs:203-205 `Type`: `write_type`, without loss. -/
def wType (t : JType) : Ins Bytes := wIdx (insertWtf8 (JType.toWtf8 t))

/-- src/code/structure.rs:20-25 `Label`. -/
def wLabel (env : WEnv) (l : Label) : Ins Bytes := do
  let o ← Ins.lift (env.label l)
  pure (u16.write o)

/-- src/code/structure.rs:453-463 `Catch`: nothing is written when the handler is unknown. -/
def wCatch (env : WEnv) (c : Catch) : Ins Bytes := do
  let o ← Ins.lift (env.catch_ c)
  match o with
  | some i => pure (u16.write i)
  | none => pure []

/-! ## Reading -/

/-- The labels handed out so far with the offset each stands for (src/code.rs:45). -/
abbrev LabelMap := List (UInt32 × Label)

/-- What does not change during reading: the pool, and the exception table (`Labeler.catches`,
src/code.rs:46; absent outside a method body). -/
structure REnv where
  pool : Pool
  catches : Option (List Catch)

/-- What changes: the bootstrap indices with which `resolve_later` was called, in order, and the
labels (`none` outside a method body). -/
structure RSt where
  pending : List UInt16
  labels : Option LabelMap

/-- `fn read_from<C: ConstantPoolReader, R: Read>(cp: &mut C, reader: &mut R) -> Result<Self>`
(src/rw.rs:370-373). -/
def Rd (α : Type) := REnv → RSt → Bytes → Res (α × RSt × Bytes)

namespace Rd

def pure {α : Type} (a : α) : Rd α := fun _ st bs => .ok (a, st, bs)

def bind {α β : Type} (x : Rd α) (f : α → Rd β) : Rd β := fun env st bs =>
  match x env st bs with
  | .ok (a, st, bs) => f a env st bs
  | .error e => .error e

def fail {α : Type} (e : Err) : Rd α := fun _ _ _ => .error e

/-- Evaluate the next field of a structure literal. -/
def ap {α β : Type} (f : Rd (α → β)) (x : Rd α) : Rd β := bind f fun f => bind x fun a => pure (f a)

def map {α β : Type} (f : α → β) (x : Rd α) : Rd β := bind x fun a => pure (f a)

/-- A reader that ignores the pool (src/helper.rs:30-32 `Normal::read_from`). -/
def lift {α : Type} (r : Reader α) : Rd α := fun _ st bs =>
  match r bs with
  | .ok (a, rest) => .ok (a, st, rest)
  | .error e => .error e

/-- A value that may be refused. -/
def ofRes {α : Type} (r : Res α) : Rd α := fun _ st bs =>
  match r with
  | .ok a => .ok (a, st, bs)
  | .error e => .error e

/-- `(0..n).map(|_| read_from(cp, reader)).collect()`. -/
def replicate {α : Type} (n : Nat) (r : Rd α) : Rd (List α) :=
  match n with
  | 0 => pure []
  | n + 1 => bind r fun a => bind (replicate n r) fun as => pure (a :: as)

end Rd

def rNum {α : Type} (c : NumCodec α) : Rd α := Rd.lift c.read

/-- src/helper.rs:156-163 `VecLen::read_from`. -/
def rVec {ℓ α : Type} (l : NumCodec ℓ) (r : Rd α) : Rd (List α) :=
  Rd.bind (rNum l) fun len => Rd.replicate (l.bits len) r

/-- src/rw.rs:384-392 `try_cp_read!(idx, …)`: `None` is an error. -/
def rLookup {α : Type} (f : Pool → UInt16 → Option α) (i : UInt16) : Rd α := fun env st bs =>
  match f env.pool i with
  | some a => .ok (a, st, bs)
  | none => .error .invalid

/-- The same for lookups that parse a descriptor, which may panic (C16). -/
def rLookupR {α : Type} (f : Pool → UInt16 → Res (Option α)) (i : UInt16) : Rd α := fun env st bs =>
  match f env.pool i with
  | .ok (some a) => .ok (a, st, bs)
  | .ok none => .error .invalid
  | .error e => .error e

/-- The same for lookups that may register a cell. -/
def rLookupD {α : Type} (f : Pool → UInt16 → List UInt16 → Res (Option α × List UInt16))
    (i : UInt16) : Rd α := fun env st bs =>
  match f env.pool i st.pending with
  | .ok (some a, p) => .ok (a, { st with pending := p }, bs)
  | .ok (none, _) => .error .invalid
  | .error e => .error e

/-- src/rw.rs:378-381 `try_cp_read!(cp, reader, f)`: an index, then the entry. -/
def rIdx {α : Type} (f : Pool → UInt16 → Option α) : Rd α := Rd.bind (rNum u16) (rLookup f)
def rIdxR {α : Type} (f : Pool → UInt16 → Res (Option α)) : Rd α := Rd.bind (rNum u16) (rLookupR f)

/-- src/ty.rs:170-187, src/helper.rs:64-76, src/attr.rs:40-50: index 0 is `None`. -/
def rOpt {α : Type} (f : UInt16 → Rd α) : Rd (Option α) :=
  Rd.bind (rNum u16) fun i => if i = 0 then Rd.pure none else Rd.map some (f i)

/-- src/ty.rs:154-162. -/
def rUtf8 : Rd Bytes := rIdx Pool.wtf8

/-- src/helper.rs:45-52. -/
def rStr (tag : UInt8) : Rd Bytes := rIdx fun P i => Pool.indirect P tag i

/-- src/ty.rs:199-201. -/
def rType : Rd JType := Rd.bind rUtf8 fun s => Rd.ofRes (JType.parseType s)

/-- src/code.rs:63-71 `Labeler::get_label`; outside a body `unimplemented!` (src/rw.rs:353-355). -/
def getLabel (o : UInt32) : Rd Label := fun _ st bs =>
  match st.labels with
  | none => .error .panic
  | some m =>
    match m.lookup o with
    | some l => .ok (l, st, bs)
    | none =>
      let l := UInt32.ofNat m.length
      .ok (l, { st with labels := some (m ++ [(o, l)]) }, bs)

/-- src/code/structure.rs:13-18. -/
def rLabel : Rd Label := Rd.bind (rNum u16) fun o => getLabel o.toUInt32

/-- src/code/structure.rs:446-451 and src/code.rs:73-75; outside a body `unimplemented!`
(src/rw.rs:359-361). -/
def rCatch : Rd Catch := Rd.bind (rNum u16) fun i env st bs =>
  match env.catches with
  | none => .error .panic
  | some cs =>
    match cs[i.toNat]? with
    | some c => .ok (c, st, bs)
    | none => .error .invalid

/-! ## Attribute frames (coffer_macros/src/derive.rs:156-276) -/

/-- src/attr.rs:10-15. -/
structure RawAttribute where
  name : Bytes
  inner : Bytes
  deriving DecidableEq, Repr

/-- derive.rs:197-205: name, then the fields into a buffer, then `len as u32` and the buffer. -/
def wAttr (name : Bytes) (fields : Ins Bytes) : Ins Bytes := do
  let i ← insertWtf8 name
  let body ← fields
  pure (u16.write i ++ u32.write (UInt32.ofNat body.length) ++ body)

/-- derive.rs:170-175. -/
def wRaw (a : RawAttribute) : Ins Bytes := do
  let i ← insertWtf8 a.name
  pure (u16.write i ++ u32.write (UInt32.ofNat a.inner.length) ++ a.inner)

/-- derive.rs:229-243: the payload is cut out and must be consumed completely. `name` is the name of the variant, which is
that of the attribute (derive.rs:226-229, 251). -/
def rFramed {α : Type} (name : Bytes) (r : Rd α) : Rd α := fun env st bs =>
  match u32.read bs with
  | .error e => .error e
  | .ok (len, bs) =>
    match readExact len.toNat bs with
    | .error e => .error e
    | .ok (body, bs) =>
      match r env st body with
      | .error e => .error e
      | .ok (a, st, []) => .ok (a, st, bs)
      | .ok (_, _, left@(_ :: _)) => .error (.attrLen len (len - UInt32.ofNat left.length) name)

/-- derive.rs:254-260: everything up to the length. -/
def rRawBody : Rd Bytes := fun _ st bs =>
  match u32.read bs with
  | .error e => .error e
  | .ok (len, bs) =>
    match readExact len.toNat bs with
    | .error e => .error e
    | .ok (body, bs) => .ok (body, st, bs)

/-- derive.rs:248-262: the name is looked up and selects the reader of the payload; a name that is
not the name of a variant gives the raw variant. `table` is the list of variant names. -/
def rAttr {α : Type} (table : Bytes → Option (Rd α)) (raw : RawAttribute → α) : Rd α :=
  Rd.bind rUtf8 fun name =>
    match table name with
    | some r => rFramed name r
    | none => Rd.map (fun b => raw ⟨name, b⟩) rRawBody

end Verif
