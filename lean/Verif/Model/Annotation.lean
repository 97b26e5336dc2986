import Verif.Model.Io

/-! # Model of annotations: src/annotation/mod.rs, src/annotation/type_annotation.rs -/

namespace Verif

/-- src/annotation/mod.rs:37-69 `AnnotationValue`, with the structure `Annotation` (mod.rs:214-220)
inlined in the variant `Annotation`. The map `element_values` is the list of its entries in the
order in which the map iterates; its keys are distinct. -/
inductive AnnValue where
  | byte (x : Int8)
  | char (x : UInt16)
  | double (x : F64)
  | float (x : F32)
  | int (x : Int32)
  | long (x : Int64)
  | short (x : Int16)
  | boolean (x : Bool)
  | string (s : Bytes)
  | enum (t : JType) (name : Bytes)
  | cls (t : Option JType)
  | annotation (t : JType) (vals : List (Bytes × AnnValue))
  | array (vs : List AnnValue)

/-- `HashMap<Cow<'static, Wtf8Str>, AnnotationValue>`. -/
abbrev Elems := List (Bytes × AnnValue)

/-- src/annotation/mod.rs:214-220 `Annotation`. -/
structure Annotation where
  ty : JType
  vals : Elems

/-- mod.rs:137-143 `cp_int`: the number as an integer entry. -/
def wInt (x : Int32) : Ins Bytes := wIdx (insertRaw (.int x))

mutual

/-- mod.rs:136-210 `AnnotationValue::write_to`. The text of a class is `Type::to_string`
(mod.rs:191), which loses surrogates; the length of an array is `v.len() as u16` (mod.rs:203). -/
def AnnValue.write : AnnValue → Ins Bytes
  | .byte x => wSeq [wNum u8 0x42, wInt x.toInt32]
  | .char x => wSeq [wNum u8 0x43, wInt (Int32.ofNat x.toNat)]
  | .double x => wSeq [wNum u8 0x44, wIdx (insertRaw (.double x))]
  | .float x => wSeq [wNum u8 0x46, wIdx (insertRaw (.float x))]
  | .int x => wSeq [wNum u8 0x49, wInt x]
  | .long x => wSeq [wNum u8 0x4a, wIdx (insertRaw (.long x))]
  | .short x => wSeq [wNum u8 0x53, wInt x.toInt32]
  | .boolean x => wSeq [wNum u8 0x5a, wInt (if x then 1 else 0)]
  | .string s => wSeq [wNum u8 0x73, wUtf8 s]
  | .enum t name => wSeq [wNum u8 0x65, wType t, wUtf8 name]
  | .cls t => wSeq [wNum u8 0x63, wUtf8 (match t with
      | none => [0x56]
      | some t => JType.display t)]
  | .annotation t vals =>
    wSeq [wNum u8 0x40, wType t, wNum u16 (UInt16.ofNat vals.length), AnnValue.writeElems vals]
  | .array vs => wSeq [wNum u8 0x5b, wNum u16 (UInt16.ofNat vs.length), AnnValue.writeList vs]

/-- mod.rs:204-206. -/
def AnnValue.writeList : List AnnValue → Ins Bytes
  | [] => pure []
  | v :: vs => wSeq [v.write, AnnValue.writeList vs]

/-- mod.rs:244-247. -/
def AnnValue.writeElems : List (Bytes × AnnValue) → Ins Bytes
  | [] => pure []
  | (k, v) :: es => wSeq [wUtf8 k, v.write, AnnValue.writeElems es]

end

/-- mod.rs:237-249: `self.len() as u16`, then the entries. -/
def Elems.write (m : Elems) : Ins Bytes :=
  wSeq [wNum u16 (UInt16.ofNat m.length), AnnValue.writeElems m]

/-- The derived writer of `Annotation`. -/
def Annotation.write (a : Annotation) : Ins Bytes := wSeq [wType a.ty, Elems.write a.vals]

/-! ## Reading -/

/-- `HashMap::insert`: a present key keeps its place and gets the new value. -/
def Elems.put (m : Elems) (k : Bytes) (v : AnnValue) : Elems :=
  match m with
  | [] => [(k, v)]
  | (k', v') :: m => if k' = k then (k', v) :: m else (k', v') :: Elems.put m k v

/-- mod.rs:223-235: the entries are inserted one after the other. -/
def Elems.readWith (r : Rd AnnValue) : Rd Elems :=
  Rd.map (fun ps => ps.foldl (fun (m : Elems) p => m.put p.1 p.2) [])
    (rVec u16 (Rd.bind rUtf8 fun k => Rd.map (fun v => (k, v)) r))

/-- The `i32` in a pool entry, converted with a range check (mod.rs:75-80, 81-86, 91-96, 97-106). -/
def rIntIn (lo hi : Int) (f : Int32 → AnnValue) : Rd AnnValue :=
  Rd.bind (rIdx Pool.int) fun x =>
    if lo ≤ x.toInt ∧ x.toInt ≤ hi then Rd.pure (f x) else Rd.fail .invalid

/-- mod.rs:109-122: the text `V` is `void.class`. -/
def rClassText : Rd (Option JType) :=
  Rd.bind rUtf8 fun s => if s = [0x56] then Rd.pure none else Rd.map some (Rd.ofRes (JType.parseType s))

/-- mod.rs:72-134 `AnnotationValue::read_from` with `fuel` levels of nesting. -/
def AnnValue.readF : Nat → Rd AnnValue
  | 0 => Rd.fail .diverge
  | n + 1 => Rd.bind (rNum u8) fun tag =>
    if tag = 0x42 then rIntIn (-128) 127 fun x => .byte x.toInt8
    else if tag = 0x43 then rIntIn 0 65535 fun x => .char (UInt16.ofNat x.toInt.toNat)
    else if tag = 0x44 then Rd.map .double (rIdx Pool.double)
    else if tag = 0x46 then Rd.map .float (rIdx Pool.float)
    else if tag = 0x49 then Rd.map .int (rIdx Pool.int)
    else if tag = 0x4a then Rd.map .long (rIdx Pool.long)
    else if tag = 0x53 then rIntIn (-32768) 32767 fun x => .short x.toInt16
    else if tag = 0x5a then rIntIn 0 1 fun x => .boolean (x = 1)
    else if tag = 0x73 then Rd.map .string rUtf8
    else if tag = 0x65 then Rd.ap (Rd.map .enum rType) rUtf8
    else if tag = 0x63 then Rd.map .cls rClassText
    else if tag = 0x40 then Rd.ap (Rd.map .annotation rType) (Elems.readWith (AnnValue.readF n))
    else if tag = 0x5b then Rd.map .array (rVec u16 (AnnValue.readF n))
    else Rd.fail .invalid

/-- The reader: every level of nesting takes at least one byte, so the number of remaining bytes is
fuel enough (C43). -/
def AnnValue.read : Rd AnnValue := fun env st bs => AnnValue.readF (bs.length + 1) env st bs

def Elems.read : Rd Elems := Elems.readWith AnnValue.read

def Annotation.read : Rd Annotation := Rd.ap (Rd.map Annotation.mk rType) Elems.read

/-! ## Type annotations -/

/-- src/annotation/type_annotation.rs:12-28. -/
inductive ClassTarget where
  | typeParam (i : UInt8)
  | supertype (i : UInt16)
  | bound (i j : UInt8)
  deriving DecidableEq, Repr

def ClassTarget.write : ClassTarget → Ins Bytes
  | .typeParam i => wSeq [wNum u8 0, wNum u8 i]
  | .supertype i => wSeq [wNum u8 0x10, wNum u16 i]
  | .bound i j => wSeq [wNum u8 0x11, wNum u8 i, wNum u8 j]

def ClassTarget.read : Rd ClassTarget := Rd.bind (rNum u8) fun tag =>
  if tag = 0 then Rd.map .typeParam (rNum u8)
  else if tag = 0x10 then Rd.map .supertype (rNum u16)
  else if tag = 0x11 then Rd.ap (Rd.map .bound (rNum u8)) (rNum u8)
  else Rd.fail .invalid

/-- type_annotation.rs:30-45. -/
inductive MethodTarget where
  | typeParam (i : UInt8)
  | bound (i j : UInt8)
  | ret
  | receiver
  | param (i : UInt8)
  | throws (i : UInt16)
  deriving DecidableEq, Repr

def MethodTarget.write : MethodTarget → Ins Bytes
  | .typeParam i => wSeq [wNum u8 0x1, wNum u8 i]
  | .bound i j => wSeq [wNum u8 0x12, wNum u8 i, wNum u8 j]
  | .ret => wSeq [wNum u8 0x14]
  | .receiver => wSeq [wNum u8 0x15]
  | .param i => wSeq [wNum u8 0x16, wNum u8 i]
  | .throws i => wSeq [wNum u8 0x17, wNum u16 i]

def MethodTarget.read : Rd MethodTarget := Rd.bind (rNum u8) fun tag =>
  if tag = 0x1 then Rd.map .typeParam (rNum u8)
  else if tag = 0x12 then Rd.ap (Rd.map .bound (rNum u8)) (rNum u8)
  else if tag = 0x14 then Rd.pure .ret
  else if tag = 0x15 then Rd.pure .receiver
  else if tag = 0x16 then Rd.map .param (rNum u8)
  else if tag = 0x17 then Rd.map .throws (rNum u16)
  else Rd.fail .invalid

/-- type_annotation.rs:142-147. -/
inductive FieldTarget where
  | field
  deriving DecidableEq, Repr

def FieldTarget.write : FieldTarget → Ins Bytes
  | .field => wSeq [wNum u8 0x13]

def FieldTarget.read : Rd FieldTarget := Rd.bind (rNum u8) fun tag =>
  if tag = 0x13 then Rd.pure .field else Rd.fail .invalid

/-- type_annotation.rs:47-52. -/
structure LocalVarTarget where
  start : Label
  stop : Label
  idx : UInt16
  deriving DecidableEq, Repr

/-- type_annotation.rs:69-80: `end - start` overflows when the end is before the start. -/
def LocalVarTarget.write (env : WEnv) (t : LocalVarTarget) : Ins Bytes := do
  let s ← Ins.lift (env.label t.start)
  let e ← Ins.lift (env.label t.stop)
  if e < s then Ins.fail .panic
  else pure (u16.write s ++ u16.write (e - s) ++ u16.write t.idx)

/-- type_annotation.rs:55-67. -/
def LocalVarTarget.read : Rd LocalVarTarget :=
  Rd.bind (rNum u16) fun s => Rd.bind (getLabel s.toUInt32) fun start =>
    Rd.bind (rNum u16) fun len => Rd.bind (getLabel (s.toUInt32 + len.toUInt32)) fun stop =>
      Rd.map (LocalVarTarget.mk start stop) (rNum u16)

/-- type_annotation.rs:83-111; the first tag is 0x40 and the others follow in order
(coffer_macros/src/derive.rs:487-505). -/
inductive CodeTarget where
  | localVar (ts : List LocalVarTarget)
  | resourceVar (ts : List LocalVarTarget)
  | catchParam (c : Catch)
  | instanceOf (l : Label)
  | new (l : Label)
  | newRef (l : Label)
  | methodRef (l : Label)
  | cast (l : Label) (i : UInt8)
  | newArg (l : Label) (i : UInt8)
  | methodArg (l : Label) (i : UInt8)
  | newRefArg (l : Label) (i : UInt8)
  | methodRefArg (l : Label) (i : UInt8)
  deriving DecidableEq, Repr

def CodeTarget.write (env : WEnv) : CodeTarget → Ins Bytes
  | .localVar ts => wSeq [wNum u8 0x40, wVec u16 (LocalVarTarget.write env) ts]
  | .resourceVar ts => wSeq [wNum u8 0x41, wVec u16 (LocalVarTarget.write env) ts]
  | .catchParam c => wSeq [wNum u8 0x42, wCatch env c]
  | .instanceOf l => wSeq [wNum u8 0x43, wLabel env l]
  | .new l => wSeq [wNum u8 0x44, wLabel env l]
  | .newRef l => wSeq [wNum u8 0x45, wLabel env l]
  | .methodRef l => wSeq [wNum u8 0x46, wLabel env l]
  | .cast l i => wSeq [wNum u8 0x47, wLabel env l, wNum u8 i]
  | .newArg l i => wSeq [wNum u8 0x48, wLabel env l, wNum u8 i]
  | .methodArg l i => wSeq [wNum u8 0x49, wLabel env l, wNum u8 i]
  | .newRefArg l i => wSeq [wNum u8 0x4a, wLabel env l, wNum u8 i]
  | .methodRefArg l i => wSeq [wNum u8 0x4b, wLabel env l, wNum u8 i]

def CodeTarget.read : Rd CodeTarget := Rd.bind (rNum u8) fun tag =>
  if tag = 0x40 then Rd.map .localVar (rVec u16 LocalVarTarget.read)
  else if tag = 0x41 then Rd.map .resourceVar (rVec u16 LocalVarTarget.read)
  else if tag = 0x42 then Rd.map .catchParam rCatch
  else if tag = 0x43 then Rd.map .instanceOf rLabel
  else if tag = 0x44 then Rd.map .new rLabel
  else if tag = 0x45 then Rd.map .newRef rLabel
  else if tag = 0x46 then Rd.map .methodRef rLabel
  else if tag = 0x47 then Rd.ap (Rd.map .cast rLabel) (rNum u8)
  else if tag = 0x48 then Rd.ap (Rd.map .newArg rLabel) (rNum u8)
  else if tag = 0x49 then Rd.ap (Rd.map .methodArg rLabel) (rNum u8)
  else if tag = 0x4a then Rd.ap (Rd.map .newRefArg rLabel) (rNum u8)
  else if tag = 0x4b then Rd.ap (Rd.map .methodRefArg rLabel) (rNum u8)
  else Rd.fail .invalid

/-- type_annotation.rs:113-120; tags from 0. -/
inductive PathStep where
  | array (i : UInt8)
  | nested (i : UInt8)
  | bound (i : UInt8)
  | arg (i : UInt8)
  deriving DecidableEq, Repr

def PathStep.write : PathStep → Ins Bytes
  | .array i => wSeq [wNum u8 0, wNum u8 i]
  | .nested i => wSeq [wNum u8 1, wNum u8 i]
  | .bound i => wSeq [wNum u8 2, wNum u8 i]
  | .arg i => wSeq [wNum u8 3, wNum u8 i]

def PathStep.read : Rd PathStep := Rd.bind (rNum u8) fun tag =>
  if tag = 0 then Rd.map .array (rNum u8)
  else if tag = 1 then Rd.map .nested (rNum u8)
  else if tag = 2 then Rd.map .bound (rNum u8)
  else if tag = 3 then Rd.map .arg (rNum u8)
  else Rd.fail .invalid

/-- type_annotation.rs:122-130 `ClassTypeAnnotation`, 132-140 `MethodTypeAnnotation`, 149-157
`FieldTypeAnnotation`, 159-166 `CodeTypeAnnotation`: four structures that differ in the target. -/
structure TypeAnnotation (T : Type) where
  target : T
  path : List PathStep
  ty : JType
  vals : Elems

def TypeAnnotation.write {T : Type} (w : T → Ins Bytes) (a : TypeAnnotation T) : Ins Bytes :=
  wSeq [w a.target, wVec u8 PathStep.write a.path, wType a.ty, Elems.write a.vals]

def TypeAnnotation.read {T : Type} (r : Rd T) : Rd (TypeAnnotation T) :=
  Rd.ap (Rd.ap (Rd.ap (Rd.map TypeAnnotation.mk r) (rVec u8 PathStep.read)) rType) Elems.read

end Verif
