import Verif.Model.Code

/-! # Model of methods and classes: src/member.rs, src/clazz.rs -/

namespace Verif
open Sig

/-! ## src/member.rs: methods -/

/-- member.rs:81-98, with the type of the method body left open (the specification uses other
descriptions of a body than the code). `ParameterAnnotations` (annotation/mod.rs:18-19) is its
field. -/
inductive MethodAttrOf (C : Type) where
  | code (x : C)
  | deprecated
  | synthetic
  | signature (s : MethodSig)
  | visible (as : List Annotation)
  | invisible (as : List Annotation)
  | visibleType (as : List (TypeAnnotation MethodTarget))
  | invisibleType (as : List (TypeAnnotation MethodTarget))
  | visibleParams (ps : List (List Annotation))
  | invisibleParams (ps : List (List Annotation))
  | exceptions (cs : List Bytes)
  | annotationDefault (v : AnnValue)
  | methodParameters (ps : List MethodParameter)
  | raw (a : RawAttribute)

/-- member.rs:81-98. -/
abbrev MethodAttr := MethodAttrOf Code

/-- member.rs:81-98, derived writer (coffer_macros/src/derive.rs:156-212). -/
def MethodAttr.write : MethodAttr → Ins Bytes
  | .code x => wAttr N.code x.write
  | .deprecated => wAttr N.deprecated (wSeq [])
  | .synthetic => wAttr N.synthetic (wSeq [])
  | .signature s => wAttr N.signature (wSig (showMethod s))
  | .visible as => wAttr N.runtimeVisibleAnnotations (wVec u16 Annotation.write as)
  | .invisible as => wAttr N.runtimeInvisibleAnnotations (wVec u16 Annotation.write as)
  | .visibleType as =>
    wAttr N.runtimeVisibleTypeAnnotations (wVec u16 (TypeAnnotation.write MethodTarget.write) as)
  | .invisibleType as =>
    wAttr N.runtimeInvisibleTypeAnnotations (wVec u16 (TypeAnnotation.write MethodTarget.write) as)
  | .visibleParams ps =>
    wAttr N.runtimeVisibleParameterAnnotations (wVec u8 (wVec u16 Annotation.write) ps)
  | .invisibleParams ps =>
    wAttr N.runtimeInvisibleParameterAnnotations (wVec u8 (wVec u16 Annotation.write) ps)
  | .exceptions cs => wAttr N.exceptions (wVec u16 (wStr 7) cs)
  | .annotationDefault v => wAttr N.annotationDefault v.write
  | .methodParameters ps => wAttr N.methodParameters (wVec u8 MethodParameter.write ps)
  | .raw a => wRaw a

/-- The payload readers by name (derive.rs:227-243). -/
def MethodAttr.table (ord : Nat → List LocalVariable → List LocalVariable) (name : Bytes) :
    Option (Rd MethodAttr) :=
  if name = N.code then some (Rd.map .code (Code.read ord))
  else if name = N.deprecated then some (Rd.pure .deprecated)
  else if name = N.synthetic then some (Rd.pure .synthetic)
  else if name = N.signature then some (Rd.map .signature (rSig parseMethod))
  else if name = N.runtimeVisibleAnnotations then some (Rd.map .visible (rVec u16 Annotation.read))
  else if name = N.runtimeInvisibleAnnotations then some (Rd.map .invisible (rVec u16 Annotation.read))
  else if name = N.runtimeVisibleTypeAnnotations then
    some (Rd.map .visibleType (rVec u16 (TypeAnnotation.read MethodTarget.read)))
  else if name = N.runtimeInvisibleTypeAnnotations then
    some (Rd.map .invisibleType (rVec u16 (TypeAnnotation.read MethodTarget.read)))
  else if name = N.runtimeVisibleParameterAnnotations then
    some (Rd.map .visibleParams (rVec u8 (rVec u16 Annotation.read)))
  else if name = N.runtimeInvisibleParameterAnnotations then
    some (Rd.map .invisibleParams (rVec u8 (rVec u16 Annotation.read)))
  else if name = N.exceptions then some (Rd.map .exceptions (rVec u16 (rStr 7)))
  else if name = N.annotationDefault then some (Rd.map .annotationDefault AnnValue.read)
  else if name = N.methodParameters then some (Rd.map .methodParameters (rVec u8 MethodParameter.read))
  else none

/-- How `HashMap::into_iter` (code.rs:219-223) orders the local variables of a body: an arbitrary choice
that may be different in every body. The first number is the length of the input that remains where
the attribute begins, so that no two bodies of a class need to be ordered alike. -/
abbrev Order := Nat → Nat → List LocalVariable → List LocalVariable

/-- member.rs:81-98, derived reader (derive.rs:214-262). -/
def MethodAttr.read (ord : Order) : Rd MethodAttr := fun env st bs =>
  rAttr (MethodAttr.table (ord bs.length)) .raw env st bs

/-- member.rs:100-108. -/
structure MethodOf (C : Type) where
  access : Flags .method
  name : Bytes
  descriptor : JType
  attrs : List (MethodAttrOf C)

abbrev Method := MethodOf Code

/-- member.rs:100-108, derived. -/
def Method.write (m : Method) : Ins Bytes :=
  wSeq [wFlags m.access, wUtf8 m.name, wType m.descriptor, wVec u16 MethodAttr.write m.attrs]

/-- member.rs:100-108, derived. -/
def Method.read (ord : Order) : Rd Method :=
  Rd.ap (Rd.ap (Rd.ap (Rd.map MethodOf.mk (rFlags .method)) rUtf8) rType) (rVec u16 (MethodAttr.read ord))

/-! ## src/clazz.rs -/

/-- clazz.rs:8-23. -/
structure ClassOf (C : Type) where
  version : Version
  access : Flags .cls
  name : Bytes
  superName : Option Bytes
  interfaces : List Bytes
  fields : List Field
  methods : List (MethodOf C)
  attrs : List ClassAttr

abbrev Class := ClassOf Code

/-- constants/mod.rs:4 `JVM_MAGIC`. -/
def jvmMagic : UInt32 := 0xCAFEBABE

/-! ### Reading -/

/-- clazz.rs:25-41 `ClassWrapper`, derived reader; the version has been read before. -/
def Class.readBody (ord : Order) (v : Version) : Rd Class :=
  Rd.ap (Rd.ap (Rd.ap (Rd.ap (Rd.ap (Rd.ap (Rd.map (ClassOf.mk v) (rFlags .cls)) (rStr 7)) rClsOpt)
    (rVec u16 (rStr 7))) (rVec u16 Field.read)) (rVec u16 (Method.read ord))) (rVec u16 ClassAttr.read)

/-- The table of the first `BootstrapMethods` attribute. -/
def bootstrapTable : List ClassAttr → Option (List Bsm)
  | [] => none
  | .bootstrapMethods ms :: _ => some ms
  | _ :: as => bootstrapTable as

/-- clazz.rs:50-55. The cells registered with `resolve_later` are filled from the first
`BootstrapMethods` attribute; it is an error when a cell asks for an entry that is not there. Without
such an attribute the cells stay empty. -/
def resolveCells (pending : List UInt16) (attrs : List ClassAttr) : Res Unit :=
  match bootstrapTable attrs with
  | none => .ok ()
  | some ms =>
    match bootstrapMethods ms (pending.mapIdx fun n k => (k, n)) with
    | .ok _ => .ok ()
    | .error e => .error e

/-- clazz.rs:44-69 `Class::read_from`. In the result a cell `Cell.pending k` is a cell shared with
the table of the first `BootstrapMethods` attribute: it holds a copy of entry `k` of that table
(cp.rs:184-200, modelled by `bootstrapMethods`), and is empty if there is no such attribute. The
copies share their cells, so that a table whose entries refer to each other in a circle gives a
cyclic value; this form of the result can express it. -/
def Class.read (ord : Order) : Bytes → Res (Class × Bytes) := fun bs =>
  match u32.read bs with
  | .error e => .error e
  | .ok (magic, bs) =>
    if magic = jvmMagic then
      match Version.read bs with
      | .error e => .error e
      | .ok (v, bs) =>
        match MapCp.read bs with
        | .error e => .error e
        | .ok (cp, bs) =>
          match Class.readBody ord v ⟨cp.get, none⟩ ⟨[], none⟩ bs with
          | .error e => .error e
          | .ok (c, st, bs) =>
            match resolveCells st.pending c.attrs with
            | .error e => .error e
            | .ok () => .ok (c, bs)
    else .error .invalid

/-! ### Writing -/

mutual
/-- A number that gets smaller from one round of the loop clazz.rs:113-120 to the next. It is not part
of the code. -/
def Cell.nodes : Cell → Nat
  | .pending _ => 0
  | .filled _ as => 1 + argNodes as
def argNodes : List Arg → Nat
  | [] => 0
  | .static _ :: as => argNodes as
  | .dynamic c _ _ :: as => c.nodes + argNodes as
end

def bsmNodes (ms : List Bsm) : Nat := (ms.map fun b => 1 + argNodes b.arguments).sum

/-- clazz.rs:113-120: the loop that writes the bootstrap methods. `i` is the number written so far; the
sum is checked (overflow panics), `len` is cut to 16 bits first. The entries written in one round may
register new ones, whose numbers start again at zero because `cp.bsm` has been emptied. The result is
the number of entries and their bytes. The Rust loop has no bound; that the test on `bsmNodes` never
fails is proved (`C57`). -/
def writeBatches (i : Nat) (cp : VecCp) : Res (Nat × Bytes × VecCp) :=
  if cp.bsm.length = 0 then .ok (i, [], cp)
  else if i + cp.bsm.length % 65536 < 65536 then
    match wAll Bsm.write cp.bsm { cp with bsm := [] } with
    | .error e => .error e
    | .ok (bs, cp') =>
      if _h : bsmNodes cp'.bsm < bsmNodes cp.bsm then
        match writeBatches (i + cp.bsm.length % 65536) cp' with
        | .error e => .error e
        | .ok (n, bs', cp'') => .ok (n, bs ++ bs', cp'')
      else .error .diverge
  else .error .panic
termination_by bsmNodes cp.bsm

/-- clazz.rs:110-129. `buf2.len() as u32 + 2` is a checked sum. -/
def wBootstrap : Ins Bytes := fun cp =>
  if cp.bsm.length = 0 then .ok ([], cp)
  else match writeBatches 0 cp with
    | .error e => .error e
    | .ok (n, bs, cp) =>
      match wUtf8 N.bootstrapMethods cp with
      | .error e => .error e
      | .ok (name, cp) =>
        if bs.length % 4294967296 + 2 < 4294967296 then
          .ok (name ++ u32.write (UInt32.ofNat (bs.length % 4294967296 + 2)) ++
            u16.write (UInt16.ofNat n) ++ bs, cp)
        else .error .panic

/-- `(v.len() as u16).write_to(buf)`, then the elements (clazz.rs:91-109). -/
def wCut {α : Type} (w : α → Ins Bytes) (xs : List α) : Ins Bytes :=
  wSeq [wNum u16 (UInt16.ofNat xs.length), wAll w xs]

/-- clazz.rs:104-109: `BootstrapMethods` is left out here. -/
def ClassAttr.writeOther : ClassAttr → Ins Bytes
  | .bootstrapMethods _ => wSeq []
  | a => a.write

/-- clazz.rs:84-109. -/
def Class.writeBody (x : Class) : Ins Bytes :=
  wSeq [wFlags x.access, wIdx (insertClass x.name), wOpt insertClass x.superName,
    wCut (fun s => wIdx (insertClass s)) x.interfaces, wCut Field.write x.fields,
    wCut Method.write x.methods, wCut ClassAttr.writeOther x.attrs]

/-- clazz.rs:72-77. -/
def ownBsms : List ClassAttr → List Bsm
  | [] => []
  | .bootstrapMethods ms :: as => ms ++ ownBsms as
  | _ :: as => ownBsms as

/-- clazz.rs:71-133 `Class::write_to`. The magic number and the version are written before anything
can fail; what has been written when an error is returned is not modelled. -/
def Class.write (x : Class) : Res Bytes :=
  match wSeq [x.writeBody, wBootstrap] { VecCp.new with bsm := ownBsms x.attrs } with
  | .error e => .error e
  | .ok (buf, cp) =>
    match cp.write with
    | .error e => .error e
    | .ok pool => .ok (u32.write jvmMagic ++ x.version.write ++ pool ++ buf)

end Verif
