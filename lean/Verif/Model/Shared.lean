import Verif.Model.Class

/-! # Writing a class whose cells are shared

`Class.read` returns a class in which a cell is a number: the cell holds a copy of that entry of the first table
of bootstrap methods (cp.rs:184-200), and the copy shares the cells of the entry (`BootstrapMethod` derives
`Clone`, dynamic.rs:8-13, and the clone of an `Arc` is the same cell). This is the writer of clazz.rs:71-133 for
such classes: it differs from `Class.write` in that a cell is looked up in the table when the writer asks for it
(`get_bsm`, dynamic.rs:77-80). -/

namespace Verif

/-- What a cell holds: cp.rs:185-191 has set it to a copy of an entry of the table. -/
def Cell.look (T : List Bsm) : Cell → Cell
  | .filled h as => .filled h as
  | .pending k => match T[k.toNat]? with
    | some b => .filled b.handle b.arguments
    | none => .pending k

def Dynamic.look (T : List Bsm) (d : Dynamic) : Dynamic := { d with bsm := d.bsm.look T }

def OrDynamic.look {α : Type} (T : List Bsm) : OrDynamic α → OrDynamic α
  | .dynamic d => .dynamic (d.look T)
  | .static a => .static a

def Arg.look (T : List Bsm) : Arg → Arg
  | .dynamic c n t => .dynamic (c.look T) n t
  | .static c => .static c

def Bsm.look (T : List Bsm) (b : Bsm) : Bsm := ⟨b.handle, b.arguments.map (Arg.look T)⟩

/-- The instructions that hold a `Dynamic` or an `OrDynamic` (code/structure.rs:275-310). -/
def Insn.look (T : List Bsm) : Insn → Insn
  | .push c => .push (c.look T)
  | .checkCast t => .checkCast (t.look T)
  | .instanceOf t => .instanceOf (t.look T)
  | .newArray t n => .newArray (t.look T) n
  | .new t => .new (t.look T)
  | .field o t m => .field o t (m.look T)
  | .invokeExact t m => .invokeExact t (m.look T)
  | .invokeSpecial m => .invokeSpecial (m.look T)
  | .invokeInterface m n => .invokeInterface (m.look T) n
  | .invokeDynamic d => .invokeDynamic (d.look T)
  | i => i

def MethodAttrOf.look (T : List Bsm) : MethodAttr → MethodAttr
  | .code x => .code { x with code := x.code.map (Insn.look T) }
  | a => a

def Method.look (T : List Bsm) (m : Method) : Method := { m with attrs := m.attrs.map (MethodAttrOf.look T) }

/-- The cells in code are the only ones outside tables of bootstrap methods. -/
def ClassOf.look (T : List Bsm) (x : Class) : Class := { x with methods := x.methods.map (Method.look T) }

/-- clazz.rs:113-120, as `writeBatches`; the entries of a round are looked up when they are written. `fuel` is the
number of times the condition of the loop is evaluated before the model gives up, with `diverge`. -/
def writeBatchesIn (T : List Bsm) : Nat → Nat → VecCp → Res (Nat × Bytes × VecCp)
  | 0, _, _ => .error .diverge
  | fuel + 1, i, cp =>
    if cp.bsm.length = 0 then .ok (i, [], cp)
    else if i + cp.bsm.length % 65536 < 65536 then
      match wAll (fun b => (b.look T).write) cp.bsm { cp with bsm := [] } with
      | .error e => .error e
      | .ok (bs, cp') =>
        match writeBatchesIn T fuel (i + cp.bsm.length % 65536) cp' with
        | .error e => .error e
        | .ok (n, bs', cp'') => .ok (n, bs ++ bs', cp'')
    else .error .panic

/-- clazz.rs:110-129, as `wBootstrap`. -/
def wBootstrapIn (T : List Bsm) (fuel : Nat) : Ins Bytes := fun cp =>
  if cp.bsm.length = 0 then .ok ([], cp)
  else match writeBatchesIn T fuel 0 cp with
    | .error e => .error e
    | .ok (n, bs, cp) =>
      match wUtf8 N.bootstrapMethods cp with
      | .error e => .error e
      | .ok (name, cp) =>
        if bs.length % 4294967296 + 2 < 4294967296 then
          .ok (name ++ u32.write (UInt32.ofNat (bs.length % 4294967296 + 2)) ++
            u16.write (UInt16.ofNat n) ++ bs, cp)
        else .error .panic

/-- clazz.rs:71-133 for a class whose cells are entries of `T`. -/
def ClassOf.writeIn (T : List Bsm) (fuel : Nat) (x : Class) : Res Bytes :=
  match wSeq [(x.look T).writeBody, wBootstrapIn T fuel] { VecCp.new with bsm := ownBsms x.attrs } with
  | .error e => .error e
  | .ok (buf, cp) =>
    match cp.write with
    | .error e => .error e
    | .ok pool => .ok (u32.write jvmMagic ++ x.version.write ++ pool ++ buf)

/-- Writing a class that was read: its cells are entries of its first table of bootstrap methods
(clazz.rs:50-55); without one they are empty. -/
def ClassOf.rewrite (fuel : Nat) (x : Class) : Res Bytes := x.writeIn ((bootstrapTable x.attrs).getD []) fuel

end Verif
