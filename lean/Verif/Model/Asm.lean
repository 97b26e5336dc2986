import Verif.Model.Instr

/-!
# Model of the assembly of method bodies: `Code::write_to`, src/code.rs:250-519

`usize` arithmetic is arithmetic on `Nat` (no overflow on 64 bits); the casts `as u32`, `as u16` and
`as i32` and the checked operations on 16-bit and 32-bit numbers are modelled.
-/

namespace Verif
open opc

/-- The instructions whose size depends on their position (src/code/convert.rs:800-806). -/
inductive Branch where
  | lookup (default : Label) (table : List (Int32 × Label))
  | table (default : Label) (low : Int32) (offsets : List Label)
  | jump (c : Cond) (l : Label)
  | jsr (l : Label)

/-- src/code.rs:259-263, the variables of `write_to`: `buf`, the buffer of `cursor`, `jumps` and
`labels` (the newest entry of a label counts). The line numbers (src/code.rs:262) are collected by the
code and never used, so they are left out. -/
structure CodeBuf where
  buf : List Bytes
  cur : Bytes
  jumps : List Branch
  labels : List (Label × (Nat × Nat))

def CodeBuf.empty : CodeBuf := ⟨[], [], [], []⟩

/-- src/code/convert.rs:800-806. -/
def CodeBuf.branch (b : CodeBuf) (j : Branch) : CodeBuf :=
  { b with buf := b.buf ++ [b.cur], cur := [], jumps := b.jumps ++ [j] }

/-- src/code/convert.rs:415-812 `write_insn`. -/
def writeInsn (b : CodeBuf) (i : Insn) : Ins CodeBuf :=
  match i with
  | .lookupSwitch d t => pure (b.branch (.lookup d t))
  | .tableSwitch d low ls => pure (b.branch (.table d low ls))
  | .jump c l => pure (b.branch (.jump c l))
  | .jsr l => pure (b.branch (.jsr l))
  | .label l => pure { b with labels := (l, (b.buf.length, b.cur.length)) :: b.labels }
  | .lineNumber _ => pure b
  | i => do
    let bs ← i.encode
    pure { b with cur := b.cur ++ bs }

/-- src/code.rs:272-282. -/
def writeInsns (b : CodeBuf) : List Insn → Ins CodeBuf
  | [] => pure b
  | i :: is => do
    let b ← writeInsn b i
    writeInsns b is

/-- src/code.rs:288-300 `this_size_max`. -/
def Branch.maxSize : Branch → Nat
  | .lookup _ t => 1 + (11 + t.length * 8)
  | .table _ _ ls => 1 + (15 + ls.length * 4)
  | .jsr _ => 1 + 4
  | .jump .always _ => 1 + 4
  | .jump _ _ => 1 + 7

/-- src/code.rs:285-303 `index_hints`; `buf_iter.next().unwrap()` panics when there are too few
buffers. -/
def hintsFrom (last : Nat) : List Branch → List Bytes → Res (List Nat)
  | [], _ => .ok []
  | _ :: _, [] => .error .panic
  | j :: js, b :: bs =>
    match hintsFrom (last + (j.maxSize + b.length)) js bs with
    | .ok hs => .ok ((last + (j.maxSize + b.length)) :: hs)
    | .error e => .error e

/-- src/code.rs:264-270 `get_label!`. -/
def findLabel (labels : List (Label × (Nat × Nat))) (l : Label) : Res (Nat × Nat) :=
  match labels.lookup l with
  | some p => .ok p
  | none => .error .invalid

/-- `v[i]`. -/
def indexOrPanic (v : List Nat) (i : Nat) : Res Nat :=
  match v[i]? with
  | some x => .ok x
  | none => .error .panic

/-- `if buf_idx != 0 { v[buf_idx - 1] } else { 0 }`. -/
def startOf (v : List Nat) (bufIdx : Nat) : Res Nat :=
  if bufIdx = 0 then .ok 0 else indexOrPanic v (bufIdx - 1)

/-- src/code.rs:350-356 and 364-370 `target_off`. -/
def targetOff (labels : List (Label × (Nat × Nat))) (hints : List Nat) (l : Label) : Res Nat :=
  match findLabel labels l with
  | .ok (bufIdx, bufOff) =>
    match startOf hints bufIdx with
    | .ok s => .ok (s + bufOff)
    | .error e => .error e
  | .error e => .error e

/-- src/code.rs:336-337, 346-347, 420-421, 440-441: the padding after position `n`. -/
def padding (n : Nat) : Nat := if n % 4 = 0 then 0 else 4 - n % 4

/-- src/code.rs:321-377 `actual_size`, of a branch whose opcode is at `pos`. -/
def Branch.size (labels : List (Label × (Nat × Nat))) (hints : List Nat) (pos : Nat) : Branch → Res Nat
  | .lookup _ t => .ok (1 + (padding (pos + 1) + 8 + t.length * 8))
  | .table _ _ ls => .ok (1 + (padding (pos + 1) + 12 + ls.length * 4))
  | .jsr l | .jump .always l =>
    match targetOff labels hints l with
    | .ok t => .ok (1 + (if t ≤ 65535 then 2 else 4))
    | .error e => .error e
  | .jump _ l =>
    match targetOff labels hints l with
    | .ok t => .ok (1 + (if t ≤ 65535 then 2 else 7))
    | .error e => .error e

/-- src/code.rs:317-382: for each branch its size and the position after it (`sizes_of_jump_insns`,
`actual_indices`), starting at position `last`. -/
def layoutFrom (labels : List (Label × (Nat × Nat))) (hints : List Nat) (last : Nat) :
    List Branch → List Bytes → Res (List (Nat × Nat))
  | [], _ => .ok []
  | _ :: _, [] => .error .panic
  | j :: js, b :: bs =>
    match j.size labels hints (last + b.length) with
    | .error e => .error e
    | .ok s =>
      match layoutFrom labels hints (last + b.length + s) js bs with
      | .error e => .error e
      | .ok r => .ok ((s, last + b.length + s) :: r)

/-- src/code.rs:393-403 `resolve_label!` for the branch with the given size that ends at `idx`:
`u32` addition, wrapping subtraction, checked `i32` addition. -/
def resolveLabel (labels : List (Label × (Nat × Nat))) (indices : List Nat) (size idx : Nat) (l : Label) :
    Res Int32 :=
  match findLabel labels l with
  | .error e => .error e
  | .ok (bufOff, innerOff) =>
    match startOf indices bufOff with
    | .error e => .error e
    | .ok s =>
      if (UInt32.ofNat s).toNat + (UInt32.ofNat innerOff).toNat < 2 ^ 32 then
        let that := UInt32.ofNat s + UInt32.ofNat innerOff
        let d := that.toInt32 - (UInt32.ofNat idx).toInt32
        let r := d.toInt + (UInt32.ofNat size).toInt32.toInt
        if -2 ^ 31 ≤ r ∧ r < 2 ^ 31 then .ok (Int32.ofInt r) else .error .panic
      else .error .panic

/-- `for l in … { write_to!(&resolve_label!(l), writer)? }`. -/
def resolveAll (labels : List (Label × (Nat × Nat))) (indices : List Nat) (size idx : Nat) :
    List Label → Res Bytes
  | [] => .ok []
  | l :: ls => do
    let o ← resolveLabel labels indices size idx l
    let bs ← resolveAll labels indices size idx ls
    return i32.write o ++ bs

/-- src/code.rs:428-431: the pairs of a lookup switch. -/
def resolvePairs (labels : List (Label × (Nat × Nat))) (indices : List Nat) (size idx : Nat) :
    List (Int32 × Label) → Res Bytes
  | [] => .ok []
  | (k, l) :: es => do
    let o ← resolveLabel labels indices size idx l
    let bs ← resolvePairs labels indices size idx es
    return i32.write k ++ i32.write o ++ bs

/-- src/code.rs:405-414 `wide!`: `i16::try_from`. -/
def fitsI16 (o : Int32) : Bool := -32768 ≤ o.toInt && o.toInt ≤ 32767

/-- src/code.rs:416-480: the bytes of the branch with the given size that ends at `idx`. `sort_keys`
is a sort by the keys, which are distinct. -/
def Branch.emit (labels : List (Label × (Nat × Nat))) (indices : List Nat) (size idx : Nat) :
    Branch → Res Bytes
  | .lookup d t => do
    let o ← resolveLabel labels indices size idx d
    let es ← resolvePairs labels indices size idx (t.mergeSort fun a b => a.1.toInt ≤ b.1.toInt)
    return u8.write LOOKUPSWITCH ++ List.replicate (padding (idx - size + 1)) 0 ++ i32.write o ++
      u32.write (UInt32.ofNat t.length) ++ es
  | .table d low ls => do
    let o ← resolveLabel labels indices size idx d
    -- 445: `offsets.len() - 1` underflows for an empty table; the sum is a checked `i32` addition
    if ls.length = 0 then .error .panic
    else
      let high := low.toInt + (UInt32.ofNat (ls.length - 1)).toInt32.toInt
      if -2 ^ 31 ≤ high ∧ high < 2 ^ 31 then do
        let os ← resolveAll labels indices size idx ls
        return u8.write TABLESWITCH ++ List.replicate (padding (idx - size + 1)) 0 ++ i32.write o ++
          i32.write low ++ i32.write (Int32.ofInt high) ++ os
      else .error .panic
  | .jsr l => do
    let o ← resolveLabel labels indices size idx l
    return if fitsI16 o then u8.write JSR ++ i16.write o.toInt16 else u8.write JSR_W ++ i32.write o
  | .jump .always l => do
    let o ← resolveLabel labels indices size idx l
    return if fitsI16 o then u8.write GOTO ++ i16.write o.toInt16 else u8.write GOTO_W ++ i32.write o
  | .jump c l => do
    let o ← resolveLabel labels indices size idx l
    if fitsI16 o then return u8.write c.opcode ++ i16.write o.toInt16
    else match c.neg with
      | none => .error .panic
      | some n => return u8.write n.opcode ++ i32.write 5 ++ u8.write GOTO_W ++ i32.write o

/-- src/code.rs:388-484: each branch, followed by the next buffer. `zip` stops at the shorter list. -/
def emitFrom (labels : List (Label × (Nat × Nat))) (indices : List Nat) :
    List Branch → List Bytes → List (Nat × Nat) → Res Bytes
  | j :: js, b :: bs, (s, idx) :: r =>
    match j.emit labels indices s idx with
    | .error e => .error e
    | .ok o =>
      match emitFrom labels indices js bs r with
      | .error e => .error e
      | .ok rest => .ok (o ++ b ++ rest)
  | [], _ :: _, _ :: _ => .error .panic
  | _, _, _ => .ok []

/-- src/code.rs:504-511 `Labeler::label`: `u16` casts and a checked `u16` addition. -/
def labelPos (labels : List (Label × (Nat × Nat))) (indices : List Nat) (l : Label) : Res UInt16 :=
  match labels.lookup l with
  | none => .error .panic
  | some (bufOff, innerOff) =>
    match startOf indices bufOff with
    | .error e => .error e
    | .ok s =>
      if (UInt16.ofNat s).toNat + (UInt16.ofNat innerOff).toNat < 2 ^ 16 then
        .ok (UInt16.ofNat s + UInt16.ofNat innerOff)
      else .error .panic

/-- The result of assembling: `code_len`, the bytes of the code, and what `label` answers. -/
structure Assembled where
  len : UInt32
  code : Bytes
  label : Label → Res UInt16

/-- src/code.rs:283-511. -/
def assemble (b : CodeBuf) : Res Assembled :=
  let buf := b.buf ++ [b.cur]
  match hintsFrom 0 b.jumps buf with
  | .error e => .error e
  | .ok hints =>
    match layoutFrom b.labels hints 0 b.jumps buf with
    | .error e => .error e
    | .ok r =>
      let indices := r.map Prod.snd
      -- 383-384: the buffer after the last branch, and the last position
      match buf[b.jumps.length]? with
      | none => .error .panic
      | some last =>
        let len := UInt32.ofNat (last.length + indices.getLast?.getD 0)
        match buf with
        | [] => .error .panic
        | first :: rest =>
          match emitFrom b.labels indices b.jumps rest r with
          | .error e => .error e
          | .ok code => .ok ⟨len, first ++ code, labelPos b.labels indices⟩

/-- src/code.rs:256-519: the code array of a list of instructions. -/
def writeCode (is : List Insn) : Ins Assembled := do
  let b ← writeInsns .empty is
  Ins.lift (assemble b)

end Verif
