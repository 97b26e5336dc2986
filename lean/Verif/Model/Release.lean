import Verif.Model.Shared

/-! # Builds without overflow checks

The other models are of a build in which arithmetic that overflows panics (`overflow-checks`, on by default in debug
builds). Here are five places in which it wraps otherwise, which is the default of release builds: `dim += 1` in
`get_type`, `i += entry.size()` in `MapCp::read_from`, `self.len += size` in `insert_raw`, and `i += v.len() as u16` and
`buf2.len() as u32 + 2` in `Class::write_to`. -/

namespace Verif

namespace JType
open Wtf8

mutual
/-- src/ty.rs:92-149 `get_type`, as `getType`; `dim += 1` in line 118 wraps. -/
def getTypeW : Nat → List Nat → Res (JType × List Nat)
  | 0, _ => .error .diverge
  | _ + 1, [] => .error .invalid
  | fuel + 1, c :: cs =>
    if c = 0x42 then .ok (.byte, cs)
    else if c = 0x43 then .ok (.char, cs)
    else if c = 0x44 then .ok (.double, cs)
    else if c = 0x46 then .ok (.float, cs)
    else if c = 0x49 then .ok (.int, cs)
    else if c = 0x4A then .ok (.long, cs)
    else if c = 0x5A then .ok (.boolean, cs)
    else if c = 0x53 then .ok (.short, cs)
    else if c = 0x4C then
      let name := (cs.takeWhile (· ≠ 0x3B)).foldl push []
      match cs.dropWhile (· ≠ 0x3B) with
      | [] => .error .invalid
      | _ :: rest => .ok (.ref name, rest)
    else if c = 0x5B then
      let (k, rest) := countBrackets cs
      match getTypeW fuel rest with
      | .ok (t, rest) => .ok (.array (UInt8.ofNat (1 + k)) t, rest)
      | .error e => .error e
    else if c = 0x28 then
      match getParamsW fuel cs with
      | .ok (ts, rest) =>
        match rest with
        | [] => .error .invalid
        | _ :: rest =>
          if rest.head? = some 0x56 then .ok (.method ts none, rest)
          else match getTypeW fuel rest with
            | .ok (t, rest) => .ok (.method ts (some t), rest)
            | .error e => .error e
      | .error e => .error e
    else .error .invalid
/-- src/ty.rs:125-127, as `getParams`. -/
def getParamsW : Nat → List Nat → Res (List JType × List Nat)
  | 0, _ => .error .diverge
  | fuel + 1, cs =>
    if cs.head?.getD 0x29 = 0x29 then .ok ([], cs)
    else match getTypeW fuel cs with
      | .ok (t, rest) =>
        match getParamsW fuel rest with
        | .ok (ts, rest) => .ok (t :: ts, rest)
        | .error e => .error e
      | .error e => .error e
end

/-- src/ty.rs:91-151 `parse_type`, as `parseType`. -/
def parseTypeW (s : Bytes) : Res JType :=
  match codepoints s with
  | none => .error .ub
  | some cs =>
    match getTypeW (2 * cs.length + 2) cs with
    | .ok (t, _) => .ok t
    | .error e => .error e

end JType

/-- src/cp.rs:161-166: the loop, as `MapCp.readLoop`; `i += entry.size()` in line 164 wraps, so that the number of the
next entry may become smaller. The loop then ends with the input at the latest, `fuel` is its length (`C89_read_partial`
shows that this is enough). -/
def MapCp.readLoopW (count : UInt16) : Nat → UInt16 → List (UInt16 × Entry) → Reader MapCp
  | 0, _, _, _ => .error .diverge
  | fuel + 1, i, acc, bs =>
    if i < count then
      match Entry.read bs with
      | .ok (e, rest) => readLoopW count fuel (i + e.size) ((i, e) :: acc) rest
      | .error e => .error e
    else .ok (⟨acc⟩, bs)

/-- src/cp.rs:157-168 `MapCp::read_from`, as `MapCp.read`. -/
def MapCp.readW : Reader MapCp := Reader.bind u16.read fun count bs => MapCp.readLoopW count (bs.length + 1) 1 [] bs

/-- src/cp.rs:218-229 `insert_raw`, as `insertRaw`; `self.len += size` in line 224 wraps. -/
def insertRawW (e : Entry) (cp : VecCp) : UInt16 × VecCp :=
  match cp.cache.lookup e with
  | some i => (i, cp)
  | none => (cp.len, { cp with
      entries := cp.entries ++ [e], cache := (e, cp.len) :: cp.cache, len := cp.len + e.size })

/-- Several insertions, one after another. -/
def insertAllW : List Entry → VecCp → List UInt16 × VecCp
  | [], cp => ([], cp)
  | e :: es, cp =>
    let (i, cp) := insertRawW e cp
    let (is, cp) := insertAllW es cp
    (i :: is, cp)

/-- Several insertions with overflow checks. -/
def insertAll : List Entry → Ins (List UInt16)
  | [] => pure []
  | e :: es => do
    let i ← insertRaw e
    let is ← insertAll es
    pure (i :: is)

/-- clazz.rs:113-120, as `writeBatchesIn`; the sum of 16-bit numbers in line 116 wraps. Insertions are those of a
build with checks: where they succeed, those of a build without are the same. -/
def writeBatchesInW (T : List Bsm) : Nat → UInt16 → VecCp → Res (UInt16 × Bytes × VecCp)
  | 0, _, _ => .error .diverge
  | fuel + 1, i, cp =>
    if cp.bsm.length = 0 then .ok (i, [], cp)
    else
      match wAll (fun b => (b.look T).write) cp.bsm { cp with bsm := [] } with
      | .error e => .error e
      | .ok (bs, cp') =>
        match writeBatchesInW T fuel (i + UInt16.ofNat cp.bsm.length) cp' with
        | .error e => .error e
        | .ok (n, bs', cp'') => .ok (n, bs ++ bs', cp'')

/-- clazz.rs:110-129, as `wBootstrapIn`. -/
def wBootstrapInW (T : List Bsm) (fuel : Nat) : Ins Bytes := fun cp =>
  if cp.bsm.length = 0 then .ok ([], cp)
  else match writeBatchesInW T fuel 0 cp with
    | .error e => .error e
    | .ok (n, bs, cp) =>
      match wUtf8 N.bootstrapMethods cp with
      | .error e => .error e
      | .ok (name, cp) => .ok (name ++ u32.write (UInt32.ofNat bs.length + 2) ++ u16.write n ++ bs, cp)

/-- clazz.rs:71-133, as `ClassOf.writeIn`. -/
def ClassOf.writeInW (T : List Bsm) (fuel : Nat) (x : Class) : Res Bytes :=
  match wSeq [(x.look T).writeBody, wBootstrapInW T fuel] { VecCp.new with bsm := ownBsms x.attrs } with
  | .error e => .error e
  | .ok (buf, cp) =>
    match cp.write with
    | .error e => .error e
    | .ok pool => .ok (u32.write jvmMagic ++ x.version.write ++ pool ++ buf)

/-- Writing a class that was read, as `ClassOf.rewrite`. -/
def ClassOf.rewriteW (fuel : Nat) (x : Class) : Res Bytes := x.writeInW ((bootstrapTable x.attrs).getD []) fuel

end Verif
