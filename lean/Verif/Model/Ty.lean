import Verif.Model.Rw

/-!
# Model of src/ty.rs: type descriptors
-/

namespace Verif

/-- src/ty.rs:11-41 `Type`. Class names are strings (bytes). -/
inductive JType where
  | byte | char | double | float | int | long | boolean | short
  | ref (name : Bytes)
  | array (dim : UInt8) (t : JType)
  | method (params : List JType) (ret : Option JType)
  deriving Repr, Inhabited

namespace JType
open Wtf8

/-- src/ty.rs:46-48 `is_wide`. -/
def isWide : JType → Bool
  | .long | .double => true
  | _ => false

/-- src/ty.rs:59-61 `is_method`. -/
def isMethod : JType → Bool
  | .method _ _ => true
  | _ => false

/-- src/ty.rs:79-87 `Type::array`; `+=` on `u8` overflows. -/
def mkArray (dim : UInt8) (t : JType) : Res JType :=
  match t with
  | .array d t => if d.toNat + dim.toNat < 256 then .ok (.array (d + dim) t) else .error .panic
  | t => .ok (.array dim t)

/-- wtf8/src/lib.rs:654-657 `push_char`. -/
def pushChar (s : Bytes) (c : Nat) : Bytes := pushUnchecked s c

/-- `while next == '[' { c.next(); dim += 1 }`, src/ty.rs:116-119: the number of further brackets and
the rest. -/
def countBrackets : List Nat → Nat × List Nat
  | [] => (0, [])
  | c :: cs => if c = 0x5B then ((countBrackets cs).1 + 1, (countBrackets cs).2) else (0, c :: cs)

mutual
/-- src/ty.rs:92-149 `get_type` on the remaining code points. `fuel` bounds the recursion (the
recursion in the code ends because every call consumes a code point; `C16_total` shows that the
fuel given by `parseType` is never exhausted). -/
def getType : Nat → List Nat → Res (JType × List Nat)
  | 0, _ => .error .diverge
  | _ + 1, [] => .error .invalid
  | fuel + 1, c :: cs =>
    if c = 0x42 then .ok (.byte, cs)
    else if c = 0x43 then .ok (.char, cs)
    else if c = 0x44 then .ok (.double, cs)
    else if c = 0x46 then .ok (.float, cs)
    else if c = 0x49 then .ok (.int, cs)
    else if c = 0x4A then .ok (.long, cs)
    else if c = 0x5A then .ok (.boolean, cs)
    else if c = 0x53 then .ok (.short, cs)
    else if c = 0x4C then
      -- 104-113: collect up to ';' (or the end)
      let name := (cs.takeWhile (· ≠ 0x3B)).foldl push []
      match cs.dropWhile (· ≠ 0x3B) with
      | [] => .error .invalid
      | _ :: rest => .ok (.ref name, rest)
    else if c = 0x5B then
      -- 114-122: `dim += 1` overflows `u8`
      let (k, rest) := countBrackets cs
      if 1 + k < 256 then
        match getType fuel rest with
        | .ok (t, rest) => .ok (.array (UInt8.ofNat (1 + k)) t, rest)
        | .error e => .error e
      else .error .panic
    else if c = 0x28 then
      -- 123-140: the return marker 'V' is looked at but not consumed
      match getParams fuel cs with
      | .ok (ts, rest) =>
        match rest with
        | [] => .error .invalid
        | _ :: rest =>
          if rest.head? = some 0x56 then .ok (.method ts none, rest)
          else match getType fuel rest with
            | .ok (t, rest) => .ok (.method ts (some t), rest)
            | .error e => .error e
      | .error e => .error e
    else .error .invalid
/-- src/ty.rs:125-127: the parameter loop. -/
def getParams : Nat → List Nat → Res (List JType × List Nat)
  | 0, _ => .error .diverge
  | fuel + 1, cs =>
    if cs.head?.getD 0x29 = 0x29 then .ok ([], cs)
    else match getType fuel cs with
      | .ok (t, rest) =>
        match getParams fuel rest with
        | .ok (ts, rest) => .ok (t :: ts, rest)
        | .error e => .error e
      | .error e => .error e
end

/-- src/ty.rs:91-151 `parse_type`. Trailing input is ignored. -/
def parseType (s : Bytes) : Res JType :=
  match codepoints s with
  | none => .error .ub
  | some cs =>
    match getType (2 * cs.length + 2) cs with
    | .ok (t, _) => .ok t
    | .error e => .error e

mutual
/-- src/ty.rs:212-249 `write_type`, appending to `s`. -/
def writeType : JType → Bytes → Bytes
  | .byte, s => pushChar s 0x42
  | .char, s => pushChar s 0x43
  | .double, s => pushChar s 0x44
  | .float, s => pushChar s 0x46
  | .int, s => pushChar s 0x49
  | .long, s => pushChar s 0x4A
  | .boolean, s => pushChar s 0x5A
  | .short, s => pushChar s 0x53
  | .ref name, s => pushChar (pushWtf8 (pushChar s 0x4C) name) 0x3B
  | .array dim t, s => writeType t ((List.replicate dim.toNat 0x5B).foldl pushChar s)
  | .method params ret, s =>
    let s := pushChar (writeTypes params (pushChar s 0x28)) 0x29
    match ret with
    | some t => writeType t s
    | none => pushChar s 0x56
def writeTypes : List JType → Bytes → Bytes
  | [], s => s
  | t :: ts, s => writeTypes ts (writeType t s)
end

/-- src/ty.rs:204-210 `From<&Type> for Wtf8String`. -/
def toWtf8 (t : JType) : Bytes := writeType t []

mutual
/-- src/ty.rs:251-288 `Display`: UTF-8 text, class names are converted lossily. -/
def display : JType → Bytes
  | .byte => [0x42]
  | .char => [0x43]
  | .double => [0x44]
  | .float => [0x46]
  | .int => [0x49]
  | .long => [0x4A]
  | .boolean => [0x5A]
  | .short => [0x53]
  | .ref name => [0x4C] ++ toStringLossy name ++ [0x3B]
  | .array dim t => List.replicate dim.toNat 0x5B ++ display t
  | .method params ret =>
    [0x28] ++ displayAll params ++ [0x29] ++
      match ret with
      | some t => display t
      | none => [0x56]
def displayAll : List JType → Bytes
  | [] => []
  | t :: ts => display t ++ displayAll ts
end

end JType
end Verif
