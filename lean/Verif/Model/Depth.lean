import Verif.Model.Signature

/-! # The parsers of descriptors and signatures on a thread with room for `d` calls

`get_type` (src/ty.rs:92-149) calls itself; `ref_type_sig` (src/signature.rs:173-200) calls itself through `type_sig`,
`class_type_sig`, `simple_type_sig`, `type_args` and `type_arg`. The loops over parameters and arguments do not nest.
Here the number of nested calls of `get_type`, or of `ref_type_sig`, is limited to `d`; a further call is `Err.diverge`
(the overflow of the stack). The bodies are those of `Model/Ty` and `Model/Signature`. The counters of the loops
(`cs.length + 1`) never run out, as every turn consumes something (`Lemmas/Depth`). -/

namespace Verif

namespace JType
open Wtf8

/-- src/ty.rs:125-127: the loop over the parameters. -/
def paramsWith (r : List Nat → Res (JType × List Nat)) : Nat → List Nat → Res (List JType × List Nat)
  | 0, _ => .error .diverge
  | k + 1, cs =>
    if cs.head?.getD 0x29 = 0x29 then .ok ([], cs)
    else match r cs with
      | .ok (t, rest) =>
        match paramsWith r k rest with
        | .ok (ts, rest) => .ok (t :: ts, rest)
        | .error e => .error e
      | .error e => .error e

/-- src/ty.rs:92-149: the body of `get_type`, where `r` is what it calls itself with and `ps` is the loop over
the parameters. -/
def typeWith (r : List Nat → Res (JType × List Nat)) (ps : List Nat → Res (List JType × List Nat)) :
    List Nat → Res (JType × List Nat)
  | [] => .error .invalid
  | c :: cs =>
    if c = 0x42 then .ok (.byte, cs)
    else if c = 0x43 then .ok (.char, cs)
    else if c = 0x44 then .ok (.double, cs)
    else if c = 0x46 then .ok (.float, cs)
    else if c = 0x49 then .ok (.int, cs)
    else if c = 0x4A then .ok (.long, cs)
    else if c = 0x5A then .ok (.boolean, cs)
    else if c = 0x53 then .ok (.short, cs)
    else if c = 0x4C then
      match cs.dropWhile (· ≠ 0x3B) with
      | [] => .error .invalid
      | _ :: rest => .ok (.ref ((cs.takeWhile (· ≠ 0x3B)).foldl push []), rest)
    else if c = 0x5B then
      if 1 + (countBrackets cs).1 < 256 then
        match r (countBrackets cs).2 with
        | .ok (t, rest) => .ok (.array (UInt8.ofNat (1 + (countBrackets cs).1)) t, rest)
        | .error e => .error e
      else .error .panic
    else if c = 0x28 then
      match ps cs with
      | .ok (ts, rest) =>
        match rest with
        | [] => .error .invalid
        | _ :: rest =>
          if rest.head? = some 0x56 then .ok (.method ts none, rest)
          else match r rest with
            | .ok (t, rest) => .ok (.method ts (some t), rest)
            | .error e => .error e
      | .error e => .error e
    else .error .invalid

/-- src/ty.rs:92-149, at most `d` nested calls. -/
def getTypeD : Nat → List Nat → Res (JType × List Nat)
  | 0, _ => .error .diverge
  | d + 1, cs => typeWith (getTypeD d) (paramsWith (getTypeD d) (cs.length + 1)) cs

/-- src/ty.rs:91-151: `parse_type` with room for `d` calls of `get_type`. -/
def parseTypeD (d : Nat) (s : Bytes) : Res JType :=
  match codepoints s with
  | none => .error .ub
  | some cs =>
    match getTypeD d cs with
    | .ok (t, _) => .ok t
    | .error e => .error e

end JType

namespace Sig

/-- src/signature.rs:156-171; `r` stands for `ref_type_sig`. -/
def typeSigWith (r : Str → Res (RefSig × Str)) : Str → Res (TypeSig × Str)
  | [] => .error .invalid
  | c :: cs =>
    match primSig c with
    | some t => .ok (t, cs)
    | none =>
      if isRefStart c then
        match r (c :: cs) with
        | .ok (x, i) => .ok (.ref x, i)
        | .error e => .error e
      else .error .invalid

/-- src/signature.rs:300-325. -/
def typeArgWith (r : Str → Res (RefSig × Str)) : Str → Res (TypeArg × Str)
  | [] => .error .invalid
  | c :: cs =>
    if c = 0x2A then .ok (.any, cs)
    else if c = 0x2D then
      match r cs with
      | .ok (x, i) => .ok (.sup x, i)
      | .error e => .error e
    else if c = 0x2B then
      match r cs with
      | .ok (x, i) => .ok (.ext x, i)
      | .error e => .error e
    else if isRefStart c then
      match r (c :: cs) with
      | .ok (x, i) => .ok (.exact x, i)
      | .error e => .error e
    else .error .invalid

/-- src/signature.rs:331-335: the loop of `type_args`. -/
def typeArgsWith (r : Str → Res (RefSig × Str)) : Nat → Str → Res (List TypeArg × Str)
  | 0, _ => .error .diverge
  | _ + 1, [] => .ok ([], [])
  | k + 1, c :: cs =>
    if c = 0x3E then .ok ([], c :: cs)
    else
      match typeArgWith r (c :: cs) with
      | .error e => .error e
      | .ok (a, i) =>
        match typeArgsWith r k i with
        | .error e => .error e
        | .ok (as, i) => .ok (a :: as, i)

/-- src/signature.rs:327-365. -/
def simpleWith (r : Str → Res (RefSig × Str)) (i : Str) : Res (SimpleSig × Str) :=
  match i.dropWhile nameChar with
  | [] => .ok (.mk (i.takeWhile nameChar) [], [])
  | c :: cs =>
    if c = 0x3C then
      match typeArgsWith r (cs.length + 1) cs with
      | .error e => .error e
      | .ok (args, i') =>
        match expect 0x3E i' with
        | .error e => .error e
        | .ok i'' => .ok (.mk (i.takeWhile nameChar) args, i'')
    else .ok (.mk (i.takeWhile nameChar) [], c :: cs)

/-- src/signature.rs:239-244: the loop over the suffixes. -/
def suffixesWith (r : Str → Res (RefSig × Str)) : Nat → Str → Res (List SimpleSig × Str)
  | 0, _ => .error .diverge
  | _ + 1, [] => .ok ([], [])
  | k + 1, c :: cs =>
    if c = 0x2E then
      match simpleWith r cs with
      | .error e => .error e
      | .ok (s, i) =>
        match suffixesWith r k i with
        | .error e => .error e
        | .ok (ss, i) => .ok (s :: ss, i)
    else .ok ([], c :: cs)

/-- src/signature.rs:234-254. -/
def classWith (r : Str → Res (RefSig × Str)) (i : Str) : Res (ClassTySig × Str) :=
  match expect 0x4C i with
  | .error e => .error e
  | .ok i =>
    match packages i with
    | .error e => .error e
    | .ok (package, i) =>
      match simpleWith r i with
      | .error e => .error e
      | .ok (name, i) =>
        match suffixesWith r (i.length + 1) i with
        | .error e => .error e
        | .ok (suffix, i) =>
          match expect 0x3B i with
          | .error e => .error e
          | .ok i => .ok (.mk package name suffix, i)

/-- src/signature.rs:173-200: the body of `ref_type_sig`. -/
def refWith (r : Str → Res (RefSig × Str)) : Str → Res (RefSig × Str)
  | [] => .error .invalid
  | c :: cs =>
    if c = 0x5B then
      if (JType.countBrackets cs).1 + 1 < 256 then
        match typeSigWith r (JType.countBrackets cs).2 with
        | .ok (t, i) => .ok (.array (UInt8.ofNat ((JType.countBrackets cs).1 + 1)) t, i)
        | .error e => .error e
      else .error .panic
    else if c = 0x54 then
      match tyVar cs with
      | .ok (n, i) => .ok (.typeVar n, i)
      | .error e => .error e
    else if c = 0x4C then
      match classWith r (c :: cs) with
      | .ok (s, i) => .ok (.cls s, i)
      | .error e => .error e
    else .error .invalid

/-- src/signature.rs:173-200, at most `d` nested calls. -/
def refTypeSigD : Nat → Str → Res (RefSig × Str)
  | 0, _ => .error .diverge
  | d + 1, i => refWith (refTypeSigD d) i

end Sig

end Verif
