import Verif.Model.Ty

/-!
# Model of src/signature.rs: generic signatures

A Rust `str` is the list of its chars. Slicing happens only next to ASCII chars, so byte offsets are
not modelled. `packages` (signature.rs:258-291) scans bytes; since it compares with ASCII bytes only,
scanning chars gives the same pieces (`Verif.Sig.packagesBytes_eq` proves this for the byte version).
-/

namespace Verif

/-- Text of a Rust `str`: its chars. -/
abbrev Str := List Nat

mutual
/-- src/signature.rs:19-38 `TypeSignature`. -/
inductive TypeSig where
  | byte | char | double | float | int | long | boolean | short
  | ref (r : RefSig)
/-- src/signature.rs:131-139 `RefTypeSignature`. -/
inductive RefSig where
  | typeVar (name : Str)
  | array (dim : UInt8) (t : TypeSig)
  | cls (c : ClassTySig)
/-- src/signature.rs:119-127 `ClassTypeSignature`. -/
inductive ClassTySig where
  | mk (package : List Str) (name : SimpleSig) (suffix : List SimpleSig)
/-- src/signature.rs:110-115 `SimpleClassTypeSignature`. -/
inductive SimpleSig where
  | mk (name : Str) (args : List TypeArg)
/-- src/signature.rs:97-106 `TypeArgument`. -/
inductive TypeArg where
  | ext (r : RefSig)
  | sup (r : RefSig)
  | exact (r : RefSig)
  | any
end

/-- src/signature.rs:76-85 `TypeParameter`. -/
structure TypeParam where
  name : Str
  classBound : Option RefSig
  interfaceBounds : List RefSig

/-- src/signature.rs:88-93 `Throws`. -/
inductive ThrowsSig where
  | typeParam (name : Str)
  | cls (c : ClassTySig)

/-- src/signature.rs:62-71 `MethodSignature`. -/
structure MethodSig where
  typeParams : List TypeParam
  params : List TypeSig
  ret : Option TypeSig
  throws : List ThrowsSig

/-- src/signature.rs:49-56 `ClassSignature`. -/
structure ClassSig where
  typeParams : List TypeParam
  superClass : ClassTySig
  interfaces : List ClassTySig

namespace Sig

/-- src/signature.rs:158-165: the chars of primitive types. -/
def primSig (c : Nat) : Option TypeSig :=
  if c = 0x42 then some .byte
  else if c = 0x43 then some .char
  else if c = 0x44 then some .double
  else if c = 0x46 then some .float
  else if c = 0x49 then some .int
  else if c = 0x4A then some .long
  else if c = 0x53 then some .short
  else if c = 0x5A then some .boolean
  else none

/-- `'T' | 'L' | '['`. -/
def isRefStart (c : Nat) : Bool := c = 0x54 || c = 0x4C || c = 0x5B

/-- src/signature.rs:202-211 `char::<C>`. -/
def expect (c : Nat) : Str → Res Str
  | [] => .error .invalid
  | x :: xs => if x = c then .ok xs else .error .invalid

/-- `i[1..semi]`, `i[semi + 1..]` with `semi = i.find(';')`, signature.rs:185-191 and 221-225, where
`cs` is `i[1..]` and `i` starts with `T`. -/
def tyVar (cs : Str) : Res (Str × Str) :=
  match cs.dropWhile (· ≠ 0x3B) with
  | [] => .error .invalid
  | _ :: rest => .ok (cs.takeWhile (· ≠ 0x3B), rest)

/-- src/signature.rs:258-291 `packages`: the loop. `cur` is the string being built, `acc` the pieces
found, `after` the text after the last slash (the whole text when there was none). -/
def packagesLoop : Str → Str → List Str → Str → Res (List Str × Str)
  | [], _, _, _ => .error .invalid
  | c :: cs, cur, acc, after =>
    if c = 0x2F then packagesLoop cs [] (acc ++ [cur]) cs
    else if c = 0x3B ∨ c = 0x3C ∨ c = 0x2E then .ok (acc, after)
    else packagesLoop cs (cur ++ [c]) acc after

/-- src/signature.rs:258-291 `packages`. -/
def packages (i : Str) : Res (List Str × Str) := packagesLoop i [] [] i

/-- src/signature.rs:258-291 `packages` as written, on bytes. Used only to show that `packages` above
is the same function on chars. -/
def packagesLoopB : Bytes → Bytes → List Bytes → Bytes → Res (List Bytes × Bytes)
  | [], _, _, _ => .error .invalid
  | c :: cs, cur, acc, after =>
    if c = 0x2F then packagesLoopB cs [] (acc ++ [cur]) cs
    else if c = 0x3B ∨ c = 0x3C ∨ c = 0x2E then .ok (acc, after)
    else packagesLoopB cs (cur ++ [c]) acc after

def packagesBytes (i : Bytes) : Res (List Bytes × Bytes) := packagesLoopB i [] [] i

/-- src/signature.rs:344-346 negated `type_var_start`. -/
def nameChar (c : Nat) : Bool := !(c = 0x3C || c = 0x2E || c = 0x3B)

mutual
/-- src/signature.rs:156-172 `type_sig`. Fuel as in `JType.getType`. -/
def typeSig : Nat → Str → Res (TypeSig × Str)
  | 0, _ => .error .diverge
  | _ + 1, [] => .error .invalid
  | fuel + 1, c :: cs =>
    match primSig c with
    | some t => .ok (t, cs)
    | none =>
      if isRefStart c then
        match refTypeSig fuel (c :: cs) with
        | .ok (r, i) => .ok (.ref r, i)
        | .error e => .error e
      else .error .invalid
/-- src/signature.rs:173-200 `ref_type_sig`; `dim += 1` overflows at the 256th bracket. -/
def refTypeSig : Nat → Str → Res (RefSig × Str)
  | 0, _ => .error .diverge
  | _ + 1, [] => .error .invalid
  | fuel + 1, c :: cs =>
    if c = 0x5B then
      if (JType.countBrackets cs).1 + 1 < 256 then
        match typeSig fuel (JType.countBrackets cs).2 with
        | .ok (t, i) => .ok (.array (UInt8.ofNat ((JType.countBrackets cs).1 + 1)) t, i)
        | .error e => .error e
      else .error .panic
    else if c = 0x54 then
      match tyVar cs with
      | .ok (n, i) => .ok (.typeVar n, i)
      | .error e => .error e
    else if c = 0x4C then
      match classTypeSig fuel (c :: cs) with
      | .ok (s, i) => .ok (.cls s, i)
      | .error e => .error e
    else .error .invalid
/-- src/signature.rs:234-254 `class_type_sig`. -/
def classTypeSig : Nat → Str → Res (ClassTySig × Str)
  | 0, _ => .error .diverge
  | fuel + 1, i =>
    match expect 0x4C i with
    | .error e => .error e
    | .ok i =>
      match packages i with
      | .error e => .error e
      | .ok (package, i) =>
        match simpleTypeSig fuel i with
        | .error e => .error e
        | .ok (name, i) =>
          match suffixes fuel i with
          | .error e => .error e
          | .ok (suffix, i) =>
            match expect 0x3B i with
            | .error e => .error e
            | .ok i => .ok (.mk package name suffix, i)
/-- src/signature.rs:239-244: the loop over inner classes. -/
def suffixes : Nat → Str → Res (List SimpleSig × Str)
  | 0, _ => .error .diverge
  | _ + 1, [] => .ok ([], [])
  | fuel + 1, c :: cs =>
    if c = 0x2E then
      match simpleTypeSig fuel cs with
      | .error e => .error e
      | .ok (s, i) =>
        match suffixes fuel i with
        | .error e => .error e
        | .ok (ss, i) => .ok (s :: ss, i)
    else .ok ([], c :: cs)
/-- src/signature.rs:343-365 `simple_type_sig` with 327-341 `type_args`. -/
def simpleTypeSig : Nat → Str → Res (SimpleSig × Str)
  | 0, _ => .error .diverge
  | fuel + 1, i =>
    match i.dropWhile nameChar with
    | [] => .ok (.mk (i.takeWhile nameChar) [], [])
    | c :: cs =>
      if c = 0x3C then
        match typeArgs fuel cs with
        | .error e => .error e
        | .ok (args, i') =>
          match expect 0x3E i' with
          | .error e => .error e
          | .ok i'' => .ok (.mk (i.takeWhile nameChar) args, i'')
      else .ok (.mk (i.takeWhile nameChar) [], c :: cs)
/-- src/signature.rs:331-335: the loop over type arguments. -/
def typeArgs : Nat → Str → Res (List TypeArg × Str)
  | 0, _ => .error .diverge
  | _ + 1, [] => .ok ([], [])
  | fuel + 1, c :: cs =>
    if c = 0x3E then .ok ([], c :: cs)
    else
      match typeArg fuel (c :: cs) with
      | .error e => .error e
      | .ok (a, i) =>
        match typeArgs fuel i with
        | .error e => .error e
        | .ok (as, i) => .ok (a :: as, i)
/-- src/signature.rs:300-325 `type_arg`. -/
def typeArg : Nat → Str → Res (TypeArg × Str)
  | 0, _ => .error .diverge
  | _ + 1, [] => .error .invalid
  | fuel + 1, c :: cs =>
    if c = 0x2A then .ok (.any, cs)
    else if c = 0x2D then
      match refTypeSig fuel cs with
      | .ok (r, i) => .ok (.sup r, i)
      | .error e => .error e
    else if c = 0x2B then
      match refTypeSig fuel cs with
      | .ok (r, i) => .ok (.ext r, i)
      | .error e => .error e
    else if isRefStart c then
      match refTypeSig fuel (c :: cs) with
      | .ok (r, i) => .ok (.exact r, i)
      | .error e => .error e
    else .error .invalid
end

/-- Fuel that is always enough (see `C18_total`). -/
def enough (i : Str) : Nat := 4 * i.length + 8

/-- src/signature.rs:213-228 `throws`. -/
def throwsSig (i : Str) : Res (ThrowsSig × Str) :=
  match expect 0x5E i with
  | .error e => .error e
  | .ok [] => .error .invalid
  | .ok (c :: cs) =>
    if c = 0x4C then
      match classTypeSig (enough (c :: cs)) (c :: cs) with
      | .ok (s, i) => .ok (.cls s, i)
      | .error e => .error e
    else if c = 0x54 then
      match tyVar cs with
      | .ok (n, i) => .ok (.typeParam n, i)
      | .error e => .error e
    else .error .invalid

/-- src/signature.rs:382-386: the loop over interface bounds. `chars` is the iterator that `next` is
called on, which does not move past a parsed bound; `i` is the text returned. -/
def interfaceBounds : Str → Str → Res (List RefSig × Str)
  | [], i => .ok ([], i)
  | c :: cs, i =>
    if c = 0x3A then
      match refTypeSig (enough cs) cs with
      | .error e => .error e
      | .ok (b, i') =>
        match interfaceBounds cs i' with
        | .error e => .error e
        | .ok (bs, i'') => .ok (b :: bs, i'')
    else .ok ([], i)

/-- src/signature.rs:367-396 `type_parameter`. `take_while` also consumes the colon. -/
def typeParam (i : Str) : Res (TypeParam × Str) :=
  let name := i.takeWhile (· ≠ 0x3A)
  let chars := (i.dropWhile (· ≠ 0x3A)).drop 1
  let bound : Res (Option RefSig × Str) :=
    match chars with
    | [] => .ok (none, chars)
    | c :: _ =>
      if isRefStart c then
        match refTypeSig (enough chars) chars with
        | .ok (r, i) => .ok (some r, i)
        | .error e => .error e
      else .ok (none, chars)
  match bound with
  | .error e => .error e
  | .ok (classBound, i) =>
    match interfaceBounds chars i with
    | .error e => .error e
    | .ok (bs, i) => .ok (⟨name, classBound, bs⟩, i)

/-- src/signature.rs:402-406: the loop over type parameters. -/
def typeParamsLoop : Nat → Str → Res (List TypeParam × Str)
  | 0, _ => .error .diverge
  | _ + 1, [] => .ok ([], [])
  | fuel + 1, c :: cs =>
    if c = 0x3E then .ok ([], c :: cs)
    else
      match typeParam (c :: cs) with
      | .error e => .error e
      | .ok (p, i) =>
        match typeParamsLoop fuel i with
        | .error e => .error e
        | .ok (ps, i) => .ok (p :: ps, i)

/-- src/signature.rs:398-412 `type_parameters`. -/
def typeParams : Str → Res (List TypeParam × Str)
  | [] => .ok ([], [])
  | c :: cs =>
    if c = 0x3C then
      match typeParamsLoop (enough cs) cs with
      | .error e => .error e
      | .ok (ps, i) =>
        match expect 0x3E i with
        | .error e => .error e
        | .ok i => .ok (ps, i)
    else .ok ([], c :: cs)

/-- src/signature.rs:414-420 `ret`. -/
def retSig : Str → Res (Option TypeSig × Str)
  | [] => .error .invalid
  | c :: cs =>
    if c = 0x56 then .ok (none, cs)
    else
      match typeSig (enough (c :: cs)) (c :: cs) with
      | .ok (t, i) => .ok (some t, i)
      | .error e => .error e

/-- src/signature.rs:426-432: the loop over parameters. -/
def paramsLoop : Nat → Str → Res (List TypeSig × Str)
  | 0, _ => .error .diverge
  | _ + 1, [] => .ok ([], [])
  | fuel + 1, c :: cs =>
    if (primSig c).isSome || isRefStart c then
      match typeSig (enough (c :: cs)) (c :: cs) with
      | .error e => .error e
      | .ok (t, i) =>
        match paramsLoop fuel i with
        | .error e => .error e
        | .ok (ts, i) => .ok (t :: ts, i)
    else .ok ([], c :: cs)

/-- src/signature.rs:436-440: the loop over thrown types. -/
def throwsLoop : Nat → Str → Res (List ThrowsSig × Str)
  | 0, _ => .error .diverge
  | _ + 1, [] => .ok ([], [])
  | fuel + 1, c :: cs =>
    if c = 0x5E then
      match throwsSig (c :: cs) with
      | .error e => .error e
      | .ok (t, i) =>
        match throwsLoop fuel i with
        | .error e => .error e
        | .ok (ts, i) => .ok (t :: ts, i)
    else .ok ([], c :: cs)

/-- src/signature.rs:422-450 `method_sig`. -/
def methodSig (i : Str) : Res (MethodSig × Str) :=
  match typeParams i with
  | .error e => .error e
  | .ok (tps, i) =>
    match expect 0x28 i with
    | .error e => .error e
    | .ok i =>
      match paramsLoop (enough i) i with
      | .error e => .error e
      | .ok (ps, i) =>
        match expect 0x29 i with
        | .error e => .error e
        | .ok i =>
          match retSig i with
          | .error e => .error e
          | .ok (r, i) =>
            match throwsLoop (enough i) i with
            | .error e => .error e
            | .ok (ts, i) => .ok (⟨tps, ps, r, ts⟩, i)

/-- src/signature.rs:456-460: the loop over interfaces. -/
def interfacesLoop : Nat → Str → Res (List ClassTySig × Str)
  | 0, _ => .error .diverge
  | _ + 1, [] => .ok ([], [])
  | fuel + 1, c :: cs =>
    if c = 0x4C then
      match classTypeSig (enough (c :: cs)) (c :: cs) with
      | .error e => .error e
      | .ok (t, i) =>
        match interfacesLoop fuel i with
        | .error e => .error e
        | .ok (ts, i) => .ok (t :: ts, i)
    else .ok ([], c :: cs)

/-- src/signature.rs:452-470 `class_sig`. -/
def classSig (i : Str) : Res (ClassSig × Str) :=
  match typeParams i with
  | .error e => .error e
  | .ok (tps, i) =>
    match classTypeSig (enough i) i with
    | .error e => .error e
    | .ok (sup, i) =>
      match interfacesLoop (enough i) i with
      | .error e => .error e
      | .ok (is, i) => .ok (⟨tps, sup, is⟩, i)

/-! `FromStr` (signature.rs:472-484): the rest of the text is dropped. -/

def dropRest {α : Type} : Res (α × Str) → Res α
  | .ok (a, _) => .ok a
  | .error e => .error e

def parseRef (i : Str) : Res RefSig := dropRest (refTypeSig (enough i) i)
def parseTypeSig (i : Str) : Res TypeSig := dropRest (typeSig (enough i) i)
def parseClassTy (i : Str) : Res ClassTySig := dropRest (classTypeSig (enough i) i)
def parseMethod (i : Str) : Res MethodSig := dropRest (methodSig i)
def parseClass (i : Str) : Res ClassSig := dropRest (classSig i)

/-! ## Display -/

mutual
/-- src/signature.rs:546-560. -/
def showT : TypeSig → Str
  | .byte => [0x42]
  | .char => [0x43]
  | .double => [0x44]
  | .float => [0x46]
  | .int => [0x49]
  | .long => [0x4A]
  | .boolean => [0x5A]
  | .short => [0x53]
  | .ref r => showR r
/-- src/signature.rs:609-622. -/
def showR : RefSig → Str
  | .typeVar n => 0x54 :: (n ++ [0x3B])
  | .array d t => List.replicate d.toNat 0x5B ++ showT t
  | .cls c => showC c
/-- src/signature.rs:594-608. -/
def showC : ClassTySig → Str
  | .mk package name suffix =>
    0x4C :: (package.flatMap (fun s => s ++ [0x2F]) ++ (showS name ++ (showSuffix suffix ++ [0x3B])))
def showSuffix : List SimpleSig → Str
  | [] => []
  | s :: ss => 0x2E :: (showS s ++ showSuffix ss)
/-- src/signature.rs:580-592. -/
def showS : SimpleSig → Str
  | .mk name args =>
    name ++ (match args with
      | [] => []
      | a :: as => 0x3C :: (showA a ++ (showArgs as ++ [0x3E])))
def showArgs : List TypeArg → Str
  | [] => []
  | a :: as => showA a ++ showArgs as
/-- src/signature.rs:562-578. -/
def showA : TypeArg → Str
  | .ext r => 0x2B :: showR r
  | .sup r => 0x2D :: showR r
  | .any => [0x2A]
  | .exact r => showR r
end

/-- src/signature.rs:624-634: a type parameter is printed with `L`, not `T`. -/
def showThrows : ThrowsSig → Str
  | .typeParam n => 0x5E :: 0x4C :: (n ++ [0x3B])
  | .cls c => 0x5E :: showC c

/-- src/signature.rs:636-649. -/
def showParam (p : TypeParam) : Str :=
  p.name ++ 0x3A :: ((p.classBound.elim [] showR) ++ p.interfaceBounds.flatMap fun b => 0x3A :: showR b)

/-- `'<'`, the parameters, `'>'`, unless there are none (signature.rs:653-659, 679-685). -/
def showParams : List TypeParam → Str
  | [] => []
  | p :: ps => 0x3C :: (showParam p ++ (ps.flatMap showParam ++ [0x3E]))

/-- src/signature.rs:651-675. -/
def showMethod (m : MethodSig) : Str :=
  showParams m.typeParams ++ 0x28 :: (m.params.flatMap showT ++ 0x29 ::
    (m.ret.elim [0x56] showT ++ m.throws.flatMap showThrows))

/-- src/signature.rs:677-692. -/
def showClass (c : ClassSig) : Str :=
  showParams c.typeParams ++ (showC c.superClass ++ c.interfaces.flatMap showC)

end Sig
end Verif
