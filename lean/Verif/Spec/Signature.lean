import Verif.Model.Signature

/-!
# Specification of generic signatures (JVMS 4.7.9.1)

Only the data types are taken from the model.
-/

namespace Verif.Spec

/-- JVMS 4.7.9.1 `Identifier`: not empty and without `. ; [ / < > :`. -/
def IsIdent (n : Str) : Prop :=
  n ≠ [] ∧ ∀ c ∈ n, c ≠ 0x2E ∧ c ≠ 0x3B ∧ c ≠ 0x5B ∧ c ≠ 0x2F ∧ c ≠ 0x3C ∧ c ≠ 0x3E ∧ c ≠ 0x3A

mutual
/-- `JavaTypeSignature`. -/
inductive TText : TypeSig → Str → Prop
  | byte : TText .byte [0x42]
  | char : TText .char [0x43]
  | double : TText .double [0x44]
  | float : TText .float [0x46]
  | int : TText .int [0x49]
  | long : TText .long [0x4A]
  | short : TText .short [0x53]
  | boolean : TText .boolean [0x5A]
  | ref {r : RefSig} {cs : Str} : RText r cs → TText (.ref r) cs
/-- `ReferenceTypeSignature`. -/
inductive RText : RefSig → Str → Prop
  | typeVar {n : Str} : IsIdent n → RText (.typeVar n) ([0x54] ++ n ++ [0x3B])
  | array {d : UInt8} {t : TypeSig} {cs : Str} : d ≠ 0 → (∀ d' t', t ≠ .ref (.array d' t')) →
      TText t cs → RText (.array d t) (List.replicate d.toNat 0x5B ++ cs)
  | cls {c : ClassTySig} {cs : Str} : CText c cs → RText (.cls c) cs
/-- `ClassTypeSignature`: `L`, packages each followed by `/`, simple class, inner classes each after
`.`, `;`. -/
inductive CText : ClassTySig → Str → Prop
  | mk {pk : List Str} {n : SimpleSig} {ss : List SimpleSig} {cs ds : Str} :
      (∀ p ∈ pk, IsIdent p) → SText n cs → SsText ss ds →
      CText (.mk pk n ss) ([0x4C] ++ (pk.map (· ++ [0x2F])).flatten ++ cs ++ ds ++ [0x3B])
inductive SsText : List SimpleSig → Str → Prop
  | nil : SsText [] []
  | cons {s : SimpleSig} {ss : List SimpleSig} {cs ds : Str} : SText s cs → SsText ss ds →
      SsText (s :: ss) ([0x2E] ++ cs ++ ds)
/-- `SimpleClassTypeSignature`. -/
inductive SText : SimpleSig → Str → Prop
  | plain {n : Str} : IsIdent n → SText (.mk n []) n
  | args {n : Str} {as : List TypeArg} {cs : Str} : IsIdent n → as ≠ [] → AsText as cs →
      SText (.mk n as) (n ++ [0x3C] ++ cs ++ [0x3E])
inductive AsText : List TypeArg → Str → Prop
  | nil : AsText [] []
  | cons {a : TypeArg} {as : List TypeArg} {cs ds : Str} : AText a cs → AsText as ds →
      AsText (a :: as) (cs ++ ds)
/-- `TypeArgument`. -/
inductive AText : TypeArg → Str → Prop
  | any : AText .any [0x2A]
  | ext {r : RefSig} {cs : Str} : RText r cs → AText (.ext r) ([0x2B] ++ cs)
  | sup {r : RefSig} {cs : Str} : RText r cs → AText (.sup r) ([0x2D] ++ cs)
  | exact {r : RefSig} {cs : Str} : RText r cs → AText (.exact r) cs
end

/-- A list of things, one text after the other. -/
inductive Many {α : Type} (R : α → Str → Prop) : List α → Str → Prop
  | nil : Many R [] []
  | cons {a : α} {as : List α} {cs ds : Str} : R a cs → Many R as ds → Many R (a :: as) (cs ++ ds)

/-- `: ReferenceTypeSignature`. -/
inductive BoundText : RefSig → Str → Prop
  | mk {r : RefSig} {cs : Str} : RText r cs → BoundText r ([0x3A] ++ cs)

/-- `TypeParameter` with at least one bound (a parameter without any bound makes the grammar
ambiguous and is never emitted by a Java compiler). -/
inductive ParamText : TypeParam → Str → Prop
  | cls {n : Str} {b : RefSig} {bs : List RefSig} {cs ds : Str} : IsIdent n → BoundText b cs →
      Many BoundText bs ds → ParamText ⟨n, some b, bs⟩ (n ++ cs ++ ds)
  | itf {n : Str} {bs : List RefSig} {ds : Str} : IsIdent n → bs ≠ [] →
      Many BoundText bs ds → ParamText ⟨n, none, bs⟩ (n ++ [0x3A] ++ ds)

/-- `[TypeParameters]`. -/
inductive ParamsText : List TypeParam → Str → Prop
  | nil : ParamsText [] []
  | some {ps : List TypeParam} {cs : Str} : ps ≠ [] → Many ParamText ps cs →
      ParamsText ps ([0x3C] ++ cs ++ [0x3E])

/-- `ThrowsSignature`. -/
inductive ThrowsText : ThrowsSig → Str → Prop
  | typeParam {n : Str} : IsIdent n → ThrowsText (.typeParam n) ([0x5E, 0x54] ++ n ++ [0x3B])
  | cls {c : ClassTySig} {cs : Str} : CText c cs → ThrowsText (.cls c) ([0x5E] ++ cs)

/-- `Result`. -/
inductive RetText : Option TypeSig → Str → Prop
  | void : RetText none [0x56]
  | some {t : TypeSig} {cs : Str} : TText t cs → RetText (some t) cs

/-- `MethodSignature`. -/
inductive MethodText : MethodSig → Str → Prop
  | mk {tps : List TypeParam} {ps : List TypeSig} {r : Option TypeSig} {ts : List ThrowsSig}
      {c1 c2 c3 c4 : Str} : ParamsText tps c1 → Many TText ps c2 → RetText r c3 →
      Many ThrowsText ts c4 →
      MethodText ⟨tps, ps, r, ts⟩ (c1 ++ [0x28] ++ c2 ++ [0x29] ++ c3 ++ c4)

/-- `ClassSignature`. -/
inductive ClassText : ClassSig → Str → Prop
  | mk {tps : List TypeParam} {s : ClassTySig} {is : List ClassTySig}
      {c1 c2 c3 : Str} : ParamsText tps c1 → CText s c2 → Many CText is c3 →
      ClassText ⟨tps, s, is⟩ (c1 ++ c2 ++ c3)

/-! The largest class of values for which printing is unambiguous: names only avoid the delimiters
that follow them. -/

/-- Neither `;` nor `<` nor `.`. -/
def Plain (n : Str) : Prop := ∀ c ∈ n, c ≠ 0x3B ∧ c ≠ 0x3C ∧ c ≠ 0x2E

mutual
def OkT : TypeSig → Prop
  | .ref r => OkR r
  | _ => True
def OkR : RefSig → Prop
  | .typeVar n => 0x3B ∉ n
  | .array d t => d ≠ 0 ∧ (∀ d' t', t ≠ .ref (.array d' t')) ∧ OkT t
  | .cls c => OkC c
def OkC : ClassTySig → Prop
  | .mk pk (.mk n as) ss => (∀ p ∈ pk, Plain p ∧ 0x2F ∉ p) ∧ 0x2F ∉ n ∧ OkS (.mk n as) ∧ OkSs ss
def OkSs : List SimpleSig → Prop
  | [] => True
  | s :: ss => OkS s ∧ OkSs ss
def OkS : SimpleSig → Prop
  | .mk n as => Plain n ∧ OkAs as
def OkAs : List TypeArg → Prop
  | [] => True
  | a :: as => OkA a ∧ OkAs as
def OkA : TypeArg → Prop
  | .any => True
  | .ext r => OkR r
  | .sup r => OkR r
  | .exact r => OkR r
end

end Verif.Spec

namespace Verif.Spec

/-- Type parameters whose printed form the parser understands: at most one bound. -/
def OkParam (p : TypeParam) : Prop :=
  0x3A ∉ p.name ∧ p.name.head? ≠ some 0x3E ∧
    ((∃ b, p.classBound = some b ∧ p.interfaceBounds = [] ∧ OkR b) ∨
      (∃ b, p.classBound = none ∧ p.interfaceBounds = [b] ∧ OkR b) ∨
      (p.classBound = none ∧ p.interfaceBounds = []))

/-- After a parameter without bound, the next one must not look like a bound. -/
def OkNext (p : TypeParam) (ps : List TypeParam) : Prop :=
  p.classBound = none → p.interfaceBounds = [] →
    ∀ q ∈ ps.head?, ∃ c, q.name.head? = some c ∧ c ≠ 0x54 ∧ c ≠ 0x4C ∧ c ≠ 0x5B

def OkParams : List TypeParam → Prop
  | [] => True
  | p :: ps => OkParam p ∧ OkNext p ps ∧ OkParams ps

def OkClass (c : ClassSig) : Prop :=
  OkParams c.typeParams ∧ OkC c.superClass ∧ ∀ i ∈ c.interfaces, OkC i

/-- Exceptions are class types. -/
def OkMethod (m : MethodSig) : Prop :=
  OkParams m.typeParams ∧ (∀ p ∈ m.params, OkT p) ∧ (∀ r ∈ m.ret, OkT r) ∧
    ∀ t ∈ m.throws, ∃ c, t = .cls c ∧ OkC c

/-- Each type parameter has a single bound. -/
def SingleBounds (ps : List TypeParam) : Prop :=
  ∀ p ∈ ps, (p.classBound.isSome = true ∧ p.interfaceBounds = []) ∨
    (p.classBound = none ∧ ∃ b, p.interfaceBounds = [b])

end Verif.Spec
