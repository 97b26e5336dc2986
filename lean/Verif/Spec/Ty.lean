import Verif.Spec.Wtf8
import Verif.Model.Ty

/-!
# Specification of descriptors (JVMS 4.3)

Only the data type `JType` is taken from the model.
-/

namespace Verif.Spec

mutual
/-- `Desc t cs`: the code points `cs` are the descriptor text of `t`. -/
inductive Desc : JType → List Nat → Prop
  | byte : Desc .byte [0x42]
  | char : Desc .char [0x43]
  | double : Desc .double [0x44]
  | float : Desc .float [0x46]
  | int : Desc .int [0x49]
  | long : Desc .long [0x4A]
  | boolean : Desc .boolean [0x5A]
  | short : Desc .short [0x53]
  | ref {ns : List Nat} : ValidCps ns → Desc (.ref (encodeCps ns)) (0x4C :: (ns ++ [0x3B]))
  | array {d : UInt8} {t : JType} {cs : List Nat} : Desc t cs →
      Desc (.array d t) (List.replicate d.toNat 0x5B ++ cs)
  | void {ps : List JType} {cs : List Nat} : DescList ps cs →
      Desc (.method ps none) (0x28 :: (cs ++ [0x29, 0x56]))
  | method {ps : List JType} {r : JType} {cs cr : List Nat} : DescList ps cs → Desc r cr →
      Desc (.method ps (some r)) (0x28 :: (cs ++ 0x29 :: cr))
inductive DescList : List JType → List Nat → Prop
  | nil : DescList [] []
  | cons {t : JType} {ts : List JType} {cs ds : List Nat} : Desc t cs → DescList ts ds →
      DescList (t :: ts) (cs ++ ds)
end

/-- Field types: base types, class types whose name has no `;`, arrays of 1 to 255 dimensions over
a non-array. -/
inductive IsField : JType → Prop
  | byte : IsField .byte
  | char : IsField .char
  | double : IsField .double
  | float : IsField .float
  | int : IsField .int
  | long : IsField .long
  | boolean : IsField .boolean
  | short : IsField .short
  | ref {ns : List Nat} : ValidCps ns → 0x3B ∉ ns → IsField (.ref (encodeCps ns))
  | array {d : UInt8} {t : JType} : d ≠ 0 → IsField t → (∀ d' t', t ≠ .array d' t') →
      IsField (.array d t)

/-- Descriptors: field types, or method types over field types. -/
inductive IsDescriptor : JType → Prop
  | field {t : JType} : IsField t → IsDescriptor t
  | void {ps : List JType} : (∀ p ∈ ps, IsField p) → IsDescriptor (.method ps none)
  | method {ps : List JType} {r : JType} : (∀ p ∈ ps, IsField p) → IsField r →
      IsDescriptor (.method ps (some r))

end Verif.Spec
