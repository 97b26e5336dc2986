import Verif.Model.Signature

/-!
# Parts of signatures on their own

`FromStr` of `SimpleClassTypeSignature`, `Throws` and `TypeParameter` (src/signature.rs:472-484,
502-519).
-/

namespace Verif.Sig

/-- src/signature.rs:472-484, 503-504. -/
def parseSimple (i : Str) : Res SimpleSig := dropRest (simpleTypeSig (enough i) i)

/-- src/signature.rs:472-484, 511-512. -/
def parseThrows (i : Str) : Res ThrowsSig := dropRest (throwsSig i)

/-- src/signature.rs:472-484, 513-514. -/
def parseParam (i : Str) : Res TypeParam := dropRest (typeParam i)

end Verif.Sig
