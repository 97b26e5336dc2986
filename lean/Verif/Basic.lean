/-!
# Shared basics

Result type of the model and a few conventions (see DESIGN.md, "Modelling conventions").
-/

namespace Verif

/-- A byte string: `&[u8]`, `Vec<u8>`, or the remaining input of a reader. -/
abbrev Bytes := List UInt8

/-- Coarse error classes (src/error.rs `Error`). `panic` is any Rust panic; `diverge` is
non-termination. -/
inductive Err where
  /-- `std::io::Error`, in particular unexpected end of input -/
  | io
  /-- `Error::Invalid` / `Error::ConversionError` and friends: the input is refused -/
  | invalid
  /-- `Error::MUTF` / `MutfError` -/
  | mutf
  /-- `Error::AttributeLength`: the length in the file, the number of bytes consumed, the name (src/error.rs:23-29) -/
  | attrLen (claimed used : UInt32) (name : Bytes)
  /-- a Rust panic -/
  | panic
  /-- undefined behaviour (an `unchecked` operation outside its precondition) -/
  | ub
  /-- a loop that never ends -/
  | diverge
  deriving DecidableEq, Repr

/-- Result of a fallible computation. -/
abbrev Res (α : Type) := Except Err α

instance : DecidableEq Bytes := inferInstanceAs (DecidableEq (List UInt8))

deriving instance DecidableEq for Except

end Verif
