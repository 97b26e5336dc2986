import Verif.Spec.Format
import Verif.Model.Ty
import Verif.Model.Wtf8Api
import Verif.Model.Misc

/-! # Model of `Display` with options: wtf8/src/lib.rs, src/ty.rs, src/version.rs

`Formatter::pad`, which is what `str::fmt` calls, is part of the standard library; its documentation is `pad` below. -/

namespace Verif
open Spec

namespace Format

/-- `Formatter::pad` of the standard library, after the text has been cut. -/
def fill (o : Options) (cut : List Nat) : List Nat :=
  match o.width with
  | none => cut
  | some w =>
    if w ≤ cut.length then cut
    else
      let n := w - cut.length
      let (l, r) := match o.align with
        | none | some .left => (0, n)
        | some .right => (n, 0)
        | some .center => (n / 2, (n + 1) / 2)
      List.replicate l o.fill ++ cut ++ List.replicate r o.fill

/-- `Formatter::pad` of the standard library. -/
def pad (o : Options) (text : List Nat) : List Nat :=
  match o.precision with
  | some p => fill o (text.take p)
  | none => fill o text

/-- `str::fmt`: bytes that are not UTF-8 are undefined behaviour. -/
def strFmt (o : Options) (s : Bytes) : Res Bytes :=
  match Wtf8.codepoints s with
  | none => .error .ub
  | some cs => .ok (encodeCps (pad o cs))

/-- wtf8/src/lib.rs:167-191 `Display`, the loop from `pos`. -/
def displayWithFrom (o : Options) (s : Bytes) (pos : Nat) : Res Bytes :=
  match h : Wtf8.nextSurrogate s pos with
  | some p => do return (s.drop pos).take (p - pos) ++ Wtf8.replacement ++ (← displayWithFrom o s (p + 3))
  | none => if pos = 0 then strFmt o (s.drop pos) else .ok (s.drop pos)
termination_by s.length - pos
decreasing_by
  have := Wtf8.nextSurrogateFrom_ge pos (s.drop pos) p h
  simp at this
  omega

/-- wtf8/src/lib.rs:167-191 `Display` of a string. -/
def displayWith (o : Options) (s : Bytes) : Res Bytes := displayWithFrom o s 0

mutual
/-- src/ty.rs:251-288 `Display` of a type: `write_char` and `write!` do not heed the options, `fmt` of the brackets does
(line 267). -/
def typeWith (o : Options) : JType → Bytes
  | .byte => [0x42]
  | .char => [0x43]
  | .double => [0x44]
  | .float => [0x46]
  | .int => [0x49]
  | .long => [0x4A]
  | .boolean => [0x5A]
  | .short => [0x53]
  | .ref name => [0x4C] ++ Wtf8.toStringLossy name ++ [0x3B]
  | .array dim t => encodeCps (pad o (List.replicate dim.toNat 0x5B)) ++ typeWith o t
  | .method params ret =>
    [0x28] ++ typesWith o params ++ [0x29] ++
      match ret with
      | some t => typeWith o t
      | none => [0x56]
def typesWith (o : Options) : List JType → Bytes
  | [] => []
  | t :: ts => typeWith o t ++ typesWith o ts
end

/-- `{}` of a number of the standard library: decimal digits without leading zeros. -/
def decimal (n : Nat) : List Nat :=
  if n < 10 then [0x30 + n] else decimal (n / 10) ++ [0x30 + n % 10]

/-- src/version.rs:56-111 `Display` of a version, as code points; `write!` does not heed the options. -/
def versionText (v : Version) : List Nat :=
  (match v.major with
  | .j1 => if v.minor ≤ 3 then text "JDK 1.0.2" else text "JDK 1.1"
  | .j1_2 => text "JDK 1.2"
  | .j1_3 => text "JDK 1.3"
  | .j1_4 => text "JDK 1.4"
  | .j5 => text "Java SE 5.0"
  | .j6 => text "Java SE 6.0"
  | .j7 => text "Java SE 7"
  | .j8 => text "Java SE 8"
  | .j9 => text "Java SE 9"
  | .j10 => text "Java SE 10"
  | .j11 => text "Java SE 11"
  | .j12 => text "Java SE 12"
  | .j13 => text "Java SE 13"
  | .j14 => text "Java SE 14"
  | .j15 => text "Java SE 15") ++ text " minor version " ++ decimal v.minor.toNat
where
  /-- A literal. -/
  text (s : String) : List Nat := s.toList.map Char.toNat

end Format
end Verif
