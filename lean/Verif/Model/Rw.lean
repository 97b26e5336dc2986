import Verif.Model.Mutf8

/-!
# Model of the pool-independent codecs: src/rw.rs (`ReadWrite`) and src/helper.rs

A reader is a function of the remaining input. A writer returns the bytes it appends.
-/

namespace Verif

/-- `fn read_from<T: Read>(reader: &mut T) -> Result<Self>` (src/rw.rs:365-368). -/
def Reader (α : Type) := Bytes → Res (α × Bytes)

namespace Reader

def pure {α : Type} (a : α) : Reader α := fun bs => .ok (a, bs)

def bind {α β : Type} (x : Reader α) (f : α → Reader β) : Reader β := fun bs =>
  match x bs with
  | .ok (a, rest) => f a rest
  | .error e => .error e

def fail {α : Type} (e : Err) : Reader α := fun _ => .error e

instance : Monad Reader where
  pure := Reader.pure
  bind := Reader.bind

/-- Run the reader `n` times: `(0..n).map(|_| read_from(reader)).collect()`. -/
def replicate {α : Type} (n : Nat) (r : Reader α) : Reader (List α) :=
  match n with
  | 0 => pure []
  | n + 1 => bind r fun a => bind (replicate n r) fun as => pure (a :: as)

end Reader

/-- `Read::read_exact` on the input: a short input is an error. -/
def readExact (n : Nat) : Reader Bytes := fun bs =>
  if n ≤ bs.length then .ok (bs.take n, bs.drop n) else .error .io

/-- `to_be_bytes` of an `n`-byte number with bit pattern `v`. -/
def toBe : Nat → Nat → Bytes
  | 0, _ => []
  | n + 1, v => UInt8.ofNat (v / 256 ^ n) :: toBe n v

/-- `from_be_bytes`. -/
def fromBe (bs : Bytes) : Nat := bs.foldl (fun acc b => acc * 256 + b.toNat) 0

/-- A fixed-width codec generated by `impl_readwrite_nums!`, src/rw.rs:429-446: `size` is the
literal of the macro call, `bits`/`ofBits` the bit pattern of the type. -/
structure NumCodec (α : Type) where
  size : Nat
  bits : α → Nat
  ofBits : Nat → α

namespace NumCodec
variable {α : Type} (c : NumCodec α)

/-- src/rw.rs:433-437. -/
def read : Reader α := fun bs =>
  match readExact c.size bs with
  | .ok (b, rest) => .ok (c.ofBits (fromBe b), rest)
  | .error e => .error e

/-- src/rw.rs:438-441. -/
def write (x : α) : Bytes := toBe c.size (c.bits x)

end NumCodec

/-! src/rw.rs:447 `impl_readwrite_nums! { (u8, 1), (i8, 1), … }`. Floats are their bit patterns
(src/rw.rs:450-464 forwards `TotalF32`/`TotalF64` to `f32`/`f64`). -/

def u8 : NumCodec UInt8 := ⟨1, UInt8.toNat, UInt8.ofNat⟩
def i8 : NumCodec Int8 := ⟨1, fun x => x.toUInt8.toNat, fun n => (UInt8.ofNat n).toInt8⟩
def u16 : NumCodec UInt16 := ⟨2, UInt16.toNat, UInt16.ofNat⟩
def i16 : NumCodec Int16 := ⟨2, fun x => x.toUInt16.toNat, fun n => (UInt16.ofNat n).toInt16⟩
def u32 : NumCodec UInt32 := ⟨4, UInt32.toNat, UInt32.ofNat⟩
def i32 : NumCodec Int32 := ⟨4, fun x => x.toUInt32.toNat, fun n => (UInt32.ofNat n).toInt32⟩
def u64 : NumCodec UInt64 := ⟨8, UInt64.toNat, UInt64.ofNat⟩
def i64 : NumCodec Int64 := ⟨8, fun x => x.toUInt64.toNat, fun n => (UInt64.ofNat n).toInt64⟩

def u128 : NumCodec (BitVec 128) := ⟨16, BitVec.toNat, BitVec.ofNat 128⟩
/-- An `i128` is given by its two's complement. -/
def i128 : NumCodec (BitVec 128) := ⟨16, BitVec.toNat, BitVec.ofNat 128⟩

/-- Bit pattern of an `f32` (`TotalF32`). -/
structure F32 where
  bits : UInt32
  deriving DecidableEq, Repr

/-- Bit pattern of an `f64` (`TotalF64`). -/
structure F64 where
  bits : UInt64
  deriving DecidableEq, Repr

def f32 : NumCodec F32 := ⟨4, fun x => x.bits.toNat, fun n => ⟨UInt32.ofNat n⟩⟩
def f64 : NumCodec F64 := ⟨8, fun x => x.bits.toNat, fun n => ⟨UInt64.ofNat n⟩⟩

/-! ## src/helper.rs: counted vectors -/

/-- src/helper.rs:126-135 (and 158-166): `VecLen::read_from` with length type `l`. `usize` is 64
bits, so the conversion of the count never fails. -/
def readVec {ℓ α : Type} (l : NumCodec ℓ) (r : Reader α) : Reader (List α) :=
  Reader.bind l.read fun len => Reader.replicate (l.bits len) r

/-- Concatenate the outputs of an element writer; the first error stops. -/
def writeAll {α : Type} (w : α → Res Bytes) : List α → Res Bytes
  | [] => .ok []
  | x :: xs => do
    let b ← w x
    let bs ← writeAll w xs
    return b ++ bs

/-- src/helper.rs:136-149: `VecLen::write_to`: `L::try_from(len)` fails when the count does not fit. -/
def writeVec {ℓ α : Type} (l : NumCodec ℓ) (w : α → Res Bytes) (xs : List α) : Res Bytes :=
  if xs.length < 256 ^ l.size then do
    let bs ← writeAll w xs
    return l.write (l.ofBits xs.length) ++ bs
  else .error .invalid

/-! ## Strings, src/rw.rs:466-480 -/

/-- src/rw.rs:467-472. -/
def readString : Reader Bytes := fun bs =>
  match u16.read bs with
  | .ok (len, rest) =>
    match readExact len.toNat rest with
    | .ok (buf, rest) =>
      match Mutf8.decode buf with
      | .ok s => .ok (s, rest)
      | .error e => .error e
    | .error e => .error e
  | .error e => .error e

/-- src/rw.rs:474-479: the length is cut to 16 bits by `as u16`. -/
def writeString (s : Bytes) : Res Bytes := do
  let string ← Mutf8.encode s
  return u16.write (UInt16.ofNat string.length) ++ string

end Verif
