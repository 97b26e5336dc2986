import Verif.Model.Shared

/-! # Writing a class to a sink that may fail

The other models give the bytes that are written; here they are handed to the `Write` piece by piece, as the code
does, so that one can say what has arrived when something fails. -/

namespace Verif

/-- What a `Write` does with a request to `write_all`, depending on what it got before: it takes everything, or it
takes the given number of bytes and fails. -/
abbrev Sink := Bytes → Bytes → Option Nat

/-- Something that sends: from what the sink has got to what it has got afterwards, and the result. -/
abbrev Send := Bytes → Bytes × Res Unit

namespace Send

/-- `?` -/
def next (a b : Send) : Send := fun got =>
  match a got with
  | (got, .ok ()) => b got
  | (got, .error e) => (got, .error e)

def fail (e : Err) : Send := fun got => (got, .error e)

end Send

namespace Sink

/-- `write_all`. -/
def put (s : Sink) (req : Bytes) : Send := fun got =>
  match s got req with
  | none => (got ++ req, .ok ())
  | some k => (got ++ req.take k, .error .io)

def puts (s : Sink) : List Bytes → Send
  | [] => fun got => (got, .ok ())
  | r :: rs => (s.put r).next (s.puts rs)

end Sink

/-- `RawConstantEntry::write_to`, derived for src/cp.rs:57-81: the tag and the fields one after the other; a string is
encoded after the tag has been written (src/rw.rs:474-479). -/
def Entry.send (s : Sink) : Entry → Send
  | .utf8 b => (s.put (u8.write 1)).next (match Mutf8.encode b with
    | .error e => .fail e
    | .ok t => s.puts [u16.write (UInt16.ofNat t.length), t])
  | .int i => s.puts [u8.write 3, i32.write i]
  | .float f => s.puts [u8.write 4, f32.write f]
  | .long l => s.puts [u8.write 5, i64.write l]
  | .double d => s.puts [u8.write 6, f64.write d]
  | .cls i => s.puts [u8.write 7, u16.write i]
  | .str i => s.puts [u8.write 8, u16.write i]
  | .field o nt => s.puts [u8.write 9, u16.write o, u16.write nt]
  | .method o nt => s.puts [u8.write 10, u16.write o, u16.write nt]
  | .imethod o nt => s.puts [u8.write 11, u16.write o, u16.write nt]
  | .nat n t => s.puts [u8.write 12, u16.write n, u16.write t]
  | .handle k m => s.puts [u8.write 15, u8.write k, u16.write m]
  | .mtype t => s.puts [u8.write 16, u16.write t]
  | .dyn b nt => s.puts [u8.write 17, u16.write b, u16.write nt]
  | .indy b nt => s.puts [u8.write 18, u16.write b, u16.write nt]
  | .module n => s.puts [u8.write 19, u16.write n]
  | .package n => s.puts [u8.write 20, u16.write n]

def Entry.sendAll (s : Sink) : List Entry → Send
  | [] => fun got => (got, .ok ())
  | e :: es => (e.send s).next (Entry.sendAll s es)

/-- src/cp.rs:208-214. -/
def VecCp.send (s : Sink) (cp : VecCp) : Send := (s.put (u16.write cp.len)).next (Entry.sendAll s cp.entries)

/-- clazz.rs:71-133: the magic number and the version; then the rest of the class is made, in memory, with the
result `body` and the constant pool; then the pool and what was made. -/
def Version.send (s : Sink) (v : Version) (body : Res (Bytes × VecCp)) : Send :=
  (s.puts [u32.write jvmMagic, u16.write v.minor, u16.write v.major.tag]).next (match body with
    | .error e => .fail e
    | .ok (buf, cp) => (cp.send s).next (s.put buf))

/-- `Class::write_to` for a class in which every dynamic constant has a bootstrap method of its own. -/
def Class.send (s : Sink) (x : Class) : Send :=
  x.version.send s (wSeq [x.writeBody, wBootstrap] { VecCp.new with bsm := ownBsms x.attrs })

/-- The same for a class that was read. -/
def ClassOf.resend (s : Sink) (fuel : Nat) (x : Class) : Send :=
  let T := (bootstrapTable x.attrs).getD []
  x.version.send s (wSeq [(x.look T).writeBody, wBootstrapIn T fuel] { VecCp.new with bsm := ownBsms x.attrs })

end Verif
