import Verif.Model.Sink

/-! # Writing a class to a sink that takes bytes piece by piece

`Model/Sink` has a sink that answers to `write_all`. Here a sink is an implementation of `Write`: it is asked with
`write`, may take a part of what it is offered, may be interrupted, and has a state. -/

namespace Verif

/-- A writer: it is finished, or it has failed, or it hands over some bytes (`Write::write_all`) and goes on. -/
inductive Push where
  | done
  | fail (e : Err)
  | put (req : Bytes) (k : Push)

namespace Push

/-- `?` -/
def next : Push → Push → Push
  | .done, b => b
  | .fail e, _ => .fail e
  | .put r k, b => .put r (k.next b)

def puts : List Bytes → Push
  | [] => .done
  | r :: rs => .put r (puts rs)

/-- src/cp.rs:57-81, derived; strings as in src/rw.rs:474-479. -/
def entry : Entry → Push
  | .utf8 b => .put (u8.write 1) (match Mutf8.encode b with
    | .error e => .fail e
    | .ok t => puts [u16.write (UInt16.ofNat t.length), t])
  | .int i => puts [u8.write 3, i32.write i]
  | .float f => puts [u8.write 4, f32.write f]
  | .long l => puts [u8.write 5, i64.write l]
  | .double d => puts [u8.write 6, f64.write d]
  | .cls i => puts [u8.write 7, u16.write i]
  | .str i => puts [u8.write 8, u16.write i]
  | .field o nt => puts [u8.write 9, u16.write o, u16.write nt]
  | .method o nt => puts [u8.write 10, u16.write o, u16.write nt]
  | .imethod o nt => puts [u8.write 11, u16.write o, u16.write nt]
  | .nat n t => puts [u8.write 12, u16.write n, u16.write t]
  | .handle k m => puts [u8.write 15, u8.write k, u16.write m]
  | .mtype t => puts [u8.write 16, u16.write t]
  | .dyn b nt => puts [u8.write 17, u16.write b, u16.write nt]
  | .indy b nt => puts [u8.write 18, u16.write b, u16.write nt]
  | .module n => puts [u8.write 19, u16.write n]
  | .package n => puts [u8.write 20, u16.write n]

def entries : List Entry → Push
  | [] => .done
  | e :: es => (entry e).next (entries es)

/-- src/cp.rs:208-214. -/
def pool (cp : VecCp) : Push := .put (u16.write cp.len) (entries cp.entries)

/-- clazz.rs:71-133, as `Version.send`. -/
def file (v : Version) (body : Res (Bytes × VecCp)) : Push :=
  (puts [u32.write jvmMagic, u16.write v.minor, u16.write v.major.tag]).next (match body with
    | .error e => .fail e
    | .ok (buf, cp) => (pool cp).next (.put buf .done))

end Push

/-- clazz.rs:71-133 `Class::write_to` for a class in which every dynamic constant has a bootstrap method of its own. -/
def Class.push (x : Class) : Push :=
  .file x.version (wSeq [x.writeBody, wBootstrap] { VecCp.new with bsm := ownBsms x.attrs })

/-- The same for a class that was read, as `ClassOf.resend`. -/
def Class.repush (fuel : Nat) (x : Class) : Push :=
  let T := (bootstrapTable x.attrs).getD []
  .file x.version (wSeq [(x.look T).writeBody, wBootstrapIn T fuel] { VecCp.new with bsm := ownBsms x.attrs })

/-! ## Sinks -/

/-- What `Write::write` answers: how many bytes it has taken, `ErrorKind::Interrupted`, or another error. -/
inductive Took (ε : Type) where
  | bytes (n : Nat)
  | interrupted
  | error (e : ε)

/-- An implementation of `Write` with the state `σ`. It never says that it has taken more than it was offered. -/
structure Outlet (σ ε : Type) where
  write : σ → Bytes → Took ε × σ
  bounded : ∀ s req n s', write s req = (.bytes n, s') → n ≤ req.length

/-- The provided `Write::write_all` of the standard library: the bytes that were taken, whether it failed (`none`: the
sink took nothing, `ErrorKind::WriteZero`; `some e`: an error of the sink), the state afterwards, the number of calls of
`write`, and how many of them were interrupted. A sink that is interrupted for ever is never finished. -/
inductive Outlet.All {σ ε : Type} (o : Outlet σ ε) : σ → Bytes → Bytes → Except (Option ε) Unit → σ → Nat → Nat → Prop
  | full (s : σ) : All o s [] [] (.ok ()) s 0 0
  | zero {s s' : σ} {req : Bytes} (hr : req ≠ []) (h : o.write s req = (.bytes 0, s')) : All o s req [] (.error none) s' 1 0
  | failed {s s' : σ} {req : Bytes} {e : ε} (hr : req ≠ []) (h : o.write s req = (.error e, s')) :
    All o s req [] (.error (some e)) s' 1 0
  | again {s s' s'' : σ} {req d : Bytes} {r : Except (Option ε) Unit} {c i : Nat} (hr : req ≠ [])
    (h : o.write s req = (.interrupted, s')) (h' : All o s' req d r s'' c i) : All o s req d r s'' (c + 1) (i + 1)
  | some {s s' s'' : σ} {req d : Bytes} {n : Nat} {r : Except (Option ε) Unit} {c i : Nat} (hr : req ≠ [])
    (h : o.write s req = (.bytes (n + 1), s')) (h' : All o s' (req.drop (n + 1)) d r s'' c i) :
    All o s req (req.take (n + 1) ++ d) r s'' (c + 1) i

/-- Why writing stops: the writer fails, the sink takes nothing, the sink fails. -/
inductive Stop (ε : Type) where
  | refused (e : Err)
  | zero
  | failed (e : ε)

/-- A writer run with a sink: the bytes that were taken, the result, the state afterwards, the number of calls of
`write_all`, of `write`, and of interruptions. -/
inductive Outlet.Run {σ ε : Type} (o : Outlet σ ε) : Push → σ → Bytes → Except (Stop ε) Unit → σ → Nat → Nat → Nat → Prop
  | done (s : σ) : Run o .done s [] (.ok ()) s 0 0 0
  | fail (e : Err) (s : σ) : Run o (.fail e) s [] (.error (.refused e)) s 0 0 0
  | next {req d d' : Bytes} {k : Push} {s s' s'' : σ} {r : Except (Stop ε) Unit} {q c c' i i' : Nat}
    (h : o.All s req d (.ok ()) s' c i) (h' : Run o k s' d' r s'' q c' i') :
    Run o (.put req k) s (d ++ d') r s'' (q + 1) (c + c') (i + i')
  | zero {req d : Bytes} {k : Push} {s s' : σ} {c i : Nat} (h : o.All s req d (.error none) s' c i) :
    Run o (.put req k) s d (.error .zero) s' 1 c i
  | failed {req d : Bytes} {k : Push} {s s' : σ} {e : ε} {c i : Nat} (h : o.All s req d (.error (some e)) s' c i) :
    Run o (.put req k) s d (.error (.failed e)) s' 1 c i

end Verif
