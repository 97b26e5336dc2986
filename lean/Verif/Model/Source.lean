import Verif.Model.Class

/-! # Reading a class from a source that delivers bytes piece by piece

The other models read from a list of bytes; here the reader asks a `Read` for bytes with `read_exact`, as the code does,
so that one can say what happens when the source delivers them in pieces, is interrupted, ends, or fails. What is inside
an attribute is read from a buffer in memory (derive.rs:229-243), and is modelled as before. -/

namespace Verif

/-- A reader: it is finished, or it has failed, or it asks for a number of bytes and goes on with them
(`Read::read_exact`). -/
inductive Pull (α : Type) where
  | done (a : α)
  | fail (e : Err)
  | need (n : Nat) (k : Bytes → Pull α)

namespace Pull

def bind {α β : Type} : Pull α → (α → Pull β) → Pull β
  | .done a, f => f a
  | .fail e, _ => .fail e
  | .need n k, f => .need n fun b => bind (k b) f

def map {α β : Type} (f : α → β) (p : Pull α) : Pull β := p.bind fun a => .done (f a)

def ofRes {α : Type} : Res α → Pull α
  | .ok a => .done a
  | .error e => .fail e

/-- src/rw.rs:433-437. -/
def num {α : Type} (c : NumCodec α) : Pull α := .need c.size fun b => .done (c.ofBits (fromBe b))

/-- src/rw.rs:467-472. -/
def string : Pull Bytes := (num u16).bind fun len => .need len.toNat fun buf => ofRes (Mutf8.decode buf)

def two {α β γ : Type} (f : α → β → γ) (a : Pull α) (b : Pull β) : Pull γ := a.bind fun a => b.bind fun b => .done (f a b)

/-- src/cp.rs:57-80, derived. -/
def payload (tag : UInt8) : Pull Entry :=
  match tag with
  | 1 => string.map .utf8
  | 3 => (num i32).map .int
  | 4 => (num f32).map .float
  | 5 => (num i64).map .long
  | 6 => (num f64).map .double
  | 7 => (num u16).map .cls
  | 8 => (num u16).map .str
  | 9 => two .field (num u16) (num u16)
  | 10 => two .method (num u16) (num u16)
  | 11 => two .imethod (num u16) (num u16)
  | 12 => two .nat (num u16) (num u16)
  | 15 => two .handle (num u8) (num u16)
  | 16 => (num u16).map .mtype
  | 17 => two .dyn (num u16) (num u16)
  | 18 => two .indy (num u16) (num u16)
  | 19 => (num u16).map .module
  | 20 => (num u16).map .package
  | _ => .fail .invalid

def entry : Pull Entry := (num u8).bind payload

/-- src/cp.rs:159-166. The number of rounds is bounded by `fuel`, which is the number of indices that are left; that it
suffices is part of `Pull.on_pool`. -/
def poolLoop (count : UInt16) : Nat → UInt16 → List (UInt16 × Entry) → Pull MapCp
  | 0, i, acc => if i < count then .fail .diverge else .done ⟨acc⟩
  | fuel + 1, i, acc =>
    if i < count then entry.bind fun e =>
      if i.toNat + e.size.toNat < 65536 then poolLoop count fuel (i + e.size) ((i, e) :: acc) else .fail .panic
    else .done ⟨acc⟩

/-- src/cp.rs:157-168. -/
def pool : Pull MapCp := (num u16).bind fun count => poolLoop count 65536 1 []

/-- src/version.rs:7-23, derived. -/
def version : Pull Version := two Version.mk (num u16) ((num u16).bind fun t =>
  match Major.ofTag t with
  | some m => .done m
  | none => .fail .invalid)

end Pull

/-- The same for readers with a constant pool. -/
def PullRd (α : Type) := REnv → RSt → Pull (α × RSt)

namespace PullRd

def pure {α : Type} (a : α) : PullRd α := fun _ st => .done (a, st)
def bind {α β : Type} (x : PullRd α) (f : α → PullRd β) : PullRd β := fun env st => (x env st).bind fun p => f p.1 env p.2
def ap {α β : Type} (f : PullRd (α → β)) (x : PullRd α) : PullRd β := bind f fun f => bind x fun a => pure (f a)
def map {α β : Type} (f : α → β) (x : PullRd α) : PullRd β := bind x fun a => pure (f a)
def lift {α : Type} (p : Pull α) : PullRd α := fun _ st => p.map fun a => (a, st)
def num {α : Type} (c : NumCodec α) : PullRd α := lift (.num c)
def flags (t : FlagType) : PullRd (Flags t) := lift ((Pull.num u16).map (Flags.ofBitsTruncate t))

def replicate {α : Type} (n : Nat) (r : PullRd α) : PullRd (List α) :=
  match n with
  | 0 => pure []
  | n + 1 => bind r fun a => bind (replicate n r) fun as => pure (a :: as)

/-- src/helper.rs:156-163. -/
def vec {α : Type} (r : PullRd α) : PullRd (List α) := bind (num u16) fun len => replicate len.toNat r

/-- src/rw.rs:384-392. -/
def lookup {α : Type} (f : Pool → UInt16 → Option α) (i : UInt16) : PullRd α := fun env st =>
  match f env.pool i with
  | some a => .done (a, st)
  | none => .fail .invalid

def idx {α : Type} (f : Pool → UInt16 → Option α) : PullRd α := bind (num u16) (lookup f)
def utf8 : PullRd Bytes := idx Pool.wtf8
def cls : PullRd Bytes := idx fun P i => Pool.indirect P 7 i
def clsOpt : PullRd (Option Bytes) :=
  bind (num u16) fun i => if i = 0 then pure none else map some (lookup (fun P i => Pool.indirect P 7 i) i)
def type : PullRd JType := bind utf8 fun s => lift (.ofRes (JType.parseType s))

/-- derive.rs:214-262: the name and the length, then the payload, which is read into memory, and only then looked at. -/
def attr {α : Type} (table : Bytes → Option (Rd α)) (raw : RawAttribute → α) : PullRd α := bind utf8 fun name => fun env st =>
  (Pull.num u32).bind fun len => .need len.toNat fun body =>
    match table name with
    | none => .done (raw ⟨name, body⟩, st)
    | some r =>
      match r env st body with
      | .error e => .fail e
      | .ok (a, st, []) => .done (a, st)
      | .ok (_, _, left@(_ :: _)) => .fail (.attrLen len (len - UInt32.ofNat left.length) name)

def field : PullRd Field :=
  ap (ap (ap (map Field.mk (flags .field)) utf8) type) (vec (attr FieldAttr.table .raw))

def method (f : List LocalVariable → List LocalVariable) : PullRd Method :=
  ap (ap (ap (map MethodOf.mk (flags .method)) utf8) type) (vec (attr (MethodAttr.table fun _ => f) .raw))

/-- clazz.rs:25-41. -/
def body (f : List LocalVariable → List LocalVariable) (v : Version) : PullRd Class :=
  ap (ap (ap (ap (ap (ap (map (ClassOf.mk v) (flags .cls)) cls) clsOpt) (vec cls)) (vec field)) (vec (method f)))
    (vec (attr ClassAttr.table .raw))

end PullRd

/-- clazz.rs:44-69 `Class::read_from`. `f` is the order in which a hash map lists local variables. -/
def Class.pull (f : List LocalVariable → List LocalVariable) : Pull Class :=
  (Pull.num u32).bind fun magic =>
    if magic = jvmMagic then
      Pull.version.bind fun v => Pull.pool.bind fun cp => (PullRd.body f v ⟨cp.get, none⟩ ⟨[], none⟩).bind fun p =>
        match resolveCells p.2.pending p.1.attrs with
        | .error e => .fail e
        | .ok () => .done p.1
    else .fail .invalid

/-! ## Sources -/

/-- What `Read::read` answers: bytes (no bytes at the end), `ErrorKind::Interrupted`, or another error. -/
inductive Answer (ε : Type) where
  | bytes (b : Bytes)
  | interrupted
  | error (e : ε)

/-- An implementation of `Read` with the state `σ`: what it answers to a buffer of the given size. It never says that it
has filled more than the buffer. -/
structure Source (σ ε : Type) where
  read : σ → Nat → Answer ε × σ
  bounded : ∀ s n b s', read s n = (.bytes b, s') → b.length ≤ n

/-- The provided `Read::read_exact` of the standard library, from a state and a number of bytes to fill: the bytes
delivered, whether it failed (`none`: the source ended; `some e`: an error of the source), and the state afterwards. A
source that is interrupted for ever is never finished. -/
inductive Source.Exact {σ ε : Type} (src : Source σ ε) : σ → Nat → Bytes → Except (Option ε) Unit → σ → Prop
  | full (s : σ) : Exact src s 0 [] (.ok ()) s
  | ended {s s' : σ} {n : Nat} (h : src.read s (n + 1) = (.bytes [], s')) : Exact src s (n + 1) [] (.error none) s'
  | failed {s s' : σ} {n : Nat} {e : ε} (h : src.read s (n + 1) = (.error e, s')) :
    Exact src s (n + 1) [] (.error (some e)) s'
  | again {s s' s'' : σ} {n : Nat} {d : Bytes} {r : Except (Option ε) Unit} (h : src.read s (n + 1) = (.interrupted, s'))
    (h' : Exact src s' (n + 1) d r s'') : Exact src s (n + 1) d r s''
  | some {s s' s'' : σ} {n : Nat} {b d : Bytes} {r : Except (Option ε) Unit} (h : src.read s (n + 1) = (.bytes b, s'))
    (hb : b ≠ []) (h' : Exact src s' (n + 1 - b.length) d r s'') : Exact src s (n + 1) (b ++ d) r s''

/-- Why reading stops without a result: the reader refuses what it got, the source ends, the source fails. -/
inductive Halt (ε : Type) where
  | refused (e : Err)
  | ended
  | failed (e : ε)

/-- A reader run with a source: the bytes delivered, the result, and the state afterwards. -/
inductive Source.Run {σ ε α : Type} (src : Source σ ε) : Pull α → σ → Bytes → Except (Halt ε) α → σ → Prop
  | done (a : α) (s : σ) : Run src (.done a) s [] (.ok a) s
  | fail (e : Err) (s : σ) : Run src (.fail e) s [] (.error (.refused e)) s
  | next {n : Nat} {k : Bytes → Pull α} {s s' s'' : σ} {d d' : Bytes} {r : Except (Halt ε) α}
    (h : src.Exact s n d (.ok ()) s') (h' : Run src (k d) s' d' r s'') : Run src (.need n k) s (d ++ d') r s''
  | ended {n : Nat} {k : Bytes → Pull α} {s s' : σ} {d : Bytes} (h : src.Exact s n d (.error none) s') :
    Run src (.need n k) s d (.error .ended) s'
  | failed {n : Nat} {k : Bytes → Pull α} {s s' : σ} {d : Bytes} {e : ε} (h : src.Exact s n d (.error (some e)) s') :
    Run src (.need n k) s d (.error (.failed e)) s'

end Verif
