import Verif.Model.Push
import Verif.Model.Source

/-! # Several classes in one stream -/

namespace Verif

/-- A program that writes classes one after the other to a sink, and stops when `write_to` fails: the classes, the state
of the sink, those for which `write_to` has succeeded, the last result, and the state afterwards. -/
inductive Outlet.Series {σ ε : Type} (o : Outlet σ ε) : List Class → σ → List Class → Except (Stop ε) Unit → σ → Prop
  | done (s : σ) : Series o [] s [] (.ok ()) s
  | next {x : Class} {xs ys : List Class} {s s' s'' : σ} {d : Bytes} {r : Except (Stop ε) Unit} {q c i : Nat}
    (h : o.Run x.push s d (.ok ()) s' q c i) (h' : Series o xs s' ys r s'') : Series o (x :: xs) s (x :: ys) r s''
  | stop {x : Class} {xs : List Class} {s s' : σ} {d : Bytes} {e : Stop ε} {q c i : Nat}
    (h : o.Run x.push s d (.error e) s' q c i) : Series o (x :: xs) s [] (.error e) s'

/-- A program that reads classes one after the other from a source until `read_from` fails: the state of the source, the
classes, the last result, and the state afterwards. -/
inductive Source.Series {σ ε : Type} (src : Source σ ε) (f : List LocalVariable → List LocalVariable) :
    σ → List Class → Halt ε → σ → Prop
  | next {s s' s'' : σ} {d : Bytes} {z : Class} {zs : List Class} {e : Halt ε}
    (h : src.Run (Class.pull f) s d (.ok z) s') (h' : Series src f s' zs e s'') : Series src f s (z :: zs) e s''
  | stop {s s' : σ} {d : Bytes} {e : Halt ε} (h : src.Run (Class.pull f) s d (.error e) s') : Series src f s [] e s'

/-- What a class becomes if it is written to a file of its own, which is read again. -/
def ByItself (f : List LocalVariable → List LocalVariable) (x z : Class) : Prop :=
  ∃ out, x.write = .ok out ∧ Class.read (fun _ _ => f) out = .ok (z, [])

/-- A class whose file, if there is one, can be read. -/
def ReadsBack (f : List LocalVariable → List LocalVariable) (x : Class) : Prop :=
  x.write ≠ .error .ub ∧ ∀ out, x.write = .ok out → ∃ z, Class.read (fun _ _ => f) out = .ok (z, [])

end Verif
