import Verif.Model.Push
import Verif.Model.Source

/-! # Copying a stream of classes -/

namespace Verif

/-- A program that reads classes from a source, one after the other, and writes each of them to a sink as soon as it has
read it, until `read_from` or `write_to` fails: the states of both, the classes that were read, each with the bytes that
the source has delivered for it, the first of them for which `write_to` has succeeded, the error, and the states
afterwards. -/
inductive Transfer {σ τ ε ε' : Type} (src : Source τ ε') (f : List LocalVariable → List LocalVariable) (o : Outlet σ ε) :
    τ → σ → List (Bytes × Class) → List (Bytes × Class) → Halt ε' ⊕ Stop ε → τ → σ → Prop
  | next {t t' t'' : τ} {s s' s'' : σ} {b d : Bytes} {x : Class} {xs ys : List (Bytes × Class)} {r : Halt ε' ⊕ Stop ε}
    {q c i : Nat} (h : src.Run (Class.pull f) t b (.ok x) t') (h' : o.Run (x.repush 65538) s d (.ok ()) s' q c i)
    (k : Transfer src f o t' s' xs ys r t'' s'') : Transfer src f o t s ((b, x) :: xs) ((b, x) :: ys) r t'' s''
  | unread {t t' : τ} {s : σ} {b : Bytes} {e : Halt ε'} (h : src.Run (Class.pull f) t b (.error e) t') :
    Transfer src f o t s [] [] (.inl e) t' s
  | unwritten {t t' : τ} {s s' : σ} {b d : Bytes} {x : Class} {e : Stop ε} {q c i : Nat}
    (h : src.Run (Class.pull f) t b (.ok x) t') (h' : o.Run (x.repush 65538) s d (.error e) s' q c i) :
    Transfer src f o t s [(b, x)] [] (.inr e) t' s'

end Verif
