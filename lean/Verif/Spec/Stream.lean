import Verif.Model.Class

/-! # Classes that differ only in the order of their local variables -/

namespace Verif.Spec

/-- Element by element. -/
inductive Each {α : Type} (R : α → α → Prop) : List α → List α → Prop
  | nil : Each R [] []
  | cons {a b : α} {as bs : List α} : R a b → Each R as bs → Each R (a :: as) (b :: bs)

/-- The same attribute, or the same variables in another order. -/
def Shuffled (a b : CodeAttribute) : Prop :=
  a = b ∨ ∃ vs ws, a = .locals vs ∧ b = .locals ws ∧ vs.Perm ws

def ShuffledCode (x y : Code) : Prop :=
  ∃ as, y = { x with attrs := as } ∧ Each Shuffled x.attrs as

/-- Everything is the same, except that bodies are related by `R`. -/
def SimilarAttr (R : Code → Code → Prop) (a b : MethodAttr) : Prop :=
  a = b ∨ ∃ x y, a = .code x ∧ b = .code y ∧ R x y

def SimilarMethod (R : Code → Code → Prop) (m n : Method) : Prop :=
  ∃ as, n = { m with attrs := as } ∧ Each (SimilarAttr R) m.attrs as

def SimilarClass (R : Code → Code → Prop) (c d : Class) : Prop :=
  ∃ ms, d = { c with methods := ms } ∧ Each (SimilarMethod R) c.methods ms

/-- Everything is the same except for the order of the variables in the methods. -/
def ShuffledClass (c d : Class) : Prop := SimilarClass ShuffledCode c d

/-- A list of classes is read from a stream one after the other, until nothing is left. -/
inductive ReadInTurn (read : Bytes → Res (Class × Bytes)) : Bytes → List Class → Prop
  | done : ReadInTurn read [] []
  | next {bs rest : Bytes} {c : Class} {cs : List Class} : read bs = .ok (c, rest) →
      ReadInTurn read rest cs → ReadInTurn read bs (c :: cs)

end Verif.Spec
