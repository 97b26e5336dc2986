import Verif.Model.Source

/-! # What a source delivers -/

namespace Verif

/-- A source that is not interrupted for ever. -/
def Source.Patient {σ ε : Type} (src : Source σ ε) : Prop := WellFounded fun s' s => ∃ n, src.read s n = (.interrupted, s')

/-- The bytes that a source still has before anything else happens: as long as there are any, it delivers some of them in
their order, or is interrupted. What happens afterwards is left open. -/
def Source.Delivers {σ ε : Type} (src : Source σ ε) (content : σ → Bytes) : Prop := ∀ s n, 0 < n → content s ≠ [] →
  (∃ s', src.read s n = (.interrupted, s') ∧ content s' = content s) ∨
  ∃ b s', src.read s n = (.bytes b, s') ∧ b ≠ [] ∧ content s = b ++ content s'

/-- Afterwards the source ends. -/
def Source.EndsWith {σ ε : Type} (src : Source σ ε) (content : σ → Bytes) : Prop := ∀ s n, 0 < n → content s = [] →
  (∃ s', src.read s n = (.interrupted, s') ∧ content s' = []) ∨ ∃ s', src.read s n = (.bytes [], s') ∧ content s' = []

/-- The error as the other models have it. -/
def Halt.err {ε : Type} : Halt ε → Err
  | .refused e => e
  | .ended => .io
  | .failed _ => .io

end Verif
