import Verif.Spec.Cp
import Verif.Model.Traits

/-!
# What an implementation of the pool traits has to do

The documentation of `insert_raw` (src/rw.rs:24-26) says that it returns an index that points to the
inserted entry; here also: that the index still does so after further insertions. `ok` is an invariant
of the implementing type.
-/

namespace Verif.Spec

/-- `holds s i e`: in the state `s`, index `i` points to `e`. -/
structure KeepsEntries {σ : Type} (W : CpWriter σ) (ok : σ → Prop) (holds : σ → UInt16 → Entry → Prop) :
    Prop where
  raw : ∀ {e s i s'}, ok s → W.raw e s = .ok (i, s') →
    ok s' ∧ holds s' i e ∧ ∀ j f, holds s j f → holds s' j f
  bsm : ∀ {b s k s'}, ok s → W.bsm b s = .ok (k, s') → ok s' ∧ ∀ j f, holds s j f → holds s' j f

/-- `table s k b`: in the state `s`, the bootstrap method with the number `k` is `b`. -/
structure KeepsTable {σ : Type} (W : CpWriter σ) (ok : σ → Prop) (table : σ → UInt16 → Bsm → Prop) :
    Prop where
  raw : ∀ {e s i s'}, ok s → W.raw e s = .ok (i, s') → ok s' ∧ ∀ k b, table s k b → table s' k b
  bsm : ∀ {b s k s'}, ok s → W.bsm b s = .ok (k, s') →
    ok s' ∧ table s' k b ∧ ∀ k b, table s k b → table s' k b

/-- `s'` is reached from `s` by insertions. -/
inductive Inserts {σ : Type} (W : CpWriter σ) : σ → σ → Prop
  | refl (s : σ) : Inserts W s s
  | raw {s t u : σ} {e : Entry} {i : UInt16} : Inserts W s t → W.raw e t = .ok (i, u) → Inserts W s u
  | bsm {s t u : σ} {b : Bsm} {i : UInt16} : Inserts W s t → W.bsm b t = .ok (i, u) → Inserts W s u

/-- The pool answers at least what is held. -/
def Serves (P : Pool) (holds : UInt16 → Entry → Prop) : Prop := ∀ i e, holds i e → P i = some e

/-- A reader answers every index as the pool `P` does, whatever was asked before, and `log` is the list
of the indices handed to `resolve_later`. The state may change with every question. -/
structure Answers {σ : Type} (R : CpReader σ) (ok : σ → Prop) (P : Pool) (log : σ → List UInt16) :
    Prop where
  raw : ∀ {s} i, ok s → ∃ s', R.raw i s = .ok (P i, s') ∧ ok s' ∧ log s' = log s
  later : ∀ {s} b, ok s → ∃ s', R.later b s = .ok ((), s') ∧ ok s' ∧ log s' = log s ++ [b]

/-- A method of a reader does as a function of the pool: the same result or the same panic, and no
index is registered. -/
def GivesRes {σ α : Type} (ok : σ → Prop) (log : σ → List UInt16) (m : Act σ α) (r : Res α) : Prop :=
  ∀ s, ok s → match r with
    | .ok a => ∃ s', m s = .ok (a, s') ∧ ok s' ∧ log s' = log s
    | .error e => m s = .error e

/-- As `GivesRes`, for functions that also register indices. -/
def GivesLog {σ α : Type} (ok : σ → Prop) (log : σ → List UInt16) (m : Act σ α)
    (r : List UInt16 → Res (α × List UInt16)) : Prop :=
  ∀ s, ok s → match r (log s) with
    | .ok (a, l) => ∃ s', m s = .ok (a, s') ∧ ok s' ∧ log s' = l
    | .error e => m s = .error e

end Verif.Spec
